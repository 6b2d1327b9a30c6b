import Verif.Proofs.ConnGen
/-!
Theorems about the client connection (C51, C52, C53, C54, C71, C72).
-/
namespace Verif.Conn

theorem any_some {o : Option St} {p : St → Prop} [DecidablePred p] (h : (o.any fun s => p s) = true) :
    ∃ s, o = some s ∧ p s := by
  cases o with
  | none => cases h
  | some s => exact ⟨s, rfl, of_decide_eq_true h⟩

/-- Request `r` is sent. -/
def send (r : Nat) : List Choice := [.take r, .header, .wrote true]

/-- `Polite`, where only the first `n` requests matter. -/
def politeB (n : Nat) : St → List Choice → Bool
  | _, [] => true
  | s, c :: cs => (match c with
      | .resp id _ => (List.range n).any (fun r => s.idOf r = some id) && !s.removed.contains id
      | _ => true) && (match step s c with
      | some s' => politeB n s' cs
      | none => true)

theorem polite_of {n : Nat} {s : St} {cs : List Choice} (h : politeB n s cs = true) : Polite s cs := by
  induction cs generalizing s with
  | nil => trivial
  | cons c cs ih =>
    simp only [politeB, Bool.and_eq_true] at h
    refine ⟨?_, ?_⟩
    · rintro id x rfl
      have h1 := h.1
      simp only [Bool.and_eq_true, List.any_eq_true, decide_eq_true_eq, Bool.not_eq_true', List.contains_eq_mem,
        decide_eq_false_iff_not] at h1
      obtain ⟨⟨r, _, hr⟩, hn⟩ := h1
      exact ⟨⟨r, hr⟩, hn⟩
    · intro s' e
      have h2 := h.2
      rw [e] at h2
      exact ih h2

theorem polite_quiet {s : St} {cs : List Choice} (h : ∀ c ∈ cs, ∀ id x, c ≠ .resp id x) : Polite s cs := by
  induction cs generalizing s with
  | nil => trivial
  | cons c cs ih =>
    exact ⟨fun id x e => absurd e (h c (List.mem_cons_self ..) id x), fun s' _ => ih fun d hd => h d (List.mem_cons_of_mem _ hd)⟩

theorem run_append {s : St} {cs ds : List Choice} : run s (cs ++ ds) = (run s cs).bind fun s => run s ds := by
  induction cs generalizing s with
  | nil => rfl
  | cons c cs ih =>
    simp only [List.cons_append, run]
    cases step s c with
    | none => rfl
    | some s1 => simp [ih]

theorem reach {cs : List Choice} {s : St} (h : run init cs = some s) (hp : Polite init cs) (hy : Young s) : Inv s :=
  inv_run inv_init hp h hy

/-! ### The wrap-around -/

/-- The first `n` requests are sent. -/
def sends : Nat → List Choice
  | 0 => []
  | n + 1 => sends n ++ send n

structure Sent (n : Nat) (s : St) : Prop where
  inv : Inv s
  wp : s.wp = .loop
  wreq : s.wreq = none
  got : s.h.got = n
  nothing : s.removed = []
  out : ∀ r, r < n → s.idOf r = some (r + 1) ∧ s.rs r = .inFly ∧ (r + 1, r, true) ∈ s.wire
  rest : ∀ r, n ≤ r → s.rs r = .pending

theorem three {s s1 s2 s3 : St} {a b c : Choice} (h1 : step s a = some s1) (h2 : step s1 b = some s2) (h3 : step s2 c = some s3) :
    run s [a, b, c] = some s3 := by
  simp [run, h1, h2, h3]

theorem sent (n : Nat) (hn : n ≤ M - 2) : ∃ s, run init (sends n) = some s ∧ Sent n s := by
  induction n with
  | zero => exact ⟨init, rfl, inv_init, rfl, rfl, rfl, rfl, fun r h => by omega, fun r _ => rfl⟩
  | succ n ih =>
    obtain ⟨s, hr, h⟩ := ih (by omega)
    have hnext := next_eq h.inv.hh (by rw [h.got]; exact hn)
    have hcur : s.h.curId = n := by rw [h.inv.hh.cur, h.got]
    rw [hcur] at hnext
    generalize hk : ({ s.h with
      got := s.h.got + 1, curId := n + 1, big := (n + 1) / 256, cur := (n + 1) / 256,
      made := (n + 1) / 256 + 1, rows := turned s.h,
      heap := set s.h.heap ((n + 1) / 256) { s.h.heap ((n + 1) / 256) with
        fake := set (s.h.heap ((n + 1) / 256)).fake ((n + 1) % 256) (n + 1) } } : Holder) = k at hnext
    have kgot : k.got = n + 1 := by rw [← hk]; simp [h.got]
    have kcur : k.curId = n + 1 := by rw [← hk]
    have kfake : (k.heap ((n + 1) / 256)).fake ((n + 1) % 256) = n + 1 := by rw [← hk]; simp [set]
    have hp := h.rest n (Nat.le_refl _)
    have e1 : step s (.take n) = some (claim { s with h := k } n ((n + 1) / 256) ((n + 1) % 256)) := by
      simp only [step, h.wp, if_true, h.wreq, hnext]
      rw [offer, if_pos hp]
    have i1 := inv_step h.inv (fun _ _ e => by cases e) (by unfold Young claim; simp only; omega) e1
    have e2 : step (claim { s with h := k } n ((n + 1) / 256) ((n + 1) % 256)) .header =
        some { claim { s with h := k } n ((n + 1) / 256) ((n + 1) % 256) with
          idOf := set s.idOf n (some (n + 1)), wp := .write (n + 1) n true } := by
      simp only [step, claim]
      simp [set, kfake]
    have i2 := inv_step i1 (fun _ _ e => by cases e) (by unfold Young claim; simp only; omega) e2
    have e3 : step { claim { s with h := k } n ((n + 1) / 256) ((n + 1) % 256) with
          idOf := set s.idOf n (some (n + 1)), wp := .write (n + 1) n true } (.wrote true) =
        some { claim { s with h := k } n ((n + 1) / 256) ((n + 1) % 256) with
          idOf := set s.idOf n (some (n + 1)), wp := .loop, wire := s.wire ++ [(n + 1, n, true)] } := by
      simp only [step, claim]
      simp
    have i3 := inv_step i2 (fun _ _ e => by cases e) (by unfold Young claim; simp only; omega) e3
    refine ⟨_, by rw [sends, run_append, hr]; exact three e1 e2 e3, i3, rfl, rfl, kgot, h.nothing, ?_, ?_⟩
    · intro r hrn
      simp only [claim, set]
      by_cases hrr : r = n
      · subst hrr
        simp
      · have := h.out r (by omega)
        simp [hrr, this]
    · intro r hrn
      simp only [claim, set]
      rw [if_neg (by omega)]
      exact h.rest r (by omega)

theorem quiet (n : Nat) : ∀ c ∈ sends n ++ send n, ∀ id x, c ≠ .resp id x := by
  have hs : ∀ r, ∀ c ∈ send r, ∀ id x, c ≠ .resp id x := by
    intro r c hc id x
    simp only [send, List.mem_cons, List.not_mem_nil, or_false] at hc
    rcases hc with rfl | rfl | rfl <;> simp
  have hss : ∀ n, ∀ c ∈ sends n, ∀ id x, c ≠ .resp id x := by
    intro n
    induction n with
    | zero => intro c hc; cases hc
    | succ n ih =>
      intro c hc
      rcases List.mem_append.1 hc with hc | hc
      · exact ih c hc
      · exact hs n c hc
  intro c hc
  rcases List.mem_append.1 hc with hc | hc
  · exact hss _ c hc
  · exact hs _ c hc

/-- The next id after 2^32 - 2 is 1. -/
theorem wrap_next {h : Holder} {removed : List Nat} (hi : HInv h removed) (hc : h.curId = M - 2) :
    ∃ k, h.getNext = some (k, h.made, 1) ∧ (k.heap h.made).fake 1 = 1 := by
  have hb := hi.big
  rw [hc] at hb
  have hb' : h.big = 16777215 := by rw [hb]; decide
  unfold Holder.getNext Holder.rounds Holder.round Holder.turn
  simp only [hc, hb', show (M - 2 + 1) % M = pingId by decide, show ¬ 16777215 ≠ pingId / 256 by decide, if_false]
  simp only [ne_eq, not_true_eq_false, and_false, if_false]
  unfold Holder.rounds Holder.round Holder.turn
  simp only [show (pingId + 1) % M = 0 by decide, show ¬ 16777215 = 0 / 256 by decide, ne_eq, not_true_eq_false, not_false_eq_true,
    false_and, if_false, if_true]
  unfold Holder.rounds Holder.round Holder.turn
  simp only [show (0 + 1) % M = 1 by decide, show 0 / 256 = 0 by decide, ne_eq, not_true_eq_false,
    if_false]
  simp [set, Row.new, pingId]

end Verif.Conn

namespace Verif.Props

open Verif.Conn

theorem wrap_aux (n : Nat) (hn : n = M - 2) : ∃ cs s, run Conn.init cs = some s ∧ Polite Conn.init cs ∧ Outstanding s 0 ∧
    Outstanding s n ∧ (1, 0, true) ∈ s.wire ∧ (1, n, true) ∈ s.wire := by
  obtain ⟨s, hr, h⟩ := sent n (Nat.le_of_eq hn)
  have hcur : s.h.curId = M - 2 := by rw [h.inv.hh.cur, h.got, hn]
  obtain ⟨k, hk, kfake⟩ := wrap_next h.inv.hh hcur
  have hp := h.rest n (Nat.le_refl _)
  have h0 := h.out 0 (by unfold M at hn; omega)
  have e1 : step s (.take n) = some (claim { s with h := k } n s.h.made 1) := by
    simp only [step, h.wp, if_true, h.wreq, hk]
    rw [offer, if_pos hp]
  have e2 : step (claim { s with h := k } n s.h.made 1) .header =
      some { claim { s with h := k } n s.h.made 1 with
        idOf := Conn.set s.idOf n (some 1), wp := .write 1 n true } := by
    simp only [step, claim]
    simp [Conn.set, kfake]
  have e3 : step { claim { s with h := k } n s.h.made 1 with
        idOf := Conn.set s.idOf n (some 1), wp := .write 1 n true } (.wrote true) =
      some { claim { s with h := k } n s.h.made 1 with
        idOf := Conn.set s.idOf n (some 1), wp := .loop, wire := s.wire ++ [(1, n, true)] } := by
    simp only [step, claim]
    simp
  refine ⟨sends n ++ send n, _, by rw [run_append, hr]; exact three e1 e2 e3, ?_, ?_, ?_, ?_, ?_⟩
  · exact polite_quiet (quiet n)
  · simp only [Outstanding, claim, Conn.set]
    rw [if_neg (by unfold M at hn; omega)]
    exact h0.2.1
  · simp [Outstanding, claim, Conn.set]
  · exact List.mem_append_left _ h0.2.2
  · exact List.mem_append_right _ (List.mem_singleton.2 rfl)

/-- C51 does not hold: ids wrap around without regard to those in use (a fresh row is always free, request_holder.go:51-58).
If the first of 2^32 - 2 requests is still unanswered, the next request is sent with its id. -/
theorem C51_wrap_violated : ∃ cs s, run Conn.init cs = some s ∧ Polite Conn.init cs ∧ Outstanding s 0 ∧ Outstanding s (M - 2) ∧
    (1, 0, true) ∈ s.wire ∧ (1, M - 2, true) ∈ s.wire := wrap_aux (M - 2) rfl

/-- C51 does not hold against a peer which answers an id before it was sent: the id is cleared (request_holder.go:90) between
`getNext` and the making of the header, and the request is sent with id 0. -/
theorem C51_zero_violated : ∃ s, run Conn.init [.take 0, .resp 1 7, .header, .wrote true] = some s ∧
    s.wire = [(0, 0, true)] := by
  apply Conn.any_some (p := fun s : St => s.wire = [(0, 0, true)])
  decide +kernel

/-- C51, in part: with a peer that answers only what it was asked, and once, and up to 2^32 - 2 ids, no two requests have the
same id (outstanding or not), the ids written are the ids of the requests and differ, and none is 0 or the ping id. -/
theorem C51_unique_partial {cs : List Choice} {s : St} (h : run Conn.init cs = some s) (hp : Polite Conn.init cs) (hy : Young s) :
    (∀ r r' i, s.idOf r = some i → s.idOf r' = some i → r = r') ∧
      (∀ r i, s.idOf r = some i → i ≠ 0 ∧ i ≠ pingId) ∧
      (∀ i r f, (i, r, f) ∈ s.wire → s.idOf r = some i) ∧ (s.wire.map (·.1)).Nodup := by
  have hi := reach h hp hy
  refine ⟨hi.idInj, ?_, fun i r f hm => (hi.wireId r i f hm).1, hi.wireNodup⟩
  intro r i e
  have h1 := hi.idRange r i e
  have h2 := hi.hh.cur
  have h3 := hi.hh.young
  unfold pingId M at *
  omega

/-- C51_unique_partial: three requests, one of them answered, one cancelled. -/
example : ∃ s, run Conn.init (send 0 ++ send 1 ++ [.resp 2 7, .fail 0, .reply] ++ send 2) = some s ∧
    (s.wire = [(1, 0, true), (2, 1, true), (3, 2, true)] ∧ s.ans 1 = some (.response 2 7) ∧ s.h.got ≤ M - 2) := by
  apply Conn.any_some (p := fun s : St => s.wire = [(1, 0, true), (2, 1, true), (3, 2, true)] ∧
    s.ans 1 = some (.response 2 7) ∧ s.h.got ≤ M - 2)
  decide +kernel

example : Polite Conn.init (send 0 ++ send 1 ++ [.resp 2 7, .fail 0, .reply] ++ send 2) :=
  polite_of (n := 3) (by decide +kernel)

/-- C51: no request is ever sent with the ping id, whatever the peer does and however many ids were used. -/
theorem C51_never_ping {cs : List Choice} {s : St} (h : run Conn.init cs = some s) {i r : Nat} {f : Bool}
    (hm : (i, r, f) ∈ s.wire) : i ≠ pingId :=
  (gen_run gen_init h).wire i r f hm

/-- C51: `getNext` never goes more than three rounds, so a request can always be taken. -/
theorem C51_three_rounds {cs : List Choice} {s : St} (h : run Conn.init cs = some s) (hw : s.wp = .loop) (r : Nat) :
    ∃ s', step s (.take r) = some s' := by
  have g := gen_run gen_init h
  simp only [step, hw, if_true]
  cases s.wreq with
  | some p => exact ⟨_, rfl⟩
  | none =>
    cases e : s.h.getNext with
    | none => exact absurd e (rounds_three (h := { s.h with got := s.h.got + 1 }) ⟨g.lt, g.big, g.free, g.fake⟩)
    | some p => exact ⟨_, rfl⟩

/-- C51_three_rounds: a state from which a request is taken. -/
example : ∃ s, run Conn.init (send 0) = some s ∧ s.wp = .loop := by
  apply Conn.any_some (p := fun s : St => s.wp = .loop)
  decide +kernel

/-- C52, in part (peers that answer only what they were asked, and once): a request answered with a response was sent with
its id. -/
theorem C52_own_response_partial {cs : List Choice} {s : St} (h : run Conn.init cs = some s) (hp : Polite Conn.init cs)
    (hy : Young s) {r i c : Nat} (ha : s.ans r = some (.response i c)) : s.idOf r = some i :=
  (reach h hp hy).ansId r i c ha

/-- C52, in part: a response which the peer was asked for is taken in, whatever has happened to its request, and answers
nobody before `reply`. -/
theorem C52_received_partial {cs : List Choice} {s : St} (h : run Conn.init cs = some s) (hp : Polite Conn.init cs)
    (hy : Young s) (hr : s.rp = .read) {id : Nat} (hx : Expected s id) (c : Nat) :
    ∃ s' q, step s (.resp id c) = some s' ∧ s'.rp = .reply q id c ∧ s'.ans = s.ans ∧ Young s' := by
  have hi := reach h hp hy
  obtain ⟨h', e, e2, hi'⟩ := inv_resp hi (c := c) hr hx
  have hlt : id < M := by
    obtain ⟨⟨r, hq⟩, _⟩ := hx
    have h1 := hi.idRange r id hq
    have h2 := hi.hh.cur
    have h3 := hi.hh.young
    unfold M at *
    omega
  refine ⟨{ s with h := h', rp := .reply ((s.h.heap (id / 256)).req (id % 256)) id c, removed := id :: s.removed }, _,
    by simp only [step, hr, hlt, and_self, if_true, e], rfl, rfl, ?_⟩
  unfold Young at *
  simp only
  omega

/-- C52, in part: `reply` gives the response to the request that was sent with its id, if that is unanswered, and changes
the answer of no other request. -/
theorem C52_delivered_partial {cs : List Choice} {s : St} (h : run Conn.init cs = some s) (hp : Polite Conn.init cs)
    (hy : Young s) {q : Option Nat} {id c : Nat} (hr : s.rp = .reply q id c) :
    ∃ s', step s .reply = some s' ∧ s'.rp = .read ∧
      ∀ r, (s.idOf r = some id → Outstanding s r → s'.ans r = some (.response id c)) ∧
        (¬ (s.idOf r = some id ∧ Outstanding s r) → s'.ans r = s.ans r) := by
  have hi := reach h hp hy
  obtain ⟨k1, k2⟩ := hi.rep _ _ _ hr
  cases q with
  | none =>
    refine ⟨{ s with rp := .read }, by simp only [step, hr], rfl, fun r => ⟨fun e ho => ?_, fun _ => rfl⟩⟩
    obtain ⟨c', e'⟩ := hi.remFly r id k1 e ho
    rw [hr] at e'
    cases e'
  | some r0 =>
    have hid := k2 r0 rfl
    refine ⟨{ respond s r0 (.response id c) with rp := .read }, by simp only [step, hr], rfl, fun r => ?_⟩
    by_cases hrr : r = r0
    · subst hrr
      simp only [respond, Outstanding]
      constructor
      · intro _ ho
        rw [if_pos ho]
        simp [answer, Conn.set]
      · intro hn
        rw [if_neg fun ho => hn ⟨hid, ho⟩]
    · refine ⟨fun e _ => absurd (hi.idInj r r0 id e hid) hrr, fun _ => ?_⟩
      simp only [respond]
      split
      · simp [answer, Conn.set, hrr]
      · rfl

/-- C52: of three requests the second is answered, the first was cancelled before its response came. -/
example : ∃ s, run Conn.init (send 0 ++ send 1 ++ send 2 ++ [.fail 0, .resp 1 8, .reply, .resp 2 7]) = some s ∧
    (s.ans 0 = some .other ∧ s.rp = .reply (some 1) 2 7 ∧ s.rs 1 = .inFly) := by
  apply Conn.any_some (p := fun s : St => s.ans 0 = some .other ∧ s.rp = .reply (some 1) 2 7 ∧ s.rs 1 = .inFly)
  decide +kernel

example : Polite Conn.init (send 0 ++ send 1 ++ send 2 ++ [.fail 0, .resp 1 8, .reply, .resp 2 7]) :=
  polite_of (n := 3) (by decide +kernel)

/-- C53, in part (peers that answer only what they were asked, and once; up to 2^32 - 2 ids): nothing panics; when the control
loop has ended every request taken is answered; and what it answers has `RcShutdown` if the write loop ended because of `Stop`,
`RcIOError` otherwise. -/
theorem C53_all_answered_partial {cs : List Choice} {s : St} (h : run Conn.init cs = some s) (hp : Polite Conn.init cs)
    (hy : Young s) : (s.rp ≠ .panicked ∧ s.cp ≠ .panicked) ∧
      (s.cp = .ended → ∀ r, s.rs r ≠ .pending → s.ans r ≠ none) ∧
      ∀ r c, s.ans r = some (.flushed c) → c = if s.shutdown then rcShutdown else rcIOError := by
  have hi := reach h hp hy
  refine ⟨hi.noPanic, ?_, fun r c e => (hi.ansFl r c e).2⟩
  intro he r hr
  apply hi.perfAns
  have := hi.cpEnd he r
  cases e : s.rs r <;> simp_all

/-- C53, in part: once the other two loops have ended, the control loop ends after a known number of steps. -/
theorem C53_ends_partial {cs : List Choice} {s : St} (h : run Conn.init cs = some s) (hp : Polite Conn.init cs)
    (hy : Young s) (hw : s.wp = .ended) (hr : s.rp = .ended) (hc : s.cp = .loop) :
    ∃ s', run s (.flush :: List.replicate (s.h.found.length + 1) .flushOne) = some s' ∧ s'.cp = .ended := by
  have hi := reach h hp hy
  have key : ∀ (l : List (Nat × Nat)) (s : St), s.cp = .flush l →
      ∃ s', run s (List.replicate (l.length + 1) .flushOne) = some s' ∧ s'.cp = .ended := by
    intro l
    induction l with
    | nil =>
      intro s hs
      exact ⟨{ s with cp := .ended }, by simp [run, step, hs], rfl⟩
    | cons p l ih =>
      intro s hs
      obtain ⟨o, j⟩ := p
      have : ∃ s1, step s .flushOne = some s1 ∧ s1.cp = .flush l := by
        simp only [step, hs]
        split
        · exact ⟨_, rfl, rfl⟩
        · exact ⟨_, rfl, rfl⟩
      obtain ⟨s1, e1, e2⟩ := this
      obtain ⟨s', e3, e4⟩ := ih s1 e2
      refine ⟨s', ?_, e4⟩
      rw [List.length_cons, List.replicate_succ]
      simp only [run, e1, Option.bind_some]
      exact e3
  obtain ⟨s', e1, e2⟩ := key s.h.found { s with cp := .flush s.h.found } rfl
  refine ⟨s', ?_, e2⟩
  have e3 : step s .flush = some { s with cp := .flush s.h.found } := by
    simp only [step, hc, hw, hr, and_self, if_true, getAll_eq hi.hh]
  rw [run, e3]
  exact e1

/-- C53: one request answered, one cancelled, one flushed. -/
example : ∃ s, run Conn.init (send 0 ++ send 1 ++ send 2 ++
      [.resp 2 7, .reply, .endRead, .endWrite false, .fail 0, .flush, .flushOne, .flushOne]) = some s ∧
    (s.cp = .ended ∧ s.ans 0 = some .other ∧ s.ans 1 = some (.response 2 7) ∧ s.ans 2 = some (.flushed rcIOError)) := by
  apply Conn.any_some (p := fun s : St => s.cp = .ended ∧ s.ans 0 = some .other ∧ s.ans 1 = some (.response 2 7) ∧
    s.ans 2 = some (.flushed rcIOError))
  decide +kernel

example : Polite Conn.init (send 0 ++ send 1 ++ send 2 ++
      [.resp 2 7, .reply, .endRead, .endWrite false, .fail 0, .flush, .flushOne, .flushOne]) :=
  polite_of (n := 3) (by decide +kernel)

/-- C54 does not hold: a response with an id far from those sent makes `remove` panic (request_holder.go:79). -/
theorem C54_unknown_id_violated : ∃ s, run Conn.init (send 0 ++ [.resp 1000 7]) = some s ∧
    (s.rp = .panicked ∧ s.ans 0 = none) := by
  apply Conn.any_some (p := fun s : St => s.rp = .panicked ∧ s.ans 0 = none)
  decide +kernel

/-- C54 does not hold: a response sent twice makes `getAll` panic when the connection is closed (request_holder.go:103). -/
theorem C54_duplicate_violated :
    ∃ s, run Conn.init (send 0 ++ [.resp 1 7, .reply, .resp 1 7, .reply, .endRead, .endWrite true, .flush]) = some s ∧
      s.cp = .panicked := by
  apply Conn.any_some (p := fun s : St => s.cp = .panicked)
  decide +kernel

/-- One response, 255 times. -/
def again : List Choice := (List.replicate 255 [Choice.resp 1 7, .reply]).flatten

/-- C54 does not hold: a response sent 255 times deletes the first row (request_holder.go:86-89); what else is in the row is
not answered when the connection is lost. -/
theorem C54_lost_violated :
    ∃ s, run Conn.init (sends 256 ++ again ++ [.endRead, .endWrite true, .flush, .flushOne, .flushOne]) = some s ∧
      (s.cp = .ended ∧ s.ans 1 = none ∧ s.rs 1 = .inFly) := by
  apply Conn.any_some (p := fun s : St => s.cp = .ended ∧ s.ans 1 = none ∧ s.rs 1 = .inFly)
  decide +kernel

/-- C54, in part: the first unexpected response, if its id is in a row which is in use, answers nobody; a header being made
must not be for this id. -/
theorem C54_ignored_partial {cs : List Choice} {s : St} (h : run Conn.init cs = some s) (hp : Polite Conn.init cs)
    (hy : Young s) (hr : s.rp = .read) {id c : Nat} (hx : ¬ Expected s id) (hlt : id < M)
    (hrow : (id / 256, id / 256) ∈ s.h.rows) (hh : ∀ r o j, s.wp = .header r o j → id ≠ 256 * o + j) :
    ∃ s', run s [.resp id c, .reply] = some s' ∧ s'.rp = .read ∧ s'.ans = s.ans := by
  have hi := reach h hp hy
  have hfetch : ∃ k, s.h.fetch (id / 256) = some k ∧ k.heap = s.h.heap ∧ k.last = id / 256 := by
    unfold Holder.fetch
    split
    · cases hg : Conn.get s.h.rows (id / 256) with
      | none => exact absurd hrow (get_none hg _)
      | some o =>
        have := hi.hh.rowsEq _ _ (get_mem hg)
        exact ⟨_, rfl, rfl, this.1⟩
    · have := hi.hh.last
      exact ⟨_, rfl, rfl, by omega⟩
  obtain ⟨k, e, e1, e2⟩ := hfetch
  have hnone : (k.heap k.last).req (id % 256) = none := by
    rw [e1, e2]
    cases er : (s.h.heap (id / 256)).req (id % 256) with
    | none => rfl
    | some r =>
      exfalso
      have hs := hi.reqSlot _ _ _ er
      have hf : s.rs r = .inFly := by
        rcases hi.slotFly r with e | e
        · rw [hs] at e; cases e
        · exact e
      have hsi := hi.slotId _ _ _ hs
      have hid : 256 * (id / 256) + id % 256 = id := by omega
      rcases hsi.2 with e | e
      · rw [hid] at e
        apply hx
        refine ⟨⟨r, e⟩, fun hm => ?_⟩
        obtain ⟨c, e⟩ := hi.remFly r id hm e hf
        rw [hr] at e
        cases e
      · exact hh _ _ _ e hid.symm
  have hrem : ∃ k', s.h.remove id = some (k', none) := by
    unfold Holder.remove
    rw [e]
    simp only [Option.map_some, hnone]
    exact ⟨_, rfl⟩
  obtain ⟨k', ek⟩ := hrem
  exact ⟨{ s with h := k', rp := .read, removed := id :: s.removed },
    by simp only [run, step, hr, hlt, and_self, if_true, ek, Option.bind_some], rfl, rfl⟩

/-- C54_ignored_partial: id 5 was never sent. -/
example : ∃ s, run Conn.init (send 0) = some s ∧
    (s.rp = .read ∧ (5 / 256, 5 / 256) ∈ s.h.rows ∧ s.idOf 0 = some 1 ∧ s.wp = .loop ∧ s.h.got ≤ M - 2) := by
  apply Conn.any_some (p := fun s : St => s.rp = .read ∧ (5 / 256, 5 / 256) ∈ s.h.rows ∧ s.idOf 0 = some 1 ∧ s.wp = .loop ∧
    s.h.got ≤ M - 2)
  decide +kernel

/-- C71 does not hold: a request that is cancelled after `SetInFly` (connection.go:288) and before its body is put into the
header (connection.go:292-296) is sent without its body. -/
theorem C71_empty_body_violated : ∃ s, run Conn.init [.take 0, .fail 0, .header, .wrote true] = some s ∧
    s.wire = [(1, 0, false)] := by
  apply Conn.any_some (p := fun s : St => s.wire = [(1, 0, false)])
  decide +kernel

/-- C71, in part (polite peers, up to 2^32 - 2 ids): a request sent without its body was answered by somebody else than this
connection: its owner has been told that it failed. -/
theorem C71_only_cancelled_partial {cs : List Choice} {s : St} (h : run Conn.init cs = some s) (hp : Polite Conn.init cs)
    (hy : Young s) {i r : Nat} (hm : (i, r, false) ∈ s.wire) : s.ans r = some .other :=
  ((reach h hp hy).wireId r i false hm).2 rfl

/-- C72: whatever the peer does, no request is written twice. -/
theorem C72_once {cs : List Choice} {s : St} (h : run Conn.init cs = some s) : (s.wire.map (·.2.1)).Nodup :=
  (once_run once_init h).nodup

/-- C72: a request which was answered before the connection took it is not written. -/
theorem C72_answered_not_sent {cs ds : List Choice} {s s' : St} (_h : run Conn.init cs = some s) {r : Nat}
    (hr : s.rs r = .performed) (hu : Unwritten s r) (hs : run s ds = some s') : ∀ i f, (i, r, f) ∉ s'.wire :=
  (unwritten_run hu (by rw [hr]; simp) hs).1

/-- C72: request 0 is cancelled, offered and skipped; request 1 gets the id which was meant for it. -/
example : ∃ s, run Conn.init ([.fail 0, .take 0] ++ send 1) = some s ∧ s.wire = [(1, 1, true)] := by
  apply Conn.any_some (p := fun s : St => s.wire = [(1, 1, true)])
  decide +kernel

end Verif.Props
