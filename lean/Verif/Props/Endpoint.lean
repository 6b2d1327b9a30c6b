import Verif.Proofs.Endpoint
/-!
Theorems about a client endpoint with any number of connections (C121).
-/
namespace Verif.Endpoint

theorem any_some {o : Option St} {p : St → Prop} [DecidablePred p] (h : (o.any fun s => p s) = true) : ∃ s, o = some s ∧ p s := by
  cases o with
  | none => cases h
  | some s => exact ⟨s, rfl, of_decide_eq_true h⟩

/-- `Polite`, where only the first `n` requests matter. -/
def politeB (R cap n : Nat) : St → List Choice → Bool
  | _, [] => true
  | s, c :: cs => (match c with
      | .conn i (.resp id _) => (List.range n).any (fun r => (s.c i).idOf r = some id) && !(s.c i).removed.contains id
      | _ => true) && (match step R cap s c with
      | some s' => politeB R cap n s' cs
      | none => true)

theorem polite_of {R cap n : Nat} {s : St} {cs : List Choice} (h : politeB R cap n s cs = true) : Polite R cap s cs := by
  induction cs generalizing s with
  | nil => trivial
  | cons c cs ih =>
    simp only [politeB, Bool.and_eq_true] at h
    refine ⟨?_, ?_⟩
    · rintro i id x rfl
      have h1 := h.1
      simp only [Bool.and_eq_true, List.any_eq_true, decide_eq_true_eq, Bool.not_eq_true', List.contains_eq_mem,
        decide_eq_false_iff_not] at h1
      obtain ⟨⟨r, _, hr⟩, hn⟩ := h1
      exact ⟨⟨r, hr⟩, hn⟩
    · intro s' e
      have h2 := h.2
      rw [e] at h2
      exact ih h2

/-- `Send` of three requests, the third of which is queued, because the channel holds two; connections 0 and 1 receive one each, which makes room for
the third; `AllDisconnected` receives that; connection 1 gets a response. -/
def three : List Choice :=
  List.replicate 4 (.queue (.push 0)) ++ List.replicate 4 (.queue (.push 1)) ++ List.replicate 9 (.queue (.push 2)) ++
  [.take 0, .conn 0 .header, .conn 0 (.wrote true), .take 1, .conn 1 .header, .conn 1 (.wrote true)] ++ List.replicate 10 (.queue .loop) ++
  [.drain, .conn 1 (.resp 1 7), .conn 1 .reply]

/-- Then both connections end, and `AllDisconnected` answers. -/
def ending : List Choice :=
  [.conn 0 .endRead, .conn 0 (.endWrite false), .conn 0 .flush, .conn 0 .flushOne, .conn 0 .flushOne, .conn 1 .endRead, .conn 1 (.endWrite false),
   .conn 1 .flush, .conn 1 .flushOne, .ioError]

end Verif.Endpoint

namespace Verif.Props
open Verif.Endpoint

/-- C121: a request is written on at most one connection, and once. -/
theorem C121_written_once {R cap : Nat} (hR : 0 < R) {cs : List Choice} {s : St} (h : run R cap init cs = some s) (r : Nat) :
    (∀ i j id id' f f', (id, r, f) ∈ (s.c i).wire → (id', r, f') ∈ (s.c j).wire → i = j) ∧
      ∀ i, (((s.c i).wire.map (·.2.1)).filter (· = r)).length ≤ 1 := by
  obtain ⟨hi, hw⟩ := reach hR h
  refine ⟨fun i j id id' f f' h1 h2 => ?_, fun i => ?_⟩
  · have := hi.unique hR (hw.wire i _ _ _ h1) (hw.wire j _ _ _ h2)
    cases this
    rfl
  · obtain ⟨ds, hd, _⟩ := conn_run h i
    have hn := (Conn.once_run Conn.once_init (hd : Conn.run Conn.init ds = some (s.c i))).nodup
    have hf : ((((s.c i).wire.map (·.2.1)).filter (· = r))).Nodup := hn.filter _
    obtain ⟨l, hl⟩ : ∃ l, ((s.c i).wire.map (·.2.1)).filter (· = r) = l := ⟨_, rfl⟩
    rw [hl] at hf ⊢
    have hall : ∀ x ∈ l, x = r := by
      intro x hx
      rw [← hl, List.mem_filter] at hx
      exact of_decide_eq_true hx.2
    match l, hf, hall with
    | [], _, _ => simp
    | [_], _, _ => simp
    | a :: b :: l, hf, hall =>
      have ha := hall a (by simp)
      have hb := hall b (by simp)
      rw [List.nodup_cons] at hf
      exact absurd (by rw [ha, hb]; simp) hf.1

/-- C121: a request that is in the channel is in no connection's hands and not in those of `AllDisconnected`; two receivers of a request are
the same; and an answered request is outstanding nowhere. -/
theorem C121_one_place {R cap : Nat} (hR : 0 < R) {cs : List Choice} {s : St} (h : run R cap init cs = some s) (r : Nat) :
    (r ∈ s.b.chan → s.hand ≠ some r ∧ ∀ i, ¬ Conn.Outstanding (s.c i) r) ∧
      (s.hand = some r → ∀ i, ¬ Conn.Outstanding (s.c i) r) ∧
      (∀ i j, Conn.Outstanding (s.c i) r → Conn.Outstanding (s.c j) r → i = j) ∧
      (Answered s r → ∀ i, ¬ Conn.Outstanding (s.c i) r) := by
  obtain ⟨hi, _⟩ := reach hR h
  have got : ∀ i, Conn.Outstanding (s.c i) r → (r, some i) ∈ s.got :=
    fun i ho => Classical.byContradiction fun hn => hi.other i r hn ho
  have nd := hi.nodup hR
  have new : r ∈ s.b.chan → ∀ x, (r, x) ∉ s.got := by
    intro hr x hm
    exact (List.nodup_append.1 nd).2.2 r (List.mem_reverse.2 (List.mem_map.2 ⟨_, hm, rfl⟩)) r hr rfl
  refine ⟨fun hr => ⟨fun e => new hr _ (hi.hand r e), fun i ho => new hr _ (got i ho)⟩, fun e i ho => ?_, fun i j h1 h2 => ?_, fun ha i ho => ?_⟩
  · have := hi.unique hR (hi.hand r e) (got i ho)
    cases this
  · have := hi.unique hR (got i h1) (got j h2)
    cases this
    rfl
  · have hg := got i ho
    have := (hi.same i r fun j hj hm => hj (by have := hi.unique hR hg hm; cases this; rfl)).2 ((hi.life r).1 ha)
    rw [ho] at this
    cases this

/-- C121_written_once, C121_one_place: after `three`, each of the requests is somewhere else. -/
example : ∃ s, run 2 2 init three = some s ∧ ((s.c 0).wire = [(1, 0, true)] ∧ (s.c 1).wire = [(1, 1, true)] ∧ (s.c 0).rs 0 = .inFly ∧
    .answered 1 ∈ s.b.log ∧ s.hand = some 2) := by
  apply Endpoint.any_some (p := fun s => (s.c 0).wire = [(1, 0, true)] ∧ (s.c 1).wire = [(1, 1, true)] ∧ (s.c 0).rs 0 = .inFly ∧
    .answered 1 ∈ s.b.log ∧ s.hand = some 2)
  decide +kernel

/-- C121: the connection that received a request and the rest of the program agree on whether it is answered; and so do all connections as long as
nobody, or only they, received it. -/
theorem C121_copies {R cap : Nat} (hR : 0 < R) {cs : List Choice} {s : St} (h : run R cap init cs = some s) (r i : Nat) :
    (TakenBy s r i → ((s.c i).ans r ≠ none ↔ Answered s r)) ∧
      ((∀ j, j ≠ i → ¬ TakenBy s r j) → ((s.c i).ans r ≠ none ↔ Answered s r)) ∧
      ((s.c i).ans r ≠ none → Answered s r) := by
  obtain ⟨hi, _⟩ := reach hR h
  have key : (∀ j, j ≠ i → ¬ TakenBy s r j) → ((s.c i).ans r ≠ none ↔ Answered s r) := by
    intro hn
    rw [← (hi.held i).ans, hi.same i r hn]
    exact (hi.life r).symm
  refine ⟨fun ht => key fun j hj hm => hj (by have := hi.unique hR ht hm; cases this; rfl), key, fun ha => ?_⟩
  exact (hi.life r).2 (hi.past i r (((hi.held i).ans r).2 ha))

/-- C121_copies: connection 1 received request 1, and it is answered there and for everybody; the copy at connection 0, which nobody looks at, knows
nothing of it. -/
example : ∃ s, run 2 2 init three = some s ∧ ((1, some 1) ∈ s.got ∧ (s.c 1).ans 1 = some (.response 1 7) ∧ .answered 1 ∈ s.b.log ∧
    (s.c 0).ans 1 = none) := by
  apply Endpoint.any_some (p := fun s => (1, some 1) ∈ s.got ∧ (s.c 1).ans 1 = some (.response 1 7) ∧ .answered 1 ∈ s.b.log ∧
    (s.c 0).ans 1 = none)
  decide +kernel

/-- C121: nothing is lost. When the queue is at rest, a request whose `Send` has returned is in the channel, or answered, or in the hands of
`AllDisconnected`, or outstanding at the connection that received it and at no other, or it waits behind a `Send` that has not
returned. -/
theorem C121_place {R cap : Nat} (hR : 0 < R) {cs : List Choice} {s : St} (h : run R cap init cs = some s) (hq : Quiet s) {r : Nat} (hs : Sent s r) :
    r ∈ s.b.chan ∨ Answered s r ∨ s.hand = some r ∨
      (∃ i, TakenBy s r i ∧ Conn.Outstanding (s.c i) r ∧ ∀ j, Conn.Outstanding (s.c j) r → j = i) ∨ Buffer.Behind s.b.log r := by
  obtain ⟨hi, _⟩ := reach hR h
  obtain ⟨l, hl⟩ := hi.reach
  rcases C40_nothing_forgotten hR hl hq.1 hq.2 hs with e | e | e
  · rw [hi.chan, List.mem_append, List.mem_reverse] at e
    rcases e with e | e
    · obtain ⟨⟨q, x⟩, hm, rfl⟩ := List.mem_map.1 e
      cases x with
      | none =>
        rcases hi.drained q hm with e | e
        · exact .inr (.inr (.inl e))
        · exact .inr (.inl ((hi.life q).2 e))
      | some i =>
        cases hr : (s.c i).rs q with
        | pending => exact absurd hr (hi.taken i q hm)
        | performed => exact .inr (.inl ((hi.life q).2 (hi.past i q hr)))
        | inFly => exact .inr (.inr (.inr (.inl ⟨i, hm, hr, fun j hj => (C121_one_place hR h q).2.2.1 j i hj hr⟩)))
    · exact .inl e
  · exact .inr (.inl e)
  · exact .inr (.inr (.inr (.inr e)))

/-- C121_place: after `three` the queue is at rest and all three were sent. -/
example : ∃ s, run 2 2 init three = some s ∧ (s.b.loop = .wait ∧ s.b.sig = false ∧ .ret 0 ∈ s.b.log ∧ .ret 1 ∈ s.b.log ∧ .ret 2 ∈ s.b.log ∧
    s.got = [(2, none), (1, some 1), (0, some 0)]) := by
  apply Endpoint.any_some (p := fun s => s.b.loop = .wait ∧ s.b.sig = false ∧ .ret 0 ∈ s.b.log ∧ .ret 1 ∈ s.b.log ∧ .ret 2 ∈ s.b.log ∧
    s.got = [(2, none), (1, some 1), (0, some 0)])
  decide +kernel

/-- C121, in part (peers that answer only what they were asked, and once; up to 2^32 - 2 ids per connection): when the queue is at rest, its
channel empty, `AllDisconnected` has nothing in hand and every connection that received something has ended, then every request whose `Send`
has returned, and which is not queued behind one whose `Send` has not, is answered. -/
theorem C121_end_partial {R cap : Nat} (hR : 0 < R) {cs : List Choice} {s : St} (h : run R cap init cs = some s) (hp : Polite R cap init cs)
    (hy : Endpoint.Young s) (hq : Quiet s) (hc : s.b.chan = []) (hh : s.hand = none) (he : ∀ r i, TakenBy s r i → (s.c i).cp = .ended)
    {r : Nat} (hs : Sent s r) (hb : ¬ Buffer.Behind s.b.log r) : Answered s r := by
  rcases C121_place hR h hq hs with e | e | e | ⟨i, ht, ho, _⟩ | e
  · rw [hc] at e; cases e
  · exact e
  · rw [hh] at e; cases e
  · obtain ⟨ds, hd, hpol⟩ := conn_run h i
    have := (C53_all_answered_partial hd (hpol hp) (hy i)).2.1 (he r i ht) r (by rw [ho]; simp)
    exact (C121_copies hR h r i).2.2 this
  · exact absurd e hb

/-- C121_end_partial: `three`, and the end of both connections. -/
example : ∃ s, run 2 2 init (three ++ ending) = some s ∧ (s.b.loop = .wait ∧ s.b.sig = false ∧ s.b.chan = [] ∧ s.hand = none ∧
    (s.c 0).cp = .ended ∧ (s.c 1).cp = .ended ∧ s.got = [(2, none), (1, some 1), (0, some 0)] ∧
    (s.c 0).ans 0 = some (.flushed Conn.rcIOError) ∧ .answered 2 ∈ s.b.log) := by
  apply Endpoint.any_some (p := fun s => s.b.loop = .wait ∧ s.b.sig = false ∧ s.b.chan = [] ∧ s.hand = none ∧
    (s.c 0).cp = .ended ∧ (s.c 1).cp = .ended ∧ s.got = [(2, none), (1, some 1), (0, some 0)] ∧
    (s.c 0).ans 0 = some (.flushed Conn.rcIOError) ∧ .answered 2 ∈ s.b.log)
  decide +kernel

example : Endpoint.Polite 2 2 init (three ++ ending) := Endpoint.polite_of (n := 3) (by decide +kernel)

/-- C121, in part (as above): a request answered by a response got it from the connection that received the request, and the response has the id
with which the request was sent there. -/
theorem C121_response_partial {R cap : Nat} (hR : 0 < R) {cs : List Choice} {s : St} (h : run R cap init cs = some s) (hp : Polite R cap init cs)
    (hy : Endpoint.Young s) {i r id y : Nat} (ha : (s.c i).ans r = some (.response id y)) :
    TakenBy s r i ∧ (s.c i).idOf r = some id ∧ ∀ j id' y', (s.c j).ans r = some (.response id' y') → j = i := by
  obtain ⟨hi, hw⟩ := reach hR h
  have key : ∀ j id y, (s.c j).ans r = some (.response id y) → TakenBy s r j ∧ (s.c j).idOf r = some id := by
    intro j id y ha
    obtain ⟨ds, hd, hpol⟩ := conn_run h j
    have := C52_own_response_partial hd (hpol hp) (hy j) ha
    exact ⟨hw.idOf j r (by rw [this]; simp), this⟩
  obtain ⟨h1, h2⟩ := key i id y ha
  refine ⟨h1, h2, fun j id' y' hj => ?_⟩
  have := hi.unique hR h1 (key j id' y' hj).1
  cases this
  rfl

/-- C121: one connection that goes on receiving is enough: letting only the queue and its write loop run leads to a state where the queue is at rest
and the channel is empty. -/
theorem C121_forwarded {R cap : Nat} (hR : 0 < R) (hcap : 0 < cap) {cs : List Choice} {s : St} (h : run R cap init cs = some s) {i : Nat}
    (hw : (s.c i).wp = .loop) : ∃ more s', (∀ c ∈ more, Forwards i c) ∧ run R cap s more = some s' ∧ Quiet s' ∧ s'.b.chan = [] := by
  obtain ⟨hi, _⟩ := reach hR h
  obtain ⟨l, hl⟩ := hi.reach
  obtain ⟨m, b, hm, hb, hq⟩ := C40_forwarding_completes hR hcap hl
  obtain ⟨b', hb', e1, e2, e3⟩ := drain_run (R := R) (cap := cap) b
  obtain ⟨ds, s', f, hr, eb, _⟩ := simulate (i := i) (m ++ List.replicate b.chan.length .recv) (b := b') h hw
    (by
      intro c hc
      rcases List.mem_append.1 hc with hc | hc
      · exact hm c hc
      · exact .inr (List.eq_of_mem_replicate hc))
    (by rw [buffer_run_append, hb]; exact hb')
  refine ⟨ds, s', f, hr, ?_, by rw [eb]; exact e1⟩
  unfold Quiet
  rw [eb, e2, e3]
  exact hq

/-- C121_forwarded: two requests in the channel and one queued, and a connection that has not received anything. -/
example : ∃ s, run 2 2 init (three.take 17) = some s ∧ ((s.c 0).wp = .loop ∧ s.b.chan = [0, 1] ∧ s.b.sig = true ∧ .ret 2 ∈ s.b.log) := by
  apply Endpoint.any_some (p := fun s => (s.c 0).wp = .loop ∧ s.b.chan = [0, 1] ∧ s.b.sig = true ∧ .ret 2 ∈ s.b.log)
  decide +kernel

end Verif.Props
