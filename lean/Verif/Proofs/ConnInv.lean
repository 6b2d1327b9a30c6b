import Verif.Proofs.Conn
/-!
The invariant of the client connection, for peers that answer only what they were asked, and once.
-/
namespace Verif.Conn

structure Inv (s : St) : Prop where
  hh : HInv s.h s.removed
  reqSlot : ∀ o j r, (s.h.heap o).req j = some r → s.slot r = some (o, j)
  slotReq : ∀ o j r, s.slot r = some (o, j) → (s.h.heap o).req j = some r
  slotFly : ∀ r, s.slot r = none ∨ s.rs r = .inFly
  flySlot : ∀ r, s.rs r = .inFly → s.slot r ≠ none
  slotId : ∀ r o j, s.slot r = some (o, j) → j < 256 ∧ (s.idOf r = some (256 * o + j) ∨ s.wp = .header r o j)
  idRange : ∀ r i, s.idOf r = some i → 1 ≤ i ∧ i ≤ s.h.curId
  idInj : ∀ r r' i, s.idOf r = some i → s.idOf r' = some i → r = r'
  idTaken : ∀ r i, s.idOf r = some i → s.rs r ≠ .pending
  remId : ∀ i, i ∈ s.removed → ∃ r, s.idOf r = some i
  wreq : ∀ o j, s.wreq = some (o, j) → j < 256 ∧ 256 * o + j = s.h.curId ∧ 1 ≤ s.h.curId ∧ ∀ r, s.idOf r ≠ some s.h.curId
  hdr : ∀ r o j, s.wp = .header r o j → j < 256 ∧ 256 * o + j = s.h.curId ∧ 1 ≤ s.h.curId ∧ (∀ r, s.idOf r ≠ some s.h.curId) ∧
    s.rs r ≠ .pending ∧ s.idOf r = none ∧ s.wreq = none
  wr : ∀ r i f, s.wp = .write i r f → s.idOf r = some i ∧ (∀ r' f', (i, r', f') ∉ s.wire) ∧ (f = false → s.ans r = some .other)
  wireId : ∀ r i f, (i, r, f) ∈ s.wire → s.idOf r = some i ∧ (f = false → s.ans r = some .other)
  wireNodup : (s.wire.map (·.1)).Nodup
  ansPerf : ∀ r, s.ans r = none ∨ s.rs r = .performed
  perfAns : ∀ r, s.rs r = .performed → s.ans r ≠ none
  ansId : ∀ r i c, s.ans r = some (.response i c) → s.idOf r = some i
  ansFl : ∀ r c, s.ans r = some (.flushed c) → s.cp ≠ .loop ∧ c = if s.shutdown then rcShutdown else rcIOError
  rep : ∀ q i c, s.rp = .reply q i c → i ∈ s.removed ∧ ∀ r, q = some r → s.idOf r = some i
  remFly : ∀ r i, i ∈ s.removed → s.idOf r = some i → s.rs r = .inFly → ∃ c, s.rp = .reply (some r) i c
  flushL : ∀ l, s.cp = .flush l → ∀ r, s.rs r = .inFly → ∃ o j, s.slot r = some (o, j) ∧ (o, j) ∈ l
  cpEnd : s.cp = .ended → ∀ r, s.rs r ≠ .inFly
  cpLoop : s.cp = .loop ∨ (s.wp = .ended ∧ s.rp = .ended)
  noPanic : s.rp ≠ .panicked ∧ s.cp ≠ .panicked

theorem inv_init : Inv init := by
  constructor <;> simp [init, Holder.init, Row.new]
  exact hinv_init

theorem slot_big {s : St} (h : Inv s) {r o j : Nat} (hs : s.slot r = some (o, j)) : o ≤ s.h.big := by
  have hb := h.hh.big
  obtain ⟨_, hd | hd⟩ := h.slotId r o j hs
  · have := h.idRange _ _ hd; omega
  · have := h.hdr _ _ _ hd; omega

/-- An accepted answer: what the other parts of the state are. -/
structure Answered (s s' : St) (r : Nat) (a : Ans) : Prop where
  hh : HInv s'.h s'.removed
  cur : s'.h.curId = s.h.curId
  reqs : ∀ o j q, (s'.h.heap o).req j = some q ↔ (s.h.heap o).req j = some q ∧ q ≠ r
  slot : s'.slot = set s.slot r none
  rs : s'.rs = set s.rs r .performed
  ans : s'.ans = set s.ans r (some a)
  idOf : s'.idOf = s.idOf
  wreq : s'.wreq = s.wreq
  wp : s'.wp = s.wp
  rp : s'.rp = s.rp
  cp : s'.cp = s.cp
  shutdown : s'.shutdown = s.shutdown
  wire : s'.wire = s.wire
  removed : s'.removed = s.removed

theorem answer_answered {s : St} (h : Inv s) (r : Nat) (a : Ans) : Answered s (answer s r a) r a := by
  unfold answer
  cases hs : s.slot r with
  | none =>
    constructor <;> simp only [unchain]
    · exact h.hh
    · intro o j q
      constructor
      · intro hq
        refine ⟨hq, ?_⟩
        rintro rfl
        have := h.reqSlot _ _ _ hq
        rw [hs] at this
        cases this
      · exact fun hq => hq.1
  | some p =>
    obtain ⟨o, j⟩ := p
    have hreq := h.slotReq o j r hs
    constructor <;> simp only [unchain]
    · exact hinv_req h.hh (slot_big h hs) _
    · intro o' j' q
      simp only [set]
      by_cases ho : o' = o
      · subst ho
        simp only [if_true, set]
        by_cases hj : j' = j
        · subst hj
          simp only [if_true]
          constructor
          · intro e; cases e
          · rintro ⟨e, hne⟩
            rw [hreq] at e
            cases e
            exact absurd rfl hne
        · simp only [hj, if_false]
          constructor
          · intro e
            refine ⟨e, ?_⟩
            rintro rfl
            have := h.reqSlot _ _ _ e
            rw [hs] at this
            cases this
            exact hj rfl
          · exact fun e => e.1
      · simp only [ho, if_false]
        constructor
        · intro e
          refine ⟨e, ?_⟩
          rintro rfl
          have := h.reqSlot _ _ _ e
          rw [hs] at this
          cases this
          exact ho rfl
        · exact fun e => e.1

set_option maxHeartbeats 4000000 in
theorem inv_answered {s s' : St} (h : Inv s) {r : Nat} {a : Ans} (hn : s.rs r ≠ .performed)
    (ha : ∀ i c, a = .response i c → s.idOf r = some i)
    (hf : ∀ c, a = .flushed c → s.cp ≠ .loop ∧ c = if s.shutdown then rcShutdown else rcIOError)
    (hs : Answered s s' r a) : Inv s' := by
  obtain ⟨g1, g2, g3, g4, g5, g6, g7, g8, g9, g10, g11, g12, g13, g14⟩ := hs
  obtain ⟨⟩ := h
  constructor <;> (try rw [g4]) <;> (try rw [g5]) <;> (try rw [g6]) <;> (try rw [g7]) <;> (try rw [g8]) <;>
    (try rw [g9]) <;> (try rw [g10]) <;> (try rw [g11]) <;> (try rw [g12]) <;> (try rw [g13]) <;> (try rw [g14]) <;>
    (try rw [g2]) <;> first | assumption | grind [set]

theorem inv_fail {s : St} (h : Inv s) (r : Nat) : Inv (respondFail s r .other) := by
  unfold respondFail
  split
  · exact h
  · rename_i hn
    exact inv_answered h hn (fun _ _ e => by cases e) (fun _ e => by cases e) (answer_answered h r .other)

set_option maxHeartbeats 4000000 in
theorem inv_claim {s : St} (h : Inv s) {r o j : Nat} (hw : s.wp = .loop) (hp : s.rs r = .pending) (hq : s.wreq = some (o, j)) :
    Inv (claim s r o j) := by
  obtain ⟨k1, k2, k3, k4⟩ := h.wreq o j hq
  have hb : o ≤ s.h.big := by have := h.hh.big; omega
  have hnone : (s.h.heap o).req j = none := by
    cases e : (s.h.heap o).req j with
    | none => rfl
    | some q =>
      have := h.slotId q o j (h.reqSlot _ _ _ e)
      rw [k2, hw] at this
      rcases this.2 with e | e
      · exact absurd e (k4 q)
      · cases e
  have hslot : s.slot r = none := by
    rcases h.slotFly r with e | e
    · exact e
    · rw [hp] at e; cases e
  have hid : s.idOf r = none := by
    cases e : s.idOf r with
    | none => rfl
    | some i => exact absurd hp (h.idTaken r i e)
  have hh' := hinv_req h.hh hb (set (s.h.heap o).req j (some r))
  have hreq : ∀ o' j' q, ((set s.h.heap o { s.h.heap o with req := set (s.h.heap o).req j (some r) }) o').req j' = some q ↔
      (o' = o ∧ j' = j ∧ q = r) ∨ (s.h.heap o').req j' = some q := by
    intro o' j' q
    simp only [set]
    by_cases ho : o' = o
    · subst ho
      simp only [if_true, set]
      by_cases hj : j' = j
      · subst hj
        simp [hnone, eq_comm]
      · simp [hj]
    · simp [ho]
  obtain ⟨⟩ := h
  unfold claim
  constructor <;> dsimp only <;> first | exact hh' | assumption | (simp only [hreq]; grind [set]) | grind [set]

theorem inv_offer {s : St} (h : Inv s) {r o j : Nat} (hw : s.wp = .loop) (hq : s.wreq = some (o, j)) : Inv (offer s r o j) := by
  unfold offer
  split
  · rename_i hp
    exact inv_claim h hw hp hq
  · rw [← hq]
    exact h

theorem offer_wreq (s : St) (r o j : Nat) : offer { s with wreq := some (o, j) } r o j = offer s r o j := rfl

set_option maxHeartbeats 4000000 in
theorem inv_next {s : St} (h : Inv s) (hw : s.wp = .loop) (hy : s.h.got + 1 ≤ M - 2) {h' : Holder} {o j : Nat}
    (hn : s.h.getNext = some (h', o, j)) : Inv { s with h := h', wreq := some (o, j) } := by
  have e := next_eq h.hh hy
  have hh' := hinv_next h.hh hy
  rw [e] at hn
  cases hn
  have hreq : ∀ o' j', ((set s.h.heap ((s.h.curId + 1) / 256) { s.h.heap ((s.h.curId + 1) / 256) with
        fake := set (s.h.heap ((s.h.curId + 1) / 256)).fake ((s.h.curId + 1) % 256) (s.h.curId + 1) }) o').req j' =
      (s.h.heap o').req j' := by
    intro o' j'
    simp only [set]
    split
    · subst_vars; rfl
    · rfl
  obtain ⟨⟩ := h
  constructor <;> dsimp only <;> first | exact hh' | assumption | (simp only [hreq]; assumption) | grind

set_option maxHeartbeats 4000000 in
theorem inv_header {s : St} (h : Inv s) {r o j : Nat} (hw : s.wp = .header r o j) :
    Inv { s with idOf := set s.idOf r (some ((s.h.heap o).fake j)), wp := .write ((s.h.heap o).fake j) r (s.rs r = .inFly) } := by
  obtain ⟨k1, k2, k3, k4, k5, k6, k7⟩ := h.hdr r o j hw
  have hnr : s.h.curId ∉ s.removed := fun hm => by
    obtain ⟨q, hq⟩ := h.remId _ hm
    exact k4 q hq
  have e : (s.h.heap o).fake j = s.h.curId := by
    rw [h.hh.fake o j k1, if_pos (by rw [k2]; exact ⟨k3, Nat.le_refl _, hnr⟩), k2]
  rw [e]
  have hcp : s.cp = .loop := by
    rcases h.cpLoop with e | e
    · exact e
    · rw [hw] at e; cases e.1
  have hother : s.rs r ≠ .inFly → s.ans r = some .other := by
    intro hne
    have hp : s.rs r = .performed := by cases e : s.rs r <;> simp_all
    have h1 := h.perfAns r hp
    have h2 := h.ansId r
    have h3 := h.ansFl r
    rw [k6] at h2
    rcases e : s.ans r with _ | (_ | _ | _)
    · exact absurd e h1
    · exact absurd (h2 _ _ e) (by simp)
    · exact absurd hcp (h3 _ e).1
    · rfl
  have hrem : ∀ i, i ∈ s.removed → ∃ q, set s.idOf r (some s.h.curId) q = some i := by
    intro i hi
    obtain ⟨q, hq⟩ := h.remId i hi
    refine ⟨q, ?_⟩
    rw [set, if_neg]
    · exact hq
    · rintro rfl
      rw [k6] at hq
      cases hq
  obtain ⟨⟩ := h
  constructor <;> dsimp only <;> first | exact hrem | assumption | grind [set]

theorem inv_resp {s : St} (h : Inv s) {id c : Nat} (hr : s.rp = .read) (hx : Expected s id) :
    ∃ h', s.h.remove id = some (h', (s.h.heap (id / 256)).req (id % 256)) ∧ h'.got = s.h.got ∧
      Inv { s with h := h', rp := .reply ((s.h.heap (id / 256)).req (id % 256)) id c, removed := id :: s.removed } := by
  obtain ⟨⟨q, hq⟩, hnr⟩ := hx
  have hrg := h.idRange q id hq
  obtain ⟨h', e, hh', e1, e2, e3⟩ := remove_eq h.hh hrg.1 hrg.2 hnr
  refine ⟨h', e, e1, ?_⟩
  have hid : 256 * (id / 256) + id % 256 = id := by omega
  have hreq : ∀ r, (s.h.heap (id / 256)).req (id % 256) = some r → s.idOf r = some id := by
    intro r hr
    have hs := h.slotId r _ _ (h.reqSlot _ _ _ hr)
    rw [hid] at hs
    rcases hs.2 with e | e
    · exact e
    · have := h.hdr _ _ _ e
      refine absurd ?_ (this.2.2.2.1 q)
      rw [hq, ← this.2.1, hid]
  have hfly : ∀ r, s.idOf r = some id → s.rs r = .inFly → (s.h.heap (id / 256)).req (id % 256) = some r := by
    intro r hr hf
    cases es : s.slot r with
    | none => exact absurd es (h.flySlot r hf)
    | some p =>
      obtain ⟨o, j⟩ := p
      have hs := h.slotId r o j es
      have : s.idOf r = some (256 * o + j) := by
        rcases hs.2 with e | e
        · exact e
        · have := h.hdr _ _ _ e
          rw [hr] at this
          simp at this
      rw [hr] at this
      have e4 : id = 256 * o + j := by simpa using this
      have e5 : id / 256 = o := by omega
      have e6 : id % 256 = j := by omega
      rw [e5, e6]
      exact h.slotReq o j r es
  have hrem : ∀ i, i ∈ id :: s.removed → ∃ r, s.idOf r = some i := by
    intro i hi
    rcases List.mem_cons.1 hi with rfl | hi
    · exact ⟨q, hq⟩
    · exact h.remId i hi
  have hrf : ∀ r i, i ∈ id :: s.removed → s.idOf r = some i → s.rs r = .inFly →
      ∃ c', RPc.reply ((s.h.heap (id / 256)).req (id % 256)) id c = .reply (some r) i c' := by
    intro r i hi hri hf
    rcases List.mem_cons.1 hi with rfl | hi
    · exact ⟨c, by rw [hfly r hri hf]⟩
    · obtain ⟨c', e⟩ := h.remFly r i hi hri hf
      rw [hr] at e
      cases e
  generalize hg : (s.h.heap (id / 256)).req (id % 256) = g at *
  obtain ⟨⟩ := h
  constructor <;> dsimp only <;> (try rw [e2]) <;> first | exact hh' | exact hrem | exact hrf | assumption | (simp only [e3]; assumption) | grind

theorem inv_reply {s : St} (h : Inv s) {r id c : Nat} (hr : s.rp = .reply (some r) id c) :
    Inv { respond s r (.response id c) with rp := .read } := by
  obtain ⟨k1, k2⟩ := h.rep _ _ _ hr
  have hid := k2 r rfl
  have hcp : s.cp = .loop := by
    rcases h.cpLoop with e | e
    · exact e
    · rw [hr] at e; cases e.2
  have key : ∀ s' : St, Inv s' → s'.rp = .reply (some r) id c → s'.rs r ≠ .inFly → Inv { s' with rp := .read } := by
    intro s' h' hr' hn
    obtain ⟨⟩ := h'
    constructor <;> dsimp only <;> first | assumption | grind
  unfold respond
  split
  · rename_i hf
    have ha := answer_answered h r (.response id c)
    refine key _ (inv_answered h (by rw [hf]; simp) (fun i c e => by cases e; exact hid) (fun _ e => by cases e) ha)
      (by rw [ha.rp]; exact hr) ?_
    rw [ha.rs]
    simp [set]
  · exact key s h hr ‹_›

theorem inv_flush {s : St} (h : Inv s) (hw : s.wp = .ended) (hr : s.rp = .ended) : Inv { s with cp := .flush s.h.found } := by
  have hfl : ∀ r, s.rs r = .inFly → ∃ o j, s.slot r = some (o, j) ∧ (o, j) ∈ s.h.found := by
    intro r hf
    cases es : s.slot r with
    | none => exact absurd es (h.flySlot r hf)
    | some p =>
      obtain ⟨o, j⟩ := p
      refine ⟨o, j, rfl, ?_⟩
      have hs := h.slotId r o j es
      rw [hw] at hs
      have hid : s.idOf r = some (256 * o + j) := by
        rcases hs.2 with e | e
        · exact e
        · cases e
      have hrg := h.idRange _ _ hid
      have hnr : 256 * o + j ∉ s.removed := fun hm => by
        obtain ⟨c, e⟩ := h.remFly r _ hm hid hf
        rw [hr] at e
        cases e
      rw [found_mem h.hh]
      refine ⟨hs.1, ?_, ?_⟩
      · rw [h.hh.fake o j hs.1, if_pos ⟨hrg.1, hrg.2, hnr⟩]
        omega
      · rw [h.slotReq o j r es]
        simp
  obtain ⟨⟩ := h
  constructor <;> dsimp only <;> first | assumption | grind

theorem inv_flushOne {s s' : St} (h : Inv s) (hs : step s .flushOne = some s') : Inv s' := by
  simp only [step] at hs
  split at hs
  · cases hs
    obtain ⟨⟩ := h
    constructor <;> dsimp only <;> first | assumption | grind
  · rename_i o j l hc
    split at hs
    · rename_i r hr
      cases hs
      have key : ∀ s' : St, Inv s' → s'.cp = .flush ((o, j) :: l) → (∀ q, s'.slot q ≠ some (o, j)) → Inv { s' with cp := .flush l } := by
        intro s' h' hc' hn
        obtain ⟨⟩ := h'
        constructor <;> dsimp only <;> first | assumption | grind
      have hsl := h.reqSlot _ _ _ hr
      have hf : s.rs r = .inFly := by
        rcases h.slotFly r with e | e
        · rw [hsl] at e; cases e
        · exact e
      unfold respondFail
      rw [if_neg (by rw [hf]; simp)]
      have ha := answer_answered h r (.flushed (if s.shutdown then rcShutdown else rcIOError))
      refine key _ (inv_answered h (by rw [hf]; simp) (fun _ _ e => by cases e) (fun c e => by cases e; simp [hc]) ha)
        (by rw [ha.cp]; exact hc) ?_
      intro q hq
      rw [ha.slot] at hq
      simp only [set] at hq
      split at hq
      · cases hq
      · have := h.slotReq _ _ _ hq
        rw [hr] at this
        cases this
        contradiction
    · rename_i hr
      cases hs
      have hn : ∀ q, s.slot q ≠ some (o, j) := by
        intro q hq
        have := h.slotReq _ _ _ hq
        rw [hr] at this
        cases this
      obtain ⟨⟩ := h
      constructor <;> dsimp only <;> first | assumption | grind
  · cases hs

theorem got_answer (s : St) (r : Nat) (a : Ans) : (answer s r a).h.got = s.h.got := by
  unfold answer unchain
  dsimp only
  split <;> rfl

theorem got_respond (s : St) (r : Nat) (a : Ans) : (respond s r a).h.got = s.h.got := by
  unfold respond
  split
  · exact got_answer ..
  · rfl

theorem got_respondFail (s : St) (r : Nat) (a : Ans) : (respondFail s r a).h.got = s.h.got := by
  unfold respondFail
  split
  · rfl
  · exact got_answer ..

theorem got_offer (s : St) (r o j : Nat) : (offer s r o j).h.got = s.h.got := by
  unfold offer claim
  split <;> rfl

theorem got_round (h : Holder) : h.round.1.got = h.got := by
  unfold Holder.round Holder.turn
  dsimp only
  (repeat' split) <;> rfl

theorem got_rounds {n : Nat} {h h' : Holder} {o j : Nat} (e : Holder.rounds n h = some (h', o, j)) : h'.got = h.got := by
  induction n generalizing h with
  | zero => cases e
  | succ n ih =>
    have hg := got_round h
    unfold Holder.rounds at e
    split at e
    · rename_i e1
      rw [e1] at hg
      cases e
      exact hg
    · rename_i e1
      rw [e1] at hg
      rw [ih e, hg]

theorem got_next {h h' : Holder} {o j : Nat} (e : h.getNext = some (h', o, j)) : h'.got = h.got + 1 := got_rounds e

theorem got_remove {h h' : Holder} {id : Nat} {q : Option Nat} (e : h.remove id = some (h', q)) : h'.got = h.got := by
  unfold Holder.remove at e
  cases hf : h.fetch (id / 256) with
  | none => rw [hf] at e; cases e
  | some k =>
    rw [hf] at e
    have : k.got = h.got := by
      unfold Holder.fetch at hf
      (repeat' split at hf) <;> cases hf <;> rfl
    cases e
    exact this

theorem got_step {s s' : St} {c : Choice} (hs : step s c = some s') : s.h.got ≤ s'.h.got := by
  cases c <;> simp only [step] at hs
  case take r =>
    (repeat' split at hs) <;> cases hs
    · rw [got_offer]; exact Nat.le_refl _
    · rw [got_offer]
      have := got_next ‹_›
      dsimp only
      omega
  case header => (repeat' split at hs) <;> cases hs; exact Nat.le_refl _
  case wrote => (repeat' split at hs) <;> cases hs <;> exact Nat.le_refl _
  case endWrite => (repeat' split at hs) <;> cases hs; exact Nat.le_refl _
  case resp =>
    (repeat' split at hs) <;> cases hs
    · have := got_remove ‹_›
      dsimp only
      omega
    · exact Nat.le_refl _
  case reply =>
    (repeat' split at hs) <;> cases hs
    · exact Nat.le_refl _
    · dsimp only
      rw [got_respond]
      exact Nat.le_refl _
  case endRead => (repeat' split at hs) <;> cases hs; exact Nat.le_refl _
  case fail => cases hs; rw [got_respondFail]; exact Nat.le_refl _
  case flush => (repeat' split at hs) <;> cases hs <;> exact Nat.le_refl _
  case flushOne =>
    (repeat' split at hs) <;> cases hs <;> first | exact Nat.le_refl _ | (dsimp only; rw [got_respondFail]; exact Nat.le_refl _)

theorem got_run {cs : List Choice} {s s' : St} (hs : run s cs = some s') : s.h.got ≤ s'.h.got := by
  induction cs generalizing s with
  | nil => cases hs; exact Nat.le_refl _
  | cons c cs ih =>
    simp only [run] at hs
    cases e : step s c with
    | none => rw [e] at hs; cases hs
    | some s1 =>
      rw [e] at hs
      exact Nat.le_trans (got_step e) (ih hs)

theorem inv_step {s s' : St} {c : Choice} (h : Inv s) (hp : ∀ id x, c = .resp id x → Expected s id) (hy : Young s')
    (hs : step s c = some s') : Inv s' := by
  cases c with
  | take r =>
    simp only [step] at hs
    split at hs
    · rename_i hw
      split at hs
      · rename_i hq
        cases hs
        exact inv_offer h hw hq
      · rename_i hq
        split at hs
        · rename_i h' o j hn
          cases hs
          have hg := got_next hn
          unfold Young at hy
          rw [got_offer] at hy
          dsimp only at hy
          have := inv_next h hw (by omega) hn
          rw [← offer_wreq]
          exact inv_offer this hw rfl
        · cases hs
    · cases hs
  | header =>
    simp only [step] at hs
    split at hs
    · rename_i hw
      cases hs
      exact inv_header h hw
    · cases hs
  | wrote ok =>
    simp only [step] at hs
    split at hs
    · rename_i hw
      split at hs <;> cases hs
      · obtain ⟨⟩ := h
        constructor <;> dsimp only <;> first | assumption | grind [List.nodup_append]
      · obtain ⟨⟩ := h
        constructor <;> dsimp only <;> first | assumption | grind
    · cases hs
  | endWrite b =>
    simp only [step] at hs
    split at hs
    · cases hs
      obtain ⟨⟩ := h
      constructor <;> dsimp only <;> first | assumption | grind
    · cases hs
  | resp id x =>
    simp only [step] at hs
    split at hs
    · rename_i hr
      obtain ⟨h', e, _, hi⟩ := inv_resp h (c := x) hr.1 (hp id x rfl)
      rw [e] at hs
      cases hs
      exact hi
    · cases hs
  | reply =>
    simp only [step] at hs
    split at hs
    · cases hs
      obtain ⟨⟩ := h
      constructor <;> dsimp only <;> first | assumption | grind
    · rename_i hr
      cases hs
      exact inv_reply h hr
    · cases hs
  | endRead =>
    simp only [step] at hs
    split at hs
    · cases hs
      obtain ⟨⟩ := h
      constructor <;> dsimp only <;> first | assumption | grind
    · cases hs
  | fail r =>
    cases hs
    exact inv_fail h r
  | flush =>
    simp only [step] at hs
    split at hs
    · rename_i hc
      rw [getAll_eq h.hh] at hs
      cases hs
      exact inv_flush h hc.2.1 hc.2.2
    · cases hs
  | flushOne => exact inv_flushOne h hs

theorem inv_run {cs : List Choice} {s s' : St} (h : Inv s) (hp : Polite s cs) (hs : run s cs = some s') (hy : Young s') : Inv s' := by
  induction cs generalizing s with
  | nil => cases hs; exact h
  | cons c cs ih =>
    simp only [run] at hs
    cases e : step s c with
    | none => rw [e] at hs; cases hs
    | some s1 =>
      rw [e] at hs
      have hy1 : Young s1 := Nat.le_trans (got_run hs) hy
      exact ih (inv_step h hp.1 hy1 e) (hp.2 s1 e) hs

end Verif.Conn
