import Verif.Model.Multi
/-!
Invariants of the multi-request machine.
-/
namespace Verif.Multi

/-- The request has been counted in `w.c`. -/
def RPc.counted : RPc → Bool
  | .unlock | .close | .remove | .done | .closePanic => true
  | _ => false

/-- The goroutine holds the lock. -/
def RPc.locked : RPc → Bool
  | .check | .add | .count | .unlock | .miss => true
  | _ => false

/-- The goroutine saw that `w.ch` is set. -/
def RPc.fast : RPc → Bool
  | .miss | .send | .bump | .close | .remove | .sendPanic | .closePanic => true
  | _ => false

/-- The owner is in `Request`. -/
def OPc.calling : OPc → Bool
  | .store _ | .chk _ | .chkK _ | .chkA .. | .failW _ => true
  | _ => false

def OPc.locked : OPc → Bool
  | .rCmp | .rTake | .eChan | .eSend _ | .eCmp | .eClose | .eUnlock | .chanPanic => true
  | _ => false

/-- `Each` has made the channel. -/
def OPc.opened : OPc → Bool
  | .eSend _ | .eCmp | .eClose | .eUnlock | .fin .each | .chanPanic => true
  | _ => false

/-- `Results` has set mrWait and may wait. -/
def OPc.waits : OPc → Bool
  | .rCmp | .rWait _ => true
  | _ => false

/-- The request the owner has created and may have to fail. -/
def OPc.mine : OPc → Option Nat
  | .chk i | .chkK i | .chkA i _ | .failW i => some i
  | _ => none

/-- The request the owner is about to fail if need be. -/
def OPc.todo : OPc → Option Nat
  | .chk i | .chkK i | .chkA i _ => some i
  | _ => none

/-- Where the owner is in the loop of `performFailAll`. -/
def OPc.loop : OPc → Option (Nat × Nat)
  | .fail _ i n | .fail2 _ i n | .failK _ i n | .failA _ i n _ | .failX _ i n => some (i, n)
  | _ => none

def OPc.at : OPc → Option (Nat × Nat)
  | .fail2 _ i n | .failK _ i n | .failA _ i n _ => some (i, n)
  | _ => none

def OPc.code : OPc → Option UInt32
  | .chkA _ x | .failA _ _ _ x => some x
  | _ => none

/-- Where a canceler is in the loop of `performFailAll`. -/
def CPc.loop : CPc → Option (Nat × Nat)
  | .fail _ i n | .fail2 _ i n | .failK _ i n | .failA _ i n _ | .failX _ i n => some (i, n)
  | _ => none

def CPc.at : CPc → Option (Nat × Nat)
  | .fail2 _ i n | .failK _ i n | .failA _ i n _ => some (i, n)
  | _ => none

structure Inv (s : St) : Prop where
  store : ∀ i, s.own = .store i → s.len = i + 1 ∧ s.r = i ∧ s.ret = i
  chk : ∀ i, s.own.mine = some i → s.len = i + 1 ∧ s.r = i + 1 ∧ s.ret = i
  quiet : s.own.calling = false → s.len = s.r ∧ s.ret = s.r
  code : ∀ i, s.code i = none ↔ s.rp i = .idle
  lt : ∀ i, s.rp i ≠ .idle → i < s.r
  logN : s.log.Nodup
  logMem : ∀ i, i ∈ s.log ↔ (s.rp i).counted = true
  logLen : s.c = s.log.length
  gone : ∀ a i, s.gone a i = true → s.rp i ≠ .idle
  respMem : ∀ i, i ∈ s.responses → s.rp i ≠ .idle
  sendMem : ∀ l, s.own = .eSend l → ∀ i, i ∈ l → s.rp i ≠ .idle
  lockR : ∀ i, s.lock = some (.resp i) ↔ (s.rp i).locked = true
  lockO : s.lock = some .owner ↔ s.own.locked = true
  ch : s.ch = none ↔ s.own.opened = false
  fast : ∀ i, (s.rp i).fast = true → s.own.opened = true
  respN : s.own.opened = false → s.own ≠ .fin .results → s.responses.Nodup
  respLog : s.own.opened = false → s.own ≠ .fin .results →
    ∀ i, i ∈ s.responses ↔ i ∈ s.log ∨ s.rp i = .count
  waits : s.own.waits = true → s.wait = true
  sleep : s.own = .rWait false → s.c < s.r
  woken : s.own = .rWait true → s.c = s.r
  takes : s.own = .rTake → s.c = s.r
  fin : s.own = .fin .results → s.c = s.r ∧ s.removed = true ∧ s.got ≠ none
  got : ∀ l, s.got = some l → s.own = .fin .results ∧ l.Nodup ∧ ∀ i, i ∈ l ↔ i < s.r
  kind : ∀ k, s.cp k ≠ .idle → s.cancel = true ∨ s.expire = true
  readR : ∀ k e c, s.cp k = .readR e c → c ≤ s.c
  cLo : ∀ k i n, (s.cp k).loop = some (i, n) → ∀ j, j < i → s.rp j ≠ .idle
  cHi : ∀ k i n, (s.cp k).loop = some (i, n) →
    ∀ j, n ≤ j → j < s.r → s.rp j ≠ .idle ∨ s.own.todo = some j
  cX : ∀ k a i n, s.cp k = .failX a i n → s.rp i ≠ .idle
  cDone : ∀ k, s.cp k = .done true → ∀ j, j < s.r → s.rp j ≠ .idle ∨ s.own.todo = some j

  oN : ∀ i n, s.own.loop = some (i, n) → n ≤ s.r
  oI : ∀ i n, s.own.at = some (i, n) → i < n
  oC : ∀ i, s.own = .chkK i → s.cancel = true ∨ s.expire = true
  oK : ∀ x, s.own.code = some x → (s.cancel = true ∧ x = rcCanceled) ∨ (s.expire = true ∧ x = rcTimeout)
  cN : ∀ k i n, (s.cp k).loop = some (i, n) → n ≤ s.r
  cI : ∀ k i n, (s.cp k).at = some (i, n) → i < n
  cK : ∀ k a i n x, s.cp k = .failA a i n x → (s.cancel = true ∧ x = rcCanceled) ∨ (s.expire = true ∧ x = rcTimeout)

theorem inv_init : Inv init := by
  constructor <;> simp [init, OPc.mine, OPc.todo, OPc.loop, OPc.at, OPc.code, CPc.loop, CPc.at, OPc.calling, OPc.locked, OPc.opened, OPc.waits, RPc.counted, RPc.locked, RPc.fast]

theorem nodup_length {l l' : List Nat} (h : l.Nodup) (hl : ∀ i ∈ l, i ∈ l') : l.length ≤ l'.length := by
  induction l generalizing l' with
  | nil => exact Nat.zero_le _
  | cons a l ih =>
    have hn := List.nodup_cons.1 h
    have ha := hl a (List.mem_cons_self ..)
    have := ih (l' := l'.erase a) hn.2 fun i hi =>
      (List.mem_erase_of_ne (by rintro rfl; exact hn.1 hi)).2 (hl i (List.mem_cons_of_mem _ hi))
    rw [List.length_erase_of_mem ha] at this
    have := List.length_pos_of_mem ha
    rw [List.length_cons]
    omega

/-- A list without repetition of numbers below `n` has at most `n` elements; if it has `n`, it has all of them. -/
theorem nodup_bound {l : List Nat} {n : Nat} (h : l.Nodup) (hl : ∀ i ∈ l, i < n) :
    l.length ≤ n ∧ (l.length = n → ∀ i, i < n → i ∈ l) := by
  have key : ∀ l : List Nat, l.Nodup → (∀ i ∈ l, i < n) → l.length ≤ n := by
    intro l h hl
    have := nodup_length h (l' := List.range n) fun i hi => List.mem_range.2 (hl i hi)
    rwa [List.length_range] at this
  refine ⟨key l h hl, fun e i hi => Decidable.byContradiction fun hn => ?_⟩
  have := key (i :: l) (List.nodup_cons.2 ⟨hn, h⟩) (by
    intro j hj
    rcases List.mem_cons.1 hj with rfl | hj
    · exact hi
    · exact hl j hj)
  rw [List.length_cons] at this
  omega

theorem Inv.all {s : St} (h : Inv s) : s.c ≤ s.r ∧ (s.c = s.r → ∀ i, i < s.r → i ∈ s.log) := by
  rw [h.logLen]
  refine nodup_bound h.logN fun i hi => h.lt i ?_
  have := (h.logMem i).1 hi
  intro e
  rw [e] at this
  cases this

/-- When the counter equals the number of requests, all of them were answered. -/
theorem Inv.answered {s : St} (h : Inv s) {c : Nat} (hc : c ≤ s.c) (hr : c = s.r) {j : Nat} (hj : j < s.r) :
    s.rp j ≠ .idle := by
  have := (h.logMem j).1 (h.all.2 (by have := h.all.1; omega) j hj)
  intro e
  rw [e] at this
  cases this

theorem inv_answer {s : St} (h : Inv s) {i : Nat} {code : UInt32} (hi : i < s.r) : Inv (answer s i code) := by
  unfold answer
  cases hc : s.code i <;> simp only
  · have := (h.code i).1 hc
    obtain ⟨⟩ := h
    constructor <;> first | assumption | grind [set, RPc.counted, RPc.locked, RPc.fast]
  · exact h

theorem answer_rp (s : St) (i : Nat) (x : UInt32) (h : Inv s) : (answer s i x).rp i ≠ .idle := by
  unfold answer
  split
  · intro e
    rw [(h.code i).2 e] at *
    cases ‹none = some _›
  · simp [set]

theorem answer_own (s : St) (i : Nat) (x : UInt32) : (answer s i x).own = s.own := by grind [answer]

theorem failCode_none {s : St} (h : failCode s = none) : s.cancel = false ∧ s.expire = false := by grind [failCode]

theorem failCode_some {s : St} {x : UInt32} (h : failCode s = some x) :
    (s.cancel = true ∧ x = rcCanceled) ∨ (s.expire = true ∧ x = rcTimeout) := by grind [failCode]

end Verif.Multi
