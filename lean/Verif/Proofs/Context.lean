import Verif.Spec.Context
/-!
Invariants of the context machine.
-/
namespace Verif.Context

def one (o : Option Nat) : Int := if o = none then 0 else 1

structure Inv (s : St) : Prop where
  lock : ∀ x, s.lock = some x ↔ s.ap x = .locked ∨ s.ap x = .reg
  n : s.n = one s.s0 + one s.s1
  stored : ∀ x, (s.s0 = some x ∨ s.s1 = some x ∨ x ∈ s.m) ↔ s.ap x = .done true ∧ s.gone x = false
  d01 : ∀ x, s.s0 = some x → s.s1 ≠ some x
  d0 : ∀ x, s.s0 = some x → x ∉ s.m
  d1 : ∀ x, s.s1 = some x → x ∉ s.m
  mnd : s.m.Nodup
  gone : ∀ x, s.gone x = true → s.ap x = .done true ∨ s.ap x = .done false
  called : ∀ x, s.ap x = .done false → s.called x = true
  started : ∀ x, s.started x = false

theorem inv_init : Inv init := by
  constructor <;> simp [init, one]

set_option maxHeartbeats 1000000 in
theorem inv_adder {s s' : St} {x : Nat} (h : Inv s) (hs : stepAdder s x = some s') : Inv s' := by
  unfold stepAdder at hs
  cases hp : s.ap x <;> simp only [hp, store] at hs
  all_goals
    (repeat' split at hs) <;> cases hs
  all_goals
    obtain ⟨⟩ := h
    constructor <;> first | assumption | grind [set, one, List.nodup_append, List.filter_sublist, List.Nodup.sublist]

theorem inv_delete {s : St} {x : Nat} (h : Inv s) (hx : s.ap x = .done true ∨ s.ap x = .done false) :
    Inv { delete s x with gone := set s.gone x true } := by
  unfold delete
  (repeat' split)
  all_goals
    obtain ⟨⟩ := h
    constructor <;> first | assumption | grind [set, one, List.nodup_append, List.filter_sublist, List.Nodup.sublist]

theorem inv_signal {s : St} (h : Inv s) : Inv (signal s) := by
  unfold signal
  split
  · split
    · exact h
    · exact { h with }
  · exact h

theorem inv_step {s s' : St} {c : Choice} (h : Inv s) (hs : step s c = some s') : Inv s' := by
  cases c <;> simp only [step] at hs
  case add x =>
    split at hs <;> cases hs
    obtain ⟨⟩ := h
    constructor <;> first | assumption | grind [set]
  case adder x => exact inv_adder h hs
  case remove x =>
    split at hs <;> cases hs
    exact inv_signal (inv_delete h (‹_ ∧ _›).2)
  case cancel e =>
    split at hs <;> cases hs
    · exact { h with }
    · exact h
  case canc =>
    unfold stepCancel at hs
    (repeat' split at hs) <;> cases hs
    all_goals
      obtain ⟨⟩ := h
      constructor <;> first | assumption | grind [set]
  case wait w =>
    (repeat' split at hs) <;> cases hs
    all_goals exact { h with }
  case goRet x =>
    simp only [childOk, Bool.false_eq_true, if_false] at hs
    split at hs <;> cases hs
    exact h

/-- An invariant which needs `Inv` and a condition on every state and choice of the run. -/
theorem along_run {I P : St → Prop} {Q : Choice → Prop}
    (hI : ∀ s c s', Inv s → I s → P s → Q c → step s c = some s' → P s' → I s') {s s' : St}
    {cs : List Choice} (h : Inv s) (hi : I s) (hc : Along P s cs) (hq : ∀ c ∈ cs, Q c) (hs : run s cs = some s') :
    Inv s' ∧ I s' := by
  induction cs generalizing s with
  | nil => cases hs; exact ⟨h, hi⟩
  | cons c cs ih =>
    simp only [run] at hs
    cases e' : step s c with
    | none => rw [e'] at hs; cases hs
    | some t =>
      rw [e'] at hs
      have ht := hc.2 t e'
      refine ih (inv_step h e') (hI s c t h hi hc.1 (hq c (List.mem_cons_self ..)) e' ?_) ht
        (fun c hm => hq c (List.mem_cons_of_mem _ hm)) hs
      cases cs with
      | nil => exact ht
      | cons _ _ => exact ht.1

theorem along_true (s : St) (cs : List Choice) : Along (fun _ => True) s cs := by
  induction cs generalizing s with
  | nil => trivial
  | cons c cs ih => exact ⟨trivial, fun s' _ => ih s'⟩

theorem inv_run {s : St} {cs : List Choice} (hs : run init cs = some s) : Inv s :=
  (along_run (I := fun _ => True) (P := fun _ => True) (Q := fun _ => True) (fun _ _ _ _ _ _ _ _ _ => trivial)
    inv_init trivial (along_true _ _) (fun _ _ => trivial) hs).1

/-- What holds of a cancellation which does not overlap the storing of a canceler. -/
structure Cancelled (s : St) : Prop where
  none : s.state = 0 → s.cp = .idle ∧ s.passes = 0
  some : s.state ≠ 0 → s.cp ≠ .idle
  readN : s.cp = .readN → s.m = []
  exit : s.cp = .exit → s.m = [] ∧ s.n = 0
  calling : ∀ l, s.cp = .calling l → ∀ x, s.ap x = .done true → s.gone x = false → x ∈ l ∨ s.called x = true
  passed : 0 < s.passes → ∀ x, s.ap x = .done true → s.gone x = false → s.called x = true

theorem copy_mem {s : St} (h : Inv s) {x : Nat} (h1 : s.ap x = .done true) (h2 : s.gone x = false) : x ∈ copy s := by
  have := (h.stored x).2 ⟨h1, h2⟩
  unfold copy
  grind

set_option maxHeartbeats 1000000 in
theorem cancelled_step (s : St) (c : Choice) (s' : St) (hi : Inv s) (h : Cancelled s) (hc : Clear s) (_ : True)
    (hs : step s c = some s') (_ : Clear s') : Cancelled s' := by
  unfold Clear at hc
  cases c <;> simp only [step] at hs
  case add x =>
    split at hs <;> cases hs
    obtain ⟨⟩ := h
    constructor <;> first | assumption | grind [set]
  case adder x =>
    unfold stepAdder at hs
    cases hp : s.ap x <;> simp only [hp, store] at hs
    all_goals
      (repeat' split at hs) <;> cases hs
    all_goals
      obtain ⟨⟩ := h
      constructor <;> first | assumption | grind [set]
  case remove x =>
    split at hs <;> cases hs
    have hn : s.m = [] → s.n = 0 → ∀ x, s.s0 ≠ some x ∧ s.s1 ≠ some x := by
      intro h1 h2
      have := hi.n
      unfold one at this
      grind
    have h' : Cancelled { delete s x with gone := set s.gone x true } := by
      unfold delete
      (repeat' split)
      all_goals
        obtain ⟨⟩ := h
        constructor <;> first | assumption | grind [set]
    unfold signal
    split
    · split
      · exact h'
      · exact ⟨h'.none, h'.some, h'.readN, h'.exit, h'.calling, h'.passed⟩
    · exact h'
  case cancel e =>
    split at hs <;> cases hs
    · obtain ⟨⟩ := h
      constructor <;> first | assumption | grind
    · exact h
  case canc =>
    have hm := fun x => @copy_mem s hi x
    have hn : s.n = 0 ∨ 0 < s.n := by
      have := hi.n
      unfold one at this
      grind
    unfold stepCancel at hs
    (repeat' split at hs) <;> cases hs
    all_goals
      obtain ⟨⟩ := h
      constructor <;> first | assumption | grind [set]
  case wait w =>
    (repeat' split at hs) <;> cases hs
    all_goals exact ⟨h.none, h.some, h.readN, h.exit, h.calling, h.passed⟩
  case goRet x =>
    simp only [childOk, Bool.false_eq_true, if_false] at hs
    split at hs <;> cases hs
    exact h

/-- With one goroutine in `WaitAll`: it sleeps only while something is registered. -/
structure Waiting (s : St) : Prop where
  queue : s.queue = [] ∨ s.queue = [0]
  asleep : s.wp 0 = .asleep ↔ s.queue = [0]
  some : s.queue ≠ [] → s.n ≠ 0 ∨ s.m ≠ []

set_option maxHeartbeats 1000000 in
theorem waiting_step (s : St) (c : Choice) (s' : St) (hi : Inv s) (h : Waiting s) (_ : True)
    (hq : ∀ w, c = .wait w → w = 0) (hs : step s c = some s') (_ : True) : Waiting s' := by
  cases c <;> simp only [step] at hs
  case adder x =>
    have hn : s.n ≠ 0 → 0 < s.n := by
      have := hi.n
      unfold one at this
      grind
    unfold stepAdder at hs
    cases hp : s.ap x <;> simp only [hp, store] at hs
    all_goals
      (repeat' split at hs) <;> cases hs
    all_goals
      obtain ⟨⟩ := h
      constructor <;> first | assumption | grind [List.append_eq_nil_iff]
  case remove x =>
    split at hs <;> cases hs
    unfold signal delete
    (repeat' split)
    all_goals
      obtain ⟨⟩ := h
      constructor <;> first | assumption | grind [set, List.length_eq_zero_iff]
  case canc =>
    unfold stepCancel at hs
    (repeat' split at hs) <;> cases hs
    all_goals exact ⟨h.queue, h.asleep, h.some⟩
  case wait w =>
    have := hq w rfl
    subst this
    (repeat' split at hs) <;> cases hs
    all_goals
      obtain ⟨⟩ := h
      constructor <;> first | assumption | grind [set, List.length_eq_zero_iff]
  case goRet x =>
    simp only [childOk, Bool.false_eq_true, if_false] at hs
    split at hs <;> cases hs
    exact h
  all_goals
    (repeat' split at hs) <;> cases hs
    all_goals exact ⟨h.queue, h.asleep, h.some⟩

end Verif.Context
