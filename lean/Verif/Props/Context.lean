import Verif.Proofs.Context
/-!
Theorems about contexts (C44, C45, C46).
-/
namespace Verif.Context

theorem any_some {o : Option St} {p : St → Prop} [DecidablePred p] (h : (o.any fun s => p s) = true) :
    ∃ s, o = some s ∧ p s := by
  cases o with
  | none => cases h
  | some s => exact ⟨s, rfl, of_decide_eq_true h⟩

def times (n : Nat) (c : Choice) : List Choice := List.replicate n c

/-- Register canceler `x`. -/
def reg (x : Nat) : List Choice := .add x :: times 4 (.adder x)

theorem Inv.empty {s : St} (h : Inv s) : (s.n = 0 ∧ s.m.length = 0) ↔ ∀ x, ¬ Outstanding s x := by
  have hn := h.n
  have hs := h.stored
  clear h
  unfold Outstanding
  unfold one at hn
  constructor
  · rintro ⟨h1, h2⟩ x hx
    have := (hs x).2 hx
    have := List.length_eq_zero_iff.1 h2
    grind
  · intro h
    have h0 : ∀ x, ¬ (s.s0 = some x ∨ s.s1 = some x ∨ x ∈ s.m) := fun x hx => h x ((hs x).1 hx)
    have h1 : s.s0 = none := by
      cases e : s.s0 with
      | none => rfl
      | some x => exact absurd (.inl e) (h0 x)
    have h2 : s.s1 = none := by
      cases e : s.s1 with
      | none => rfl
      | some x => exact absurd (.inr (.inl e)) (h0 x)
    have h3 : s.m = [] := by
      cases e : s.m with
      | nil => rfl
      | cons x l => exact absurd (.inr (.inr (by rw [e]; exact List.mem_cons_self ..))) (h0 x)
    rw [h1, h2] at hn
    rw [h3]
    exact ⟨by simpa using hn, rfl⟩

theorem cancelled_run {s : St} {cs : List Choice} (h : run init cs = some s) (hc : Along Clear init cs) :
    Inv s ∧ Cancelled s :=
  along_run (Q := fun _ => True) cancelled_step inv_init (by constructor <;> simp [init]) hc (fun _ _ => trivial) h

theorem Inv.copy_nodup {s : St} (h : Inv s) : (copy s).Nodup := by
  obtain ⟨⟩ := h
  unfold copy
  cases h0 : s.s0 <;> cases h1 : s.s1 <;> grind [List.nodup_append]

theorem Inv.copy_length {s : St} (h : Inv s) : s.n + s.m.length = (copy s).length := by
  have := h.n
  unfold copy
  cases h0 : s.s0 <;> cases h1 : s.s1 <;> simp [h0, h1, one] at * <;> omega

/-- Deciding `Clear` for given runs. -/
def clearB (K : Nat) (s : St) : Bool := s.state = 0 || (List.range K).all fun x => s.ap x ≠ .reg

def alongB (P : St → Bool) : St → List Choice → Bool
  | s, [] => P s
  | s, c :: cs => P s && match step s c with | some s' => alongB P s' cs | none => true

theorem clear_of {K : Nat} {s : St} (hk : ∀ x, K ≤ x → s.ap x = .idle) (hb : clearB K s = true) : Clear s := by
  intro h0 x hx
  unfold clearB at hb
  simp only [Bool.or_eq_true, List.all_eq_true, List.mem_range] at hb
  rcases hb with hb | hb
  · exact h0 (of_decide_eq_true hb)
  · rcases Nat.lt_or_ge x K with h1 | h1
    · exact of_decide_eq_true (hb x h1) hx
    · rw [hk x h1] at hx; cases hx

theorem idle_step {K : Nat} {s s' : St} {c : Choice} (hk : ∀ x, K ≤ x → s.ap x = .idle)
    (hc : ∀ x, c = .add x → x < K) (hs : step s c = some s') : ∀ x, K ≤ x → s'.ap x = .idle := by
  intro x hx
  have h0 := hk x hx
  cases c <;> simp only [step] at hs
  case add y =>
    have := hc y rfl
    split at hs <;> cases hs
    have : x ≠ y := by omega
    simp [set, this, h0]
  case adder y =>
    by_cases e : x = y
    · subst e
      unfold stepAdder at hs
      rw [h0] at hs
      cases hs
    · unfold stepAdder store at hs
      (repeat' split at hs) <;> cases hs <;> simp [set, e, h0]
  case canc =>
    unfold stepCancel at hs
    (repeat' split at hs) <;> cases hs <;> exact h0
  case remove y =>
    split at hs <;> cases hs
    unfold signal delete
    (repeat' split) <;> exact h0
  all_goals
    (repeat' split at hs) <;> cases hs <;> first | exact h0 | (split <;> exact h0)

theorem along_clear {K : Nat} {s : St} {cs : List Choice} (hk : ∀ x, K ≤ x → s.ap x = .idle)
    (hc : (cs.all fun c => match c with | .add x => decide (x < K) | _ => true) = true)
    (hb : alongB (clearB K) s cs = true) : Along Clear s cs := by
  induction cs generalizing s with
  | nil => exact clear_of hk hb
  | cons c cs ih =>
    simp only [alongB, Bool.and_eq_true] at hb
    simp only [List.all_cons, Bool.and_eq_true] at hc
    refine ⟨clear_of hk hb.1, fun s' hs => ?_⟩
    rw [hs] at hb
    refine ih (idle_step hk ?_ hs) hc.2 hb.2
    rintro x rfl
    exact of_decide_eq_true hc.1

end Verif.Context

namespace Verif.Props
open Verif.Context

/-- C44 does not hold: `AddCanceler` looks at `State` under the lock, `Cancel` changes it and looks at the sizes without
it. If both happen before the canceler is stored, it is never cancelled. -/
theorem C44_missed_violated :
    ∃ s, run init ([.add 0] ++ times 3 (.adder 0) ++ [.cancel false, .canc, .canc, .adder 0]) = some s ∧
      (s.cp = .exit ∧ s.ap 0 = .done true ∧ s.gone 0 = false ∧ s.called 0 = false) := by
  apply any_some (p := fun s : St => s.cp = .exit ∧ s.ap 0 = .done true ∧ s.gone 0 = false ∧ s.called 0 = false)
  decide +kernel

/-- C44, in part: if the context is not cancelled between the look at `State` and the storing of a canceler, then once
`cancelAll` has been through with the registered cancelers (or has ended), every canceler whose registration has
returned was cancelled or was unregistered by its owner; and `cancelAll` ends only when nothing is registered. -/
theorem C44_all_cancelled_partial {cs : List Choice} {s : St} (h : run init cs = some s) (hc : Along Clear init cs) :
    (0 < s.passes ∨ s.cp = .exit → ∀ x, Added s x → s.called x = true ∨ s.gone x = true) ∧
      (s.cp = .exit → ∀ x, ¬ Outstanding s x) := by
  obtain ⟨hi, hd⟩ := cancelled_run h hc
  have hx : s.cp = .exit → ∀ x, ¬ Outstanding s x := by
    intro he
    have := hd.exit he
    exact hi.empty.1 ⟨this.2, by rw [this.1]; rfl⟩
  refine ⟨?_, hx⟩
  rintro hp x (ha | ha)
  · cases hg : s.gone x
    · rcases hp with hp | hp
      · exact .inl (hd.passed hp x ha hg)
      · exact absurd ⟨ha, hg⟩ (hx hp x)
    · exact .inr rfl
  · exact .inl (hi.called x ha)

/-- Four cancelers, one of which comes after the cancellation; two of the others are unregistered when cancelled, the
third before. -/
def cancelRun : List Choice :=
  reg 0 ++ reg 1 ++ reg 2 ++ [.cancel true] ++ times 2 .canc ++ [.remove 0, .add 3] ++ times 2 (.adder 3) ++
    times 4 .canc ++ [.remove 2, .remove 1] ++ times 2 .canc

example : (run init cancelRun).any (fun s => s.cp = .exit ∧ s.passes = 1 ∧ s.ap 3 = .done false ∧
    s.called 0 = true ∧ s.called 1 = true ∧ s.called 2 = true ∧ s.called 3 = true) = true := by decide +kernel

example : Along Clear init cancelRun :=
  along_clear (K := 4) (fun _ _ => rfl) (by decide +kernel) (by decide +kernel)

/-- C45: in every reachable state the context has stored exactly the cancelers which are registered and not
unregistered; their number is the sum of its two counts, which are both zero exactly when there is none. -/
theorem C45_count {cs : List Choice} {s : St} (h : run init cs = some s) :
    (∀ x, Stored s x ↔ Outstanding s x) ∧
      (∃ l : List Nat, l.Nodup ∧ (∀ x, x ∈ l ↔ Outstanding s x) ∧ s.n + s.m.length = l.length) ∧
      ((s.n = 0 ∧ s.m.length = 0) ↔ ∀ x, ¬ Outstanding s x) := by
  have hi := inv_run h
  refine ⟨hi.stored, ⟨copy s, hi.copy_nodup, fun x => ?_, hi.copy_length⟩, hi.empty⟩
  have := hi.stored x
  unfold Outstanding
  rw [← this]
  simp [copy]

/-- C45: `WaitAll` looks under the lock; it returns if nothing is registered, and sleeps otherwise. -/
theorem C45_wait_looks {cs : List Choice} {s s' : St} {w : Nat} (h : run init cs = some s)
    (hs : step s (.wait w) = some s') :
    (s'.wp w = .done ↔ ∀ x, ¬ Outstanding s x) ∧ (s'.wp w = .asleep ↔ ∃ x, Outstanding s x) := by
  have hi := (inv_run h).empty
  simp only [step] at hs
  split at hs
  · split at hs <;> cases hs
    · have hne : ¬ ∀ x, ¬ Outstanding s x := fun ha => by
        have := hi.2 ha
        omega
      simp only [Context.set, if_true, reduceCtorEq, false_iff, true_iff]
      exact ⟨hne, by simpa using hne⟩
    · have hne : ∀ x, ¬ Outstanding s x := hi.1 (by omega)
      simp only [Context.set, if_true, reduceCtorEq, false_iff, true_iff]
      exact ⟨hne, fun ⟨x, hx⟩ => hne x hx⟩
  · cases hs

/-- C45 does not hold for two callers of `WaitAll`: `RemoveCanceler` wakes only one of them, and the other sleeps although
nothing is registered. -/
theorem C45_two_waiters_violated :
    ∃ s, run init (reg 0 ++ [.wait 0, .wait 1, .remove 0, .wait 0]) = some s ∧
      (s.wp 0 = .done ∧ s.wp 1 = .asleep ∧ s.n = 0 ∧ s.m = []) := by
  apply any_some (p := fun s : St => s.wp 0 = .done ∧ s.wp 1 = .asleep ∧ s.n = 0 ∧ s.m = [])
  decide +kernel

/-- C45, in part: with one caller, `WaitAll` sleeps only while something is registered. -/
theorem C45_one_waiter_partial {cs : List Choice} {s : St} (h : run init cs = some s)
    (hw : ∀ w, .wait w ∈ cs → w = 0) (hs : s.wp 0 = .asleep) : ∃ x, Outstanding s x := by
  obtain ⟨hi, hd⟩ := along_run (P := fun _ => True) (Q := fun c => ∀ w, c = .wait w → w = 0) waiting_step inv_init
    (by constructor <;> simp [init]) (along_true _ _) (fun c hc w e => hw w (e ▸ hc)) h
  have h1 := hd.asleep.1 hs
  have h2 := hd.some (by rw [h1]; simp)
  apply Classical.byContradiction
  intro hne
  have := hi.empty.2 fun x hx => hne ⟨x, hx⟩
  rcases h2 with h2 | h2
  · exact h2 this.1
  · exact h2 (List.length_eq_zero_iff.1 this.2)

example : (run init (reg 0 ++ reg 1 ++ reg 2 ++ [.wait 0, .remove 1, .remove 0])).any (fun s =>
    s.wp 0 = .asleep ∧ s.m = [2] ∧ s.n = 0) = true := by decide +kernel
example : (run init (reg 0 ++ reg 1 ++ reg 2 ++ [.wait 0, .remove 1, .remove 0, .remove 2, .wait 0])).any (fun s =>
    s.wp 0 = .done) = true := by decide +kernel

/-- C46 does not hold at all: `Child` never sets its result `ok`, so `Go` and its variants never start the function. -/
theorem C46_never_started_violated {cs : List Choice} {s : St} {x : Nat} (h : run init cs = some s) :
    s.started x = false :=
  (inv_run h).started x

/-- C46: on a live context too (the child is registered, and stays so until somebody calls `Done`). -/
theorem C46_live_violated :
    ∃ s, run init (reg 0 ++ [.goRet 0]) = some s ∧
      (s.state = 0 ∧ s.started 0 = false ∧ s.ap 0 = .done true ∧ s.gone 0 = false) := by
  apply any_some (p := fun s : St => s.state = 0 ∧ s.started 0 = false ∧ s.ap 0 = .done true ∧ s.gone 0 = false)
  decide +kernel

/-- C68 does not hold: `cancelAll` goes on until everything registered is unregistered, however often it has called
`Cancel` of it. A child whose `Done` nobody calls (with `Go`, that is every child: C46) keeps it in the loop. -/
theorem C68_spins_violated {cs : List Choice} {s : St} {x : Nat} (h : run init cs = some s)
    (hc : Along Clear init cs) (ha : s.ap x = .done true) (hg : s.gone x = false) : s.cp ≠ .exit :=
  fun he => (C44_all_cancelled_partial h hc).2 he x ⟨ha, hg⟩

/-- C68: two rounds, still going. -/
def spinRun : List Choice := reg 0 ++ [.goRet 0, .cancel false] ++ times 5 .canc ++ times 5 .canc

example : (run init spinRun).any (fun s => s.ap 0 = .done true ∧ s.gone 0 = false ∧ s.called 0 = true ∧
    s.passes = 2) = true := by decide +kernel
example : Along Clear init spinRun :=
  along_clear (K := 1) (fun _ _ => rfl) (by decide +kernel) (by decide +kernel)

/-- C68, in part: if everything registered is unregistered, `cancelAll`, at the head of its
loop, ends in two steps. -/
theorem C68_ends_partial {cs : List Choice} {s : St} (h : run init cs = some s) (hp : s.cp = .readM)
    (ho : ∀ x, ¬ Outstanding s x) : ∃ s', run s (times 2 .canc) = some s' ∧ s'.cp = .exit := by
  obtain ⟨hn, hm⟩ := (inv_run h).empty.2 ho
  simp [times, run, step, stepCancel, hp, hn, hm, List.replicate]

example : (run init (reg 0 ++ [.cancel false] ++ times 2 .canc ++ [.remove 0] ++ times 2 .canc)).any (fun s =>
    s.cp = .readM ∧ s.n = 0 ∧ s.m = []) = true := by decide +kernel

end Verif.Props
