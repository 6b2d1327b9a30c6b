import Verif.Proofs.GenShare

/-! C113: requests made from contexts that share generators. -/
namespace Verif.GenShare

/-- C113, in part: if no context is used after or during its `Done`, all requests handed out are different objects. -/
theorem C113_distinct_partial {cap cs s} (h : run cap init cs = some s) (ho : Orderly cap init cs) : Distinct s :=
  (inv_run inv_init (fun _ h => h.elim) ho h).elim fun _ i => i.distinct

/-- C113, in part: ... and each has the body asked for. -/
theorem C113_body_partial {cap cs s} (h : run cap init cs = some s) (ho : Orderly cap init cs) : OwnBody s :=
  (inv_run inv_init (fun _ h => h.elim) ho h).elim fun _ i => i.body

/-- C113, in part: ... and nobody panics. -/
theorem C113_no_panic_partial {cap cs s} (h : run cap init cs = some s) (ho : Orderly cap init cs) (u : Nat) : s.pc u ≠ .dead := by
  obtain ⟨D, i⟩ := inv_run inv_init (fun _ h => h.elim) ho h
  by_cases hd : D u
  · rw [i.quiet u hd]; simp
  · exact i.alive u hd

/-- User `u` makes a request. -/
def whole (u v : Nat) : List Choice := .call u v :: List.replicate 7 (.go u)

/-- Users 0 and 1 at the same time; user 0 ends, and user 2 goes on with its generator. -/
def goodRun : List Choice := [.call 0 5, .call 1 6] ++ List.replicate 7 (.go 0) ++ List.replicate 3 (.go 1) ++ [.done 0, .call 2 7] ++
  List.replicate 4 (.go 1) ++ List.replicate 7 (.go 2)

example : (run 128 init goodRun).any (fun s => s.out = [⟨2, 0, 1, 7, [7]⟩, ⟨1, 1, 0, 6, [6]⟩, ⟨0, 0, 0, 5, [5]⟩]) = true := by rfl

/-- `Orderly` can be decided. -/
def orderlyB (cap : Nat) : St → List Choice → Bool
  | _, [] => true
  | s, c :: cs => (match c with
      | .done u => decide (s.pc u = .idle) && cs.all fun c => match c with
        | .go w => w ≠ u
        | .call w _ => w ≠ u
        | .done _ => true
      | _ => true) && match step cap s c with
      | none => true
      | some s => orderlyB cap s cs

theorem orderly_of {cap s cs} (h : orderlyB cap s cs = true) : Orderly cap s cs := by
  induction cs generalizing s with
  | nil => trivial
  | cons c cs ih =>
    simp only [orderlyB, Bool.and_eq_true] at h
    refine ⟨?_, ?_⟩
    · rintro u rfl
      have h1 := h.1
      simp only [Bool.and_eq_true, decide_eq_true_eq, List.all_eq_true] at h1
      refine ⟨h1.1, fun hm => ?_, fun v hm => ?_⟩
      · have := h1.2 _ hm; simp at this
      · have := h1.2 _ hm; simp at this
    · intro s' hs
      have h2 := h.2
      rw [hs] at h2
      exact ih h2

example : Orderly 128 init goodRun := orderly_of (by rfl)

/-- A handler (user 0) answers its request, which calls `Done` of its context, and goes on; user 1 gets the same generator, and both are at
the same place of it. -/
def sameRun : List Choice := whole 0 5 ++ [.done 0, .call 1 6] ++ List.replicate 3 (.go 1) ++ [.call 0 7] ++ List.replicate 7 (.go 0) ++
  List.replicate 4 (.go 1)

/-- C113 does not hold: two users get the same request. -/
theorem C113_same_request_violated : ∃ s, run 128 init sameRun = some s ∧ ¬ Distinct s := by
  have : (run 128 init sameRun).any (fun s => s.out = [⟨1, 0, 1, 6, [6]⟩, ⟨0, 0, 1, 7, [7]⟩, ⟨0, 0, 0, 5, [5]⟩]) = true := by rfl
  cases h : run 128 init sameRun with
  | none => rw [h] at this; cases this
  | some s =>
    rw [h] at this
    have := of_decide_eq_true this
    exact ⟨s, rfl, by unfold Distinct; rw [this]; decide⟩

def mixRun : List Choice := whole 0 5 ++ [.done 0, .call 1 6] ++ List.replicate 6 (.go 1) ++ [.call 0 7] ++ List.replicate 7 (.go 0) ++
  [.go 1]

/-- C113 does not hold: a request has the body of another one in its body, and that one has none. -/
theorem C113_bodies_mixed_violated : ∃ s, run 128 init mixRun = some s ∧ ⟨0, 0, 2, 7, [6, 7]⟩ ∈ s.out ∧ ⟨1, 0, 1, 6, []⟩ ∈ s.out := by
  have : (run 128 init mixRun).any (fun s => s.out = [⟨1, 0, 1, 6, []⟩, ⟨0, 0, 2, 7, [6, 7]⟩, ⟨0, 0, 0, 5, [5]⟩]) = true := by rfl
  cases h : run 128 init mixRun with
  | none => rw [h] at this; cases this
  | some s =>
    rw [h] at this
    have := of_decide_eq_true this
    exact ⟨s, rfl, by rw [this]; simp, by rw [this]; simp⟩

def panicRun : List Choice := (List.replicate 31 (whole 0 5)).flatten ++ [.done 0, .call 1 6] ++ List.replicate 4 (.go 1) ++
  [.call 0 7] ++ List.replicate 3 (.go 0)

/-- C113 does not hold: a user panics (index out of range). -/
theorem C113_panic_violated : ∃ s, run 128 init panicRun = some s ∧ s.pc 0 = .dead := by
  have : (run 128 init panicRun).any (fun s => s.pc 0 = .dead) = true := by decide +kernel
  cases h : run 128 init panicRun with
  | none => rw [h] at this; cases this
  | some s =>
    rw [h] at this
    exact ⟨s, rfl, of_decide_eq_true this⟩

end Verif.GenShare
