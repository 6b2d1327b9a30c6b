import Verif.Proofs.ParallelStop
/-!
C136: `Stop` of a `ParallelService` ends it: everything comes to rest, and what was being handled is answered.
-/
namespace Verif.Props
open Verif.Parallel

/-- Left alone, the service comes to rest, stopped or not: from every state there is a number of steps that the dispatcher and the handlers cannot
exceed, in whatever order they run and whatever the handlers do when they end. -/
theorem C136_rest {n : Nat} {cs : List Choice} {s : St} (h : run (init n) cs = some s) :
    ∃ b, ∀ ret ds s', (∀ c ∈ ds, Ending ret c) → run s ds = some s' → ds.length ≤ b :=
  ⟨work2 s, fun _ _ _ hc hd => by have := (ending_run h hc hd).1; omega⟩

/-- When a service on which `Stop` was called has come to rest, `Stop` has returned, the channel is empty, no handler is left, and all slots are free. -/
theorem C136_ended {n : Nat} {cs : List Choice} {s : St} (h : run (init n) cs = some s) (hs : s.stop ≠ .idle) {ret : Nat → Outcome}
    {ds : List Choice} {s' : St} (hc : ∀ c ∈ ds, Ending ret c) (hd : run s ds = some s') (hq : ∀ c, Ending ret c → step s' c = none) :
    s'.stop = .done ∧ s'.ch = [] ∧ (∀ r, ¬ Live s' r) ∧ s'.sema = if n = 0 then 1 else n := by
  obtain ⟨-, h2, ⟨cs', h3⟩, -⟩ := ending_run h hc hd
  obtain ⟨r1, r2, r3⟩ := rest_disp h3 (fun e => hs (h2.1 e)) hq
  refine ⟨r3, r2, rest_hand h3 hq, ?_⟩
  obtain ⟨l, hl, hn⟩ := C48_slots h3
  have : l = [] := by
    cases l with
    | nil => rfl
    | cons a l => exact absurd ((hl.2 a).1 (by simp)) (rest_hand h3 hq a)
  subst this
  rw [r1] at hn
  simpa [holds] using hn

/-- At rest every request that was sent before is answered, but for those which the dispatcher received after it had left its loop (C50). -/
theorem C136_answered {n : Nat} {cs : List Choice} {s : St} (h : run (init n) cs = some s) (hs : s.stop ≠ .idle) {ret : Nat → Outcome}
    {ds : List Choice} {s' : St} (hc : ∀ c ∈ ds, Ending ret c) (hd : run s ds = some s') (hq : ∀ c, Ending ret c → step s' c = none) {r : Nat}
    (hr : s.rs r ≠ .new) (hn : r ∉ s'.drained) : s'.ans r ≠ none := by
  obtain ⟨-, h2, ⟨cs', h3⟩, h4⟩ := ending_run h hc hd
  obtain ⟨r1, r2, -⟩ := rest_disp h3 (fun e => hs (h2.1 e)) hq
  intro ha
  rcases C50_not_lost_partial h3 (h4 r hr) ha with g | g | g | g
  · rw [r2] at g; cases g
  · unfold Held at g; rw [r1] at g; simp at g
  · exact rest_hand h3 hq r g
  · exact hn g

/-- What a handler was started for is answered, stopped or not. -/
theorem C136_handled {n : Nat} {cs : List Choice} {s : St} (h : run (init n) cs = some s) {ret : Nat → Outcome}
    {ds : List Choice} {s' : St} (hc : ∀ c ∈ ds, Ending ret c) (hd : run s ds = some s') (hq : ∀ c, Ending ret c → step s' c = none) {r : Nat}
    (hr : s'.h r ≠ .idle) : s'.h r = .ended ∧ s'.ans r ≠ none := by
  obtain ⟨-, -, ⟨cs', h3⟩, -⟩ := ending_run h hc hd
  have he : s'.h r = .ended := Classical.byContradiction fun g => rest_hand h3 hq r ⟨hr, g⟩
  obtain ⟨src, c, e, -⟩ := C49_answered_partial h3 he
  exact ⟨he, by simp [e]⟩

/-- One slot, three requests: the first one is handled, the second one waits for its slot, the third one is in the channel; `Stop` is called. -/
def stopCalled : List Choice := [.send 0, .send 1, .send 2] ++ List.replicate 9 .disp ++ [.stop]

/-- The dispatcher takes `exit` instead of the slot and receives the third request; the handler of the first one returns. -/
def toTheEnd : List Choice :=
  [.dispExit, .hand 0, .disp, .result 0 (.returned 7), .hand 0, .disp, .hand 0, .hand 0]

def allReturn : Nat → Outcome := fun _ => .returned 7

example : ((run (init 1) stopCalled).map fun s => (s.d, s.h 0, s.sema, s.stop, s.ch)) = some (.slot 1, .look, 0, .sending, [2]) := rfl

/-- Meets the hypotheses of `C136_ended`, `C136_answered` (for 0 and 1) and `C136_handled` (for 0). Request 2 shows that the guard is
needed. -/
example : ∃ s s', run (init 1) stopCalled = some s ∧ s.stop ≠ .idle ∧ s.rs 0 ≠ .new ∧ s.rs 1 ≠ .new ∧ s.rs 2 ≠ .new ∧ (∀ c ∈ toTheEnd, Ending allReturn c) ∧
    run s toTheEnd = some s' ∧ (∀ c, Ending allReturn c → step s' c = none) ∧ s'.h 0 ≠ .idle ∧ s'.ans 0 = some (.handler, 7) ∧
    s'.ans 1 = some (.shutdown, rcShutdown) ∧ s'.drained = [2] ∧ s'.ans 2 = none := by
  refine ⟨_, _, rfl, ?_, ?_, ?_, ?_, ?_, rfl, ?_, ?_, rfl, rfl, rfl, rfl⟩
  · exact SPc.noConfusion
  · exact RS.noConfusion
  · exact RS.noConfusion
  · exact RS.noConfusion
  · intro c hc
    simp only [toTheEnd, List.mem_cons, List.not_mem_nil, or_false] at hc
    unfold Ending IsDisp
    rcases hc with rfl | rfl | rfl | rfl | rfl | rfl | rfl | rfl <;> first
      | exact .inl (.inl rfl)
      | exact .inl (.inr rfl)
      | exact .inr ⟨0, .inl rfl⟩
      | exact .inr ⟨0, .inr rfl⟩
  · rintro c ((rfl | rfl) | ⟨x, rfl | rfl⟩)
    · rfl
    · rfl
    all_goals
      match x with
      | 0 => rfl
      | x + 1 => rfl
  · exact HPc.noConfusion

/-- ... and the bound of `C136_rest` is not zero there. -/
example : ∃ s s', run (init 1) stopCalled = some s ∧ run s toTheEnd = some s' ∧ toTheEnd.length = 8 := ⟨_, _, rfl, rfl, rfl⟩

end Verif.Props
