import Verif.Proofs.ParallelLive
/-!
C126: a `ParallelService` that is not stopped answers every request sent to it.
-/
namespace Verif.Props
open Verif.Parallel

/-- As long as the service has not been stopped, from every state and whatever the handlers do when they end, the dispatcher and the handlers can
go on until a given request is answered: no schedule before leads to a state from which it cannot be answered any more. -/
theorem C126_answers {n : Nat} {cs : List Choice} {s : St} (h : run (init n) cs = some s) (hs : s.stop = .idle) (ret : Nat → Outcome) {r : Nat}
    (hr : s.rs r ≠ .new) : ∃ ds s', (∀ c ∈ ds, Onward ret c) ∧ run s ds = some s' ∧ s'.ans r ≠ none := by
  generalize hw : work s = w
  induction w using Nat.strongRecOn generalizing s cs with
  | ind w ih =>
    by_cases ha : s.ans r = none
    · obtain ⟨c, s1, h1, h2, h3, h4⟩ := goes h hs ret hr ha
      obtain ⟨ds, s', g1, g2, g3⟩ := ih _ (hw ▸ h3) (run_snoc h h2) h4 (sent_stays h2 hr) rfl
      refine ⟨c :: ds, s', ?_, ?_, g3⟩
      · intro x hx
        rcases List.mem_cons.1 hx with e | hx
        · exact e ▸ h1
        · exact g1 x hx
      · simp [run, h2, g2]
    · exact ⟨[], s, by simp, rfl, ha⟩

/-- Left alone, the service comes to rest: from every state there is a number of steps that the dispatcher and the handlers cannot exceed, in
whatever order they run and whatever the handlers do when they end. -/
theorem C126_rest {n : Nat} {cs : List Choice} {s : St} (h : run (init n) cs = some s) (hs : s.stop = .idle) :
    ∃ b, ∀ ret ds s', (∀ c ∈ ds, Onward ret c) → run s ds = some s' → ds.length ≤ b :=
  ⟨work s, fun _ _ _ hc hd => by have := (onward_run h hs hc hd).1; omega⟩

/-- And when it has come to rest, every request sent before is answered: in whatever order the dispatcher and the handlers were run, when none of
them can go on there is none left. -/
theorem C126_all {n : Nat} {cs : List Choice} {s : St} (h : run (init n) cs = some s) (hs : s.stop = .idle) {ret : Nat → Outcome}
    {ds : List Choice} {s' : St} (hc : ∀ c ∈ ds, Onward ret c) (hd : run s ds = some s') (hq : ∀ c, Onward ret c → step s' c = none) {r : Nat}
    (hr : s.rs r ≠ .new) : s'.ans r ≠ none := by
  obtain ⟨-, h2, ⟨cs', h3⟩, h4⟩ := onward_run h hs hc hd
  intro ha
  obtain ⟨c, s1, g1, g2, -⟩ := goes h3 h2 ret (h4 r hr) ha
  rw [hq c g1] at g2
  cases g2

/-- One slot, two requests: the second one waits for the slot while the first one is handled. -/
def waiting : List Choice := [.send 0, .send 1] ++ List.replicate 9 .disp

/-- The first handler panics, the second one returns; then nothing is left to do. -/
def rest : List Choice :=
  [.hand 0, .result 0 .panicked, .hand 0, .hand 0] ++ List.replicate 2 .disp ++
  [.hand 1, .result 1 (.returned 7), .hand 1, .hand 1, .hand 1] ++ List.replicate 2 .disp

def rets : Nat → Outcome := fun r => if r = 0 then .panicked else .returned 7

example : ((run (init 1) waiting).map fun s => (s.d, s.h 0, s.sema, s.stop, s.rs 1)) = some (.slot 1, .look, 0, .idle, .pending) := rfl

/-- Meets the hypotheses of `C126_all`: the schedule consists of such steps, nothing can go on at its end, and both requests are answered. -/
example : ∃ s s', run (init 1) waiting = some s ∧ s.stop = .idle ∧ s.rs 0 ≠ .new ∧ s.rs 1 ≠ .new ∧ (∀ c ∈ rest, Onward rets c) ∧
    run s rest = some s' ∧ (∀ c, Onward rets c → step s' c = none) ∧ s'.ans 0 = some (.done, rcInternalError) ∧
    s'.ans 1 = some (.handler, 7) := by
  refine ⟨_, _, rfl, rfl, ?_, ?_, ?_, rfl, ?_, rfl, rfl⟩
  · exact RS.noConfusion
  · exact RS.noConfusion
  · intro c hc
    simp only [rest, List.replicate, List.cons_append, List.nil_append, List.mem_cons, List.not_mem_nil, or_false] at hc
    unfold Onward
    rcases hc with rfl | rfl | rfl | rfl | rfl | rfl | rfl | rfl | rfl | rfl | rfl | rfl | rfl <;> first
      | exact .inl rfl
      | exact .inr ⟨0, .inl rfl⟩
      | exact .inr ⟨1, .inl rfl⟩
      | exact .inr ⟨0, .inr rfl⟩
      | exact .inr ⟨1, .inr rfl⟩
  · rintro c (rfl | ⟨x, rfl | rfl⟩)
    · rfl
    all_goals
      match x with
      | 0 => rfl
      | 1 => rfl
      | x + 2 => rfl

/-- ... and the bound of `C126_rest` is not zero there. -/
example : ∃ s s', run (init 1) waiting = some s ∧ run s rest = some s' ∧ rest.length = 13 := ⟨_, _, rfl, rfl, rfl⟩

end Verif.Props
