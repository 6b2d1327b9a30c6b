import Verif.Proofs.TimerRest
/-!
C137: timers expire.
-/
namespace Verif.Props
open Verif.TimerLoop

/-- While nobody arms or stops timers and the clock stands still, the timer goroutine comes to rest: there is a number of steps that it and the
runtime timer cannot exceed; unless the clock shows exactly the deadline of an armed timer. -/
theorem C137_rest_partial (s : TimerLoop.St) (ho : ∀ p ∈ s.armed, p.2 ≠ s.now) :
    ∃ b, ∀ ds s', (∀ c ∈ ds, Alone c) → TimerLoop.run s ds = some s' → ds.length ≤ b :=
  ⟨work s, fun _ _ hc hr => by have := bounded hc ho hr; omega⟩

/-- In that case it goes round for as long as the clock shows the deadline, without expiring the timer: each time it sets the runtime timer to no
time at all. -/
theorem C137_spins_violated : ∃ cs s, TimerLoop.run TimerLoop.init cs = some s ∧ s.armed = [(1, 5)] ∧ s.now = 5 ∧
    ∀ k, ∃ ds, (∀ c ∈ ds, Alone c) ∧ ds.length = 5 * k ∧ TimerLoop.run s ds = some s := by
  refine ⟨[.loop, .loop, .loop, .after 1 5, .loop, .loop, .loop, .loop, .tick 5], _, rfl, rfl, rfl, fun k => ?_⟩
  induction k with
  | zero => exact ⟨[], by simp, rfl, rfl⟩
  | succ k ih =>
    obtain ⟨ds, h1, h2, h3⟩ := ih
    refine ⟨[.timer, .loop, .loop, .loop, .loop] ++ ds, ?_, ?_, ?_⟩
    · intro c hc
      rcases List.mem_append.1 hc with hc | hc
      · simp only [List.mem_cons, List.not_mem_nil, or_false] at hc
        rcases hc with rfl | rfl | rfl | rfl | rfl
        · exact .inl rfl
        all_goals exact .inr rfl
      · exact h1 c hc
    · simp only [List.length_append, List.length_cons, List.length_nil]; omega
    · exact h3

/-- When the goroutine has come to rest, every timer that was armed and has reached its deadline has expired (up to the time between reading the
clock and setting the runtime timer), and the goroutine waits without having lost any other; provided the runtime timer never fires between
`Reset` and `Wait` (otherwise it is false: C38). -/
theorem C137_expired_partial (cs ds : List Choice) (s s' : TimerLoop.St) (hcalm : Calm TimerLoop.init (cs ++ ds)) (h : TimerLoop.run TimerLoop.init cs = some s)
    (hc : ∀ c ∈ ds, Alone c) (hr : TimerLoop.run s ds = some s') (hq : ∀ c, Alone c → TimerLoop.step s' c = none) :
    s'.pc = .wait ∧ (∀ p ∈ s.armed, p.1 ∈ s'.expired ∨ p ∈ s'.armed) ∧ (∀ p ∈ s.armed, p.2 + s'.lag ≤ s.now → p.1 ∈ s'.expired) := by
  have hw := rest_wait hq
  have hrun : TimerLoop.run TimerLoop.init (cs ++ ds) = some s' := by rw [run_append h]; exact hr
  have hcov := C38_wakeup_to_come_partial _ _ hcalm hrun hw
  have key : ∀ p ∈ s.armed, p.1 ∈ s'.expired ∨ p ∈ s'.armed := by
    intro p hp
    rcases (acc_run (p := p) hc (.inl hp) hr).1 with g | g | ⟨t0, g⟩
    · exact .inr g
    · exact .inl g
    · rw [hw] at g; cases g
  refine ⟨hw, key, fun p hp hl => ?_⟩
  rcases key p hp with g | g
  · exact g
  · exfalso
    obtain ⟨t, e, ht⟩ := hcov p g
    have hn := (acc_run (p := p) hc (.inl hp) hr).2
    have := hq .timer (.inl rfl)
    simp only [TimerLoop.step, e] at this
    rw [if_pos (by omega)] at this
    cases this

/-- Two timers are armed; the clock passes the deadline of one of them. -/
def twoArmed : List Choice := [.loop, .loop, .loop, .after 1 50, .after 2 5, .loop, .loop, .loop, .loop, .tick 9]

def thenFires : List Choice := [.timer] ++ List.replicate 8 .loop

/-- Meets the hypotheses of `C137_rest_partial` and of `C137_expired_partial`. -/
example : ∃ s s', TimerLoop.run TimerLoop.init twoArmed = some s ∧ (∀ p ∈ s.armed, p.2 ≠ s.now) ∧ (∀ c ∈ thenFires, Alone c) ∧ TimerLoop.run s thenFires = some s' ∧
    (∀ c, Alone c → TimerLoop.step s' c = none) ∧ s.armed = [(2, 5), (1, 50)] ∧ s'.armed = [(1, 50)] ∧ s'.expired = [2] ∧ s'.lag = 0 := by
  refine ⟨_, _, rfl, by decide, ?_, rfl, ?_, rfl, rfl, rfl, rfl⟩
  · intro c hc
    simp only [thenFires, List.replicate, List.cons_append, List.nil_append, List.mem_cons, List.not_mem_nil, or_false] at hc
    rcases hc with rfl | rfl | rfl | rfl | rfl | rfl | rfl | rfl | rfl
    · exact .inl rfl
    all_goals exact .inr rfl
  · rintro c (rfl | rfl) <;> rfl

example : Calm TimerLoop.init (twoArmed ++ thenFires) := by
  simp only [twoArmed, thenFires, List.replicate, List.cons_append, List.nil_append]
  repeat' (first | exact trivial | (refine ⟨by simp [TimerLoop.init], ?_⟩; intro s' h; cases h) | (refine ⟨by decide, ?_⟩; intro s' h; cases h))

end Verif.Props
