import Verif.Props.Pool
/-!
C163: what `AnyConnected` says.
-/
namespace Verif.Pool

theorem cnt_exists {p : Con → Bool} {f : Nat → Con} {n : Nat} (h : 0 < cnt p f n) : ∃ i, i < n ∧ p (f i) = true := by
  induction n with
  | zero => simp [cnt] at h
  | succ n ih =>
    rw [cnt_succ] at h
    by_cases hp : p (f n) = true
    · exact ⟨n, by omega, hp⟩
    · obtain ⟨i, hi, hpi⟩ := ih (by simp only [one, hp] at h; simpa using h)
      exact ⟨i, by omega, hpi⟩

theorem cnt_pos {p : Con → Bool} {f : Nat → Con} {n i : Nat} (hi : i < n) (h : p (f i) = true) : 0 < cnt p f n := by
  induction n with
  | zero => omega
  | succ n ih =>
    rw [cnt_succ]
    by_cases he : i = n
    · subst he
      simp only [one, h]
      simp
    · have := ih (by omega)
      omega

theorem cnt_lt {p a : Con → Bool} {f : Nat → Con} {n : Nat} (h : cnt p f n < cnt a f n) :
    ∃ i, i < n ∧ a (f i) = true ∧ p (f i) = false := by
  induction n with
  | zero => simp [cnt] at h
  | succ n ih =>
    rw [cnt_succ, cnt_succ] at h
    by_cases hp : a (f n) = true ∧ p (f n) = false
    · exact ⟨n, by omega, hp⟩
    · have : one (a (f n)) ≤ one (p (f n)) := by
        unfold one
        cases ha : a (f n) <;> cases hb : p (f n) <;> simp_all
      obtain ⟨i, hi, hpi⟩ := ih (by omega)
      exact ⟨i, by omega, hpi⟩

end Verif.Pool

namespace Verif.Props
open Verif.Pool

variable {n : Nat} {cs : List Pool.Choice} {s : Pool.St}

/-- C163: if `AnyConnected` says yes, there is a connection which was established, and if its write loop has ended then the
pool has not been told yet. -/
theorem C163_yes (h : Pool.run (Pool.init n) cs = some s) (ha : Pool.anyConnected s = true) :
    ∃ i, ((s.con i).lp = .markUp ∨ (s.con i).lp = .running) ∧ (s.con i).wp ≠ .done ∨ Pool.Msg.write i ∈ s.q := by
  obtain ⟨_, _, t⟩ := Pool.reach h
  have ha : 0 < s.established := of_decide_eq_true ha
  by_cases hq : 0 < s.q.countP mW
  · obtain ⟨m, hm, hw⟩ := List.countP_pos_iff.mp hq
    cases m with
    | write i => exact ⟨i, .inr hm⟩
    | _ => cases hw
  · obtain ⟨i, _, h1, h2⟩ := cnt_lt (p := pW) (a := pU) (f := s.con) (n := s.cur) (by omega)
    refine ⟨i, .inl ⟨by simpa [pU] using h1, by simpa [pW] using h2⟩⟩

/-- C163: when no report is on its way and `AnyConnected` says yes, there is a connection. -/
theorem C163_yes_quiet (h : Pool.run (Pool.init n) cs = some s) (hq : Quiet s) (ha : Pool.anyConnected s = true) :
    ∃ i, i < s.cur ∧ Up (s.con i) = true := by
  obtain ⟨hi, _, t⟩ := Pool.reach h
  obtain ⟨_, h2⟩ := quiet_counts hi hq
  have ha : 0 < s.established := of_decide_eq_true ha
  rw [hq.1] at t
  simp only [List.countP_nil] at t
  exact cnt_exists (p := Up) (by rw [← count_eq]; omega)

/-- C163, in part: when no report is on its way and the pool never stopped an established connection, `AnyConnected` says no
only if there is none. -/
theorem C163_no_partial (h : Pool.run (Pool.init n) cs = some s) (hq : Quiet s) (hs : s.stopsE = 0)
    (ha : Pool.anyConnected s = false) : ∀ i, i < s.cur → Up (s.con i) = false := by
  intro i hi
  have h1 := (C55_exact_partial h hs hq).2
  have ha : ¬ 0 < s.established := of_decide_eq_false ha
  cases hu : Up (s.con i) with
  | false => rfl
  | true =>
    have := cnt_pos hi hu
    rw [← count_eq] at this
    omega

/-- C163_yes, C163_yes_quiet: one connection is up, one is being dialed. -/
example : ∃ s, Pool.run (Pool.init 2) ([.serv, .serv, .serv, .serv] ++ connect 1) = some s ∧
    (Quiet s ∧ Pool.anyConnected s = true ∧ Up (s.con 0) = false ∧ Up (s.con 1) = true) := by
  apply Pool.any_some (p := fun s : Pool.St => Quiet s ∧ Pool.anyConnected s = true ∧ Up (s.con 0) = false ∧ Up (s.con 1) = true)
  decide +kernel

/-- C163_no_partial: the connection was lost. -/
example : ∃ s, Pool.run (Pool.init 1) ([.serv, .serv, .serv] ++ connect 0 ++ [.wp 0, .wp 0, .wErr 0, .wp 0, .wp 0, .recv]) = some s ∧
    (Quiet s ∧ s.stopsE = 0 ∧ Pool.anyConnected s = false ∧ s.cur = 1) := by
  apply Pool.any_some (p := fun s : Pool.St => Quiet s ∧ s.stopsE = 0 ∧ Pool.anyConnected s = false ∧ s.cur = 1)
  decide +kernel

/-- Two connections; one is to be kept, the other is stopped and ends; a new one cannot be dialed. -/
def blinded : List Pool.Choice :=
  [.serv, .serv, .serv, .serv] ++ connect 0 ++ connect 1 ++
    [.setConns 1, .serv, .tick, .serv, .pick 0, .serv, .serv, .wp 0, .wp 0, .rErr 0, .ctl 0, .ctl 0, .ctl 0, .ctl 0, .recv,
      .serv, .recv, .serv, .tick, .serv, .serv, .serv, .lp 2, .dialed 2 false, .lp 2, .recv, .serv]

/-- C163 does not hold: a connection which the pool stopped is subtracted twice (C55), so with one connection up and running
`AnyConnected` says no, for as long as no other one can be dialed. -/
theorem C163_no_violated : ∃ s, Pool.run (Pool.init 2) blinded = some s ∧
    (Quiet s ∧ s.pc = .loop ∧ s.need = 1 ∧ Up (s.con 1) = true ∧ (s.con 1).rp = .run ∧ (s.con 1).stopped = false ∧
      Pool.anyConnected s = false) := by
  apply Pool.any_some (p := fun s : Pool.St => Quiet s ∧ s.pc = .loop ∧ s.need = 1 ∧ Up (s.con 1) = true ∧ (s.con 1).rp = .run ∧
    (s.con 1).stopped = false ∧ Pool.anyConnected s = false)
  decide +kernel

end Verif.Props
