import Verif.Model.Race
/-! Deadlocks on mutexes. -/
namespace Verif.Locks
open Verif.Race
variable {V : Type}

/-- Goroutine `t` wants to lock `m` next. -/
def Wants (s : St V) (t : Nat) (m : V) : Prop := s.on t = true ∧ ∃ k, s.k t = .op (.lock m) :: k

/-- Some goroutines wait for each other: each wants a mutex that one of them has. (It may be the goroutine itself.) -/
def Deadlock (s : St V) : Prop := ∃ ts : List Nat, ts ≠ [] ∧ ∀ t ∈ ts, ∃ m u, Wants s t m ∧ s.own m = some u ∧ u ∈ ts

end Verif.Locks
