import Verif.Spec.Parallel
/-!
Terms in which the theorems about stopping the parallel service are stated.
-/
namespace Verif.Parallel

/-- The program goes on by itself, while somebody may be waiting in `Stop`: steps of the dispatcher (also those in which it takes `exit`) and of
handler goroutines, where the handler of `r`, when it ends, does as `ret r` says. -/
def Ending (ret : Nat → Outcome) (c : Choice) : Prop := IsDisp c ∨ ∃ r, c = .hand r ∨ c = .result r (ret r)

end Verif.Parallel
