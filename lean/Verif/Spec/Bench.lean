import Verif.Model.Bench
/-!
What the statistics of a list of measurements are.
-/
namespace Verif.Bench

/-- The numbers are those of the measurements: how many there are and how many of them are bad, their sum, the least and the greatest one (as far as 64
bits go; of no measurements at all, the greatest number and 0). -/
structure Describes (a : Accum) (ms : List (UInt64 × Bool)) : Prop where
  count : a.count = UInt64.ofNat ms.length
  bad : a.bad = UInt64.ofNat (ms.filter fun m => m.2 = false).length
  sum : a.sum = UInt64.ofNat (ms.map fun m => m.1.toNat).sum
  least : ∀ m ∈ ms, a.min ≤ m.1
  greatest : ∀ m ∈ ms, m.1 ≤ a.max
  isLeast : a.min.toNat = 2 ^ 64 - 1 ∨ ∃ m ∈ ms, a.min = m.1
  isGreatest : a.max = 0 ∨ ∃ m ∈ ms, a.max = m.1

end Verif.Bench
