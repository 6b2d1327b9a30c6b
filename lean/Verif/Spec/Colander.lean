import Verif.Spec.Frames
/-!
What the example server is to answer.
-/
namespace Verif.Colander

/-- The sum of the squares of the numbers below `n`. -/
def squares : Nat → Nat
  | 0 => 0
  | n + 1 => squares n + n * n

/-- A good answer that carries the number `x`. -/
def good (x : Nat) : UInt32 × List UInt8 := (0, Spec.le32 (UInt32.ofNat x))

end Verif.Colander
