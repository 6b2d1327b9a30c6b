import Verif.Spec.Sbox

/-! Specification of structs with a tail: the fields of such a struct as a tuple. -/
namespace Verif.Spec
open Verif.Marshal Verif.Reflect

/-- The fields of a struct with `sbox:"tail"`: one for each element. -/
def tailFields (fs : Fl) (e : Ty) (vs ts : List Val) : List Bytes := structFields fs vs ++ ts.map (pay e)

/-- The fields of a struct with `sbox:"tailsplit"`: the fields of each element in turn. -/
def splitFields (fs gs : Fl) (vs ts : List Val) : List Bytes :=
  structFields fs vs ++ (ts.map fun v => structFields gs (elems v)).flatten

/-- The fields in front of the tail: none is unexported or skipped, and none is `nosize`. -/
def Front : Fl → Prop
  | .nil => True
  | .cons (.use _ d) _ fs => d ≠ .no ∧ Front fs
  | _ => False

/-- Element types: no array, no pointer except within a struct. -/
def Spine : Ty → Prop
  | .scal _ => True
  | .str => True
  | .struct _ => True
  | .sl t => Spine t
  | _ => False

/-- Values without any scalar, byte or struct: empty strings, and slices of such values. -/
def Hollow : Ty → Val → Prop
  | .str, .str b => b = []
  | .sl t, .seq vs => ∀ v ∈ vs, Hollow t v
  | _, _ => False

end Verif.Spec
