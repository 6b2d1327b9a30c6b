import Verif.Model.Iface
import Verif.Spec.Reflect

/-! Specification for `interface{}` arguments: the encoding of a list, and the destinations that belong to it. -/
namespace Verif.Spec
open Verif.Marshal Verif.Reflect Verif.Iface

mutual
/-- The encoding of what `Write` is given. (User code has no encoding.) -/
def layoutAny : Any → Bytes
  | .val t v => layout t v
  | .list l => le 4 l.length ++ layoutAll l
  | _ => []
def layoutAll : List Any → Bytes
  | [] => []
  | a :: l => layoutAny a ++ layoutAll l
end

mutual
/-- Everything in the list can be encoded. `nils`: nil is allowed. -/
def FitsAny (nils : Bool) : Any → Prop
  | .nil => nils = true
  | .val t v => Sound false t ∧ Fits false t v ∧ (counted t = true → countOf t v < 2 ^ 32)
  | .list l => l.length < 2 ^ 32 ∧ FitsAll nils l
  | _ => False
def FitsAll (nils : Bool) : List Any → Prop
  | [] => True
  | a :: l => FitsAny nils a ∧ FitsAll nils l
end

mutual
/-- Pointers to new variables of the types of what was written. -/
def freshDst : Any → Dst
  | .val t _ => .ptr t (zero t)
  | .list l => .plist (freshAll l)
  | _ => .nil
def freshAll : List Any → List Dst
  | [] => []
  | a :: l => freshDst a :: freshAll l
end

mutual
/-- The same pointers when the variables have the values that were written. -/
def gotDst : Any → Dst
  | .val t v => .ptr t v
  | .list l => .plist (gotAll l)
  | _ => .nil
def gotAll : List Any → List Dst
  | [] => []
  | a :: l => gotDst a :: gotAll l
end

/-- Two reads end in the same state of the reader and, unless there was an error, with the same value. -/
def Agree (a b : Option (Rd × Val)) : Prop :=
  match a, b with
  | none, none => True
  | some p, some q => p.1 = q.1 ∧ (p.1.err = none → p.2 = q.2)
  | _, _ => False

/-- Types which have a size or a length of their own in `WriteWithSize`. -/
def Plain : Ty → Prop
  | .scal _ | .str => True
  | .sl (.scal k) => k = .u8
  | _ => False

end Verif.Spec
