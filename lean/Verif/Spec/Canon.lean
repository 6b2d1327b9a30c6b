import Verif.Spec.Reflect

/-!
Specification of types whose encoding can be read in one way only. Uses the types and values of the model and the layout of
Spec/Reflect.lean.
-/
namespace Verif.Spec
open Verif.Marshal Verif.Reflect

/-- Prefixes of a fixed width: a BER number may be written with leading zero digits. -/
def rigid : Pfx → Bool
  | .ber => false
  | _ => true

/-- Types behind a `size` prefix which only one size fits, or whose size says it all: types of a fixed size which the reader knows,
strings and `[]uint8`. -/
def fixedSized : Ty → Prop
  | .str | .sl (.scal .u8) => True
  | t => ∃ n : Nat, size? t = some n ∧ codeR t = n

/-- Types behind a `size` prefix whose payload is cut out and must be used up: those whose size varies for the reader. -/
def varSized : Ty → Prop
  | .sl t => codeR t < 0
  | .arr n t => codeR (.arr n t) < 0
  | .struct fs => codeR (.struct fs) < 0
  | _ => False

mutual
/-- Types without `ber` and pointers, whose `size` prefixes stand before types of a fixed size, strings, bytes, or types whose size varies,
and where no field that has bytes is taken to be empty by the reader. `tail`: the payload extends to the end of the data. -/
def OneWay (tail : Bool) : Ty → Prop
  | .scal _ | .str => True
  | .arr _ t | .sl t => OneWay false t
  | .ptr _ => False
  | .struct fs => OneWayFl tail fs
def OneWayFl (tail : Bool) : Fl → Prop
  | .nil => True
  | .cons .hidden _ fs => OneWayFl tail fs
  | .cons .skip _ fs => OneWayFl tail fs
  | .cons (.use false .none) t fs => OneWay false t ∧ (codeR t = 0 → size? t = some 0) ∧ OneWayFl tail fs
  | .cons (.use false (.cnt p)) t fs => rigid p = true ∧ OneWay false t ∧ OneWayFl tail fs
  | .cons (.use false (.size p)) t fs => rigid p = true ∧ (fixedSized t ∧ OneWay false t ∨ varSized t ∧ OneWay true t) ∧ OneWayFl tail fs
  | .cons (.use false .no) t fs => tail = true ∧ OneWay true t ∧ (codeR t = 0 → size? t = some 0) ∧ OneWayFl tail fs
  | .cons (.use true _) _ _ => False
end

end Verif.Spec
