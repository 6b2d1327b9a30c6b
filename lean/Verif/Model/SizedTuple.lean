import Verif.Model.Sbox

/-! `ReadSizedTuple` (sbox/reader.go:29-36) and a caller that reads several tuples from one body. -/
namespace Verif.Sbox
open Verif.Marshal Verif.Reflect

/-- `ReadSizedTuple(r, &x)` for a fresh `x` of type `t` (reader.go:29-36): the reader afterwards, whose `err` is returned, and `x`.
The error of `r.Slice` is overwritten by that of `ReadRawTuple`. -/
def readSizedTuple (t : Ty) (r : Rd) : Option (Rd × Val) :=
  let q := r.intUint32
  if q.1.err = none then
    match q.1.slice (q.2.toInt + 4) with
    | none => none
    | some (r, body) => match readRaw t ⟨body, none⟩ with
      | none => none
      | some (r1, v) => some ({ r with err := r1.err }, v)
  else some (q.1, zero t)

/-- `ReadSizedTuple(r, nil)` (reader.go:29-41): `ReadRawTuple` returns nil. -/
def readSizedNil (r : Rd) : Option Rd :=
  let q := r.intUint32
  if q.1.err = none then
    match q.1.slice (q.2.toInt + 4) with
    | none => none
    | some (r, _) => some { r with err := none }
  else some q.1

/-- A caller that reads tuples into fresh variables of the given types, one after the other, without looking at the errors. -/
def readSizedSeq : List Ty → Rd → Option (Rd × List Val)
  | [], r => some (r, [])
  | t :: ts, r => match readSizedTuple t r with
    | none => none
    | some (r, v) => match readSizedSeq ts r with
      | none => none
      | some (r, vs) => some (r, v :: vs)

end Verif.Sbox
