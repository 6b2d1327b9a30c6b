import Verif.Model.Sbox

/-!
Destinations of `ReadMany` (sbox/result.go:42-180) other than the slice `&s` of `Model/Sbox.lean`.

Not modelled: arrays passed by value (`[n]*T`), slices of slices of strings passed by value, `*[]interface{}`.
-/
namespace Verif.Sbox
open Verif.Marshal Verif.Reflect

/-- What `v` in `ReadMany(b, v)` is; all variables are fresh. -/
inductive Dest
  /-- `&x` with `x` of type `t`, a scalar, string, struct or pointer. -/
  | one (t : Ty)
  /-- `&a` with `a` of type `[n]T`. -/
  | array (n : Nat) (t : Ty)
  /-- `&s` with `s` of type `[]T`. -/
  | slice (t : Ty)
  /-- A slice of `n` pointers, `[]*T`. -/
  | ptrs (n : Nat) (t : Ty)
  /-- A slice of `n` slices of scalars, `[][]T`. -/
  | slices (n : Nat) (k : Kind)
  /-- A `[]interface{}` with `n` elements. -/
  | list (n : Nat)

/-- `readInterface` with a pointer to a single value (result.go:72-76). -/
def oneOk : Ty → Bool
  | .arr _ _ | .sl _ => false
  | _ => true

/-- `reader([]*T)` used on an element, of type `*T` (result.go:89,93, reader.go:97-100): `reflect.MakeSlice` panics
because `*T` is not a slice type. -/
def ptrElR : RdF := fun _ _ => none

/-- `reader([][]T)` used on an element, of type `[]T` (result.go:89,93, reader.go:97-107): a slice as long as the tuple
is made, then its scalars are read with the reader of `[]T`, which panics (reader_reflect.go:856-861,870-879: `Len` or
`SetBytes` of a scalar). -/
def slElR : RdF := fun r _ =>
  if r.intUint32.2.toInt ≤ 0 then some (r.intUint32.1, .seq []) else none

/-- The loops of `readFixedArray`, `readArray`, `readSlice` (result.go:92-97,124-129,156-161) on the first `l` of the
places `vs`: tuples passed, `r[0]`, the places. -/
def fill (f : RdF) (r : Rd) (l : Nat) (vs : List Val) : Option (Nat × Rd × List Val) :=
  match manyLoop f r none (vs.take l) with
  | none => none
  | some (n, r, us) => some (n, r, us ++ vs.drop l)

/-- `readInterface` (result.go:63-180): tuples passed, `r[0]`, and the places of the destination. Panics are `none`. In a
`[]interface{}` the elements have the kind `Interface`, for which `readInterface` has no case (result.go:64-81,174). -/
def readInterface (r : Rd) (l : Nat) : Dest → Option (Nat × Rd × List Val)
  | .one t => if oneOk t then match tupR t with
      | none => if r.err ≠ none then some (1, r, [zero t]) else none
      | some f => match oneTuple f r none (zero t) with
        | none => none
        | some (r, _, v, _) => some (1, r, [v])
    else none
  | .array n t => if manyOk t then match tupR t with
      | none => none
      | some f => fill f r l (List.replicate n (zero t))
    else none
  | .slice t => if manyOk t then match tupR t with
      | none => none
      | some f => fill f r l (List.replicate l (zero t))
    else none
  | .ptrs n t => match tupR (.sl (.ptr t)) with
      | none => none
      | some _ => fill ptrElR r l (List.replicate n .nilp)
  | .slices n k => match tupR (.sl (.sl (.scal k))) with
      | none => none
      | some _ => fill slElR r l (List.replicate n (.seq []))
  | .list n => if n = 0 ∨ l = 0 then some (0, r, List.replicate n .nilp) else none

/-- `ReadMany(b, v)` (result.go:42-61): `read`, `total`, `err` and the places of the destination. -/
def readManyTo (d : Dest) (b : Bytes) : Option (Nat × Int × Option RErr × List Val) :=
  let r : Rd := ⟨b, none⟩
  let total := r.intUint32.2.toInt
  match readInterface r.intUint32.1 total.toNat d with
  | none => none
  | some (n, r, vs) => some (n, total, r.err, vs)

end Verif.Sbox
