import Verif.Model.Sbox

/-!
Model of the tags `sbox:"tail"` and `sbox:"tailsplit"` (`sbox/writer.go:169-246`, `sbox/reader.go:195-317`): the last
field of a struct is a slice whose elements are further fields of the tuple.

* The struct is given by its other fields `fs` and the element type `e` of the last one; a value by the values `vs` of
  the other fields and the elements `ts`.
* The writer takes the last field by its position in `Flds` (`v.Field(n)`, writer.go:197,205). The model is right where
  that is its position in the struct: no field before it is unexported, skipped or empty.
* In the elements' type, arrays and pointers are modelled for writing only below a struct: `shiftW` is `none` for them.
* A tag `ber` on the last field (elements are unsigned integers) makes no difference to writing: `SzGet` of
  `BerSlWriter` panics on an integer like that modelled here (writer_reflect.go:875-882). For reading it is not modelled.
* `sbox:"tail,"` and further options panic (writer.go:225-227) and are not modelled.
-/
namespace Verif.SboxTail
open Verif.Marshal Verif.Reflect Verif.Sbox

/-- `reflect.Value.Len` on a value of type `t`; `none` is the panic. -/
def vLen : Ty → Val → Option Nat
  | .str, .str b => some b.length
  | .sl _, .seq vs => some vs.length
  | _, _ => none

/-- `Write` of the codec of `[]t` (!) on a value of type `t` (writer_reflect.go:593-652): the loop over `v.Index(i)`,
in which the codec of `t` is in turn used on elements of `t`: `WithCount` calls `v.Len()` on the element
(writer_reflect.go:353-360,594-596). The typed slice writers begin with `v.Len()`. -/
def shiftW : Ty → Val → Wr → Option Wr
  | .str, .str [], w => some w
  | .sl t, .seq vs, w => writeEach (fun v w => match vLen t v with
    | none => none
    | some n => match Pfx.i32.write w (Int64.ofNat n) with
      | none => none
      | some w => shiftW t v w) vs w
  | _, _, _ => none

/-- `fs.WithSize(w, val, Intvar)` in the tail loop (writer.go:201, marshal/writer_reflect.go:278-324): `fs` is the
codec of the slice, `val` an element of type `e`; `x` is the codec of `e`. -/
def elemW (e : Ty) (x : TW) (v : Val) (w : Wr) : Option Wr :=
  if 0 ≤ x.sz then match vLen e v with
    | none => none
    | some n => match Pfx.ber.write w (Int64.ofInt (n * x.sz)) with
      | none => none
      | some w => shiftW e v w
  else match shiftW e v (Wr.new 128) with
    | none => none
    | some tw =>
      let body := tw.written.1.mem.view tw.written.2
      match Pfx.ber.write w (Int64.ofNat body.length) with
      | none => none
      | some w => w.bytes body

/-- The codec of the fields in front (marshal `FillStruct`) and of the elements. -/
def codecW (fs : Fl) (e : Ty) : Option (List (Option FW) × TW) :=
  match twFl 0 false fs, tw e with
  | some (_, l), some x => some (l, x)
  | _, _ => none

/-- `structWriter` with `Tail` (writer.go:169-203). -/
def tailWr (fs : Fl) (e : Ty) (addr : Bool) (vs ts : List Val) (w : Wr) : Option Wr :=
  match codecW fs e with
  | none => none
  | some (l, x) => match Pfx.i32.write w (Int64.ofNat (fldCount l + ts.length)) with
    | none => none
    | some w => match sizedFlds addr l vs w with
      | none => none
      | some w => writeEach (elemW e x) ts w

/-- `structWriter` with `Tail` (writer.go:169-203), with the field the code takes for the tail: that at the position
`len(Flds) - 1` of the struct (`v.Field(n)`, writer.go:197). The number of fields is counted with the right one (writer.go:175).
Right where the field it takes has elements of type `e`, or no `Len`. -/
def tailWrAt (fs : Fl) (e : Ty) (addr : Bool) (vs ts : List Val) (w : Wr) : Option Wr :=
  match codecW fs e with
  | none => none
  | some (l, x) => match Pfx.i32.write w (Int64.ofNat (fldCount l + ts.length)) with
    | none => none
    | some w => match sizedFlds addr l vs w with
      | none => none
      | some w => match (vs ++ [Val.seq ts])[fldCount l]? with
        | some (.seq us) => writeEach (elemW e x) us w
        | _ => none

/-- `TWriter.Flds` of the codec of a slice: `FillSlice` does not set it (marshal/writer_reflect.go:593-652). -/
def sliceFlds : List FW := []

/-- `str.Field(i)`. -/
def fieldOf (i : Nat) : Val → Option Val
  | .seq vs => vs[i]?
  | _ => none

/-- The inner loop of `TailSplit` for the element number `i` (writer.go:211-213): both indices are `i`, not `j`. -/
def splitOne (fss : List FW) (i : Nat) (v : Val) : Nat → Wr → Option Wr
  | 0, w => some w
  | j + 1, w => match fss[i]?, fieldOf i v with
    | some f, some u => match f.x.withSize .ber true u w with
      | none => none
      | some w => splitOne fss i v j w
    | _, _ => none

/-- The outer loop of `TailSplit` (writer.go:209-214). -/
def splitEach (fss : List FW) : Nat → List Val → Wr → Option Wr
  | _, [], w => some w
  | i, v :: vs, w => match splitOne fss i v fss.length w with
    | none => none
    | some w => splitEach fss (i + 1) vs w

/-- `structWriter` with `TailSplit` (writer.go:176-193,203-215). -/
def splitWr (fs : Fl) (e : Ty) (addr : Bool) (vs ts : List Val) (w : Wr) : Option Wr :=
  match codecW fs e with
  | none => none
  | some (l, _) => match Pfx.i32.write w (Int64.ofNat (fldCount l + ts.length * sliceFlds.length)) with
    | none => none
    | some w => match sizedFlds addr l vs w with
      | none => none
      | some w => splitEach sliceFlds 0 ts w

/-! ### Reading -/

/-- A struct type with one more field. -/
def snoc : Fl → Ty → Fl
  | .nil, t => .cons (.use false .none) t .nil
  | .cons g u fs, t => .cons g u (snoc fs t)

/-- `ReadRawTuple` into a fresh struct with a tail (of either kind), whose last field has the type `[]e`. `FieldReader.Tag`
is not set (marshal/reader_reflect.go:1009, unlike writer_reflect.go:705), so that `FillStruct` sees no tag and
`TReader.Tail` is always `NoTail` (reader.go:288-316): the struct is read as without the tag, and reader.go:236-247,266-286
is never executed. -/
def tailRd (fs : Fl) (e : Ty) (r : Rd) : Option (Rd × Val) := readRaw (.struct (snoc fs (.sl e))) r

end Verif.SboxTail
