import Verif.Model.Reflect

/-!
Structs with fields of type `interface{}` and `[]interface{}` (`marshal/writer_reflect.go:278-360,507-530,572-652`,
`marshal/reader_reflect.go:398-557,745-770,849-952`). The struct is the argument of `Write`, or what the argument of `Read` points to.

* The values in the interfaces are of the types of `Verif.Model.Reflect`, which have no interfaces in them.
* When reading, an interface is nil or holds a pointer to a variable of a modelled type.
* The capacity of a `[]interface{}` is its length.
-/
namespace Verif.IfaceField
open Verif.Marshal Verif.Reflect

/-- The type of a field. -/
inductive XTy
  | of (t : Ty)
  | any                                    -- interface{}
  | anys                                   -- []interface{}

/-- What an `interface{}` holds: nil, or a type and a value. -/
abbrev Dyn := Option (Ty × Val)

/-- The value of a field. For reading, `Dyn` is nil or the type and the value of the variable pointed to. -/
inductive XVal
  | of (v : Val)
  | any (d : Dyn)
  | anys (l : List Dyn)

/-- The fields of a struct. -/
abbrev XFl := List (Tag × XTy)

/-! ### Writing -/

/-- A field after `FillStruct`: left out, with its codec, or an interface with its prefix. -/
inductive XW
  | out
  | of (f : FW)
  | any (d : Dir)
  | anys (d : Dir)

/-- One field in `FillStruct` (writer_reflect.go:706-849). `ber` panics for interfaces and slices of interfaces
(writer_reflect.go:833,846); their size is -1, so they are never left out (writer_reflect.go:807-809,593-597). -/
def fieldW (ber : Bool) (d : Dir) : XTy → Option XW
  | .of t => match twFl 0 false (.cons (.use ber d) t .nil) with
    | some (_, [some f]) => some (.of f)
    | some (_, [none]) => some .out
    | _ => none
  | .any => if ber then none else some (.any d)
  | .anys => if ber then none else some (.anys d)

/-- `FillStruct` (writer_reflect.go:689-855), without the size of the struct. -/
def fillW : Bool → XFl → Option (List XW)
  | _, [] => some []
  | n, (.hidden, _) :: fs => (fillW n fs).map (.out :: ·)
  | n, (.skip, _) :: fs => if n then none else (fillW n fs).map (.out :: ·)
  | n, (.use ber d, t) :: fs => if n then none else match fieldW ber d t with
    | none => none
    | some f => (fillW (d = .no) fs).map (f :: ·)

/-- An `interface{}` field (writer_reflect.go:286-292,334-340,507-527,676-685): `Size`, `Count`, `Write` and `WriteAuto` are those
of the value, which is not addressable; a nil has size and count 0 and is written as nothing. -/
def anyW (d : Dir) : Dyn → Wr → Option Wr
  | none, w => match d with
    | .size p | .cnt p => p.write w 0
    | _ => some w
  | some (t, v), w => match tw t with
    | none => none
    | some x => FW.put ⟨x, d⟩ false v w

/-- The elements of a `[]interface{}` (writer_reflect.go:640-651): `Write`, not `WriteAuto`; nil is passed over. -/
def elemsW : List Dyn → Wr → Option Wr
  | [], w => some w
  | none :: l, w => elemsW l w
  | some (t, v) :: l, w => match tw t with
    | none => none
    | some x => match x.write false v w with
      | none => none
      | some w => elemsW l w

/-- A `[]interface{}` field (writer_reflect.go:303-360,593-597,640-651): the count is the length, the size is not known in advance. -/
def anysW (d : Dir) (l : List Dyn) (w : Wr) : Option Wr :=
  match d with
  | .no => elemsW l w
  | .none => match Pfx.i32.write w (Int64.ofNat l.length) with
    | none => none
    | some w => elemsW l w
  | .cnt p => match p.write w (Int64.ofNat l.length) with
    | none => none
    | some w => elemsW l w
  | .size p => match elemsW l (Wr.new 128) with
    | none => none
    | some tw =>
      let body := tw.written.1.mem.view tw.written.2
      match p.write w (Int64.ofNat body.length) with
      | none => none
      | some w => w.bytes body

/-- `writeStruct` (writer_reflect.go:674-687). -/
def fldsW (addr : Bool) : List XW → List XVal → Wr → Option Wr
  | [], [], w => some w
  | .out :: fs, _ :: vs, w => fldsW addr fs vs w
  | .of f :: fs, .of v :: vs, w => match f.put addr v w with
    | none => none
    | some w => fldsW addr fs vs w
  | .any d :: fs, .any v :: vs, w => match anyW d v w with
    | none => none
    | some w => fldsW addr fs vs w
  | .anys d :: fs, .anys l :: vs, w => match anysW d l w with
    | none => none
    | some w => fldsW addr fs vs w
  | _, _, _ => none

/-- `Write` of a struct (writer_reflect.go:85-91,362-372). `none`: panic. -/
def write (fs : XFl) (vs : List XVal) (w : Wr) : Option Wr :=
  match fillW false fs with
  | none => none
  | some l => fldsW false l vs w

/-! ### Reading -/

/-- A field after `FillStruct`. -/
inductive XR
  | out
  | of (f : FR)
  | any (d : Dir)
  | anys (d : Dir)

/-- One field in `FillStruct` (reader_reflect.go:1010-1173). -/
def fieldR (ber : Bool) (d : Dir) : XTy → Option XR
  | .of t => match trFl 0 false (.cons (.use ber d) t .nil) with
    | some (_, [some f]) => some (.of f)
    | some (_, [none]) => some .out
    | _ => none
  | .any => if ber then none else some (.any d)
  | .anys => if ber then none else some (.anys d)

/-- `FillStruct` (reader_reflect.go:994-1178). -/
def fillR : Bool → XFl → Option (List XR)
  | _, [] => some []
  | n, (.hidden, _) :: fs => (fillR n fs).map (.out :: ·)
  | n, (.skip, _) :: fs => if n then none else (fillR n fs).map (.out :: ·)
  | n, (.use ber d, t) :: fs => if n then none else match fieldR ber d t with
    | none => none
    | some f => (fillR (d = .no) fs).map (f :: ·)

/-- `Fixed` of an interface (reader_reflect.go:746-752,772-777). `Auto` is the same: what `Fill` sets (reader_reflect.go:753-759) is
overwritten by `fillautotail` (reader_reflect.go:550-556). -/
def anyFixed : Rd → Dyn → Option (Rd × Dyn)
  | r, none => some (r, none)
  | r, some (t, u) => match tr t with
    | none => none
    | some x => (x.fixed r u).map fun q => (q.1, some (t, q.2))

/-- `Tail` of an interface (reader_reflect.go:760-766,778-799): `Tail` of a pointer returns unless there is an error. -/
def anyTail : Rd → Dyn → Option (Rd × Dyn)
  | r, none => some (r, none)
  | r, some (t, u) => if r.err = none then some (r, some (t, u)) else match tr t with
    | none => none
    | some x => (x.tail r u).map fun q => (q.1, some (t, q.2))

/-- `SetSize` of an interface field (reader_reflect.go:416-442): for size 0, `v.Set(reflect.ValueOf(nil))` panics; for another size
nil panics (`el.Type()` of the zero `Value`). -/
def anySetSize (sz : Int) : Dyn → Option (Bool × Option RErr × Dyn)
  | none => if sz = 0 then some (false, none, none) else none
  | some (t, u) => if sz = 0 then none else match tr t with
    | none => none
    | some x => (x.setSize u sz).map fun q => (q.1, q.2.1, some (t, q.2.2))

/-- `SetCount` of an interface field (reader_reflect.go:493-518); nil panics for every count. -/
def anySetCount (cnt : Int) : Dyn → Option (Option RErr × Dyn)
  | none => none
  | some (t, u) => if cnt = 0 then none else match tr t with
    | none => none
    | some x => (x.setCount u cnt).map fun q => (q.1, some (t, q.2))

/-- The end of `WithSize` (reader_reflect.go:462-471), for any `Tail`. -/
def subR {α : Type} (tail : Rd → α → Option (Rd × α)) (sz : Int) (r : Rd) (v : α) : Option (Rd × α) :=
  match r.slice sz with
  | none => none
  | some (r, b) =>
    match tail ⟨b, r.err⟩ v with
    | none => none
    | some (rr, v) =>
      if rr.err ≠ none then some ({ r with err := rr.err }, v)
      else if rr.body ≠ [] then some ({ r with err := some .other }, v)
      else some (r, v)

/-- An `interface{}` field (reader_reflect.go:445-472,522-539,966-975). -/
def anyR (d : Dir) (r : Rd) (v : Dyn) : Option (Rd × Dyn) :=
  match d with
  | .none | .no => anyFixed r v
  | .size p => if r.err ≠ none then some (r, v) else
    match anySetSize (p.read r).2.toInt v with
    | none => none
    | some (true, _, v) => anyFixed (p.read r).1 v
    | some (false, some e, v) => some ({ (p.read r).1 with err := some e }, v)
    | some (false, none, v) => subR anyTail (p.read r).2.toInt (p.read r).1 v
  | .cnt p => if r.err ≠ none then some (r, v) else
    match anySetCount (p.read r).2.toInt v with
    | none => none
    | some (some e, v) => some ({ (p.read r).1 with err := some e }, v)
    | some (none, v) => anyFixed (p.read r).1 v

/-- The elements of a `[]interface{}` (reader_reflect.go:923-928). -/
def elemsR : Rd → List Dyn → Option (Rd × List Dyn)
  | r, [] => some (r, [])
  | r, v :: vs => match anyFixed r v with
    | none => none
    | some (r, v) => (elemsR r vs).map fun q => (q.1, v :: q.2)

/-- `CntSet` of a `[]interface{}` (reader_reflect.go:850-855). -/
def anysSet (cnt : Int) (l : List Dyn) : Option (List Dyn) :=
  if (l.length : Int) = cnt then some l
  else if cnt < 0 ∨ 2 ^ 48 ≤ cnt then none
  else some (List.replicate cnt.toNat none)

/-- `Tail` of a `[]interface{}` (reader_reflect.go:930-952): behind the old elements nil elements are appended, which read nothing, so
that the loop does not end. -/
def anysTail : Rd → List Dyn → Option (Rd × List Dyn)
  | r, [] => if r.body = [] ∨ r.err ≠ none then some (r, []) else none
  | r, v :: vs => if r.body = [] ∨ r.err ≠ none then some (r, []) else
    match anyFixed r v with
    | none => none
    | some (r, v) => (anysTail r vs).map fun q => (q.1, v :: q.2)

/-- A `[]interface{}` field (reader_reflect.go:445-472,522-539,966-975). -/
def anysR (d : Dir) (r : Rd) (l : List Dyn) : Option (Rd × List Dyn) :=
  let counted (p : Pfx) := if r.err ≠ none then some (r, l) else
    match anysSet (p.read r).2.toInt l with
    | none => none
    | some l => elemsR (p.read r).1 l
  match d with
  | .none => counted .i32
  | .cnt p => counted p
  | .no => elemsR r l
  | .size p => if r.err ≠ none then some (r, l) else subR anysTail (p.read r).2.toInt (p.read r).1 l

/-- `structFixed` (reader_reflect.go:964-977). -/
def fldsR : List XR → Rd → List XVal → Option (Rd × List XVal)
  | [], r, [] => some (r, [])
  | .out :: fs, r, v :: vs => (fldsR fs r vs).map fun q => (q.1, v :: q.2)
  | .of f :: fs, r, .of v :: vs => match f.get false r v with
    | none => none
    | some (r, v) => (fldsR fs r vs).map fun q => (q.1, .of v :: q.2)
  | .any d :: fs, r, .any v :: vs => match anyR d r v with
    | none => none
    | some (r, v) => (fldsR fs r vs).map fun q => (q.1, .any v :: q.2)
  | .anys d :: fs, r, .anys l :: vs => match anysR d r l with
    | none => none
    | some (r, l) => (fldsR fs r vs).map fun q => (q.1, .anys l :: q.2)
  | _, _, _ => none

/-- `Read` into a struct (reader_reflect.go:156-175,541-557). -/
def read (fs : XFl) (b : Bytes) (vs : List XVal) : Option (Rd × List XVal) :=
  match fillR false fs with
  | none => none
  | some l => fldsR l ⟨b, none⟩ vs

end Verif.IfaceField
