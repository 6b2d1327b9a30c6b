import Verif.Model.Reflect

/-!
The codec of a type with code of its own: `IWriter`, `ISizer`, `ICounter`, `IReader`, `IReadTailer`, `ISetSizer`, `ISetCounter` and their
short forms (`marshal/marshal.go:12-66`, `marshal/writer_reflect.go:374-448`, `marshal/reader_reflect.go:559-661`).

* All methods of the type have the same kind of receiver, and all are of the long or all of the short form.
* `ISize` and `ICount` do not change anything and are not negative.
* A nil pointer to such a type is taken to panic (what happens depends on the user's code).
-/
namespace Verif.User
open Verif.Marshal Verif.Reflect

/-- A type with its own code. Values are those of the type itself, not pointers. -/
structure User where
  long : Bool    -- `IWriter`, .. rather than `IShortWriter`, ..
  byPtr : Bool   -- the methods are those of the pointer
  write : Val → Wr → Option Wr
  size : Option (Val → Nat)
  count : Option (Val → Nat)
  read : RdF
  readTail : Option RdF
  setSize : Option (Val → Int → Option (Bool × Option RErr × Val))
  setCount : Option (Val → Int → Option (Option RErr × Val))

/-- `Fill` of the writer (writer_reflect.go:377-448): `v.Addr()` panics if the value is not addressable. -/
def userW (u : User) : TW :=
  TW.fillauto
    { write := fun addr v w => if u.byPtr = true ∧ addr = false then none else u.write v w
      auto := fun _ _ _ => none
      sz := -1, szGet := u.size, cnt := -1, cntGet := u.count, ptr := none }

/-- `ISetCounter` is looked for in the right type for the short form, and for the long form if the methods are those of the value;
for the long form with methods of the pointer it is looked for in the type itself (reader_reflect.go:605). -/
def setter (u : User) : Option (Val → Int → Option (Option RErr × Val)) :=
  if u.long = true ∧ u.byPtr = true then none else u.setCount

/-- `Fill`, `fillautotail`, `SetSize`, `SetCount` of the reader (reader_reflect.go:559-661,541-557,433-442,510-519). The destination is
addressable. -/
def userR (u : User) : TR :=
  let x : TR :=
    { fixed := u.read, tail := u.readTail.getD u.read, auto := u.read, autoCount := none, autoSize := none
      sz := -1, cnt := -1
      setSize := match u.setSize with
        | some f => f
        | none => plainSetSize (-1)
      setCount := match setter u with
        | some f => f
        | none => fun _ _ => none }
  if (setter u).isSome then { x with auto := x.withCount .i32 } else x

/-! ### Pointers to such a type -/

/-- What `Size` and `Count` look at in a `TWriter` for a pointer type (writer_reflect.go:256-267): `Elem` is nil until it is set. -/
structure PtrW where
  write : Val → Wr → Option Wr
  elem : Option TW
  cntGet : Bool

/-- `Fill` for a pointer type (writer_reflect.go:374-448,496-498): the pointer has the methods too, and `Fill` returns before
`Elem` is set. A nil pointer: methods that take the value panic; methods that take the pointer could handle it, which is not modelled. -/
def fillPtr (u : User) : PtrW :=
  { write := fun v w => match v with
      | .ref x => u.write x w
      | _ => none
    elem := none
    cntGet := u.count.isSome }

/-- `Size` of a pointer (writer_reflect.go:278-301). `none`: panic. -/
def PtrW.size (x : PtrW) (v : Val) : Option Int :=
  match v with
  | .ref u => match x.elem with
    | none => none
    | some e => some (e.baseSize u)
  | _ => some 0

/-- `Count` of a pointer (writer_reflect.go:326-351). -/
def PtrW.count (x : PtrW) (v : Val) : Option Int :=
  match v with
  | .ref u => match x.elem with
    | none => none
    | some e => e.baseCount u
  | _ => some 0

/-- `WithSize` (writer_reflect.go:303-324), as far as it gets. -/
def PtrW.withSize (x : PtrW) (p : Pfx) (v : Val) (w : Wr) : Option Wr :=
  match x.size v with
  | none => none
  | some sz => if 0 ≤ sz then match p.write w (Int64.ofInt sz) with
      | none => none
      | some w => x.write v w
    else match x.write v (Wr.new 128) with
      | none => none
      | some tw =>
        let body := tw.written.1.mem.view tw.written.2
        match p.write w (Int64.ofNat body.length) with
        | none => none
        | some w => w.bytes body

/-- `WithCount` (writer_reflect.go:353-360). -/
def PtrW.withCount (x : PtrW) (p : Pfx) (v : Val) (w : Wr) : Option Wr :=
  match x.count v with
  | none => none
  | some c => match p.write w (Int64.ofInt c) with
    | none => none
    | some w => x.write v w

/-- `WriteAuto` (writer_reflect.go:362-372). -/
def PtrW.auto (x : PtrW) (v : Val) (w : Wr) : Option Wr :=
  if x.cntGet = true then x.withCount .i32 v w else x.write v w

end Verif.User
