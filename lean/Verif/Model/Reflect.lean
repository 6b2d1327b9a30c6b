import Verif.Model.Marshal

/-!
Model of the reflective codec: `marshal/writer_reflect.go` and `marshal/reader_reflect.go`.

As in the code, a codec (`TW`, `TR`) is computed from a type by recursion and holds closures.

* A struct tag is modelled after parsing; at most one of `size(..)`, `cnt(..)` and one `ber` occur in
  it (two prefixes panic at writer_reflect.go:799-801, reader_reflect.go:1104-1106).
* Modelled types: scalars, strings, arrays, slices, pointers and structs over unnamed types. Not
  modelled: types with `IWrite`/`IRead` methods, interfaces (see IfaceField.lean), recursive types, maps, named slices of bytes.
* `nil` and empty slices are one value. A float is its bit pattern.
* `none` means that the call does not return: it panics, or (only `TR.tail` of a slice) loops for ever.
* `reflect.MakeSlice` is taken to succeed exactly for lengths from 0 to 2^48-1 (beyond that Go panics with
  "len out of range" for elements of one byte or more; below that the modelled machine has the memory).
-/
namespace Verif.Reflect
open Verif.Marshal

/-- What a struct tag says about the length of a field (writer_reflect.go:712-797). -/
inductive Dir
  | none
  | size (p : Pfx)
  | cnt (p : Pfx)
  | no
deriving Repr, DecidableEq

/-- A struct field's tag: unexported, `iproto:"skip"`, or encoded. -/
inductive Tag
  | hidden
  | skip
  | use (ber : Bool) (d : Dir)
deriving Repr, DecidableEq

mutual
/-- Go types. -/
inductive Ty
  | scal (k : Kind)
  | str
  | arr (n : Nat) (t : Ty)
  | sl (t : Ty)
  | ptr (t : Ty)
  | struct (fs : Fl)
/-- The fields of a struct, in order. -/
inductive Fl
  | nil
  | cons (g : Tag) (t : Ty) (fs : Fl)
end

/-- Go values. Arrays, slices and structs (all fields, also hidden ones) are sequences. -/
inductive Val
  | scal (s : Scal)
  | str (b : Bytes)
  | seq (vs : List Val)
  | nilp
  | ref (v : Val)
deriving Repr

mutual
/-- Equality of values is decidable (used by concrete examples only). -/
def Val.dec : (a b : Val) → Decidable (a = b)
  | .scal a, .scal b => if h : a = b then isTrue (h ▸ rfl) else isFalse (by simp [h])
  | .str a, .str b => if h : a = b then isTrue (h ▸ rfl) else isFalse (by simp [h])
  | .seq a, .seq b => match Val.decL a b with
    | isTrue h => isTrue (h ▸ rfl)
    | isFalse h => isFalse (by simp [h])
  | .nilp, .nilp => isTrue rfl
  | .ref a, .ref b => match Val.dec a b with
    | isTrue h => isTrue (h ▸ rfl)
    | isFalse h => isFalse (by simp [h])
  | .scal _, .str _ | .scal _, .seq _ | .scal _, .nilp | .scal _, .ref _
  | .str _, .scal _ | .str _, .seq _ | .str _, .nilp | .str _, .ref _
  | .seq _, .scal _ | .seq _, .str _ | .seq _, .nilp | .seq _, .ref _
  | .nilp, .scal _ | .nilp, .str _ | .nilp, .seq _ | .nilp, .ref _
  | .ref _, .scal _ | .ref _, .str _ | .ref _, .seq _ | .ref _, .nilp => isFalse (by simp)
def Val.decL : (a b : List Val) → Decidable (a = b)
  | [], [] => isTrue rfl
  | [], _ :: _ => isFalse (by simp)
  | _ :: _, [] => isFalse (by simp)
  | a :: as, b :: bs => match Val.dec a b with
    | isFalse h => isFalse (by simp [h])
    | isTrue h => match Val.decL as bs with
      | isTrue h' => isTrue (by rw [h, h'])
      | isFalse h' => isFalse (by simp [h'])
end

instance : DecidableEq Val := Val.dec

mutual
/-- The zero value of a type. -/
def zero : Ty → Val
  | .scal k => .scal k.zero
  | .str => .str []
  | .arr n t => .seq (List.replicate n (zero t))
  | .sl _ => .seq []
  | .ptr _ => .nilp
  | .struct fs => .seq (zeros fs)
def zeros : Fl → List Val
  | .nil => []
  | .cons _ t fs => zero t :: zeros fs
end

/-- `reflect.Value.Len`. -/
def vlen : Val → Nat
  | .str b => b.length
  | .seq vs => vs.length
  | _ => 0

/-- The scalars of a sequence of scalars of kind `k`. -/
def scals (k : Kind) : List Val → Option (List Scal)
  | [] => some []
  | .scal s :: vs => if s.kind = k then (scals k vs).map (s :: ·) else none
  | _ :: _ => none

/-- `reflect.Value.Uint` of an unsigned scalar. -/
def uint : Val → Option UInt64
  | .scal (.u8 x) => some x.toUInt64
  | .scal (.u16 x) => some x.toUInt64
  | .scal (.u32 x) => some x.toUInt64
  | .scal (.u64 x) => some x
  | _ => none

/-- Kinds `ber` applies to (writer_reflect.go:817,821,830,837). -/
def unsignedK : Kind → Bool
  | .u8 | .u16 | .u32 | .u64 => true
  | _ => false

/-- The kind of a scalar type. -/
def Ty.kind? : Ty → Option Kind
  | .scal k => some k
  | _ => none

/-! ### Writer -/

/-- `TWriter` (writer_reflect.go:256-267). The `Bool` says whether the value is addressable
(`CanAddr`). `ptr` holds `Size` and `Count` of the target for pointer types. -/
structure TW where
  write : Bool → Val → Wr → Option Wr
  auto : Bool → Val → Wr → Option Wr
  sz : Int
  szGet : Option (Val → Nat)
  cnt : Int
  cntGet : Option (Val → Nat)
  ptr : Option ((Val → Int) × (Val → Option Int))

/-- `Size` without pointers (writer_reflect.go:294-300). -/
def TW.baseSize (x : TW) (v : Val) : Int :=
  if 0 ≤ x.sz then x.sz else match x.szGet with
    | some f => f v
    | none => -1

/-- `Count` without pointers (writer_reflect.go:342-350); `none` is the panic. -/
def TW.baseCount (x : TW) (v : Val) : Option Int :=
  if 0 ≤ x.cnt then some x.cnt else match x.cntGet with
    | some f => some (f v)
    | none => none

/-- `Size` (writer_reflect.go:278-301): one pointer is followed. -/
def TW.size (x : TW) (v : Val) : Int :=
  match x.ptr with
  | none => x.baseSize v
  | some (f, _) => match v with
    | .ref u => f u
    | _ => 0

/-- `Count` (writer_reflect.go:326-351). -/
def TW.count (x : TW) (v : Val) : Option Int :=
  match x.ptr with
  | none => x.baseCount v
  | some (_, f) => match v with
    | .ref u => f u
    | _ => some 0

/-- `WithSize` (writer_reflect.go:303-324). The temporary writer is taken to be new; one from the pool
`twriters` differs in its spare capacity only, since `Written` leaves it empty. -/
def TW.withSize (x : TW) (p : Pfx) (addr : Bool) (v : Val) (w : Wr) : Option Wr :=
  let sz := x.size v
  if 0 ≤ sz then
    match p.write w (Int64.ofInt sz) with
    | none => none
    | some w => x.write addr v w
  else
    match x.write addr v (Wr.new 128) with
    | none => none
    | some tw =>
      let body := tw.written.1.mem.view tw.written.2
      match p.write w (Int64.ofNat body.length) with
      | none => none
      | some w => w.bytes body

/-- `WithCount` (writer_reflect.go:353-360). -/
def TW.withCount (x : TW) (p : Pfx) (addr : Bool) (v : Val) (w : Wr) : Option Wr :=
  match x.count v with
  | none => none
  | some c =>
    match p.write w (Int64.ofInt c) with
    | none => none
    | some w => x.write addr v w

/-- `fillauto` (writer_reflect.go:362-372). -/
def TW.fillauto (x : TW) : TW :=
  if x.cntGet.isSome then { x with auto := x.withCount .i32 } else { x with auto := x.write }

/-- `t.Sz` of the scalar kinds (writer_reflect.go:456-495, reader_reflect.go:673-734). -/
def kindSz : Kind → Int
  | .i8 => 1 | .i16 => 2 | .i32 => 4 | .i64 => 8
  | .u8 => 1 | .u16 => 2 | .u32 => 4 | .u64 => 8
  | .f32 => 4 | .f64 => 8

/-- Scalars (writer_reflect.go:456-495, writer.go:177-213). -/
def scalW (k : Kind) : TW :=
  let f := fun (_ : Bool) (v : Val) (w : Wr) => match v with
    | .scal s => if s.kind = k then w.scal s else none
    | _ => none
  { write := f, auto := f, sz := kindSz k, szGet := none, cnt := 1, cntGet := none, ptr := none }

/-- Strings (writer_reflect.go:452-455). -/
def strW : TW :=
  TW.fillauto
    { write := fun _ v w => match v with | .str b => w.bytes b | _ => none
      auto := fun _ _ _ => none
      sz := -1, szGet := some vlen, cnt := -1, cntGet := some vlen, ptr := none }

/-- `w.Xxx(v.Index(i))` for each element. -/
def scalEach : List Scal → Wr → Option Wr
  | [], w => some w
  | x :: xs, w => match w.scal x with
    | none => none
    | some w => scalEach xs w

/-- `Uint8slVal` .. `Float64slVal` (writer.go:223-257, writer_any.go:121-271): addressable elements go
through the typed slice writer. (`Int8slVal` uses `Uint8sl` on the same memory: the same bytes.) -/
def slVal (k : Kind) (addr : Bool) (vs : List Val) (w : Wr) : Option Wr :=
  match scals k vs with
  | none => none
  | some xs => if xs.isEmpty then some w else if addr then w.scalSl k xs else scalEach xs w

/-- `t.Elem.WriteAuto(w, v.Index(i))` for each element (writer_reflect.go:572-577,633-638). -/
def writeEach (f : Val → Wr → Option Wr) : List Val → Wr → Option Wr
  | [], w => some w
  | v :: vs, w => match f v w with
    | none => none
    | some w => writeEach f vs w

/-- The element loop or the typed slice writer (writer_reflect.go:537-577,598-638). -/
def elemsW (k : Option Kind) (e : TW) (addr : Bool) (v : Val) (w : Wr) : Option Wr :=
  match v with
  | .seq vs => match k with
    | some k => slVal k addr vs w
    | none => writeEach (e.auto addr) vs w
  | _ => none

/-- `FillArray` (writer_reflect.go:532-591). -/
def arrW (n : Nat) (k : Option Kind) (e : TW) : TW :=
  TW.fillauto
    { write := elemsW k e, auto := fun _ _ _ => none
      sz := if 0 ≤ e.sz then n * e.sz else -1, szGet := none
      cnt := n, cntGet := none, ptr := none }

/-- `FillSlice` (writer_reflect.go:593-652): elements of a slice are addressable. -/
def slW (k : Option Kind) (e : TW) : TW :=
  TW.fillauto
    { write := fun _ => elemsW k e true, auto := fun _ _ _ => none
      sz := -1, szGet := if 0 ≤ e.sz then some (fun v => vlen v * e.sz.toNat) else none
      cnt := -1, cntGet := some vlen, ptr := none }

/-- `FillPtr` (writer_reflect.go:654-663). A nil pointer panics in `WriteAuto`
(unless the target type has no content, which is not distinguished). -/
def ptrW (e : TW) : TW :=
  { write := fun _ v w => match v with
      | .nilp => some w
      | .ref u => e.write true u w
      | _ => none
    auto := fun _ v w => match v with
      | .ref u => e.auto true u w
      | _ => none
    sz := -1, szGet := none, cnt := -1, cntGet := none, ptr := some (e.baseSize, e.baseCount) }

/-- `VarVal` (writer.go:215-217). -/
def varVal (v : Val) (w : Wr) : Option Wr :=
  match uint v with
  | none => none
  | some x => w.uvar x

/-- `BerWriter` (writer_reflect.go:857-867). -/
def berW : TW :=
  { write := fun _ => varVal, auto := fun _ => varVal
    sz := -1, szGet := some fun v => ((uint v).map varu64size).getD 0
    cnt := 1, cntGet := none, ptr := none }

/-- The sum in `SzGet` of `BerSlWriter` (writer_reflect.go:875-882). -/
def berSum : List Val → Nat
  | [] => 0
  | v :: vs => ((uint v).map varu64size).getD 0 + berSum vs

/-- `BerSlWriter` (writer_reflect.go:869-889), used for arrays and slices. -/
def berSlW : TW :=
  TW.fillauto
    { write := fun _ v w => match v with | .seq vs => writeEach varVal vs w | _ => none
      auto := fun _ _ _ => none
      sz := -1, szGet := some fun v => match v with | .seq vs => berSum vs | _ => 0
      cnt := -1, cntGet := some vlen, ptr := none }

/-- Which writer a `ber` tag puts in place of the type's own (writer_reflect.go:815-848);
`none` is the panic. -/
def berFor : Ty → Option TW
  | .scal k => if unsignedK k then some berW else none
  | .arr _ (.scal k) => if unsignedK k then some berSlW else none
  | .sl (.scal k) => if unsignedK k then some berSlW else none
  | .ptr (.scal k) => if unsignedK k then some (ptrW berW) else none
  | _ => none

/-- The effect of a `size`/`cnt` directive on the running size (writer_reflect.go:721-797,
reader_reflect.go:1026-1102). -/
def dirSize (sz cnt : Int) : Dir → Int → Int
  | .none, s => s
  | .no, _ => -1
  | .size .ber, s => if sz < 0 then -1 else if 0 ≤ s then s + varsize (Int64.ofInt sz) else s
  | .size .i8, s => if 0 ≤ s then s + 1 else s
  | .size .i16, s => if 0 ≤ s then s + 2 else s
  | .size .i32, s => if 0 ≤ s then s + 4 else s
  | .size .i64, s => if 0 ≤ s then s + 8 else s
  | .cnt .ber, s => if cnt < 0 then -1 else if 0 ≤ s then s + varsize (Int64.ofInt cnt) else s
  | .cnt .i8, s => if 0 ≤ s then s + 2 else s
  | .cnt .i16, s => if 0 ≤ s then s + 2 else s
  | .cnt .i32, s => if 0 ≤ s then s + 4 else s
  | .cnt .i64, s => if 0 ≤ s then s + 8 else s

/-- `fw.CntWr == nil && fw.SzWr == nil`. -/
def Dir.bare : Dir → Bool
  | .none | .no => true
  | _ => false

/-- `FieldWriter` (writer_reflect.go:665-672). -/
structure FW where
  x : TW
  d : Dir

/-- One field (writer_reflect.go:676-685). -/
def FW.put (f : FW) (addr : Bool) (v : Val) (w : Wr) : Option Wr :=
  match f.d with
  | .size p => f.x.withSize p addr v w
  | .cnt p => f.x.withCount p addr v w
  | .no => f.x.write addr v w
  | .none => f.x.auto addr v w

/-- `writeStruct` (writer_reflect.go:674-687). `none` marks fields that are not in `t.Flds`. -/
def writeFlds (addr : Bool) : List (Option FW) → List Val → Wr → Option Wr
  | [], [], w => some w
  | none :: fs, _ :: vs, w => writeFlds addr fs vs w
  | some f :: fs, v :: vs, w => match f.put addr v w with
    | none => none
    | some w => writeFlds addr fs vs w
  | _, _, _ => none

/-- The end of `FillStruct` (writer_reflect.go:690,852-854). -/
def structW (sz : Int) (fs : List (Option FW)) : TW :=
  TW.fillauto
    { write := fun addr v w => match v with | .seq vs => writeFlds addr fs vs w | _ => none
      auto := fun _ _ _ => none
      sz := sz, szGet := none, cnt := 1, cntGet := none, ptr := none }

mutual
/-- `WriterFor`, `_writer`, `Fill` (writer_reflect.go:229-254,374-530); `none` is a panic. -/
def tw : Ty → Option TW
  | .scal k => some (scalW k)
  | .str => some strW
  | .arr n t => match tw t with
    | none => none
    | some e => some (arrW n t.kind? e)
  | .sl t => match tw t with
    | none => none
    | some e => some (slW t.kind? e)
  | .ptr t => match tw t with
    | none => none
    | some e => some (ptrW e)
  | .struct fs => match twFl 0 false fs with
    | none => none
    | some (sz, l) => some (structW sz l)
/-- The field loop of `FillStruct` (writer_reflect.go:692-851), with `size` and `nosize`. -/
def twFl : Int → Bool → Fl → Option (Int × List (Option FW))
  | size, _, .nil => some (size, [])
  | size, nosize, .cons .hidden _ fs => match twFl size nosize fs with
    | none => none
    | some (s, l) => some (s, none :: l)
  | size, nosize, .cons .skip _ fs =>
    if nosize then none else match twFl size nosize fs with
      | none => none
      | some (s, l) => some (s, none :: l)
  | size, nosize, .cons (.use ber d) t fs =>
    if nosize then none else match tw t with
      | none => none
      | some x =>
        let size := dirSize x.sz x.cnt d (if ber then -1 else size)
        if x.sz = 0 ∧ d.bare then match twFl size (d = .no) fs with
          | none => none
          | some (s, l) => some (s, none :: l)
        else
          let size := if 0 ≤ size then size + x.sz else size
          match (if ber then berFor t else some x) with
          | none => none
          | some y => match twFl size (d = .no) fs with
            | none => none
            | some (s, l) => some (s, some ⟨y, d⟩ :: l)
end

/-- `marshal.Write(v)` after the type switch (writer_reflect.go:85-91). The cases of the type switch
(writer_reflect.go:12-84) do what `WriteAuto` does for the same types (C99). `none`: panic. -/
def write (t : Ty) (v : Val) (w : Wr) : Option Wr :=
  match tw t with
  | none => none
  | some x => x.auto false v w

/-- `marshal.WriteTail(v)` (writer_reflect.go:101-168). -/
def writeTail (t : Ty) (v : Val) (w : Wr) : Option Wr :=
  match tw t with
  | none => none
  | some x => x.write false v w

/-! ### Reader -/

/-- A read into a destination: the reader and the destination afterwards. -/
abbrev RdF := Rd → Val → Option (Rd × Val)

/-- `TReader` (reader_reflect.go:382-396). `setSize` and `setCount` are the methods `SetSize`, `SetCount`. -/
structure TR where
  fixed : RdF
  tail : RdF
  auto : RdF
  autoCount : Option (Int → RdF)
  autoSize : Option (Int → RdF)
  sz : Int
  cnt : Int
  setSize : Val → Int → Option (Bool × Option RErr × Val)
  setCount : Val → Int → Option (Option RErr × Val)

/-- The end of `WithSize` (reader_reflect.go:462-471): read from a part of the body. `r.Slice(sz)` is
evaluated before `r.Err`. -/
def TR.sub (x : TR) (sz : Int) (r : Rd) (v : Val) : Option (Rd × Val) :=
  match r.slice sz with
  | none => none
  | some (r, b) =>
    match x.tail ⟨b, r.err⟩ v with
    | none => none
    | some (rr, v) =>
      if rr.err ≠ none then some ({ r with err := rr.err }, v)
      else if rr.body ≠ [] then some ({ r with err := some .other }, v)
      else some (r, v)

/-- `WithSize` after the prefix (reader_reflect.go:453-471). -/
def TR.bySize (x : TR) (sz : Int) (r : Rd) (v : Val) : Option (Rd × Val) :=
  match x.autoSize with
  | some f => f sz r v
  | none =>
    match x.setSize v sz with
    | none => none
    | some (true, _, v) => x.fixed r v
    | some (false, some e, v) => some ({ r with err := some e }, v)
    | some (false, none, v) => x.sub sz r v

/-- `WithSize` (reader_reflect.go:445-472). -/
def TR.withSize (x : TR) (p : Pfx) (r : Rd) (v : Val) : Option (Rd × Val) :=
  if r.err ≠ none then some (r, v) else x.bySize (p.read r).2.toInt (p.read r).1 v

/-- `WithCount` after the prefix (reader_reflect.go:530-538). -/
def TR.byCount (x : TR) (cnt : Int) (r : Rd) (v : Val) : Option (Rd × Val) :=
  match x.autoCount with
  | some f => f cnt r v
  | none =>
    match x.setCount v cnt with
    | none => none
    | some (some e, v) => some ({ r with err := some e }, v)
    | some (none, v) => x.fixed r v

/-- `WithCount` (reader_reflect.go:522-539). -/
def TR.withCount (x : TR) (p : Pfx) (r : Rd) (v : Val) : Option (Rd × Val) :=
  if r.err ≠ none then some (r, v) else x.byCount (p.read r).2.toInt (p.read r).1 v

/-- `SetSize` of a type with `Sz ≥ 0`, or with `Sz < 0` and no `SzSet` (reader_reflect.go:433-442). -/
def plainSetSize (sz : Int) (v : Val) (n : Int) : Option (Bool × Option RErr × Val) :=
  if 0 ≤ sz then
    if n ≠ sz then some (false, some .other, v) else some (true, none, v)
  else some (false, none, v)

/-- `SetCount` of a type with `Cnt ≥ 0` (reader_reflect.go:510-513). -/
def plainSetCount (cnt : Int) (v : Val) (n : Int) : Option (Option RErr × Val) :=
  if n ≠ cnt then some (some .other, v) else some (none, v)

/-- Scalars (reader_reflect.go:673-734). -/
def scalR (k : Kind) : TR :=
  let f : RdF := fun r _ => some ((r.scal k).1, .scal (r.scal k).2)
  { fixed := f, tail := f, auto := f, autoCount := none, autoSize := none
    sz := kindSz k, cnt := 1, setSize := plainSetSize (kindSz k), setCount := plainSetCount 1 }

/-- `v.SetString(r.String(sz))` (reader_reflect.go:666-668). -/
def setString (sz : Int) : RdF := fun r _ => match r.slice sz with
  | none => none
  | some (r, b) => some (r, .str b)

/-- Strings (reader_reflect.go:665-672). `Auto` is `Fixed`, which reads a count
(reader_reflect.go:542-556). Without `Cnt` and `CntSet`, `SetCount` panics (reader_reflect.go:516-518). -/
def strR : TR :=
  let f : RdF := fun r v =>
    if r.err ≠ none then some (r, v) else setString (Pfx.i32.read r).2.toInt (Pfx.i32.read r).1 v
  { fixed := f, auto := f, tail := fun r _ => some (r.tail.1, .str r.tail.2)
    autoCount := some setString, autoSize := some setString
    sz := -1, cnt := -1, setSize := plainSetSize (-1), setCount := fun _ _ => none }

/-- `Uint8slVal` .. `Float64slVal` (reader.go:211-235, reader_any.go:234-336). -/
def slValR (k : Kind) (r : Rd) (vs : List Val) : Option (Rd × List Val) :=
  match scals k vs with
  | none => none
  | some xs => if xs.isEmpty then some (r, vs) else
    some ((r.scalSl k xs).1, (r.scalSl k xs).2.map .scal)

/-- `t.Elem.Auto(r, v.Index(i))` for each element (reader_reflect.go:842-846,923-928). -/
def readEach (f : RdF) : Rd → List Val → Option (Rd × List Val)
  | r, [] => some (r, [])
  | r, v :: vs => match f r v with
    | none => none
    | some (r, v) => match readEach f r vs with
      | none => none
      | some (r, vs) => some (r, v :: vs)

/-- `Fixed` of arrays and slices (reader_reflect.go:807-846,867-928). -/
def elemsR (k : Option Kind) (f : RdF) : RdF := fun r v =>
  match v with
  | .seq vs =>
    match (match k with
      | some k => slValR k r vs
      | none => readEach f r vs) with
    | none => none
    | some (r, vs) => some (r, .seq vs)
  | _ => none

/-- `FillArray` (reader_reflect.go:802-847). `k`: the element kind, unless the element is `ber`. -/
def arrR (n : Nat) (k : Option Kind) (e : TR) : TR :=
  let f := elemsR k e.auto
  let sz := if 0 ≤ e.sz then e.sz * n else -1
  { fixed := f, tail := f, auto := f, autoCount := none, autoSize := none
    sz := sz, cnt := n, setSize := plainSetSize sz, setCount := plainSetCount n }

/-- `if v.Len() != cnt { v.Set(reflect.MakeSlice(t.Type, cnt, cnt)) }` (reader_reflect.go:851-853,858-861). -/
def makeSlice (z v : Val) (cnt : Int) : Option Val :=
  if (vlen v : Int) = cnt then some v
  else if cnt < 0 ∨ 2 ^ 48 ≤ cnt then none
  else some (.seq (List.replicate cnt.toNat z))

/-- `SetCount` of a slice (reader_reflect.go:850-855,514-515). -/
def slSetCount (z v : Val) (cnt : Int) : Option (Option RErr × Val) :=
  match makeSlice z v cnt with
  | none => none
  | some v => some (none, v)

/-- `SetSize` of a slice (reader_reflect.go:433-442,856-866): Go's division truncates. -/
def slSetSize (esz : Int) (z v : Val) (n : Int) : Option (Bool × Option RErr × Val) :=
  if 0 < esz then match makeSlice z v (n.tdiv esz) with
    | none => none
    | some v => some (true, none, v)
  else if esz = 0 then plainSetSize 0 v n
  else some (false, none, v)

/-- The loop of `Tail` (reader_reflect.go:941-951), started on an empty slice. If an element consumes
nothing and reports no error, the loop never ends. -/
def tailLoop (f : RdF) (z : Val) : Nat → Rd → Option (Rd × List Val)
  | 0, _ => none
  | n + 1, r =>
    if r.body = [] ∨ r.err ≠ none then some (r, [])
    else match f r z with
      | none => none
      | some (r', v) =>
        if r'.err = none ∧ r.body.length ≤ r'.body.length then none
        else match tailLoop f z n r' with
          | none => none
          | some (r, vs) => some (r, v :: vs)

/-- `Tail` of slices: `[]uint8` takes the rest (reader.go:237-249); the other scalar slices call
`reflect.MakeSlice` with the element type, which panics (reader.go:251-348); else the loop
(reader_reflect.go:930-952; the destination is addressable). -/
def slTail (k : Option Kind) (f : RdF) (z : Val) : RdF := fun r v =>
  match k with
  | some .u8 => if r.err ≠ none then some (r, v) else some (r.tail.1, .seq (r.tail.2.map fun b => .scal (.u8 b)))
  | some _ => if r.err ≠ none then some (r, v) else none
  | none => match tailLoop f z (r.body.length + 1) r with
    | none => none
    | some (r, vs) => some (r, .seq vs)

/-- `AutoCount` of `[]uint8` (reader_reflect.go:871-879): the slice is a part of the body. -/
def u8Auto (sz : Int) : RdF := fun r _ => match r.slice sz with
  | none => none
  | some (r, b) => some (r, .seq (b.map fun x => .scal (.u8 x)))

/-- `Auto` with a `CntSet` (reader_reflect.go:550-553). -/
def TR.autoCnt (x : TR) : TR := { x with auto := x.withCount .i32 }

/-- `FillSlice` and `fillautotail` (reader_reflect.go:849-953,541-557); `z` is the zero element. -/
def slR (k : Option Kind) (z : Val) (e : TR) : TR :=
  TR.autoCnt
    { fixed := elemsR k e.auto, tail := slTail k e.auto z, auto := fun _ _ => none
      autoCount := if k = some .u8 then some u8Auto else none
      autoSize := if k = some .u8 then some u8Auto else none
      sz := if e.sz = 0 then 0 else -1, cnt := -1
      setSize := slSetSize e.sz z, setCount := slSetCount z }

/-- `FillPtr` (reader_reflect.go:772-800), `SetSize`, `SetCount` (reader_reflect.go:400-415,476-492).
`z` is the zero value of the target. The destination is settable. `Tail` returns at once unless an
error is pending. -/
def ptrR (z : Val) (e : TR) : TR :=
  let f : RdF := fun r v => match v with
    | .ref u => match e.fixed r u with
      | none => none
      | some (r, u) => some (r, .ref u)
    | _ => some (r, v)
  let tgt : Val → Val := fun v => match v with
    | .ref u => u
    | _ => z
  { fixed := f, auto := f
    tail := fun r v =>
      if r.err = none then some (r, v)
      else if r.body ≠ [] then match e.tail r (tgt v) with
        | none => none
        | some (r, u) => some (r, .ref u)
      else some (r, .nilp)
    autoCount := none, autoSize := none, sz := -1, cnt := -1
    setSize := fun v n =>
      if n = 0 then some (true, none, .nilp) else match e.setSize (tgt v) n with
        | none => none
        | some (b, er, u) => some (b, er, .ref u)
    setCount := fun v n =>
      if n = 0 then some (none, .nilp) else match e.setCount (tgt v) n with
        | none => none
        | some (er, u) => some (er, .ref u) }

/-- `reflect.Value.SetUint`: truncates to the width of the kind. -/
def ofUint (x : UInt64) : Kind → Val
  | .u8 => .scal (.u8 x.toUInt8)
  | .u16 => .scal (.u16 x.toUInt16)
  | .u32 => .scal (.u32 x.toUInt32)
  | _ => .scal (.u64 x)

/-- `BerReader` on a destination of kind `k` (reader_reflect.go:1180-1189, reader.go:207-209). -/
def berR (k : Kind) : TR :=
  let f : RdF := fun r _ => some (r.uvar.1, ofUint r.uvar.2 k)
  { fixed := f, tail := f, auto := f, autoCount := none, autoSize := none
    sz := -1, cnt := 1, setSize := plainSetSize (-1), setCount := plainSetCount 1 }

/-- The reader a `ber` tag puts in place of the type's own (reader_reflect.go:1120-1173). The one for
pointers has no `Type`, so that `SetSize` and `SetCount` panic, as does `Tail` when it allocates a target
(`*int16`, reader_reflect.go:785). -/
def berForR : Ty → Option TR
  | .scal k => if unsignedK k then some (berR k) else none
  | .arr n (.scal k) => if unsignedK k then some (arrR n none (berR k)) else none
  | .sl (.scal k) => if unsignedK k then some (slR none (.scal k.zero) (berR k)) else none
  | .ptr (.scal k) => if unsignedK k then
      some { ptrR (.scal k.zero) (berR k) with
        setSize := fun _ _ => none, setCount := fun _ _ => none
        tail := fun r v => if r.err = none then some (r, v) else if r.body ≠ [] then none else some (r, .nilp) }
    else none
  | _ => none

/-- `FieldReader` (reader_reflect.go:955-962). -/
structure FR where
  x : TR
  d : Dir

/-- One field (reader_reflect.go:966-975,981-990). -/
def FR.get (f : FR) (tail : Bool) (r : Rd) (v : Val) : Option (Rd × Val) :=
  match f.d with
  | .size p => f.x.withSize p r v
  | .cnt p => f.x.withCount p r v
  | .no => if tail then f.x.tail r v else f.x.fixed r v
  | .none => f.x.auto r v

/-- `structFixed`, `structTail` (reader_reflect.go:964-992). -/
def readFlds (tail : Bool) : List (Option FR) → Rd → List Val → Option (Rd × List Val)
  | [], r, [] => some (r, [])
  | none :: fs, r, v :: vs => match readFlds tail fs r vs with
    | none => none
    | some (r, vs) => some (r, v :: vs)
  | some f :: fs, r, v :: vs => match f.get tail r v with
    | none => none
    | some (r, v) => match readFlds tail fs r vs with
      | none => none
      | some (r, vs) => some (r, v :: vs)
  | _, _, _ => none

/-- The end of `FillStruct` (reader_reflect.go:997,1174-1177). -/
def structR (sz : Int) (fs : List (Option FR)) : TR :=
  let f (tail : Bool) : RdF := fun r v => match v with
    | .seq vs => match readFlds tail fs r vs with
      | none => none
      | some (r, vs) => some (r, .seq vs)
    | _ => none
  { fixed := f false, tail := f true, auto := f false, autoCount := none, autoSize := none
    sz := sz, cnt := 1, setSize := plainSetSize sz, setCount := plainSetCount 1 }

mutual
/-- `ReaderFor`, `_reader`, `Fill` (reader_reflect.go:355-380,559-770); `none` is a panic. -/
def tr : Ty → Option TR
  | .scal k => some (scalR k)
  | .str => some strR
  | .arr n t => match tr t with
    | none => none
    | some e => some (arrR n t.kind? e)
  | .sl t => match tr t with
    | none => none
    | some e => some (slR t.kind? (zero t) e)
  | .ptr t => match tr t with
    | none => none
    | some e => some (ptrR (zero t) e)
  | .struct fs => match trFl 0 false fs with
    | none => none
    | some (sz, l) => some (structR sz l)
/-- The field loop of `FillStruct` (reader_reflect.go:998-1174). -/
def trFl : Int → Bool → Fl → Option (Int × List (Option FR))
  | size, _, .nil => some (size, [])
  | size, nosize, .cons .hidden _ fs => match trFl size nosize fs with
    | none => none
    | some (s, l) => some (s, none :: l)
  | size, nosize, .cons .skip _ fs =>
    if nosize then none else match trFl size nosize fs with
      | none => none
      | some (s, l) => some (s, none :: l)
  | size, nosize, .cons (.use ber d) t fs =>
    if nosize then none else match tr t with
      | none => none
      | some x =>
        let size := dirSize x.sz x.cnt d (if ber then -1 else size)
        if x.sz = 0 ∧ d.bare then match trFl size (d = .no) fs with
          | none => none
          | some (s, l) => some (s, none :: l)
        else
          let size := if 0 ≤ size then size + x.sz else size
          match (if ber then berForR t else some x) with
          | none => none
          | some y => match trFl size (d = .no) fs with
            | none => none
            | some (s, l) => some (s, some ⟨y, d⟩ :: l)
end

/-- `marshal.Read(b, &x)` into a fresh `x` of type `t` (reader_reflect.go:156-175). The cases of the type
switch do what `Auto` does for the same types, up to the destination after an error. `none`: does not return. -/
def read (t : Ty) (b : Bytes) : Option (Rd × Val) :=
  match tr t with
  | none => none
  | some x => x.auto ⟨b, none⟩ (zero t)

/-- `ReadTail` into `*[]T` for a scalar `T` (reader_reflect.go:286-311): `make([]T, len(r.Body)/w)` and the
typed slice reader. (`[]uint8` takes the body itself, with the same content.) -/
def tailScals (k : Kind) (b : Bytes) : Rd × Val :=
  let q := Rd.scalSl ⟨b, none⟩ k (List.replicate (b.length / Rd.slWidth k) k.zero)
  (q.1, .seq (q.2.map .scal))

/-- `marshal.ReadTail(b, &x)` into a fresh `x` (reader_reflect.go:280-349): what is left over is an error. -/
def readTail (t : Ty) (b : Bytes) : Option (Rd × Val) :=
  match tr t with
  | none => none
  | some x =>
    match (match t with
      | .sl (.scal k) => some (tailScals k b)
      | _ => x.tail ⟨b, none⟩ (zero t)) with
    | none => none
    | some (r, v) => if r.body ≠ [] then some ({ r with err := some .other }, v) else some (r, v)

end Verif.Reflect
