import Verif.Model.Reflect

/-!
Model of the package `sbox`: tuples (`sbox/writer.go`, `sbox/reader.go`), responses (`sbox/result.go`) and
request bodies (`sbox/select.go`, `sbox/modify.go`, `sbox/rpc.go`).

* Types and values are those of `Verif.Model.Reflect`; `none` means that the call does not return.
* The tag `sbox:"tail"`/`"tailsplit"` is in `Verif.Model.SboxTail`.
* The caches of codecs and of readers (`ws`, `rs`, `readerCache`) are not modelled: a codec is a function of the
  type, and a cached reader is reset before use (result.go:21,48).
-/
namespace Verif.Sbox
open Verif.Marshal Verif.Reflect

/-! ### Writing a tuple -/

/-- `Elem.WithSize(w, v.Index(i), Intvar)` for each element (writer.go:133-135). -/
def sizedEach (e : TW) (addr : Bool) : List Val → Wr → Option Wr
  | [], w => some w
  | v :: vs, w => match e.withSize .ber addr v w with
    | none => none
    | some w => sizedEach e addr vs w

/-- `len(flds)` (writer.go:173). -/
def fldCount : List (Option FW) → Nat
  | [] => 0
  | none :: fs => fldCount fs
  | some _ :: fs => fldCount fs + 1

/-- The field loop of `structWriter` (writer.go:190-193): the field's own size or count directive is not used. -/
def sizedFlds (addr : Bool) : List (Option FW) → List Val → Wr → Option Wr
  | [], [], w => some w
  | none :: fs, _ :: vs, w => sizedFlds addr fs vs w
  | some f :: fs, v :: vs, w => match f.x.withSize .ber addr v w with
    | none => none
    | some w => sizedFlds addr fs vs w
  | _, _, _ => none

/-- A tuple of one field (writer.go:138-147,159-162). -/
def oneW (x : TW) (addr : Bool) (v : Val) (w : Wr) : Option Wr :=
  match Pfx.i32.write w 1 with
  | none => none
  | some w => x.withSize .ber addr v w

/-- A tuple of the elements of an array or slice (writer.go:130-136). -/
def eachW (e : TW) (addr : Bool) (v : Val) (w : Wr) : Option Wr :=
  match v with
  | .seq vs => match Pfx.i32.write w (Int64.ofNat vs.length) with
    | none => none
    | some w => sizedEach e addr vs w
  | _ => none

/-- `structWriter` without tail (writer.go:183-195). -/
def structWr (l : List (Option FW)) (addr : Bool) (v : Val) (w : Wr) : Option Wr :=
  match v with
  | .seq vs => match Pfx.i32.write w (Int64.ofNat (fldCount l)) with
    | none => none
    | some w => sizedFlds addr l vs w
  | _ => none

/-- `writer`, `_writer`, `Fill`, `FillStruct` (writer.go:84-109,117-167,219-220): the function `Write` of a type.
The `Bool` says whether the value is addressable. -/
def tupW : Ty → Option (Bool → Val → Wr → Option Wr)
  | .scal k => some (oneW (scalW k))
  | .str => some (oneW strW)
  | .arr n t => match tw (.arr n t), tw t with
    | some x, some e => some (if t.kind? = some .u8 then oneW x else eachW e)
    | _, _ => none
  | .sl t => match tw (.sl t), tw t with
    | some x, some e => some (if t.kind? = some .u8 then oneW x else fun _ => eachW e true)
    | _, _ => none
  | .struct fs => match twFl 0 false fs with
    | some (_, l) => some (structWr l)
    | none => none
  | .ptr t => match tw (.ptr t), tupW t with
    | some _, some f => some fun _ v w => match v with
      | .nilp => some w
      | .ref u => f true u w
      | _ => none
    | _, _ => none

/-- An `interface{}` given as a field: nil or a value of a modelled type. -/
abbrev Fld := Option (Ty × Val)

/-- An `interface{}` given as a tuple: nil, a value of a modelled type, or a `[]interface{}`. -/
inductive Tup
  | nil
  | val (t : Ty) (v : Val)
  | list (fs : List Fld)

/-- `Writer.WriteWithSize(v, Intvar)` (marshal/writer_reflect.go:170-217): nil writes nothing. The cases of the type
switch write what the codec of the type writes. -/
def fldW : Fld → Wr → Option Wr
  | none, w => some w
  | some (t, v), w => match tw t with
    | none => none
    | some x => x.withSize .ber false v w

/-- The loop over a `[]interface{}` (writer.go:68-70). -/
def fldsW : List Fld → Wr → Option Wr
  | [], w => some w
  | f :: fs, w => match fldW f w with
    | none => none
    | some w => fldsW fs w

/-- `WriteTuple` (writer.go:14-78). The cases for scalars, strings and `[]byte` write what `writer(rt).Write` writes:
the length of a scalar is one byte, equal to its BER encoding. -/
def tuple : Tup → Wr → Option Wr
  | .nil, w => some w
  | .val t v, w => match tupW t with
    | none => none
    | some f => f false v w
  | .list fs, w => match Pfx.i32.write w (Int64.ofNat fs.length) with
    | none => none
    | some w => fldsW fs w

/-! ### Reading a tuple -/

/-- `oneFieldTuple` (reader.go:15-27). -/
def oneField (r : Rd) (sz : Int) : Rd × Bool :=
  if 1 ≤ r.intUint32.2.toInt then
    let q := r.intUint32.1.intvar
    if q.2.toInt = sz then (q.1, true) else ({ q.1 with err := some .other }, false)
  else ({ r.intUint32.1 with err := some .other }, false)

/-- `fixedFixed` (reader.go:110-114). -/
def fixedR (x : TR) : RdF := fun r v =>
  if (oneField r x.sz).2 then x.fixed (oneField r x.sz).1 v else some ((oneField r x.sz).1, v)

/-- `TReader.string` (reader.go:116-123). -/
def stringR : RdF := fun r v =>
  if 1 ≤ r.intUint32.2.toInt then
    let q := r.intUint32.1.intvar
    setString q.2.toInt q.1 v
  else some ({ r.intUint32.1 with err := some .other }, v)

/-- `bytesAuto` into a settable destination (reader.go:131-141). -/
def bytesR (x : TR) : RdF := fun r v =>
  if 1 ≤ r.intUint32.2.toInt then x.withSize .ber r.intUint32.1 v
  else some ({ r.intUint32.1 with err := some .other }, v)

/-- `Elem.WithSize(r, v.Index(i), Intvar)` for each element (reader.go:89-91,105-107). -/
def sizedEachR (e : TR) : Rd → List Val → Option (Rd × List Val)
  | r, [] => some (r, [])
  | r, v :: vs => match e.withSize .ber r v with
    | none => none
    | some (r, v) => match sizedEachR e r vs with
      | none => none
      | some (r, vs) => some (r, v :: vs)

/-- `sliceFixed` on an array (reader.go:87-95): the loop runs to the number of fields received, so that a longer
tuple panics behind the last element. -/
def arrayR (e : TR) : RdF := fun r v =>
  match v with
  | .seq vs =>
    let l := r.intUint32.2.toInt
    if l < vs.length then some ({ r.intUint32.1 with err := some .other }, v)
    else if l = vs.length then match sizedEachR e r.intUint32.1 vs with
      | none => none
      | some (r, vs) => some (r, .seq vs)
    else none
  | _ => none

/-- `sliceAuto` into a settable destination (reader.go:97-108); `z` is the zero element. -/
def sliceR (e : TR) (z : Val) : RdF := fun r _ =>
  match sizedEachR e r.intUint32.1 (List.replicate r.intUint32.2.toInt.toNat z) with
  | none => none
  | some (r, vs) => some (r, .seq vs)

/-- The loop of `structRead` (reader.go:257-260) for `k` more fields: further fields are left alone. -/
def structReadFlds : Nat → List (Option FR) → Rd → List Val → Option (Rd × List Val)
  | _, [], r, [] => some (r, [])
  | k, none :: fs, r, v :: vs => match structReadFlds k fs r vs with
    | none => none
    | some (r, vs) => some (r, v :: vs)
  | 0, some _ :: _, r, v :: vs => some (r, v :: vs)
  | k + 1, some f :: fs, r, v :: vs => match f.x.withSize .ber r v with
    | none => none
    | some (r, v) => match structReadFlds k fs r vs with
      | none => none
      | some (r, vs) => some (r, v :: vs)
  | _, _, _, _ => none

/-- `structAuto`, `structRead` without tail (reader.go:221-265). -/
def structRd (l : List (Option FR)) : RdF := fun r v =>
  match v with
  | .seq vs => match structReadFlds r.intUint32.2.toInt.toNat l r.intUint32.1 vs with
    | none => none
    | some (r, vs) => some (r, .seq vs)
  | _ => none

/-- `reader`, `_reader`, `Fill` (reader.go:53-78,143-193): the function `Auto` of a type, on a settable destination. -/
def tupR : Ty → Option RdF
  | .scal k => some (fixedR (scalR k))
  | .str => some stringR
  | .arr n t => match tr (.arr n t), tr t with
    | some x, some e => some (if t.kind? = some .u8 then fixedR x else arrayR e)
    | _, _ => none
  | .sl t => match tr (.sl t), tr t with
    | some x, some e => some (if t.kind? = some .u8 then bytesR x else sliceR e (zero t))
    | _, _ => none
  | .struct fs => match trFl 0 false fs with
    | some (_, l) => some (structRd l)
    | none => none
  | .ptr t => match tr (.ptr t), tupR t with
    | some _, some f => some fun r v => match f r (match v with | .ref u => u | _ => zero t) with
      | none => none
      | some (r, u) => some (r, .ref u)
    | _, _ => none

/-- `ReadRawTuple(r, &x)` for a fresh `x` of type `t` (reader.go:38-47,149-153). The result is the reader, whose
`err` is returned, and `x`. -/
def readRaw (t : Ty) (r : Rd) : Option (Rd × Val) :=
  match tupR t with
  | none => none
  | some f => f r (zero t)

/-! ### Reading a response -/

/-- `ReadFirst(b, &x)` for a fresh `x` of type `t` (result.go:15-40): `read`, `total`, `err` and `x`. -/
def readFirst (t : Ty) (b : Bytes) : Option (Bool × Int × Option RErr × Val) :=
  let r : Rd := ⟨b, none⟩
  let total := r.intUint32.2.toInt
  if 0 < total then
    let q := r.intUint32.1.intUint32
    if q.1.err = none then
      match q.1.slice (q.2.toInt + 4) with
      | none => none
      | some (_, body) => match readRaw t ⟨body, none⟩ with
        | none => none
        | some (r1, v) => some (true, total, r1.err, v)
    else some (false, total, q.1.err, zero t)
  else some (false, total, none, zero t)

/-- `oneTuple` (result.go:182-203): `r` is `r[0]`, `e` is `r[1].Err`, which is never reset. The result is `r[0]`,
`r[1].Err`, the destination and whether an error was returned. -/
def oneTuple (f : RdF) (r : Rd) (e : Option RErr) (v : Val) : Option (Rd × Option RErr × Val × Bool) :=
  if r.err ≠ none then some (r, e, v, true)
  else
    let q := r.intUint32
    match q.1.slice (q.2.toInt + 4) with
    | none => none
    | some (r, body) =>
      if r.err ≠ none then some (r, e, v, true)
      else match f ⟨body, e⟩ v with
        | none => none
        | some (r1, v) => some (r, r1.err, v, false)

/-- The loop of `readSlice` (result.go:155-161) over the remaining elements: number of elements passed, `r[0]` and
the elements. -/
def manyLoop (f : RdF) : Rd → Option RErr → List Val → Option (Nat × Rd × List Val)
  | r, _, [] => some (0, r, [])
  | r, e, v :: vs => match oneTuple f r e v with
    | none => none
    | some (r, _, v, true) => some (0, r, v :: vs)
    | some (r, e, v, false) => match manyLoop f r e vs with
      | none => none
      | some (n, r, vs) => some (n + 1, r, v :: vs)

/-- Element types `readSlice` accepts (result.go:140-152). -/
def manyOk : Ty → Bool
  | .arr _ (.scal _) | .sl (.scal _) | .arr _ .str | .sl .str => true
  | .arr _ _ | .sl _ => false
  | _ => true

/-- `ReadMany(b, &s)` for a fresh `s` of type `[]T` (result.go:42-61,70-71,138-161): `read`, `total`, `err` and the
elements of `s`. -/
def readMany (t : Ty) (b : Bytes) : Option (Nat × Int × Option RErr × List Val) :=
  let r : Rd := ⟨b, none⟩
  let total := r.intUint32.2.toInt
  if manyOk t then match tupR t with
    | none => none
    | some f => match manyLoop f r.intUint32.1 none (List.replicate total.toNat (zero t)) with
      | none => none
      | some (n, r, vs) => some (n, total, r.err, vs)
  else none

/-! ### Requests -/

/-- `SelectReq.Keys`: nil, a value of a modelled type, or a `[]interface{}` (nested at most once more). -/
inductive Keys
  | nil
  | val (t : Ty) (v : Val)
  | list (ts : List Tup)

/-- `CountKeysValues` (select.go:83-99). The test for bytes looks at the kind of the array or slice, which is never
`Uint8` (select.go:91). -/
def countKeysVal : Ty → Val → Option Nat
  | .scal _, _ => some 1
  | .str, _ => some 1
  | .struct _, _ => some 1
  | .arr n _, _ => some n
  | .sl _, v => some (vlen v)
  | .ptr _, _ => none

/-- `CountKeys` of a typed value (select.go:47-67,74-80). -/
def countKeysTy (t : Ty) (v : Val) : Option Nat :=
  match t, v with
  | .sl (.scal .u8), _ => some 1
  | .ptr t, .ref u => countKeysVal t u
  | .ptr _, _ => none
  | t, v => countKeysVal t v

/-- `CountKeys` of a field of a nested `[]interface{}`; nil panics (select.go:75-79: `v.Kind()` is `Invalid`). -/
def countFld : Fld → Option Nat
  | none => none
  | some (t, v) => countKeysTy t v

/-- Sum over a `[]interface{}` (select.go:68-73). -/
def countFlds : List Fld → Option Nat
  | [] => some 0
  | f :: fs => match countFld f, countFlds fs with
    | some a, some b => some (a + b)
    | _, _ => none

/-- `CountKeys` of an element of a `[]interface{}`. -/
def countTup : Tup → Option Nat
  | .nil => none
  | .val t v => countKeysTy t v
  | .list fs => countFlds fs

/-- Sum over a `[]interface{}` (select.go:68-73). -/
def countTups : List Tup → Option Nat
  | [] => some 0
  | t :: ts => match countTup t, countTups ts with
    | some a, some b => some (a + b)
    | _, _ => none

/-- `CountKeys` (select.go:46-81). -/
def countKeys : Keys → Option Nat
  | .nil => none
  | .val t v => countKeysTy t v
  | .list ts => countTups ts

/-- `wr.Write(w, v.Index(i))` for each element (select.go:172-175); also `WriteTuple(w, v)` (select.go:105-140). -/
def keysEach (f : Val → Wr → Option Wr) : List Val → Wr → Option Wr
  | [], w => some w
  | v :: vs, w => match f v w with
    | none => none
    | some w => keysEach f vs w

/-- `WriteKeysValues` (select.go:154-184). `addr`: the value is addressable. -/
def keysVal (addr : Bool) (t : Ty) (v : Val) (w : Wr) : Option Wr :=
  match t with
  | .scal _ | .str | .struct _ => match tupW t with
    | none => none
    | some f => f addr v w
  | .arr _ e => match tupW e, v with
    | some f, .seq vs => keysEach (f addr) vs w
    | _, _ => none
  | .sl e => match tupW e, v with
    | some f, .seq vs => keysEach (f true) vs w
    | _, _ => none
  | .ptr _ => some w

/-- `WriteKeys` of a typed value (select.go:101-152): `[]byte` is one tuple. The slices of scalars, strings, `[]byte` and
`[][]byte` with a case of their own are written as by `WriteKeysValues`. -/
def keysTy (t : Ty) (v : Val) (w : Wr) : Option Wr :=
  match t, v with
  | .sl (.scal .u8), v => match tupW (.sl (.scal .u8)) with
    | none => none
    | some f => f false v w
  | .ptr t, .ref u => keysVal true t u w
  | .ptr _, _ => some w
  | t, v => keysVal false t v w

/-- `WriteTuple` for each element (select.go:141-144). -/
def tuplesW : List Tup → Wr → Option Wr
  | [], w => some w
  | t :: ts, w => match tuple t w with
    | none => none
    | some w => tuplesW ts w

/-- `WriteKeys` (select.go:101-152). -/
def writeKeys : Keys → Wr → Option Wr
  | .nil, w => some w
  | .val t v, w => keysTy t v w
  | .list ts, w => tuplesW ts w

/-- `w.Uint32` for each. -/
def u32s : List UInt32 → Wr → Option Wr
  | [], w => some w
  | x :: xs, w => match w.scal (.u32 x) with
    | none => none
    | some w => u32s xs w

/-- `SelectReq` (select.go:18-24). -/
structure SelectReq where
  space : UInt32
  index : UInt32
  offset : UInt32
  limit : Int32
  keys : Keys

/-- The limit that is sent (select.go:31-37). -/
def sentLimit (limit : Int32) (cnt : Nat) : Int32 :=
  if 0 ≤ limit then limit else if limit = -2 then Int32.ofNat cnt else 2147483647

/-- `SelectReq.IWrite` (select.go:26-40). -/
def SelectReq.write (s : SelectReq) (w : Wr) : Option Wr :=
  match u32s [s.space, s.index, s.offset] w with
  | none => none
  | some w => match countKeys s.keys with
    | none => none
    | some cnt => match w.scal (.i32 (sentLimit s.limit cnt)) with
      | none => none
      | some w => match Pfx.i32.write w (Int64.ofNat cnt) with
        | none => none
        | some w => writeKeys s.keys w

/-- `StoreReq` (modify.go:21-26). -/
structure StoreReq where
  space : UInt32
  ret : Bool
  mode : UInt16
  tup : Tup

/-- `StoreReq.IWrite` (modify.go:28-37). -/
def StoreReq.write (s : StoreReq) (w : Wr) : Option Wr :=
  match u32s [s.space, (if s.ret then (1 : UInt32) else 0) ||| (s.mode.toUInt32 <<< 1)] w with
  | none => none
  | some w => tuple s.tup w

/-- `DeleteReq` (modify.go:43-47). -/
structure DeleteReq where
  space : UInt32
  ret : Bool
  key : Tup

/-- `DeleteReq.IWrite` (modify.go:49-57). -/
def DeleteReq.write (s : DeleteReq) (w : Wr) : Option Wr :=
  match u32s [s.space, if s.ret then 1 else 0] w with
  | none => none
  | some w => tuple s.key w

/-- `opmap` (modify.go:86-107): operator bytes to protocol codes, 0 for the holes; 125 entries. -/
def opmap (b : UInt8) : Option UInt8 :=
  if b = 61 then some 0        -- '='
  else if b = 43 then some 1   -- '+'
  else if b = 38 then some 2   -- '&'
  else if b = 124 then some 3  -- '|'
  else if b = 94 then some 4   -- '^'
  else if b = 115 then some 5  -- 's'
  else if b = 100 then some 6  -- 'd'
  else if b = 105 then some 7  -- 'i'
  else if b < 125 then some 0
  else none

/-- `Op` (modify.go:109-113); the value is not nil (nil panics, modify.go:142-143). -/
structure Op where
  field : UInt32
  op : UInt8
  ty : Ty
  val : Val

/-- The operator byte that is sent (modify.go:117-121). -/
def sentOp (b : UInt8) : Option UInt8 := if b ≤ 7 then some b else opmap b

/-- `Op.IWrite` (modify.go:115-146). The cases of the type switch write what `WithSize` writes. -/
def Op.write (o : Op) (w : Wr) : Option Wr :=
  match w.scal (.u32 o.field) with
  | none => none
  | some w => match sentOp o.op with
    | none => none
    | some c => match w.scal (.u8 c) with
      | none => none
      | some w => match tw o.ty with
        | none => none
        | some x => x.withSize .ber false o.val w

/-- The loop over a `[]Op`. -/
def opsW : List Op → Wr → Option Wr
  | [], w => some w
  | o :: os, w => match o.write w with
    | none => none
    | some w => opsW os w

/-- `UpdateReq` (modify.go:63-68). -/
structure UpdateReq where
  space : UInt32
  ret : Bool
  key : Tup
  ops : List Op

/-- `UpdateReq.IWrite` (modify.go:70-79). `w.Write(u.Ops)` writes a 32-bit count and calls `IWrite` on each
(marshal/writer_reflect.go:362-372,374-392). -/
def UpdateReq.write (u : UpdateReq) (w : Wr) : Option Wr :=
  match u32s [u.space, if u.ret then 1 else 0] w with
  | none => none
  | some w => match tuple u.key w with
    | none => none
    | some w => match Pfx.i32.write w (Int64.ofNat u.ops.length) with
      | none => none
      | some w => opsW u.ops w

/-- `stringvar` (rpc.go:34-37). -/
def stringvar (s : Bytes) (w : Wr) : Option Wr :=
  match Pfx.ber.write w (Int64.ofNat s.length) with
  | none => none
  | some w => w.bytes s

/-- The loop over the arguments (rpc.go:61-63). -/
def argsW : List Bytes → Wr → Option Wr
  | [], w => some w
  | a :: as, w => match stringvar a w with
    | none => none
    | some w => argsW as w

/-- `RPCReq` (rpc.go:11-23). -/
structure RPCReq where
  name : Bytes
  args : List Bytes

/-- `RPCReq.IWrite` (rpc.go:42-64). -/
def RPCReq.write (s : RPCReq) (w : Wr) : Option Wr :=
  match Pfx.i32.write w 0 with
  | none => none
  | some w => match stringvar s.name w with
    | none => none
    | some w => match Pfx.i32.write w (Int64.ofNat s.args.length) with
      | none => none
      | some w => argsW s.args w

/-- `IMsg` of the five requests (select.go:42-44, modify.go:39-41,59-61,81-83, rpc.go:69-71). -/
inductive Req | select | store | delete | update | rpc
deriving DecidableEq
def Req.msg : Req → UInt32
  | .select => 17 | .store => 13 | .delete => 21 | .update => 19 | .rpc => 22

end Verif.Sbox
