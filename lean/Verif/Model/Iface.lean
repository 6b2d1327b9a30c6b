import Verif.Model.Reflect

/-!
`Writer.Write`, `Writer.WriteTail`, `Writer.WriteWithSize`, `Reader.Read`, `Reader.ReadWithSize` and `Reader.ReadTail` on an
`interface{}` (`marshal/writer_reflect.go:10-217`, `marshal/reader_reflect.go:11-349`): the type switches with their own code for
scalars, strings and slices of scalars, lists (`[]interface{}`), user code (`IWriter`, `IReader`, ...), and the reflective codec
(`Verif.Model.Reflect`) for everything else.

* Types are unnamed, as in `Verif.Model.Reflect`.
* User code is a function on the writer or reader.
* A list does not contain itself.
-/
namespace Verif.Iface
open Verif.Marshal Verif.Reflect

/-- An `interface{}` given to be written. -/
inductive Any
  | nil
  | val (t : Ty) (v : Val)
  | list (l : List Any)                    -- []interface{}
  | hook (f : Wr → Option Wr)              -- IWriter, IShortWriter
  | hooks (fs : List (Wr → Option Wr))     -- []IWriter, []IShortWriter

/-- The cases for scalars, strings and slices of scalars (writer_reflect.go:14-65); `none`: none of these. -/
def fastW : Ty → Val → Option (Wr → Option Wr)
  | .scal k, .scal s => if s.kind = k then some fun w => w.scal s else none
  | .str, .str b => some fun w => match w.intUint32 (Int64.ofNat b.length) with
    | none => none
    | some w => w.bytes b
  | .sl (.scal k), .seq vs => match scals k vs with
    | none => none
    | some xs => some fun w => match w.intUint32 (Int64.ofNat xs.length) with
      | none => none
      | some w => w.scalSl k xs
  | _, _ => none

/-- The cases `[]IWriter`, `[]IShortWriter` (writer_reflect.go:69-78). -/
def runHooks : List (Wr → Option Wr) → Wr → Option Wr
  | [], w => some w
  | f :: fs, w => match f w with
    | none => none
    | some w => runHooks fs w

mutual
/-- `Write` (writer_reflect.go:10-93). -/
def writeAny : Any → Wr → Option Wr
  | .nil, w => some w
  | .val t v, w => match fastW t v with
    | some f => f w
    | none => match tw t with
      | none => none
      | some x => x.auto false v w
  | .list l, w => match w.intUint32 (Int64.ofNat l.length) with
    | none => none
    | some w => writeAll l w
  | .hook f, w => f w
  | .hooks fs, w => match w.intUint32 (Int64.ofNat fs.length) with
    | none => none
    | some w => runHooks fs w
/-- The loop over a `[]interface{}` (writer_reflect.go:82-84). -/
def writeAll : List Any → Wr → Option Wr
  | [], w => some w
  | a :: l, w => match writeAny a w with
    | none => none
    | some w => writeAll l w
end

/-- The cases of `WriteTail` for scalars and slices of scalars (writer_reflect.go:105-144): no count. -/
def fastTailW : Ty → Val → Option (Wr → Option Wr)
  | .scal k, .scal s => if s.kind = k then some fun w => w.scal s else none
  | .sl (.scal k), .seq vs => match scals k vs with
    | none => none
    | some xs => some fun w => w.scalSl k xs
  | _, _ => none

/-- `WriteTail` (writer_reflect.go:101-168). -/
def writeTailAny : Any → Wr → Option Wr
  | .nil, w => some w
  | .val t v, w => match fastTailW t v with
    | some f => f w
    | none => match tw t with
      | none => none
      | some x => x.write false v w
  | .list l, w => writeAll l w
  | .hook f, w => f w
  | .hooks fs, w => runHooks fs w

/-- The cases of `WriteWithSize` (writer_reflect.go:174-209). -/
def fastSizedW (p : Pfx) : Ty → Val → Option (Wr → Option Wr)
  | .scal k, .scal s => if s.kind = k then some fun w => match p.write w (Int64.ofInt (kindSz k)) with
      | none => none
      | some w => w.scal s
    else none
  | .str, .str b => some fun w => match p.write w (Int64.ofNat b.length) with
    | none => none
    | some w => w.bytes b
  | .sl (.scal .u8), .seq vs => match scals .u8 vs with
    | none => none
    | some xs => some fun w => match p.write w (Int64.ofNat xs.length) with
      | none => none
      | some w => w.scalSl .u8 xs
  | _, _ => none

/-- `WriteWithSize` of a typed value (writer_reflect.go:170-217). -/
def writeSized (p : Pfx) (t : Ty) (v : Val) (w : Wr) : Option Wr :=
  match fastSizedW p t v with
  | some f => f w
  | none => match tw t with
    | none => none
    | some x => x.withSize p false v w

/-! ### Reading -/

/-- An `interface{}` given to be read into. -/
inductive Dst
  | nil
  | ptr (t : Ty) (v : Val)                 -- a pointer to a variable
  | sl (k : Kind) (xs : List Scal)         -- a slice of scalars, to be filled
  | list (ds : List Dst)                   -- []interface{}
  | plist (ds : List Dst)                  -- *[]interface{}
  | hook (f : Rd → Option Rd)              -- IReader, IShortReader
  | hooks (fs : List (Rd → Option Rd))     -- []IReader, []IShortReader
  | phooks (fs : List (Rd → Option Rd))    -- *[]IReader, *[]IShortReader

/-- `count = r.Uint32()` as an `int`. -/
def count (r : Rd) : Rd × Nat := ((r.scal .u32).1, Rd.Scal.nat (r.scal .u32).2)

/-- The cases for pointers to scalars, strings and slices of scalars (reader_reflect.go:17-36,57-115). -/
def fastR : Ty → Option RdF
  | .scal k => some fun r _ => some ((r.scal k).1, .scal (r.scal k).2)
  | .str => some fun r v =>
    if (count r).1.err = none then match (count r).1.slice (count r).2 with
      | none => none
      | some (r, b) => some (r, .str b)
    else some ((count r).1, v)
  | .sl (.scal .u8) => some fun r v =>
    if (count r).1.err = none then match (count r).1.slice (count r).2 with
      | none => none
      | some (r, b) => some (r, .seq (b.map fun x => .scal (.u8 x)))
    else some ((count r).1, v)
  | .sl (.scal k) => some fun r v =>
    if (count r).1.err = none then
      let q := (count r).1.scalSl k (List.replicate (count r).2 k.zero)
      some (q.1, .seq (q.2.map .scal))
    else some ((count r).1, v)
  | _ => none

/-- `o[i].IRead(r)` for each (reader_reflect.go:118-121,135-138). -/
def runHooksR : List (Rd → Option Rd) → Rd → Option Rd
  | [], r => some r
  | f :: fs, r => match f r with
    | none => none
    | some r => runHooksR fs r

/-- The reflective part of `Read` for a pointer (reader_reflect.go:162-168). -/
def slowR (t : Ty) : RdF := fun r v => match tr t with
  | none => none
  | some x => x.auto r v

/-- `Read` into a pointer (reader_reflect.go:11-14,17-36,57-115,162-168). -/
def readPtr (t : Ty) : RdF := fun r v =>
  if r.err ≠ none then some (r, v) else match fastR t with
    | some f => f r v
    | none => slowR t r v

mutual
/-- `Read` (reader_reflect.go:11-175). The type of a nil `interface{}` is asked for, which panics
(reader_reflect.go:161-171). -/
def readAny : Rd → Dst → Option (Rd × Dst)
  | r, .nil => if r.err ≠ none then some (r, .nil) else none
  | r, .ptr t v => (readPtr t r v).map fun q => (q.1, .ptr t q.2)
  | r, .sl k xs => if r.err ≠ none then some (r, .sl k xs) else some ((r.scalSl k xs).1, .sl k (r.scalSl k xs).2)
  | r, .list ds => if r.err ≠ none then some (r, .list ds) else (readAll r ds).map fun q => (q.1, .list q.2)
  | r, .plist ds => if r.err ≠ none then some (r, .plist ds) else
    if (count r).1.err ≠ none then some ((count r).1, .plist ds)
    else if (count r).2 ≠ ds.length then some ({ (count r).1 with err := some .other }, .plist ds)
    else (readAll (count r).1 ds).map fun q => (q.1, .plist q.2)
  | r, .hook f => if r.err ≠ none then some (r, .hook f) else (f r).map fun q => (q, .hook f)
  | r, .hooks fs => if r.err ≠ none then some (r, .hooks fs) else (runHooksR fs r).map fun q => (q, .hooks fs)
  | r, .phooks fs => if r.err ≠ none then some (r, .phooks fs) else
    if (count r).1.err ≠ none then some ((count r).1, .phooks fs)
    else if (count r).2 ≠ fs.length then some ({ (count r).1 with err := some .other }, .phooks fs)
    else (runHooksR fs (count r).1).map fun q => (q, .phooks fs)
/-- The loop over a `[]interface{}` (reader_reflect.go:142-144,150-152). -/
def readAll : Rd → List Dst → Option (Rd × List Dst)
  | r, [] => some (r, [])
  | r, d :: ds => match readAny r d with
    | none => none
    | some (r, d) => match readAll r ds with
      | none => none
      | some (r, ds) => some (r, d :: ds)
end

/-- `ReadWithSize` into a pointer (reader_reflect.go:198-268). Another size than that of the scalar is passed over in silence;
all types but scalars, strings and bytes are read without a size. -/
def readSized (p : Pfx) (t : Ty) : RdF := fun r v =>
  if r.err ≠ none then some (r, v) else match t with
    | .scal k => if (p.read r).2.toInt = kindSz k then some (((p.read r).1.scal k).1, .scal ((p.read r).1.scal k).2)
      else some ((p.read r).1, v)
    | .str => match (p.read r).1.slice (p.read r).2.toInt with
      | none => none
      | some (r, b) => some (r, .str b)
    | .sl (.scal .u8) => match (p.read r).1.slice (p.read r).2.toInt with
      | none => none
      | some (r, b) => some (r, .seq (b.map fun x => .scal (.u8 x)))
    | t => slowR t r v

/-- `Tail` of the codec of `[]interface{}` on a list whose capacity is its length (reader_reflect.go:930-952,764-770): the old
elements are read into as long as there are any (an element is a pointer, whose `Auto` is `Fixed` of its target,
reader_reflect.go:772-776); then nil elements are appended, which read nothing. `none`: the loop does not end. -/
def tailList : Rd → List (Ty × Val) → Option (Rd × List (Ty × Val))
  | r, [] => if r.body = [] ∨ r.err ≠ none then some (r, []) else none
  | r, (t, v) :: ds => if r.body = [] ∨ r.err ≠ none then some (r, []) else
    match tr (.ptr t) with
    | none => none
    | some x => match x.auto r (.ref v) with
      | some (r, .ref v) => (tailList r ds).map fun q => (q.1, (t, v) :: q.2)
      | _ => none

/-- `ReadTail(&list)` for a list of pointers (reader_reflect.go:274-277,333-349): `*[]interface{}` is not among the cases. -/
def readTailList (b : Bytes) (ds : List (Ty × Val)) : Option (Rd × List (Ty × Val)) :=
  match tailList ⟨b, none⟩ ds with
  | none => none
  | some (r, ds) => if r.body ≠ [] then some ({ r with err := some .other }, ds) else some (r, ds)

end Verif.Iface
