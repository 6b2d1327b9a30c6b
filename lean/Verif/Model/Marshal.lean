import Verif.Model.Bytes

/-!
Model of `marshal/writer.go`, `marshal/writer_any.go`, `marshal/reader.go`, `marshal/reader_any.go`
(the primitive, non reflective part) and `marshal/marshal.go:155-160`.

* Go `int` values that are lengths are `Nat`; sizes stay far below 2^61 (a real allocation fails
  long before), where 64-bit arithmetic and `Nat` arithmetic agree (see `C15_ceilLog_bounds`).
* floats are represented by their IEEE bit patterns (`math.Float32bits`, `math.Float64bits` and
  inverses are trusted to be identities on bit patterns).
* `none` is a run time panic.
-/
namespace Verif.Marshal

/-- The scalar types both Writer and Reader have a primitive for
(writer.go:69-79, writer_any.go:9-55, reader.go:18-42, reader_any.go:10-112). -/
inductive Kind
  | u8 | i8 | u16 | i16 | u32 | i32 | u64 | i64 | f32 | f64
deriving Repr, DecidableEq

/-- A Go scalar value. Floats carry their bit pattern. -/
inductive Scal
  | u8 (x : UInt8) | i8 (x : Int8)
  | u16 (x : UInt16) | i16 (x : Int16)
  | u32 (x : UInt32) | i32 (x : Int32)
  | u64 (x : UInt64) | i64 (x : Int64)
  | f32 (bits : UInt32) | f64 (bits : UInt64)
deriving Repr, DecidableEq

/-- The dynamic type of a scalar. -/
def Scal.kind : Scal → Kind
  | .u8 _ => .u8 | .i8 _ => .i8 | .u16 _ => .u16 | .i16 _ => .i16 | .u32 _ => .u32
  | .i32 _ => .i32 | .u64 _ => .u64 | .i64 _ => .i64 | .f32 _ => .f32 | .f64 _ => .f64

/-- The Go zero value of a scalar type. -/
def Kind.zero : Kind → Scal
  | .u8 => .u8 0 | .i8 => .i8 0 | .u16 => .u16 0 | .i16 => .i16 0 | .u32 => .u32 0
  | .i32 => .i32 0 | .u64 => .u64 0 | .i64 => .i64 0 | .f32 => .f32 0 | .f64 => .f64 0

/-! ### Writer -/

/-- `Writer` (writer.go:15-18), with the heap its buffer lives in. -/
structure Wr where
  mem : Mem
  buf : Slc
  defSize : Int
deriving Repr, DecidableEq

namespace Wr

/-- A zero `Writer{DefSize: d}`: nil buffer. -/
def new (d : Int) : Wr := ⟨Mem.empty, Slc.nil, d⟩

/-- `Written` (writer.go:20-25): `res = buf[:l:l]; buf = buf[l:]`. -/
def written (w : Wr) : Wr × Slc :=
  let l := w.buf.len
  ({ w with buf := w.buf.from' l }, w.buf.range3 0 l l)

/-- `Reset` (writer.go:27-30). -/
def reset (w : Wr) : Wr := { w with buf := w.buf.upto 0 }

/-- `ceilLog` (writer.go:32-42). -/
def ceilLog (n : Nat) : Nat :=
  let n := if n > 0 then (n - 1) >>> 2 else n
  let n := n ||| (n >>> 3)
  let n := n ||| (n >>> 2)
  let n := n ||| (n >>> 4)
  let n := n ||| (n >>> 8)
  let n := n ||| (n >>> 16)
  (n + 1) <<< 2

/-- The growth part of `ensure` (writer.go:46-59). `make([]byte, l, newCap)` panics if `newCap < l`. -/
def grow (w : Wr) (n : Nat) : Option Wr :=
  let l := w.buf.len
  if w.buf.cap - l < n then
    let newCap := l + n
    let d := if w.defSize = 0 then 512 else w.defSize
    let newCap := if (newCap : Int) ≤ d then d.toNat else ceilLog newCap
    if newCap < l then none else
      let p := w.mem.make l newCap
      some ⟨p.1.store p.2.blk 0 (w.mem.view w.buf), p.2, d⟩
  else some w

/-- `ensure` (writer.go:44-62): grow, then `buf = buf[:l+n]`, which panics beyond the capacity.
Returns the old length. -/
def ensure (w : Wr) (n : Nat) : Option (Wr × Nat) :=
  let l := w.buf.len
  match w.grow n with
  | none => none
  | some w => if l + n ≤ w.buf.cap then some ({ w with buf := w.buf.upto (l + n) }, l) else none

/-- `copy(w.buf[pos:], d)`, `w.buf[pos] = b` or `le.PutUintN(w.buf[pos:], x)`: an indexed store,
panics outside the length. (`copy` would truncate, but all `copy` calls of writer.go have room for all of `d`.) -/
def storeAt (w : Wr) (pos : Nat) (d : Bytes) : Option Wr :=
  if pos + d.length ≤ w.buf.len then
    some { w with mem := w.mem.store w.buf.blk (w.buf.off + pos) d }
  else none

/-- A sequence of stores at positions relative to `l`. -/
def stores (l : Nat) : List (Nat × Bytes) → Wr → Option Wr
  | [], w => some w
  | (p, d) :: r, w =>
    match w.storeAt (l + p) d with
    | none => none
    | some w => stores l r w

/-- The shape of all primitive writers: `l := w.ensure(n)` followed by stores at `l+..`. -/
def put (w : Wr) (n : Nat) (st : List (Nat × Bytes)) : Option Wr :=
  match w.ensure n with
  | none => none
  | some (w, l) => stores l st w

/-- `Uint8`/`Int8` (writer.go:69-79), `Uint16`..`Float64` (writer_any.go:9-55). -/
def scal (w : Wr) : Scal → Option Wr
  | .u8 x => w.put 1 [(0, [x])]
  | .i8 x => w.put 1 [(0, [x.toUInt8])]
  | .u16 x => w.put 2 [(0, putU16 x)]
  | .i16 x => w.put 2 [(0, putU16 x.toUInt16)]
  | .u32 x => w.put 4 [(0, putU32 x)]
  | .i32 x => w.put 4 [(0, putU32 x.toUInt32)]
  | .u64 x => w.put 8 [(0, putU64 x)]
  | .i64 x => w.put 8 [(0, putU64 x.toUInt64)]
  | .f32 x => w.put 4 [(0, putU32 x)]
  | .f64 x => w.put 8 [(0, putU64 x)]

/-- The backward loop of `Uint64var` (writer.go:124-128): `k` further digits end just before
relative position `j`. -/
def uvarLoop : Nat → Nat → UInt64 → List (Nat × Bytes)
  | 0, _, _ => []
  | k + 1, j, i =>
    let i := i >>> 7
    (j - 1, [(0x80 : UInt8) ||| (i &&& 0x7f).toUInt8]) :: uvarLoop k (j - 1) i

/-- `Uint64var` (writer.go:88-129). -/
def uvar (w : Wr) (i : UInt64) : Option Wr :=
  if i.toNat < 2 ^ 7 then w.put 1 [(0, [i.toUInt8])]
  else if i.toNat < 2 ^ 14 then
    w.put 2 [(0, [(0x80 : UInt8) ||| (i >>> 7).toUInt8]), (1, [(i &&& 0x7f).toUInt8])]
  else if i.toNat < 2 ^ 21 then
    w.put 3 [(0, [(0x80 : UInt8) ||| (i >>> 14).toUInt8]), (1, [(0x80 : UInt8) ||| ((i >>> 7) &&& 0x7f).toUInt8]),
      (2, [(i &&& 0x7f).toUInt8])]
  else
    let n :=
      if i.toNat < 2 ^ 28 then 4
      else if i.toNat < 2 ^ 35 then 5
      else if i.toNat < 2 ^ 42 then 6
      else if i.toNat < 2 ^ 49 then 7
      else if i.toNat < 2 ^ 56 then 8
      else if i.toNat < 2 ^ 63 then 9
      else 10
    w.put n ((n - 1, [(i &&& 0x7f).toUInt8]) :: uvarLoop (n - 1) (n - 1) i)

/-- `Intvar` (writer.go:131-133). Go `int` is `Int64`. -/
def intvar (w : Wr) (i : Int64) : Option Wr := w.uvar i.toUInt64
/-- `IntUint64` (writer.go:135-137): note that only four bytes are written. -/
def intUint64 (w : Wr) (i : Int64) : Option Wr := w.scal (.u32 i.toUInt64.toUInt32)
/-- `IntUint32` (writer.go:139-141). -/
def intUint32 (w : Wr) (i : Int64) : Option Wr := w.scal (.u32 i.toUInt64.toUInt32)
/-- `IntUint16` (writer.go:143-145). -/
def intUint16 (w : Wr) (i : Int64) : Option Wr := w.scal (.u16 i.toUInt64.toUInt16)
/-- `IntUint8` (writer.go:147-149). -/
def intUint8 (w : Wr) (i : Int64) : Option Wr := w.scal (.u8 i.toUInt64.toUInt8)

/-- `Bytes`, `Uint8sl`, `String` (writer.go:151-167); also `Need` (writer.go:64-67) followed by the
caller filling all of the returned slice with `b`. -/
def bytes (w : Wr) (b : Bytes) : Option Wr := w.put b.length [(0, b)]

/-- The bytes the element store of a typed slice writer puts
(writer.go:172, writer_any.go:60,68,76,84,92,100,108,116). -/
def elemBytes : Scal → Bytes
  | .u8 x => [x] | .i8 x => [x.toUInt8]
  | .u16 x => putU16 x | .i16 x => putU16 x.toUInt16
  | .u32 x => putU32 x | .i32 x => putU32 x.toUInt32
  | .u64 x => putU64 x | .i64 x => putU64 x.toUInt64
  | .f32 x => putU32 x | .f64 x => putU64 x

/-- Bytes per element reserved by the typed slice writers
(writer.go:158,170, writer_any.go:58,66,74,82,90,98,106,114). -/
def slWidth : Kind → Nat
  | .u8 => 1 | .i8 => 1 | .u16 => 2 | .i16 => 2 | .u32 => 4 | .i32 => 4
  | .u64 => 8 | .i64 => 8 | .f32 => 4 | .f64 => 8

/-- Distance between consecutive element stores of the typed slice writers
(writer.go:159,172, writer_any.go:60,68,76,84,92,100,108,116). `Float64sl` uses `l+j*4`. -/
def slStride : Kind → Nat
  | .u8 => 1 | .i8 => 1 | .u16 => 2 | .i16 => 2 | .u32 => 4 | .i32 => 4
  | .u64 => 8 | .i64 => 8 | .f32 => 4 | .f64 => 4

/-- The element stores, from index `j` on. -/
def slStores (k : Kind) : Nat → List Scal → List (Nat × Bytes)
  | _, [] => []
  | j, x :: xs => (j * slStride k, elemBytes x) :: slStores k (j + 1) xs

/-- `Uint8sl`, `Int8sl` (writer.go:157-175), `Uint16sl` .. `Float64sl` (writer_any.go:57-119). -/
def scalSl (w : Wr) (k : Kind) (xs : List Scal) : Option Wr :=
  w.put (xs.length * slWidth k) (slStores k 0 xs)

end Wr

/-- The loop of `varu64size` (writer.go:81-86); ten iterations are enough for 64 bits
(`varSizeLoop_fuel`), so the fuel argument does not restrict anything. -/
def varSizeLoop : Nat → Nat → Nat
  | 0, _ => 0
  | f + 1, i => if i > 128 then varSizeLoop f (i / 128) + 1 else 0

/-- `varu64size` (writer.go:81-86). -/
def varu64size (i : UInt64) : Nat := varSizeLoop 10 i.toNat + 1

/-- `Varsize` (marshal.go:155-160) on a Go `int`: negative values leave the loop at once. -/
def varsize (i : Int64) : Nat := varSizeLoop 10 i.toInt.toNat + 1

/-! ### Reader -/

/-- What kind of error a reader recorded (the message text is not modelled). -/
inductive RErr | short | tooBig | other
deriving Repr, DecidableEq

/-- `Reader` (reader.go:13-16). -/
structure Rd where
  body : Bytes
  err : Option RErr
deriving Repr, DecidableEq

namespace Rd

/-- Size tests of the scalar readers (reader.go:22,35, reader_any.go:14,27,40,53,66,79,92,105). -/
def need : Kind → Nat
  | .u8 => 1 | .i8 => 1 | .u16 => 2 | .i16 => 2 | .u32 => 4 | .i32 => 4
  | .u64 => 8 | .i64 => 8 | .f32 => 4 | .f64 => 8

/-- Bytes consumed by the scalar readers (reader.go:27,40, reader_any.go:19,32,45,58,71,84,97,110). -/
def step : Kind → Nat
  | .u8 => 1 | .i8 => 1 | .u16 => 2 | .i16 => 2 | .u32 => 4 | .i32 => 4
  | .u64 => 8 | .i64 => 8 | .f32 => 4 | .f64 => 8

/-- Decoding from the beginning of the body
(reader.go:26,39, reader_any.go:18,31,44,57,70,83,96,109). -/
def decode (b : Bytes) : Kind → Scal
  | .u8 => .u8 (b.headD 0)
  | .i8 => .i8 (b.headD 0).toInt8
  | .u16 => .u16 (getU16 b)
  | .i16 => .i16 (getU16 b).toInt16
  | .u32 => .u32 (getU32 b)
  | .i32 => .i32 (getU32 b).toInt32
  | .u64 => .u64 (getU64 b)
  | .i64 => .i64 (getU64 b).toInt64
  | .f32 => .f32 (getU32 b)
  | .f64 => .f64 (getU64 b)

/-- `Uint8`, `Int8` (reader.go:18-42), `Uint16` .. `Float64` (reader_any.go:10-112). -/
def scal (r : Rd) (k : Kind) : Rd × Scal :=
  if r.err ≠ none then (r, k.zero)
  else if r.body.length < need k then ({ r with err := some .short }, k.zero)
  else ({ r with body := r.body.drop (step k) }, decode r.body k)

/-- Result of the loop of `Uint64var`. -/
inductive UvRes
  | done (res : UInt64) (rest : Bytes)
  | tooBig (res : UInt64)
  | short (res : UInt64)
deriving Repr, DecidableEq

/-- The loop of `Uint64var` (reader.go:52-61). -/
def uvarLoop : Bytes → UInt64 → UvRes
  | [], res => .short res
  | x :: xs, res =>
    let res := (res <<< 7) ||| (x &&& 0x7f).toUInt64
    if x < 0x80 then .done res xs
    else if res > (0xffffffffffffffff : UInt64) >>> 7 then .tooBig res
    else uvarLoop xs res

/-- `Uint64var` (reader.go:46-64). On an error the partial result is returned. -/
def uvar (r : Rd) : Rd × UInt64 :=
  if r.err ≠ none then (r, 0)
  else match uvarLoop r.body 0 with
    | .done v rest => ({ r with body := rest }, v)
    | .tooBig v => ({ r with err := some .tooBig }, v)
    | .short v => ({ r with err := some .short }, v)

/-- `Intvar` (reader.go:66-69). -/
def intvar (r : Rd) : Rd × Int64 := (r.uvar.1, r.uvar.2.toInt64)

/-- Helper: unsigned value of a scalar (only used on u8/u16/u32/u64 results). -/
def Scal.nat : Scal → Nat
  | .u8 x => x.toNat | .u16 x => x.toNat | .u32 x => x.toNat | .u64 x => x.toNat | _ => 0

/-- `IntUint8` (reader.go:71-74). -/
def intUint8 (r : Rd) : Rd × Int64 := ((r.scal .u8).1, (UInt64.ofNat (Scal.nat (r.scal .u8).2)).toInt64)
/-- `IntUint16` (reader.go:76-79). -/
def intUint16 (r : Rd) : Rd × Int64 := ((r.scal .u16).1, (UInt64.ofNat (Scal.nat (r.scal .u16).2)).toInt64)
/-- `IntUint32` (reader.go:81-84). -/
def intUint32 (r : Rd) : Rd × Int64 := ((r.scal .u32).1, (UInt64.ofNat (Scal.nat (r.scal .u32).2)).toInt64)
/-- `IntUint64` (reader.go:86-89). -/
def intUint64 (r : Rd) : Rd × Int64 := ((r.scal .u64).1, (UInt64.ofNat (Scal.nat (r.scal .u64).2)).toInt64)

/-- `Bytes(b)` and `Uint8sl(b)` (reader.go:91-115); the result is the new content of `b`. -/
def bytes (r : Rd) (dst : Bytes) : Rd × Bytes :=
  if r.err ≠ none then (r, dst)
  else if r.body.length < dst.length then ({ r with err := some .short }, dst)
  else ({ r with body := r.body.drop dst.length }, r.body.take dst.length)

/-- Width used in the size test, the element index and the consumption of the typed slice readers
(reader.go:121,126,128, reader_any.go:118-125,133-140,148-155,163-170,178-185,193-200,208-215,223-230). -/
def slWidth : Kind → Nat
  | .u8 => 1 | .i8 => 1 | .u16 => 2 | .i16 => 2 | .u32 => 4 | .i32 => 4
  | .u64 => 8 | .i64 => 8 | .f32 => 4 | .f64 => 8

/-- `b[i] = decode(Body[i*w:])` for `i` from `j`. -/
def slElems (body : Bytes) (k : Kind) : Nat → Nat → List Scal
  | _, 0 => []
  | j, n + 1 => decode (body.drop (j * slWidth k)) k :: slElems body k (j + 1) n

/-- `Int8sl` (reader.go:117-130), `Uint16sl` .. `Float64sl` (reader_any.go:114-232);
the result is the new content of the destination. -/
def scalSl (r : Rd) (k : Kind) (dst : List Scal) : Rd × List Scal :=
  if r.err ≠ none then (r, dst)
  else if r.body.length < dst.length * slWidth k then ({ r with err := some .short }, dst)
  else ({ r with body := r.body.drop (dst.length * slWidth k) }, slElems r.body k 0 dst.length)

/-- `Slice(sz)` and `String(sz)` (reader.go:132-156). A negative size passes the length test and
panics in the slice expression. `[]` is nil / the empty string on errors. -/
def slice (r : Rd) (sz : Int) : Option (Rd × Bytes) :=
  if r.err ≠ none then some (r, [])
  else if (r.body.length : Int) < sz then some ({ r with err := some .short }, [])
  else if sz < 0 then none
  else some ({ r with body := r.body.drop sz.toNat }, r.body.take sz.toNat)

/-- `Tail` (reader.go:158-165). -/
def tail (r : Rd) : Rd × Bytes :=
  if r.err ≠ none then (r, []) else ({ r with body := [] }, r.body)

end Rd

/-! ### Histories of writer operations -/

/-- One call on a `Writer`. -/
inductive WOp
  | scal (s : Scal)
  | uvar (x : UInt64)
  | bytes (b : Bytes)
  | scalSl (k : Kind) (xs : List Scal)
  | written
  | reset
deriving Repr, DecidableEq

/-- Perform one call; `written` also yields a slice. -/
def WOp.run (w : Wr) : WOp → Option (Wr × List Slc)
  | .scal s => (w.scal s).map (·, [])
  | .uvar x => (w.uvar x).map (·, [])
  | .bytes b => (w.bytes b).map (·, [])
  | .scalSl k xs => (w.scalSl k xs).map (·, [])
  | .written => some (w.written.1, [w.written.2])
  | .reset => some (w.reset, [])

/-- A history of calls; collects the slices returned by `Written`. -/
def WOp.runAll : Wr → List WOp → Option (Wr × List Slc)
  | w, [] => some (w, [])
  | w, o :: os =>
    match o.run w with
    | none => none
    | some (w1, s1) =>
      match runAll w1 os with
      | none => none
      | some (w2, s2) => some (w2, s1 ++ s2)

/-! ### Primitive reads as one type -/

/-- Any primitive read. -/
inductive ROp
  | scal (k : Kind)
  | uvar | intvar | intUint8 | intUint16 | intUint32 | intUint64
  | bytes (dst : Bytes)
  | scalSl (k : Kind) (dst : List Scal)
  | slice (sz : Int)
  | tail
deriving Repr, DecidableEq

/-- What a primitive read returns (for `bytes`, `scalSl`: the destination afterwards). -/
inductive RVal
  | scal (s : Scal) | u64 (x : UInt64) | int (x : Int64) | bytes (b : Bytes) | list (l : List Scal)
deriving Repr, DecidableEq

def ROp.run (r : Rd) : ROp → Option (Rd × RVal)
  | .scal k => some ((r.scal k).1, .scal (r.scal k).2)
  | .uvar => some (r.uvar.1, .u64 r.uvar.2)
  | .intvar => some (r.intvar.1, .int r.intvar.2)
  | .intUint8 => some (r.intUint8.1, .int r.intUint8.2)
  | .intUint16 => some (r.intUint16.1, .int r.intUint16.2)
  | .intUint32 => some (r.intUint32.1, .int r.intUint32.2)
  | .intUint64 => some (r.intUint64.1, .int r.intUint64.2)
  | .bytes d => some ((r.bytes d).1, .bytes (r.bytes d).2)
  | .scalSl k d => some ((r.scalSl k d).1, .list (r.scalSl k d).2)
  | .slice sz => (r.slice sz).map fun p => (p.1, .bytes p.2)
  | .tail => some (r.tail.1, .bytes r.tail.2)

/-! ### Length prefixes -/

/-- The prefix kinds of `size(..)`/`cnt(..)` directives (writer_reflect.go:721-747,762-788). -/
inductive Pfx | ber | i8 | i16 | i32 | i64
deriving Repr, DecidableEq

/-- The writer function chosen for a prefix kind (writer_reflect.go:727,732,737,742,747,768,773,778,783,788). -/
def Pfx.write (p : Pfx) (w : Wr) (n : Int64) : Option Wr :=
  match p with
  | .ber => w.intvar n | .i8 => w.intUint8 n | .i16 => w.intUint16 n | .i32 => w.intUint32 n | .i64 => w.intUint64 n

/-- The reader function chosen for a prefix kind (reader_reflect.go:1032,1037,1042,1047,1052,1073,1078,1083,1088,1093). -/
def Pfx.read (p : Pfx) (r : Rd) : Rd × Int64 :=
  match p with
  | .ber => r.intvar | .i8 => r.intUint8 | .i16 => r.intUint16 | .i32 => r.intUint32 | .i64 => r.intUint64

end Verif.Marshal
