import Verif.Model.Iface
import Verif.Model.Sbox

/-! `Body`, the type of the bodies of requests and responses (request.go:266-295), as it is written and read, and slices of scalars of
defined types (`type Ids []uint16`), which are none of the types that the cases of `Write`, `Read` and `ReadTail` are for. `Body` has a
method `IWrite`, and no method for reading; so the reader made for it is that of a slice of bytes
(marshal/reader_reflect.go:559-662,712-718,849-880). -/
namespace Verif.Body
open Verif.Marshal Verif.Reflect Verif.Iface Verif.Sbox

/-- A variable of type `Body`, or of another slice of bytes. -/
def var (b : Bytes) : Val := .seq (b.map fun x => .scal (.u8 x))

/-- `IWrite` (request.go:268-270), which `Write` and `WriteTail` call (marshal/writer_reflect.go:79-80,154-155). -/
def iwrite (b : Bytes) : Any := .hook fun w => w.bytes b

/-- `Reader` (request.go:272-275). -/
def reader (b : Bytes) : Rd := ⟨b, none⟩

/-- `r.Read(b)` with a `Body` (marshal/reader_reflect.go:156-172): no case is for it, it is no pointer, and so `Fixed` is called. -/
def readSelf (r : Rd) (b : Bytes) : Option (Rd × Val) :=
  if r.err ≠ none then some (r, var b) else match tr (.sl (.scal .u8)) with
    | none => none
    | some x => x.fixed r (var b)

/-- `Read2` (request.go:277-281): the reader that is returned. The body is read into itself. -/
def read2 (b : Bytes) : Option Rd := (readSelf (reader b) b).map (·.1)

/-- `ReadTail2` (request.go:283-287, marshal/reader_reflect.go:333-349). -/
def readTail2 (b : Bytes) : Option Rd :=
  (readSelf (reader b) b).map fun q => if q.1.body ≠ [] then { q.1 with err := some .other } else q.1

/-- `b.Read(&x)` for a slice `x` of scalars, of a defined type (request.go:289-291, marshal/reader_reflect.go:156-168). -/
def readDefined (k : Kind) (b : Bytes) (v : Val) : Option (Rd × Val) := slowR (.sl (.scal k)) ⟨b, none⟩ v

/-- `Tail` of the reader of a slice of scalars, of a defined type, for a variable: slices of bytes are asked to be a `*[]byte`, which they are not,
so that `v.Addr().Interface().(*[]byte)` panics (marshal/reader.go:237-249); the others call `reflect.MakeSlice` with the type of their
elements, which panics (reader.go:251-348). -/
def tailDefined (r : Rd) (v : Val) : Option (Rd × Val) := if r.err ≠ none then some (r, v) else none

/-- `b.ReadTail(&x)` likewise (request.go:293-295, marshal/reader_reflect.go:274-349). -/
def readTailDefined (b : Bytes) (v : Val) : Option (Rd × Val) :=
  match tailDefined ⟨b, none⟩ v with
  | none => none
  | some (r, v) => if r.body ≠ [] then some ({ r with err := some .other }, v) else some (r, v)

/-- `CountKeys` of a slice of bytes of a defined type: no case is for it (sbox/select.go:74-80,83-94; `v.Kind()` of a slice is never
`reflect.Uint8`). -/
def countDefined (b : Bytes) : Option Nat := countKeysVal (.sl (.scal .u8)) (var b)

/-- `WriteKeys` of it (sbox/select.go:145-151,153-184). -/
def writeKeysDefined (b : Bytes) (w : Wr) : Option Wr := keysVal false (.sl (.scal .u8)) (var b) w

end Verif.Body
