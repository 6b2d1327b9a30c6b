import Verif.Model.Bytes
/-
Model of the wire layer: net/buf_writer.go, net/slice_reader.go, net/header.go, net/consts.go.
-/
namespace Verif.Net
open Verif

/-- Errors of `io.Reader` / `io.Writer`. `other` stands for resets, deadline errors, ...
`spin` is a model-only marker for "the Go loop would not terminate"; it is proved unreachable. -/
inductive IOErr | eof | unexpectedEOF | pingFailed | other (code : Nat) | spin
deriving Repr, DecidableEq

/-- Outcome of a Go call: value, error, or run-time panic. -/
inductive Out (α : Type) | ok (a : α) | err (e : IOErr) | panic
deriving Repr, DecidableEq

/-! ### io.Writer and BufWriter -/

/-- The `io.Writer` below a BufWriter: everything delivered so far, and how many more bytes it
accepts before failing (`none` = never fails). A failing write delivers a prefix
(contract of io.Writer). -/
structure Conn where
  out : Bytes
  budget : Option Nat
deriving Repr, DecidableEq

/-- `io.Writer.Write` -/
def Conn.write (c : Conn) (d : Bytes) : Conn × Out Unit :=
  match c.budget with
  | none => ({ c with out := c.out ++ d }, .ok ())
  | some k =>
    if d.length ≤ k then (⟨c.out ++ d, some (k - d.length)⟩, .ok ())
    else (⟨c.out ++ d.take k, some 0⟩, .err (.other 1))

/-- net/buf_writer.go:8-15. `buf = []` is the nil buffer; deadlines are not modelled. -/
structure BufW where
  conn : Conn
  buf : Bytes
  wr : Nat
deriving Repr, DecidableEq

namespace BufW

/-- size of the buffer allocated by Flush, net/buf_writer.go:81 -/
def bufSize : Nat := 4096

/-- fresh writer, net/header.go:127 (`HeaderWriter.Init`) -/
def init (c : Conn) : BufW := ⟨c, [], 0⟩

/-- `if err = f(); err != nil { return }; g()` -/
def andThen (p : BufW × Out Unit) (f : BufW → BufW × Out Unit) : BufW × Out Unit :=
  match p with
  | (w', .ok ()) => f w'
  | (w', r) => (w', r)

/-- net/buf_writer.go:86-105 (deadline handling left out) -/
def rawWrite (w : BufW) (d : Bytes) : BufW × Out Unit :=
  let (c, r) := w.conn.write d
  ({ w with conn := c }, r)

/-- net/buf_writer.go:72-84 -/
def flush (w : BufW) : BufW × Out Unit :=
  let (w1, r1) := if w.wr > 0 then
      match w.rawWrite (w.buf.take w.wr) with
      | (w', .ok ()) => ({ w' with wr := 0 }, Out.ok ())
      | (w', r) => (w', r)
    else (w, .ok ())
  match r1 with
  | .ok () => (if w1.buf = [] then { w1 with buf := List.replicate bufSize 0 } else w1, .ok ())
  | r => (w1, r)

/-- `copy(w.buf[w.wr:w.wr+n], d); w.wr += adv`, panicking when the slice expression is out of
range (buf_writer.go:28-29,40-41,53-56). -/
def put (w : BufW) (d : Bytes) : BufW × Out Unit :=
  if w.wr + d.length ≤ w.buf.length then
    ({ w with buf := overwrite w.buf w.wr d, wr := w.wr + d.length }, .ok ())
  else (w, .panic)

/-- net/buf_writer.go:17-31 -/
def write (w : BufW) (body : Bytes) : BufW × Out Unit :=
  let bl := body.length
  let l := w.buf.length
  if w.wr + bl > l ∨ (bl > l / 4 ∧ w.wr > l / 4) then
    andThen w.flush fun w' =>
      if bl > w'.buf.length / 4 then w'.rawWrite body else w'.put body
  else w.put body

/-- net/buf_writer.go:33-43 -/
def writeUint32 (w : BufW) (i : UInt32) : BufW × Out Unit :=
  if w.wr + 4 > w.buf.length then
    andThen w.flush fun w' => w'.put (putU32 i)
  else w.put (putU32 i)

/-- net/buf_writer.go:45-58 -/
def write3Uint32 (w : BufW) (i j k : UInt32) : BufW × Out Unit :=
  if w.wr + 12 > w.buf.length then
    andThen w.flush fun w' => w'.put (putU32 i ++ putU32 j ++ putU32 k)
  else w.put (putU32 i ++ putU32 j ++ putU32 k)

/-- `w.buf[w.wr] = i; w.wr += 4`, net/buf_writer.go:67-68 (index panics when out of range) -/
def putByte (w : BufW) (i : UInt8) : BufW × Out Unit :=
  if w.wr < w.buf.length then
    ({ w with buf := overwrite w.buf w.wr [i], wr := w.wr + 4 }, .ok ())
  else (w, .panic)

/-- net/buf_writer.go:60-70 -/
def writeByte (w : BufW) (i : UInt8) : BufW × Out Unit :=
  if w.wr + 4 > w.buf.length then
    andThen w.flush fun w' => w'.putByte i
  else w.putByte i

end BufW

/-! ### io.Reader and SliceReader -/

/-- The `io.Reader` below a SliceReader: the data still to come, already split into the pieces the
transport will deliver, and the error reported at the end. `eager` = the reader reports the final
error together with the last piece (allowed by io.Reader). Pieces may be empty (`0, nil` reads). -/
structure Src where
  chunks : List Bytes
  fin : IOErr
  eager : Bool
deriving Repr, DecidableEq

/-- `io.Reader.Read(p)` with `len(p) = space`. A zero-length read returns `0, nil`
(net.Conn behaviour). -/
def Src.read (s : Src) (space : Nat) : Src × Bytes × Option IOErr :=
  if space = 0 then (s, [], none)
  else match s.chunks with
  | [] => (s, [], some s.fin)
  | c :: cs =>
    if c.length ≤ space then
      ({ s with chunks := cs }, c, if cs = [] ∧ s.eager then some s.fin else none)
    else ({ s with chunks := c.drop space :: cs }, c.take space, none)

/-- net/slice_reader.go:8-15; `mem` holds the arrays this reader has allocated (deadlines left
out). -/
structure SR where
  mem : Mem
  buf : Slc
  size : Nat
  src : Src
deriving Repr, DecidableEq

namespace SR

/-- fresh reader with the buffer size of `HeaderReader.Init`, net/header.go:28 -/
def init (src : Src) : SR := ⟨Mem.empty, Slc.nil, 8 * 1024, src⟩

/-- The loop net/slice_reader.go:34-39: read into `buf[l:cap(buf)]` until `n` bytes or an error.
`fuel` bounds the number of iterations; running out of it, or reading into an empty slice forever,
is reported as `spin`, which is proved not to happen. -/
def fillAux : Nat → Mem → Slc → Nat → Nat → Src → Mem × Nat × Src × Option IOErr
  | 0, m, _, n, l, s => if l < n then (m, l, s, some .spin) else (m, l, s, none)
  | fuel + 1, m, b, n, l, s =>
    if l < n then
      if b.cap - l = 0 then (m, l, s, some .spin)
      else
        match s.read (b.cap - l) with
        | (s', d, some e) => (m.store b.blk (b.off + l) d, l + d.length, s', some e)
        | (s', d, none) => fillAux fuel (m.store b.blk (b.off + l) d) b n (l + d.length) s'
    else (m, l, s, none)

def fill (m : Mem) (b : Slc) (n l : Nat) (s : Src) : Mem × Nat × Src × Option IOErr :=
  fillAux (s.chunks.length + 1) m b n l s

/-- net/slice_reader.go:17-50. `buf[l:]` (line 46) panics when `l > len(buf)`, because an omitted
upper bound is `len(buf)`, not `cap(buf)`. -/
def read (r : SR) (n : Nat) : SR × Out Slc :=
  if r.buf.len > n then
    ({ r with buf := r.buf.from' n }, .ok (r.buf.upto n))
  else
    let (m1, buf) :=
      if r.buf.cap < n then
        let (m, nb) := r.mem.make r.buf.len (if n > r.size then n else r.size)
        (m.store nb.blk nb.off (r.mem.view r.buf), nb)
      else (r.mem, r.buf)
    let (m2, l, src, err) := fill m1 buf n buf.len r.src
    if l ≥ n then
      ({ r with mem := m2, src := src, buf := buf.range n l }, .ok (buf.upto n))
    else if l > 0 ∧ err = some .eof then
      if l ≤ buf.len then
        ({ r with mem := m2, src := src, buf := buf.from' l }, .err .unexpectedEOF)
      else ({ r with mem := m2, src := src }, .panic)
    else
      ({ r with mem := m2, src := src }, .err (err.getD .spin))

/-- net/slice_reader.go:52-70. `buf` is made with `len(sl.buf) = 0`, so the read is into an empty
slice. -/
def readByte (r : SR) : SR × Out UInt8 :=
  if r.buf.len > 0 then
    ({ r with buf := r.buf.from' 1 }, .ok ((r.mem.view r.buf).headD 0))
  else
    let (m, buf) := r.mem.make r.buf.len r.size
    let (src, d, err) := r.src.read buf.len
    let m := m.store buf.blk buf.off d
    if d.length ≥ 1 then
      ({ r with mem := m, src := src, buf := buf.range 1 d.length }, .ok (d.headD 0))
    else
      match err with
      | none => ({ r with mem := m, src := src }, .ok 0)
      | some e => ({ r with mem := m, src := src }, .err e)

end SR

/-! ### Frames -/

/-- `iproto.Ping` (request.go:16) -/
def pingType : UInt32 := 0xFF00
/-- `iproto.PingRequestId` (request.go:20) -/
def pingId : UInt32 := 0xFFFFFFFF
def rcProtocolError : UInt32 := 0x0302

/-- net/consts.go:10-16 -/
inductive RCType | rc4 | rc1 | rc0
deriving Repr, DecidableEq

/-- net/header.go:14-18; the body type is a parameter: bytes on the writing side, a slice of the
reader's memory on the reading side. -/
structure Req (β : Type) where
  msg : UInt32
  body : β
  id : UInt32
deriving Repr, DecidableEq

/-- iproto.Response (response.go:31-36) as used by net/header.go:20 -/
structure Resp (β : Type) where
  msg : UInt32
  id : UInt32
  code : UInt32
  body : β
deriving Repr, DecidableEq

/-- HeaderWriter.WriteRequest, net/header.go:142-147. `uint32(len(body))` truncates. -/
def writeRequest (w : BufW) (q : Req Bytes) : BufW × Out Unit :=
  BufW.andThen (w.write3Uint32 q.msg (UInt32.ofNat q.body.length) q.id) fun w' => w'.write q.body

/-- HeaderWriter.Ping, net/header.go:149-156 -/
def writePing (w : BufW) : BufW × Out Unit := writeRequest w ⟨pingType, [], pingId⟩

/-- `rcl`, net/header.go:129-137 -/
def RCType.rcl : RCType → Nat
  | .rc0 => 0 | .rc1 => 1 | .rc4 => 4

/-- HeaderWriter.WriteResponse, net/header.go:158-184 -/
def writeResponse (rc : RCType) (w : BufW) (q : Resp Bytes) : BufW × Out Unit :=
  let retCodeLen := if q.msg = pingType then 0 else rc.rcl
  BufW.andThen (w.write3Uint32 q.msg (UInt32.ofNat (q.body.length + retCodeLen)) q.id) fun w1 =>
    BufW.andThen (match rc with
      | .rc0 => (w1, Out.ok ())
      | .rc1 => w1.writeByte q.code.toUInt8
      | .rc4 => w1.writeUint32 q.code) fun w2 => w2.write q.body

/-- HeaderReader.ReadRequest, net/header.go:32-50 -/
def readRequest (r : SR) : SR × Out (Req Slc) :=
  match r.read 12 with
  | (r1, .ok hs) =>
    let head := r1.mem.view hs
    match r1.read (getU32 (head.drop 4)).toNat with
    | (r2, .ok body) =>
      -- `head` is re-read after the second Read (lines 44,46), so use the memory after it
      let head := r2.mem.view hs
      (r2, .ok ⟨getU32 head, body, getU32 (head.drop 8)⟩)
    | (r2, .err e) => (r2, .err e)
    | (r2, .panic) => (r2, .panic)
  | (r1, .err e) => (r1, .err e)
  | (r1, .panic) => (r1, .panic)

/-- the switch on the return code, net/header.go:63-90: returns the code and the remaining body
length. -/
def readCode (rc : RCType) (r : SR) (msg bodyLen : UInt32) : SR × Out (UInt32 × UInt32) :=
  if msg ≠ pingType then
    match rc with
    | .rc0 => (r, .ok (0, bodyLen))
    | .rc1 =>
      if bodyLen < 1 then (r, .ok (rcProtocolError, bodyLen))
      else match r.readByte with
        | (r', .ok c) => (r', .ok (c.toUInt32, bodyLen - 1))
        | (r', .err e) => (r', .err e)
        | (r', .panic) => (r', .panic)
    | .rc4 =>
      if bodyLen < 4 then (r, .ok (rcProtocolError, bodyLen))
      else match r.read 4 with
        | (r', .ok cd) => (r', .ok (getU32 (r'.mem.view cd), bodyLen - 4))
        | (r', .err e) => (r', .err e)
        | (r', .panic) => (r', .panic)
  else (r, .ok (0, bodyLen))

/-- HeaderReader.ReadResponse, net/header.go:52-104 -/
def readResponse (rc : RCType) (r : SR) : SR × Out (Resp Slc) :=
  match r.read 12 with
  | (r1, .ok hs) =>
    let head := r1.mem.view hs
    let msg := getU32 head
    match readCode rc r1 msg (getU32 (head.drop 4)) with
    | (r2, .ok (code, bodyLen)) =>
      match r2.read bodyLen.toNat with
      | (r3, .ok body) =>
        let head := r3.mem.view hs
        (r3, .ok ⟨msg, getU32 (head.drop 8), code, body⟩)
      | (r3, .err e) => (r3, .err e)
      | (r3, .panic) => (r3, .panic)
    | (r2, .err e) => (r2, .err e)
    | (r2, .panic) => (r2, .panic)
  | (r1, .err e) => (r1, .err e)
  | (r1, .panic) => (r1, .panic)

/-- HeaderReader.ReadPing, net/header.go:106-119 -/
def readPing (r : SR) : SR × Out Unit :=
  match r.read 12 with
  | (r1, .ok hs) =>
    let head := r1.mem.view hs
    if getU32 head ≠ pingType ∨ getU32 (head.drop 8) ≠ pingId then (r1, .err .pingFailed)
    else (r1, .ok ())
  | (r1, .err e) => (r1, .err e)
  | (r1, .panic) => (r1, .panic)

end Verif.Net

namespace Verif.Net

/-- Write a list of messages and flush, stopping at the first failure: the shape of the write loops
(net/server/connection.go:239-290, net/client/connection/connection.go:230-300). -/
def writeMany {α : Type} (wr : BufW → α → BufW × Out Unit) : List α → BufW → BufW × Out Unit
  | [], w => w.flush
  | a :: as, w => BufW.andThen (wr w a) fun w' => writeMany wr as w'

/-- Call a reading function at most `k` times, stopping at the first failure (the shape of the
read loops net/server/connection.go:159-237 and net/client/connection/connection.go:204-228). -/
def readMany {β : Type} (rd : SR → SR × Out β) : Nat → SR → SR × List β × Out Unit
  | 0, r => (r, [], .ok ())
  | k + 1, r => match rd r with
    | (r', .ok b) => let (r2, bs, o) := readMany rd k r'; (r2, b :: bs, o)
    | (r', .err e) => (r', [], .err e)
    | (r', .panic) => (r', [], .panic)

end Verif.Net
