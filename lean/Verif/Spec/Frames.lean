/-
Specification of the iproto wire format, independent of the model: a frame is three little-endian
32-bit numbers (type, body length, id) followed by the body.
-/
namespace Verif.Spec

abbrev Bytes := List UInt8

def byteAt (s : Bytes) (k : Nat) : Nat := (s[k]?.getD 0).toNat

/-- The little-endian number at offset `k`. -/
def u32At (s : Bytes) (k : Nat) : UInt32 :=
  UInt32.ofNat (byteAt s k + 2 ^ 8 * byteAt s (k + 1) + 2 ^ 16 * byteAt s (k + 2) +
    2 ^ 24 * byteAt s (k + 3))

/-- The four bytes of a number, least significant first. -/
def le32 (x : UInt32) : Bytes :=
  [x.toUInt8, (x >>> 8).toUInt8, (x >>> 16).toUInt8, (x >>> 24).toUInt8]

structure ReqMsg where
  msg : UInt32
  id : UInt32
  body : Bytes
deriving Repr, DecidableEq

structure RespMsg where
  msg : UInt32
  id : UInt32
  code : UInt32
  body : Bytes
deriving Repr, DecidableEq

/-- Bytes of a request frame. -/
def reqFrame (q : ReqMsg) : Bytes :=
  le32 q.msg ++ le32 (UInt32.ofNat q.body.length) ++ le32 q.id ++ q.body

/-- Parse one request frame from a stream: the message and what follows it. -/
def parseReq (s : Bytes) : Option (ReqMsg × Bytes) :=
  if s.length < 12 then none
  else
    let n := (u32At s 4).toNat
    let rest := s.drop 12
    if rest.length < n then none
    else some (⟨u32At s 0, u32At s 8, rest.take n⟩, rest.drop n)

def pingType : UInt32 := 0xFF00

/-- Number of return-code bytes at the start of the body. -/
inductive Width | zero | one | four
deriving Repr, DecidableEq

def Width.bytes : Width → Nat
  | .zero => 0 | .one => 1 | .four => 4

/-- Bytes of a response frame whose return code occupies `w` bytes of the body; ping replies carry
no return code. -/
def respFrame (w : Width) (q : RespMsg) : Bytes :=
  let code := if q.msg = pingType then [] else (le32 q.code).take w.bytes
  le32 q.msg ++ le32 (UInt32.ofNat (code.length + q.body.length)) ++ le32 q.id ++ code ++ q.body

/-- The bits of a code that `w` bytes can carry. -/
def Width.carry (w : Width) (c : UInt32) : UInt32 :=
  match w with | .zero => 0 | .one => c &&& 0xFF | .four => c

/-- What the receiver of `q` must see. -/
def received (w : Width) (q : RespMsg) : RespMsg :=
  { q with code := if q.msg = pingType then 0 else w.carry q.code }

/-- Apply a parser repeatedly, at most `k` times: messages and the remaining stream. -/
def parseMany {α : Type} (p : Bytes → Option (α × Bytes)) : Nat → Bytes → List α × Bytes
  | 0, s => ([], s)
  | k + 1, s => match p s with
    | none => ([], s)
    | some (a, s') => let (as, r) := parseMany p k s'; (a :: as, r)

/-- How many of the frames lie entirely inside the first `c` bytes. -/
def wholeWithin : List Bytes → Nat → Nat
  | [], _ => 0
  | f :: fs, c => if f.length ≤ c then wholeWithin fs (c - f.length) + 1 else 0

end Verif.Spec

namespace Verif.Spec

/-- Split a response body into return code and user body. A body too short to hold the code is
reported as a protocol error (0x0302). -/
def splitCode (w : Width) (msg : UInt32) (b : Bytes) : UInt32 × Bytes :=
  if msg = pingType then (0, b)
  else match w with
    | .zero => (0, b)
    | .one => if b.length < 1 then (0x0302, b) else (UInt32.ofNat (byteAt b 0), b.drop 1)
    | .four => if b.length < 4 then (0x0302, b) else (u32At b 0, b.drop 4)

/-- Parse one response frame. -/
def parseResp (w : Width) (s : Bytes) : Option (RespMsg × Bytes) :=
  if s.length < 12 then none
  else
    let n := (u32At s 4).toNat
    let rest := s.drop 12
    if rest.length < n then none
    else
      let cb := splitCode w (u32At s 0) (rest.take n)
      some (⟨u32At s 0, u32At s 8, cb.1, cb.2⟩, rest.drop n)

end Verif.Spec
