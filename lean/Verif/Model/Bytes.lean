/-
Bytes, little-endian integers and a small heap of byte arrays with Go slices.
Shared by the models of `net/` and `marshal/`.
-/
namespace Verif

/-- A Go `[]byte` seen as a value. -/
abbrev Bytes := List UInt8

/-- `binary.LittleEndian.PutUintN` (used in net/buf_writer.go:40,53-55, marshal/writer_any.go):
byte `k` of the result is `byte(v >> (8*k))`. `w` is the number of bytes. -/
def putLE : Nat → Nat → Bytes
  | 0, _ => []
  | w + 1, v => UInt8.ofNat (v % 256) :: putLE w (v / 256)

/-- `binary.LittleEndian.UintN` (used in net/header.go:38,44,46, marshal/reader_any.go):
`b[0] | b[1]<<8 | ...`; the width is the length of the list. -/
def getLE : Bytes → Nat
  | [] => 0
  | b :: bs => b.toNat + 256 * getLE bs

/-- Typed wrappers used by the models. -/
def putU8 (x : UInt8) : Bytes := putLE 1 x.toNat
def putU16 (x : UInt16) : Bytes := putLE 2 x.toNat
def putU32 (x : UInt32) : Bytes := putLE 4 x.toNat
def putU64 (x : UInt64) : Bytes := putLE 8 x.toNat
def getU16 (b : Bytes) : UInt16 := UInt16.ofNat (getLE (b.take 2))
def getU32 (b : Bytes) : UInt32 := UInt32.ofNat (getLE (b.take 4))
def getU64 (b : Bytes) : UInt64 := UInt64.ofNat (getLE (b.take 8))

/-- `copy(dst[pos:], data)` on an array value: overwrite at `pos`, length preserved when it fits. -/
def overwrite (blk : Bytes) (pos : Nat) (data : Bytes) : Bytes :=
  blk.take pos ++ data ++ blk.drop (pos + data.length)

/-- A heap of byte arrays. Block `i` is the `i`-th allocated array; arrays never change length. -/
structure Mem where
  blocks : List Bytes
deriving Repr, DecidableEq

/-- A Go slice header: backing array, offset, length and capacity. A nil slice has `cap = 0`. -/
structure Slc where
  blk : Nat
  off : Nat
  len : Nat
  cap : Nat
deriving Repr, DecidableEq

namespace Mem

def empty : Mem := ⟨[]⟩

/-- Contents of block `b` (`[]` if not allocated). -/
def block (m : Mem) (b : Nat) : Bytes := m.blocks[b]?.getD []

/-- The bytes a slice currently denotes. -/
def view (m : Mem) (s : Slc) : Bytes := ((m.block s.blk).drop s.off).take s.len

/-- `make([]byte, len, cap)`: a fresh zeroed array. -/
def make (m : Mem) (len cap : Nat) : Mem × Slc :=
  (⟨m.blocks ++ [List.replicate cap 0]⟩, ⟨m.blocks.length, 0, len, cap⟩)

/-- Store `data` at absolute position `pos` of block `b`. -/
def store (m : Mem) (b pos : Nat) (data : Bytes) : Mem :=
  ⟨m.blocks.modify b (fun blk => overwrite blk pos data)⟩

end Mem

namespace Slc

/-- The nil slice. -/
def nil : Slc := ⟨0, 0, 0, 0⟩

/-- `s[:n]` for `n ≤ cap` -/
def upto (s : Slc) (n : Nat) : Slc := { s with len := n }
/-- `s[n:]` for `n ≤ len` -/
def from' (s : Slc) (n : Nat) : Slc := ⟨s.blk, s.off + n, s.len - n, s.cap - n⟩
/-- `s[i:j]` for `i ≤ j ≤ cap` -/
def range (s : Slc) (i j : Nat) : Slc := ⟨s.blk, s.off + i, j - i, s.cap - i⟩
/-- `s[i:j:k]` for `i ≤ j ≤ k ≤ cap` -/
def range3 (s : Slc) (i j k : Nat) : Slc := ⟨s.blk, s.off + i, j - i, k - i⟩

end Slc
end Verif
