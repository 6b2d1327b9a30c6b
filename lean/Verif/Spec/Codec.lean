import Verif.Model.Marshal

/-!
Independent specification of the primitive codec: what bytes a value should have.
Uses only the value types of the model (`Scal`, `Kind`), none of its functions.
-/
namespace Verif.Spec
open Verif.Marshal

/-- Little-endian digits of `n`: byte `k` is digit `k` in base 256. -/
def le (w n : Nat) : Bytes := (List.range w).map fun k => UInt8.ofNat (n / 256 ^ k % 256)

/-- Encoded width in bytes. -/
def width : Kind → Nat
  | .u8 | .i8 => 1
  | .u16 | .i16 => 2
  | .u32 | .i32 | .f32 => 4
  | .u64 | .i64 | .f64 => 8

/-- Two's complement / IEEE bit pattern as a number. -/
def pattern : Scal → Nat
  | .u8 x => x.toNat | .u16 x => x.toNat | .u32 x => x.toNat | .u64 x => x.toNat
  | .i8 x => (x.toInt % 2 ^ 8).toNat
  | .i16 x => (x.toInt % 2 ^ 16).toNat
  | .i32 x => (x.toInt % 2 ^ 32).toNat
  | .i64 x => (x.toInt % 2 ^ 64).toNat
  | .f32 b => b.toNat | .f64 b => b.toNat

/-- The encoding of a scalar. -/
def scalBytes (s : Scal) : Bytes := le (width s.kind) (pattern s)

/-- Base-128 reading, most significant digit first: digits up to and including the first byte below
`0x80`. Exact value (no bound), number of bytes used. -/
def berValue : Bytes → Nat → Option (Nat × Nat)
  | [], _ => none
  | x :: xs, acc =>
    let acc := acc * 128 + x.toNat % 128
    if x.toNat < 128 then some (acc, 1) else (berValue xs acc).map fun p => (p.1, p.2 + 1)

/-- Number of base-128 digits of `n` (at least one). -/
def berLen (n : Nat) : Nat :=
  if n < 128 then 1 else berLen (n / 128) + 1
termination_by n
decreasing_by omega

/-- The first `k` base-128 digits above the last one, most significant first, with the
continuation bit. -/
def berCont (n : Nat) : Bytes :=
  if n = 0 then [] else berCont (n / 128) ++ [UInt8.ofNat (128 + n % 128)]
termination_by n
decreasing_by omega

/-- The BER encoding of `n`: shortest base-128, most significant first, continuation bit on all but
the last byte. -/
def ber (n : Nat) : Bytes := berCont (n / 128) ++ [UInt8.ofNat (n % 128)]

/-- The bytes one writer call should append. -/
def opBytes : WOp → Bytes
  | .scal s => scalBytes s
  | .uvar x => ber x.toNat
  | .bytes b => b
  | .scalSl _ xs => (xs.map scalBytes).flatten
  | .written => []
  | .reset => []

/-- The abstract writer: pending bytes and everything `Written` returned. -/
def wrun : Bytes → List WOp → Bytes × List Bytes
  | p, [] => (p, [])
  | p, .written :: os => ((wrun [] os).1, p :: (wrun [] os).2)
  | _, .reset :: os => wrun [] os
  | p, o :: os => wrun (p ++ opBytes o) os

/-- A typed slice call is well typed when all elements have the declared type. -/
def wellTyped : WOp → Prop
  | .scalSl k xs => ∀ x ∈ xs, x.kind = k
  | _ => True

/-- Calls whose code is right: everything but `Float64sl` with two or more elements. -/
def notF64sl : WOp → Prop
  | .scalSl .f64 xs => xs.length ≤ 1
  | _ => True

/-- The lengths a prefix can represent. -/
def fits (p : Pfx) (n : Nat) : Prop :=
  match p with
  | .ber => n < 2 ^ 63 | .i8 => n < 2 ^ 8 | .i16 => n < 2 ^ 16 | .i32 => n < 2 ^ 32 | .i64 => n < 2 ^ 63

end Verif.Spec
