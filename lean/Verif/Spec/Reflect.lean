import Verif.Model.Reflect
import Verif.Spec.Codec

/-!
Specification for the reflective codec: the byte layout a type prescribes, the size a type fixes, and the
types and values for which the code keeps to it. Uses the types and values of the model only.
-/
namespace Verif.Spec
open Verif.Marshal Verif.Reflect

/-- The bytes of a length prefix. -/
def pfxBytes (p : Pfx) (n : Nat) : Bytes :=
  match p with
  | .ber => ber n
  | .i8 => le 1 n
  | .i16 => le 2 n
  | .i32 => le 4 n
  | .i64 => le 8 n

/-- The number of bytes of a length prefix. -/
def pfxLen (p : Pfx) (n : Nat) : Nat :=
  match p with
  | .ber => berLen n
  | .i8 => 1
  | .i16 => 2
  | .i32 => 4
  | .i64 => 8

/-- Types whose untagged encoding starts with a 32-bit count. -/
def counted : Ty → Bool
  | .str | .sl _ => true
  | _ => false

/-- Number of elements a `cnt` prefix announces. -/
def countOf : Ty → Val → Nat
  | .str, .str b => b.length
  | .sl _, .seq vs => vs.length
  | .arr n _, _ => n
  | _, _ => 1

/-- The number an unsigned scalar denotes. -/
def natOf : Val → Nat
  | .scal (.u8 x) => x.toNat
  | .scal (.u16 x) => x.toNat
  | .scal (.u32 x) => x.toNat
  | .scal (.u64 x) => x.toNat
  | _ => 0

/-- The payload of a `ber` field. -/
def berPay : Val → Bytes
  | .seq vs => (vs.map fun v => ber (natOf v)).flatten
  | v => ber (natOf v)

/-- The encoding of a value with the given payload where the type decides about a count. -/
def withCnt (t : Ty) (v : Val) (b : Bytes) : Bytes :=
  if counted t then le 4 (countOf t v) ++ b else b

/-- The encoding of a field with the given payload. -/
def tagged (t : Ty) (v : Val) (d : Dir) (b : Bytes) : Bytes :=
  match d with
  | .none => withCnt t v b
  | .size p => pfxBytes p b.length ++ b
  | .cnt p => pfxBytes p (countOf t v) ++ b
  | .no => b

mutual
/-- The payload of a value: no count in front. -/
def pay : Ty → Val → Bytes
  | .scal _, .scal s => scalBytes s
  | .str, .str b => b
  | .arr _ t, .seq vs => (vs.map fun v => withCnt t v (pay t v)).flatten
  | .sl t, .seq vs => (vs.map fun v => withCnt t v (pay t v)).flatten
  | .struct fs, .seq vs => payFl fs vs
  | _, _ => []
def payFl : Fl → List Val → Bytes
  | .cons .hidden _ fs, _ :: vs => payFl fs vs
  | .cons .skip _ fs, _ :: vs => payFl fs vs
  | .cons (.use ber d) t fs, v :: vs =>
    tagged t v d (if ber then berPay v else pay t v) ++ payFl fs vs
  | _, _ => []
end

/-- The encoding of a value by `Write`. -/
def layout (t : Ty) (v : Val) : Bytes := withCnt t v (pay t v)

/-! ### Sizes -/

/-- The number of elements, where the type fixes it. -/
def count? : Ty → Option Nat
  | .scal _ | .struct _ => some 1
  | .arr n _ => some n
  | _ => none

mutual
/-- The payload size, where the type fixes it. -/
def size? : Ty → Option Nat
  | .scal k => some (width k)
  | .arr n t => (size? t).map (n * ·)
  | .struct fs => sizeFl? fs
  | .str | .sl _ | .ptr _ => none
def sizeFl? : Fl → Option Nat
  | .nil => some 0
  | .cons .hidden _ fs => sizeFl? fs
  | .cons .skip _ fs => sizeFl? fs
  | .cons (.use true _) _ _ => none
  | .cons (.use false .none) t fs => match size? t, sizeFl? fs with
    | some n, some m => some (n + m)
    | _, _ => none
  | .cons (.use false .no) _ _ => none
  | .cons (.use false (.size p)) t fs => match size? t, sizeFl? fs with
    | some n, some m => some (pfxLen p n + n + m)
    | _, _ => none
  | .cons (.use false (.cnt p)) t fs => match count? t, size? t, sizeFl? fs with
    | some c, some n, some m => some (pfxLen p c + n + m)
    | _, _, _ => none
end

/-- A size as an integer, -1 for a varying one. -/
def asSz : Option Nat → Int
  | some n => n
  | none => -1

/-- Arrays. -/
def isArr : Ty → Bool
  | .arr _ _ => true
  | _ => false

mutual
/-- Every value of the type takes at least one byte (sufficient condition). -/
def bulky : Ty → Bool
  | .scal _ | .str | .sl _ => true
  | .arr n t => n ≠ 0 && bulky t
  | .ptr _ => false
  | .struct fs => bulkyFl fs
def bulkyFl : Fl → Bool
  | .nil => false
  | .cons .hidden _ fs => bulkyFl fs
  | .cons .skip _ fs => bulkyFl fs
  | .cons (.use _ (.size _)) _ _ => true
  | .cons (.use _ (.cnt _)) _ _ => true
  | .cons (.use true .none) t fs => !isArr t || bulkyFl fs
  | .cons (.use false .none) t fs => bulky t || bulkyFl fs
  | .cons (.use _ .no) _ fs => bulkyFl fs
end

/-! ### Types the code encodes by the layout -/

/-- `ber` is allowed on unsigned scalars and arrays and slices of them. -/
def berable : Ty → Bool
  | .scal k | .arr _ (.scal k) | .sl (.scal k) => unsignedK k
  | _ => false

/-- The rest of the struct is unexported. -/
def onlyHidden : Fl → Bool
  | .nil => true
  | .cons .hidden _ fs => onlyHidden fs
  | _ => false

/-- `x` is hit by the boundary error of the size computation: some `x / 128 ^ j` is 128 (see C12). -/
def Bad128 (x : Nat) : Prop := ∃ j, x / 128 ^ j = 128

/-- Sizes whose BER length is computed rightly. -/
def BerSafe (x : Nat) : Prop := ¬ Bad128 x ∧ x < 2 ^ 63

/-- Structs. -/
def isStruct : Ty → Bool
  | .struct _ => true
  | _ => false

/-- Scalars except `uint8`. -/
def wideScal : Ty → Bool
  | .scal k => k ≠ .u8
  | _ => false

mutual
/-- The size the code takes the payload of a type to have, -1 if it takes it to vary. It differs from
`size?` for some types (see C19), and what goes wrong because of that is excluded below. -/
def codeSz : Ty → Int
  | .scal k => width k
  | .arr n t => if 0 ≤ codeSz t then n * codeSz t else -1
  | .struct fs => codeFl 0 fs
  | .str | .sl _ | .ptr _ => -1
/-- The running sum over the fields. -/
def codeFl : Int → Fl → Int
  | s, .nil => s
  | s, .cons .hidden _ fs => codeFl s fs
  | s, .cons .skip _ fs => codeFl s fs
  | s, .cons (.use ber d) t fs =>
    if 0 ≤ dirSize (codeSz t) (asSz (count? t)) d (if ber then -1 else s) then
      codeFl (dirSize (codeSz t) (asSz (count? t)) d (if ber then -1 else s) + codeSz t) fs
    else codeFl (dirSize (codeSz t) (asSz (count? t)) d (if ber then -1 else s)) fs
end

/-- The code is right about the size of the type. -/
def exact (t : Ty) : Prop := codeSz t = asSz (size? t)

/-- The code does not compute a wrong size for values of the type. -/
def SizeOk : Ty → Prop
  | .sl t | .arr _ t => codeSz t < 0 ∨ exact t
  | t => codeSz t < 0 ∨ exact t

mutual
/-- The types whose codec is right: `tail` is for payloads that extend to the end of the data
(`WriteTail`/`ReadTail`, or behind a size prefix). Pointers are left out. -/
def Sound (tail : Bool) : Ty → Prop
  | .scal _ => True
  | .str => True
  | .arr _ t => Sound false t
  | .sl t => Sound false t ∧ bulky t = true ∧ codeSz t ≠ 0 ∧ (tail = true → wideScal t = false)
  | .ptr _ => False
  | .struct fs => SoundFl tail fs
def SoundFl (tail : Bool) : Fl → Prop
  | .nil => True
  | .cons .hidden _ fs => SoundFl tail fs
  | .cons .skip _ fs => SoundFl tail fs
  | .cons (.use true .none) t fs => berable t = true ∧ isArr t = false ∧ SoundFl tail fs
  | .cons (.use true .no) t fs => berable t = true ∧ tail = true ∧ onlyHidden fs = true
  | .cons (.use true (.size p)) t fs => berable t = true ∧ p ≠ .i64 ∧ SoundFl tail fs
  | .cons (.use true (.cnt p)) t fs => berable t = true ∧ p ≠ .i64 ∧ SoundFl tail fs
  | .cons (.use false .none) t fs => Sound false t ∧ (codeSz t = 0 → exact t) ∧ SoundFl tail fs
  | .cons (.use false .no) t fs => tail = true ∧ Sound true t ∧ (codeSz t = 0 → exact t) ∧ onlyHidden fs = true
  | .cons (.use false (.size p)) t fs => p ≠ .i64 ∧ Sound (isStruct t) t ∧ SizeOk t ∧ SoundFl tail fs
  | .cons (.use false (.cnt p)) t fs => p ≠ .i64 ∧ Sound false t ∧ SoundFl tail fs
end

mutual
/-- The types whose size the code computes rightly: no field of varying size and no `cnt(i8)` after fields of
fixed size, except where the code notices that the size varies. The `Option Nat` is the size so far, `none`
once the code takes it to vary. -/
def Sized : Ty → Prop
  | .scal _ | .str | .sl _ | .ptr _ => True
  | .arr _ t => Sized t
  | .struct fs => SizedFl (some 0) fs
def SizedFl : Option Nat → Fl → Prop
  | _, .nil => True
  | a, .cons .hidden _ fs => SizedFl a fs
  | a, .cons .skip _ fs => SizedFl a fs
  | _, .cons (.use true _) _ fs => SizedFl none fs
  | _, .cons (.use false .no) _ fs => SizedFl none fs
  | a, .cons (.use false .none) t fs => Sized t ∧
    match size? t with
    | some n => SizedFl (a.map (· + n)) fs
    | none => (a = none ∨ a = some 0) ∧ SizedFl none fs
  | a, .cons (.use false (.size p)) t fs => Sized t ∧
    match size? t with
    | some n => (p = .ber → a = none ∨ BerSafe n) ∧ SizedFl (a.map (· + (pfxLen p n + n))) fs
    | none => (p = .ber ∨ a = none) ∧ SizedFl none fs
  | a, .cons (.use false (.cnt p)) t fs => Sized t ∧
    match count? t, size? t with
    | some c, some n => (p = .ber → a = none ∨ BerSafe c) ∧ (p = .i8 → a = none) ∧
        SizedFl (a.map (· + (pfxLen p c + n))) fs
    | some _, none => a = none ∧ SizedFl none fs
    | none, _ => (p = .ber ∨ a = none) ∧ SizedFl none fs
end

/-! ### Types that can be decoded from any bytes -/

mutual
/-- The size the reader takes a type to have. It differs from `codeSz` for slices of elements of size 0. -/
def codeR : Ty → Int
  | .scal k => width k
  | .arr n t => if 0 ≤ codeR t then codeR t * n else -1
  | .struct fs => codeRFl 0 fs
  | .sl t => if codeR t = 0 then 0 else -1
  | .str | .ptr _ => -1
def codeRFl : Int → Fl → Int
  | s, .nil => s
  | s, .cons .hidden _ fs => codeRFl s fs
  | s, .cons .skip _ fs => codeRFl s fs
  | s, .cons (.use ber d) t fs =>
    if 0 ≤ dirSize (codeR t) (asSz (count? t)) d (if ber then -1 else s) then
      codeRFl (dirSize (codeR t) (asSz (count? t)) d (if ber then -1 else s) + codeR t) fs
    else codeRFl (dirSize (codeR t) (asSz (count? t)) d (if ber then -1 else s)) fs
end

mutual
/-- Reading the type consumes at least one byte or reports an error (sufficient condition): a field the reader
takes to have size 0 is passed over. -/
def eats : Ty → Bool
  | .scal _ | .str | .sl _ => true
  | .arr n t => n ≠ 0 && eats t
  | .ptr _ => false
  | .struct fs => eatsFl fs
def eatsFl : Fl → Bool
  | .nil => false
  | .cons .hidden _ fs => eatsFl fs
  | .cons .skip _ fs => eatsFl fs
  | .cons (.use _ (.size _)) _ _ => true
  | .cons (.use _ (.cnt _)) _ _ => true
  | .cons (.use true .none) (.scal _) _ => true
  | .cons (.use true .none) (.sl (.scal _)) _ => true
  | .cons (.use true .none) _ fs => eatsFl fs
  | .cons (.use false .none) t fs => (codeR t ≠ 0 && eats t) || eatsFl fs
  | .cons (.use _ .no) _ fs => eatsFl fs
end

/-- Prefixes that cannot announce a negative or immense length. -/
def safePfx : Pfx → Bool
  | .i8 | .i16 | .i32 => true
  | _ => false

/-- A count can be set on the target of a pointer. -/
def cntIn : Ty → Bool
  | .str => false
  | .ptr t => cntIn t
  | _ => true

/-- A count can be set on the type. -/
def cntable : Ty → Bool
  | .ptr t => cntIn t
  | _ => true

/-- Types whose payload behind a size prefix is read with `Tail`. -/
def sizeTail : Ty → Bool
  | .sl (.scal _) => false
  | .sl _ | .struct _ => true
  | _ => false

/-- Pointers. -/
def isPtr : Ty → Bool
  | .ptr _ => true
  | _ => false

mutual
/-- The types that can be decoded from any bytes; `tail` as for `Sound`. -/
def Safe (tail : Bool) : Ty → Prop
  | .scal _ | .str => True
  | .arr _ t => Safe false t
  | .sl t => Safe false t ∧ (tail = true → wideScal t = false ∧ eats t = true)
  | .ptr t => Safe false t
  | .struct fs => SafeFl tail fs
def SafeFl (tail : Bool) : Fl → Prop
  | .nil => True
  | .cons .hidden _ fs => SafeFl tail fs
  | .cons .skip _ fs => SafeFl tail fs
  | .cons (.use true .none) t fs => Safe false t ∧ SafeFl tail fs
  | .cons (.use true .no) t fs => Safe false t ∧ isPtr t = false ∧ SafeFl tail fs
  | .cons (.use true (.size p)) t fs => Safe false t ∧ safePfx p = true ∧ isPtr t = false ∧ SafeFl tail fs
  | .cons (.use true (.cnt p)) t fs => Safe false t ∧ safePfx p = true ∧ isPtr t = false ∧ SafeFl tail fs
  | .cons (.use false .none) t fs => Safe false t ∧ SafeFl tail fs
  | .cons (.use false .no) t fs => Safe tail t ∧ SafeFl tail fs
  | .cons (.use false (.size p)) t fs => safePfx p = true ∧ Safe (sizeTail t) t ∧ SafeFl tail fs
  | .cons (.use false (.cnt p)) t fs => safePfx p = true ∧ cntable t = true ∧ Safe false t ∧ SafeFl tail fs
end

/-- Where a reader takes a `ber` tag: unsigned integers, arrays and slices of them and pointers to them. -/
def berDest : Ty → Prop
  | .scal k | .arr _ (.scal k) | .sl (.scal k) | .ptr (.scal k) => unsignedK k = true
  | _ => False

mutual
/-- The tags make sense: `ber` stands on unsigned integers only, `nosize` on the last field only. -/
def Tagged : Ty → Prop
  | .scal _ | .str => True
  | .arr _ t | .sl t | .ptr t => Tagged t
  | .struct fs => TaggedFl fs
def TaggedFl : Fl → Prop
  | .nil => True
  | .cons .hidden _ fs | .cons .skip _ fs => TaggedFl fs
  | .cons (.use ber d) t fs => Tagged t ∧ (ber = true → berDest t) ∧ (d = .no → onlyHidden fs = true) ∧ TaggedFl fs
end

mutual
/-- `v` is a value of type `t`. -/
def HasTy : Ty → Val → Prop
  | .scal k, .scal s => s.kind = k
  | .str, .str _ => True
  | .arr n t, .seq vs => vs.length = n ∧ ∀ v ∈ vs, HasTy t v
  | .sl t, .seq vs => ∀ v ∈ vs, HasTy t v
  | .ptr _, .nilp => True
  | .ptr t, .ref u => HasTy t u
  | .struct fs, .seq vs => HasTyFl fs vs
  | _, _ => False
def HasTyFl : Fl → List Val → Prop
  | .nil, [] => True
  | .cons _ t fs, v :: vs => HasTy t v ∧ HasTyFl fs vs
  | _, _ => False
end

/-! ### Values the code can encode -/

/-- What a `ber` field needs: unsigned scalars, and with a size prefix none whose size is computed wrongly. -/
def FitsBer : Ty → Dir → Val → Prop
  | .scal k, d, .scal s => s.kind = k ∧ (∀ p, d = .size p → ¬ Bad128 (natOf (.scal s)))
  | .arr n (.scal k), d, .seq vs => vs.length = n ∧
    ∀ v ∈ vs, ∃ s, v = .scal s ∧ s.kind = k ∧ (∀ p, d = .size p → ¬ Bad128 (natOf v))
  | .sl (.scal k), d, .seq vs => vs.length < 2 ^ 48 ∧
    ∀ v ∈ vs, ∃ s, v = .scal s ∧ s.kind = k ∧ (∀ p, d = .size p → ¬ Bad128 (natOf v))
  | _, _, _ => False

/-- The prefix can hold the length or count (`b` is the payload). -/
def FitsDir (t : Ty) (v : Val) (d : Dir) (b : Bytes) : Prop :=
  match d with
  | .none => counted t = true → countOf t v < 2 ^ 32
  | .size p => fits p b.length
  | .cnt p => fits p (countOf t v)
  | .no => True

mutual
/-- `v` is a value of type `t` the code can encode: lengths fit their prefixes, skipped fields are zero,
and no more than one `float64` is written through `Float64sl` (see C17). `addr`: the value is addressable. -/
def Fits (addr : Bool) : Ty → Val → Prop
  | .scal k, .scal s => s.kind = k
  | .str, .str _ => True
  | .arr n t, .seq vs => vs.length = n ∧ (t.kind? = some .f64 → addr = true → n ≤ 1) ∧
    ∀ v ∈ vs, Fits addr t v ∧ (counted t = true → countOf t v < 2 ^ 32)
  | .sl t, .seq vs => vs.length < 2 ^ 48 ∧ (t.kind? = some .f64 → vs.length ≤ 1) ∧
    ∀ v ∈ vs, Fits true t v ∧ (counted t = true → countOf t v < 2 ^ 32)
  | .struct fs, .seq vs => FitsFl addr fs vs
  | _, _ => False
def FitsFl (addr : Bool) : Fl → List Val → Prop
  | .nil, [] => True
  | .cons .hidden t fs, v :: vs => v = zero t ∧ FitsFl addr fs vs
  | .cons .skip t fs, v :: vs => v = zero t ∧ FitsFl addr fs vs
  | .cons (.use true d) t fs, v :: vs => FitsBer t d v ∧ FitsDir t v d (berPay v) ∧ FitsFl addr fs vs
  | .cons (.use false d) t fs, v :: vs => Fits addr t v ∧ FitsDir t v d (pay t v) ∧ FitsFl addr fs vs
  | _, _ => False
end

end Verif.Spec
