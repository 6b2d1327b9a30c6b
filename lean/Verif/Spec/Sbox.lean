import Verif.Model.Sbox
import Verif.Spec.Reflect

/-!
Specification for the package `sbox`: the bytes of a tuple, the fields a value has as a tuple, the values the code
can handle, the bytes of a response and of the requests. Uses the types and values of the model only.
-/
namespace Verif.Spec
open Verif.Marshal Verif.Reflect Verif.Sbox

/-! ### Tuples -/

/-- A field of a tuple: BER length and content. -/
def fieldBytes (b : Bytes) : Bytes := ber b.length ++ b

/-- A tuple: the number of fields, then the fields. -/
def tupleBytes (fs : List Bytes) : Bytes := le 4 fs.length ++ (fs.map fieldBytes).flatten

/-- The fields of a struct as a tuple: the tags `size`, `cnt` have no effect. -/
def structFields : Fl → List Val → List Bytes
  | .cons .hidden _ fs, _ :: vs => structFields fs vs
  | .cons .skip _ fs, _ :: vs => structFields fs vs
  | .cons (.use ber _) t fs, v :: vs => (if ber then berPay v else pay t v) :: structFields fs vs
  | _, _ => []

/-- The elements of a sequence. -/
def elems : Val → List Val
  | .seq vs => vs
  | _ => []

/-- The fields of a value as a tuple: scalars, strings and sequences of bytes are one field. -/
def fields : Ty → Val → List Bytes
  | .scal k, v => [pay (.scal k) v]
  | .str, v => [pay .str v]
  | .arr n t, v => if t.kind? = some .u8 then [pay (.arr n t) v] else (elems v).map (pay t)
  | .sl t, v => if t.kind? = some .u8 then [pay (.sl t) v] else (elems v).map (pay t)
  | .struct fs, v => structFields fs (elems v)
  | .ptr t, .ref u => fields t u
  | .ptr _, _ => []

/-- The number of fields of a struct as a tuple. -/
def numFields : Fl → Nat
  | .nil => 0
  | .cons .hidden _ fs => numFields fs
  | .cons .skip _ fs => numFields fs
  | .cons (.use _ _) _ fs => numFields fs + 1

/-- The first `k` encoded fields of a struct, the others zero. -/
def upTo : Nat → Fl → List Val → List Val
  | k, .cons .hidden t fs, _ :: vs => zero t :: upTo k fs vs
  | k, .cons .skip t fs, _ :: vs => zero t :: upTo k fs vs
  | 0, .cons (.use _ _) t fs, _ :: vs => zero t :: upTo 0 fs vs
  | k + 1, .cons (.use _ _) _ fs, v :: vs => v :: upTo k fs vs
  | _, _, _ => []

/-! ### What the code can handle -/

/-- Types that can be a field of a tuple. -/
def FieldTy (t : Ty) : Prop := Sound (isStruct t) t ∧ SizeOk t

/-- Structs that can be a tuple: no field is dropped for being empty, `nosize` is last. -/
def TupFl : Fl → Prop
  | .nil => True
  | .cons .hidden _ fs => TupFl fs
  | .cons .skip _ fs => TupFl fs
  | .cons (.use ber d) t fs => (if ber then berable t = true else FieldTy t) ∧
    (d.bare = true → codeSz t ≠ 0) ∧ (d = .no → onlyHidden fs = true) ∧ TupFl fs

/-- Types that can be a tuple. -/
def TupTy : Ty → Prop
  | .scal _ => True
  | .str => True
  | .arr _ t => if t.kind? = some .u8 then True else FieldTy t
  | .sl t => if t.kind? = some .u8 then True else FieldTy t
  | .struct fs => TupFl fs ∧ numFields fs < 2 ^ 32
  | .ptr t => TupTy t

/-- Values that can be a field of a tuple. -/
def FieldVal (addr : Bool) (t : Ty) (v : Val) : Prop := Fits addr t v ∧ (pay t v).length < 2 ^ 63

/-- Values of a struct that can be a tuple; fields that are not written are zero. -/
def TupVals (addr : Bool) : Fl → List Val → Prop
  | .nil, [] => True
  | .cons .hidden t fs, v :: vs => v = zero t ∧ TupVals addr fs vs
  | .cons .skip t fs, v :: vs => v = zero t ∧ TupVals addr fs vs
  | .cons (.use ber _) t fs, v :: vs =>
    (if ber then FitsBer t (.size .ber) v ∧ (berPay v).length < 2 ^ 63 else FieldVal addr t v) ∧ TupVals addr fs vs
  | _, _ => False

/-- Values that can be a tuple. -/
def TupVal (addr : Bool) : Ty → Val → Prop
  | .scal k, v => FieldVal addr (.scal k) v
  | .str, v => FieldVal addr .str v
  | .arr n t, v => if t.kind? = some .u8 then FieldVal addr (.arr n t) v
    else ∃ vs, v = .seq vs ∧ vs.length = n ∧ n < 2 ^ 32 ∧ ∀ u ∈ vs, FieldVal addr t u
  | .sl t, v => if t.kind? = some .u8 then FieldVal addr (.sl t) v
    else ∃ vs, v = .seq vs ∧ vs.length < 2 ^ 32 ∧ ∀ u ∈ vs, FieldVal true t u
  | .struct fs, v => ∃ vs, v = .seq vs ∧ TupVals addr fs vs
  | .ptr t, .ref u => TupVal true t u
  | .ptr _, _ => False

/-- Flat fields: scalars, strings and byte sequences. -/
def flatField : Ty → Bool
  | .scal _ => true
  | .str => true
  | .sl (.scal .u8) => true
  | .arr (_ + 1) (.scal .u8) => true
  | _ => false

/-- Structs of untagged flat fields. -/
def flatStruct : Fl → Bool
  | .nil => true
  | .cons (.use false .none) t fs => flatField t && flatStruct fs
  | _ => false

/-- Flat tuples: a flat field, a slice of flat fields, a struct of flat fields. -/
def flat : Ty → Bool
  | .sl t => flatField t
  | .struct fs => flatStruct fs
  | t => flatField t

/-- Fewer than `2^32` fields, each shorter than `2^32` bytes. -/
def Small (t : Ty) (v : Val) : Prop := (fields t v).length < 2 ^ 32 ∧ ∀ f ∈ fields t v, f.length < 2 ^ 32

/-- An `interface{}` that can be a field: not nil. -/
def FldOk : Fld → Prop
  | none => False
  | some (t, v) => FieldTy t ∧ FieldVal false t v

/-- An `interface{}` that can be a tuple: not nil. -/
def TupOk : Tup → Prop
  | .nil => False
  | .val t v => TupTy t ∧ TupVal false t v
  | .list fs => fs.length < 2 ^ 32 ∧ ∀ f ∈ fs, FldOk f

/-- The content of an `interface{}` as a field. -/
def fldBytes : Fld → Bytes
  | none => []
  | some (t, v) => pay t v

/-- The fields of an `interface{}` as a tuple. -/
def tupFields : Tup → List Bytes
  | .nil => []
  | .val t v => fields t v
  | .list fs => fs.map fldBytes

/-! ### Responses -/

/-- A tuple in a response: the size of the fields, then the tuple with its count. -/
def framed (b : Bytes) : Bytes := le 4 (b.length - 4) ++ b

/-- A response with the given tuples (of at least four bytes each). -/
def response (ts : List Bytes) : Bytes := le 4 ts.length ++ (ts.map framed).flatten

/-- Tuples that can be in a response. -/
def Framed (t : Bytes) : Prop := 4 ≤ t.length ∧ t.length < 2 ^ 32 + 4

/-- Types of the elements of a slice or array that `ReadMany` fills: all but slices and arrays of things that are neither
scalars nor strings. -/
def Row : Ty → Prop
  | .arr _ u | .sl u => (∃ k, u = .scal k) ∨ u = .str
  | _ => True

/-- Types of a single destination of `ReadMany`: all but slices and arrays. -/
def Single (t : Ty) : Prop := (∀ n u, t ≠ .arr n u) ∧ ∀ u, t ≠ .sl u

/-- A tuple is read as the value `v`, without an error. -/
def Reads (t : Ty) (b : Bytes) (v : Val) : Prop := ∃ r, readRaw t ⟨b, none⟩ = some (r, v) ∧ r.err = none

/-! ### Untrusted responses -/

/-- A field whose length is compared with a constant before anything is read. -/
def fixedField : Ty → Prop
  | .scal k => 0 ≤ codeR (.scal k)
  | .arr n t => 0 ≤ codeR (.arr n t) ∧ Safe false (.arr n t)
  | .struct fs => 0 ≤ codeR (.struct fs) ∧ Safe false (.struct fs)
  | _ => False

/-- Structs of such fields. -/
def fixedFields : Fl → Prop
  | .nil => True
  | .cons .hidden _ fs => fixedFields fs
  | .cons .skip _ fs => fixedFields fs
  | .cons (.use true _) _ _ => False
  | .cons (.use false _) t fs => fixedField t ∧ fixedFields fs

/-- Types that can be decoded from any tuple. -/
def SafeTup : Ty → Prop
  | .scal _ => True
  | .str => False
  | .arr _ t => t = .scal .u8
  | .sl t => t ≠ .scal .u8 ∧ fixedField t
  | .struct fs => fixedFields fs
  | .ptr t => SafeTup t

/-! ### Keys -/

/-- The key tuples of a typed value: an array or slice is a list of keys, except `[]byte`. `one` says that a
byte slice is one key. -/
def keyTuples (one : Bool) (t : Ty) (v : Val) : List (List Bytes) :=
  match t with
  | .scal _ | .str | .struct _ => [fields t v]
  | .arr _ e => (elems v).map (fields e)
  | .sl e => if one && e.kind? = some .u8 then [fields t v] else (elems v).map (fields e)
  | .ptr _ => []

/-- Typed keys the code handles. -/
def KeyVal (one addr : Bool) (t : Ty) (v : Val) : Prop :=
  match t with
  | .scal _ | .str | .struct _ => TupTy t ∧ TupVal addr t v
  | .arr n e => ∃ vs, v = .seq vs ∧ vs.length = n ∧ TupTy e ∧ ∀ u ∈ vs, TupVal addr e u
  | .sl e => if one && e.kind? = some .u8 then TupVal addr t v
    else ∃ vs, v = .seq vs ∧ TupTy e ∧ ∀ u ∈ vs, TupVal true e u
  | .ptr _ => False

/-- Values that are a single key when they are an element of a `[]interface{}`. -/
def oneKey : Tup → Bool
  | .nil => false
  | .val t _ => match t with
    | .scal _ | .str | .struct _ => true
    | .sl e => e.kind? = some .u8
    | .ptr (.scal _) | .ptr .str | .ptr (.struct _) => true
    | _ => false
  | .list _ => false

/-- The key tuples of the keys of a request. -/
def keysOf : Keys → List (List Bytes)
  | .nil => []
  | .val (.ptr t) (.ref u) => keyTuples false t u
  | .val t v => keyTuples true t v
  | .list ts => ts.map tupFields

/-- Keys the code handles: an element of a `[]interface{}` is one key. -/
def KeysOk : Keys → Prop
  | .nil => False
  | .val (.ptr t) (.ref u) => KeyVal false true t u
  | .val t v => KeyVal true false t v
  | .list ts => ∀ t ∈ ts, TupOk t ∧ oneKey t = true

/-! ### Operators -/

/-- The protocol code of an operator: 0 to 7, or one of the eight characters. -/
def opCode (b : UInt8) : Option UInt8 :=
  if b.toNat < 8 then some b
  else [('=', 0), ('+', 1), ('&', 2), ('|', 3), ('^', 4), ('s', 5), ('d', 6), ('i', 7)].lookup (Char.ofNat b.toNat)

/-- An operation the code handles. -/
def OpOk (o : Op) : Prop := (opCode o.op).isSome ∧ FieldTy o.ty ∧ FieldVal false o.ty o.val

/-- The bytes of an operation. -/
def updBytes (field : UInt32) (code : UInt8) (v : Bytes) : Bytes := le 4 field.toNat ++ [code] ++ fieldBytes v

/-- What an operation says. -/
def opSays (o : Op) : UInt32 × Option UInt8 × Bytes := (o.field, opCode o.op, pay o.ty o.val)

/-- The bytes of an operation of the protocol. -/
def opOut (o : Op) : Bytes := updBytes o.field ((opCode o.op).getD 0) (pay o.ty o.val)

end Verif.Spec
