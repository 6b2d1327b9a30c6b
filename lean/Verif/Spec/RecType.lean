import Verif.Model.RecType
import Verif.Spec.Reflect

/-! What the encoding of values of (possibly recursive) types is, and for which values and types it is read back. -/
namespace Verif.Spec.RecType
open Verif.Marshal Verif.Reflect Verif.RecType Verif.Spec

/-- Types with methods of their own decide for themselves. -/
def orOwn {α : Type} (t : Sh) (f : Own → α) (x : α) : α :=
  match t with
  | .own o => f o
  | _ => x

/-- The number that a count in front of the value says. -/
def number (sh : Nat → Sh) : Nat → Val → Nat
  | n, .scal s => orOwn (sh n) (·.count (.scal s)) 1
  | n, .str b => orOwn (sh n) (·.count (.str b)) b.length
  | n, .seq vs => orOwn (sh n) (·.count (.seq vs)) (match sh n with
    | .struct _ => 1
    | _ => vs.length)
  | n, .nilp => orOwn (sh n) (·.count .nilp) 0
  | n, .ref v => orOwn (sh n) (·.count (.ref v)) (match sh n with
    | .ptr m => number sh m v
    | _ => 0)

/-- Does the encoding start with a 32-bit count, without being told? -/
def Counts : Sh → Bool
  | .str | .sl _ => true
  | .own o => o.icount.isSome
  | _ => false

def IsPtr : Sh → Bool
  | .ptr _ => true
  | _ => false

/-- Pointers to such types are read back. -/
def Target : Sh → Bool
  | .scal _ | .arr _ _ | .sl _ | .struct _ => true
  | _ => false

/-- Can a `cnt` directive stand at the type? -/
def Countable : Sh → Bool
  | .own o => o.icount.isSome
  | _ => true

/-- The count that is there without being told. -/
def pre (sh : Nat → Sh) (n : Nat) (v : Val) : Bytes := if Counts (sh n) then le 4 (number sh n v) else []

/-- The count in front of a field. -/
def lead (sh : Nat → Sh) (p : Option Pfx) (n : Nat) (v : Val) : Bytes :=
  match p with
  | none => pre sh n v
  | some p => pfxBytes p (number sh n v)

mutual
/-- The encoding of a value of type `n`, without a count in front. -/
def body (sh : Nat → Sh) : Nat → Val → Bytes
  | n, .scal s => orOwn (sh n) (·.enc (.scal s)) (scalBytes s)
  | n, .str b => orOwn (sh n) (·.enc (.str b)) b
  | n, .seq vs => orOwn (sh n) (·.enc (.seq vs)) (match sh n with
    | .arr _ m | .sl m => bodies sh m vs
    | .struct fs => parts sh fs vs
    | _ => [])
  | n, .nilp => orOwn (sh n) (·.enc .nilp) []
  | n, .ref v => orOwn (sh n) (·.enc (.ref v)) (match sh n with
    | .ptr m => body sh m v
    | _ => [])
/-- The elements of an array or slice. -/
def bodies (sh : Nat → Sh) : Nat → List Val → Bytes
  | _, [] => []
  | m, v :: vs => (pre sh m v ++ body sh m v) ++ bodies sh m vs
/-- The fields of a struct. -/
def parts (sh : Nat → Sh) : List (Option Pfx × Nat) → List Val → Bytes
  | (p, m) :: fs, v :: vs => (lead sh p m v ++ body sh m v) ++ parts sh fs vs
  | _, _ => []
end

/-- The encoding of a value. -/
def full (sh : Nat → Sh) (n : Nat) (v : Val) : Bytes := pre sh n v ++ body sh n v

/-- The value can stand without a `cnt` directive: it is no pointer, and a count in front of it has room. -/
def Bare (sh : Nat → Sh) (n : Nat) (v : Val) : Prop := IsPtr (sh n) = false ∧ (Counts (sh n) = true → number sh n v < 2 ^ 32)

/-- The methods are declared alike: `ICount` in the form of `IWrite` and `ISetCount` in the form of `IRead`, or neither of them; and
where `IWrite` or `IRead` can be called on a value, so can they. `ISetCount(self, n)` is no pointer method. -/
def Alike (o : Own) : Prop :=
  ∃ w r : Recv, o.iwrite = some w ∧ o.iread = some r ∧
    ((o.icount = none ∧ o.isetcount = none) ∨
      ∃ c s : Recv, o.icount = some c ∧ o.isetcount = some s ∧ c.long = w.long ∧ s.long = r.long ∧ (c.onPtr = true → w.onPtr = true) ∧
        (s.onPtr = true → r.onPtr = true) ∧ (s.long = true → s.onPtr = false))

/-- `IRead` gets back what `IWrite` wrote for `v`, in front of anything else, after `ISetCount` if there is one. -/
def Inverse (o : Own) (v : Val) : Prop :=
  if o.isetcount.isSome = true then ∃ u, o.setCount o.zero (o.count v) = some (none, u) ∧
    ∀ rest, o.read ⟨o.enc v ++ rest, none⟩ u = some (⟨rest, none⟩, v)
  else ∀ rest, o.read ⟨o.enc v ++ rest, none⟩ o.zero = some (⟨rest, none⟩, v)

/-- `v` is a value that the methods of its type take care of; if they are pointer methods, it can be addressed. -/
def OwnFit (o : Own) (addr : Bool) (v : Val) : Prop :=
  Alike o ∧ Inverse o v ∧ ∀ w, o.iwrite = some w → w.onPtr = true → addr = true

mutual
/-- `v` is a value of type `n`, with counts that there is room for; `addr` says whether it can be addressed. Pointers are to values
with a count other than 0, but not to pointers or strings; slices and arrays of `float64` have at most one element. -/
def Fit (sh : Nat → Sh) : Bool → Nat → Val → Prop
  | addr, n, .scal s => orOwn (sh n) (OwnFit · addr (.scal s)) (sh n = .scal s.kind)
  | addr, n, .str b => orOwn (sh n) (OwnFit · addr (.str b)) (sh n = .str)
  | addr, n, .seq vs => orOwn (sh n) (OwnFit · addr (.seq vs)) (match sh n with
    | .arr k m => vs.length = k ∧ (sh m = .scal .f64 → vs.length ≤ 1) ∧ FitAll sh addr m vs
    | .sl m => vs.length < 2 ^ 48 ∧ (sh m = .scal .f64 → vs.length ≤ 1) ∧ FitAll sh true m vs
    | .struct fs => FitParts sh addr fs vs
    | _ => False)
  | addr, n, .nilp => orOwn (sh n) (OwnFit · addr .nilp) (IsPtr (sh n) = true)
  | addr, n, .ref v => orOwn (sh n) (OwnFit · addr (.ref v)) (match sh n with
    | .ptr m => Target (sh m) = true ∧ number sh m v ≠ 0 ∧ Fit sh true m v
    | _ => False)
def FitAll (sh : Nat → Sh) : Bool → Nat → List Val → Prop
  | _, _, [] => True
  | addr, m, v :: vs => (Fit sh addr m v ∧ Bare sh m v) ∧ FitAll sh addr m vs
def FitParts (sh : Nat → Sh) : Bool → List (Option Pfx × Nat) → List Val → Prop
  | _, [], [] => True
  | addr, (p, m) :: fs, v :: vs => (Fit sh addr m v ∧ (match p with
      | none => Bare sh m v
      | some p => p ≠ .i64 ∧ Countable (sh m) = true ∧ fits p (number sh m v))) ∧ FitParts sh addr fs vs
  | _, _, _ => False
end

/-- Is the size of the values of the type not known beforehand, whatever it consists of? -/
def Varies : Sh → Bool
  | .str | .sl _ | .ptr _ | .own _ => true
  | _ => false

/-- The bytes of a count that are sure to be there. -/
def countLen : Option Pfx → Int
  | none | some .ber => 0
  | some .i8 => 1
  | some .i16 => 2
  | some .i32 => 4
  | some .i64 => 8

/-- The bytes of a scalar; -1 for anything else. -/
def scalLen : Sh → Int
  | .scal k => width k
  | _ => -1

/-- The bytes of a field's count and scalar, less one if it is no scalar. -/
def sure (sh : Nat → Sh) (f : Option Pfx × Nat) : Int := countLen f.1 + scalLen (sh f.2)

/-- No array is empty. A struct starts with a string, slice, pointer or a type with methods, without directive, or its scalars and counts have
more bytes than it has fields that are no scalars. -/
def Firm (sh : Nat → Sh) : Prop :=
  ∀ n, match sh n with
    | .arr k _ => k ≠ 0
    | .struct fs => (∃ m gs, fs = (none, m) :: gs ∧ Varies (sh m) = true) ∨ 0 < (fs.map (sure sh)).sum
    | _ => True

end Verif.Spec.RecType
