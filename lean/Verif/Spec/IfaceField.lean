import Verif.Model.IfaceField
import Verif.Spec.Reflect

/-! Specification for structs with fields of type `interface{}` and `[]interface{}`. Uses the types and values of the model only. -/
namespace Verif.Spec
open Verif.Marshal Verif.Reflect Verif.IfaceField

/-- The bytes of a field which holds `v` of type `t`; a pointer is followed. -/
def dynBytes (d : Dir) : Ty → Val → Bytes
  | .ptr t, .ref v => tagged t v d (pay t v)
  | t, v => tagged t v d (pay t v)

/-- The bytes of an `interface{}` field: those of a field of the type of its value; nil has length 0. -/
def anyBytes (d : Dir) : Dyn → Bytes
  | some (t, v) => dynBytes d t v
  | none => match d with
    | .size p | .cnt p => pfxBytes p 0
    | _ => []

/-- The bytes of a `[]interface{}` field: its elements are encoded as fields without tag. -/
def anysBytes (d : Dir) (l : List Dyn) : Bytes :=
  let b := (l.map (anyBytes .none)).flatten
  match d with
  | .none => le 4 l.length ++ b
  | .cnt p => pfxBytes p l.length ++ b
  | .size p => pfxBytes p b.length ++ b
  | .no => b

/-- The bytes of a struct. -/
def xbytes : XFl → List XVal → Bytes
  | (.hidden, _) :: fs, _ :: vs => xbytes fs vs
  | (.skip, _) :: fs, _ :: vs => xbytes fs vs
  | (.use ber d, .of t) :: fs, .of v :: vs => tagged t v d (if ber then berPay v else pay t v) ++ xbytes fs vs
  | (.use _ d, .any) :: fs, .any v :: vs => anyBytes d v ++ xbytes fs vs
  | (.use _ d, .anys) :: fs, .anys l :: vs => anysBytes d l ++ xbytes fs vs
  | _, _ => []

/-- No prefix of 64 bits (see C09). -/
def pfxOk : Dir → Prop
  | .size p | .cnt p => p ≠ .i64
  | _ => True

/-- `v` of type `t` can be encoded with the tag (cf. C18). -/
def Enc (addr : Bool) (d : Dir) (t : Ty) (v : Val) : Prop :=
  pfxOk d ∧ (∃ tail, Sound tail t) ∧ (∀ p, d = .size p → SizeOk t) ∧ Fits addr t v ∧ FitsDir t v d (pay t v)

/-- What an interface holds can be encoded with the tag. -/
def DynOk (d : Dir) : Dyn → Prop
  | none => pfxOk d
  | some (.ptr t, .ref v) => Enc true d t v
  | some (t, v) => Enc false d t v

/-- Not nil, and not of a type that has a count in front (or a pointer to such a type). -/
def Bare : Dyn → Prop
  | some (.ptr t, .ref _) => counted t = false
  | some (t, _) => counted t = false
  | none => False

/-- A list can be encoded with the tag. -/
def AnysOk (d : Dir) (l : List Dyn) : Prop :=
  pfxOk d ∧ (∀ x ∈ l, DynOk .none x ∧ Bare x) ∧ match d with
    | .none => l.length < 2 ^ 32
    | .cnt p => fits p l.length
    | .size p => fits p ((l.map (anyBytes .none)).flatten).length
    | .no => True

/-- The fields that follow are unexported. -/
def hiddenX : XFl → Prop
  | [] => True
  | (.hidden, _) :: fs => hiddenX fs
  | _ => False

/-- The struct can be encoded: other fields as in C18, interfaces as above without `ber`, and nothing behind a field without
prefix. -/
def XOk : XFl → List XVal → Prop
  | [], [] => True
  | (.hidden, _) :: fs, _ :: vs => XOk fs vs
  | (.skip, _) :: fs, _ :: vs => XOk fs vs
  | (.use ber d, .of t) :: fs, .of v :: vs =>
    (∃ tail, SoundFl tail (.cons (.use ber d) t .nil)) ∧ FitsFl false (.cons (.use ber d) t .nil) [v] ∧
    (d = .no → hiddenX fs) ∧ XOk fs vs
  | (.use ber d, .any) :: fs, .any v :: vs => ber = false ∧ DynOk d v ∧ (d = .no → hiddenX fs) ∧ XOk fs vs
  | (.use ber d, .anys) :: fs, .anys l :: vs => ber = false ∧ AnysOk d l ∧ (d = .no → hiddenX fs) ∧ XOk fs vs
  | _, _ => False

/-! ### Reading -/

/-- The pointers in the struct point to new variables of the types of what was written. -/
def freshDyn : Dyn → Dyn
  | some (.ptr t, .ref _) => some (t, zero t)
  | some (t, _) => some (t, zero t)
  | none => none

/-- The same with the values that were written. -/
def gotDyn : Dyn → Dyn
  | some (.ptr t, .ref v) => some (t, v)
  | x => x

/-- The field of a struct to be read into, made for what was written. -/
def freshV : XTy → XVal → XVal
  | .of t, _ => .of (zero t)
  | _, .any v => .any (freshDyn v)
  | _, .anys l => .anys (l.map freshDyn)
  | _, v => v

/-- What it should hold afterwards. -/
def gotV : XVal → XVal
  | .of v => .of v
  | .any v => .any (gotDyn v)
  | .anys l => .anys (l.map gotDyn)

/-- A struct to be read into, made for what was written. -/
def freshX : XFl → List XVal → List XVal
  | (_, t) :: fs, v :: vs => freshV t v :: freshX fs vs
  | _, _ => []

/-- What it should hold afterwards: fields that are not encoded keep what they had. -/
def gotX : XFl → List XVal → List XVal
  | (.use _ _, _) :: fs, v :: vs => gotV v :: gotX fs vs
  | (_, t) :: fs, v :: vs => freshV t v :: gotX fs vs
  | _, _ => []

/-- The size of the payload follows from the type, or from the number of elements. -/
def FixedSize : Ty → Prop
  | .scal _ => True
  | .arr n t => 0 ≤ codeSz (.arr n t)
  | .struct fs => 0 ≤ codeSz (.struct fs)
  | .sl t => 0 < codeSz t
  | _ => False

/-- The cases in which `v` of type `t`, written with the tag, is read back through an interface. -/
def Back (d : Dir) (t : Ty) (v : Val) : Prop :=
  Sound false t ∧ match d with
    | .none => counted t = true → t = .str
    | .size _ => FixedSize t ∧ pay t v ≠ []
    | .cnt _ => t ≠ .str ∧ countOf t v ≠ 0
    | .no => False

/-- The same for what an interface holds; nil is read back unless it was written with a count. -/
def DynBack (d : Dir) : Dyn → Prop
  | none => match d with
    | .cnt _ => False
    | _ => True
  | some (.ptr t, .ref v) => Back d t v
  | some (t, v) => Back d t v

/-- The same for a list. -/
def AnysBack (d : Dir) (l : List Dyn) : Prop :=
  ∀ x ∈ l, DynBack .none x ∧ (∀ p, d = .size p → anyBytes .none x ≠ [])

/-- The same for a struct. -/
def XBack : XFl → List XVal → Prop
  | [], [] => True
  | (.hidden, _) :: fs, _ :: vs => XBack fs vs
  | (.skip, _) :: fs, _ :: vs => XBack fs vs
  | (.use ber d, .of t) :: fs, .of _ :: vs => SoundFl false (.cons (.use ber d) t .nil) ∧ XBack fs vs
  | (.use _ d, .any) :: fs, .any v :: vs => DynBack d v ∧ XBack fs vs
  | (.use _ d, .anys) :: fs, .anys l :: vs => AnysBack d l ∧ XBack fs vs
  | _, _ => False

end Verif.Spec
