import Verif.Model.User
import Verif.Spec.Reflect
import Verif.Proofs.Writer

/-! Specification for types with code of their own: what the code has to do. -/
namespace Verif.Spec
open Verif.Marshal Verif.Reflect Verif.User

/-- The methods of `u` write and read the encoding `enc` of the values in `P`; `z` is the zero value. -/
structure Faithful (u : User) (enc : Val → Bytes) (z : Val) (P : Val → Prop) : Prop where
  writes : ∀ v, P v → ∀ w : Wr, w.Ok → ∃ w', u.write v w = some w' ∧ Wr.Ext w w' (enc v)
  size : ∀ f, u.size = some f → ∀ v, P v → f v = (enc v).length
  both : u.count.isSome = u.setCount.isSome
  reads : u.setCount = none → ∀ v, P v → ∀ rest, u.read ⟨enc v ++ rest, none⟩ z = some (⟨rest, none⟩, v)
  counted : ∀ c s, u.count = some c → u.setCount = some s → ∀ v, P v → ∀ rest,
    ∃ v0, s z (c v) = some (none, v0) ∧ u.read ⟨enc v ++ rest, none⟩ v0 = some (⟨rest, none⟩, v)
  sized : ∀ s, u.setSize = some s → ∀ v, P v → ∀ rest,
    ∃ v0, s z (enc v).length = some (true, none, v0) ∧ u.read ⟨enc v ++ rest, none⟩ v0 = some (⟨rest, none⟩, v)
  tails : u.setSize = none → ∀ v, P v → (u.readTail.getD u.read) ⟨enc v, none⟩ z = some (⟨[], none⟩, v)

/-- `ISetCounter` is found where it is implemented. -/
def Found (u : User) : Prop := u.setCount.isSome → ¬ (u.long = true ∧ u.byPtr = true)

/-- What `Write` is to make of a value. -/
def userEnc (u : User) (enc : Val → Bytes) (v : Val) : Bytes :=
  match u.count with
  | some c => le 4 (c v) ++ enc v
  | none => enc v

end Verif.Spec
