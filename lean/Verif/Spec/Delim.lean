import Verif.Model.Iface
import Verif.Spec.Reflect

/-! Specification of reads that know where their data ends. -/
namespace Verif.Spec
open Verif.Marshal Verif.Reflect

/-- If the read succeeds, then no error was pending, what it took is a prefix of the body, and the same prefix before any other bytes
gives the same value and leaves exactly the other bytes. -/
def Delimited {α : Type} (f : Rd → Option (Rd × α)) : Prop :=
  ∀ r r' w, f r = some (r', w) → r'.err = none →
    r.err = none ∧ ∃ u, r.body = u ++ r'.body ∧ ∀ c, f ⟨u ++ c, none⟩ = some (⟨c, none⟩, w)

/-- The same for a user's reading method, whose value is not in sight. -/
def DelimitedHook (f : Rd → Option Rd) : Prop :=
  ∀ r r', f r = some r' → r'.err = none →
    r.err = none ∧ ∃ u, r.body = u ++ r'.body ∧ ∀ c, f ⟨u ++ c, none⟩ = some ⟨c, none⟩

mutual
/-- The reading methods of the user in a destination know where their data ends. -/
def HooksDelimited : Iface.Dst → Prop
  | .hook f => DelimitedHook f
  | .hooks fs => ∀ f ∈ fs, DelimitedHook f
  | .phooks fs => ∀ f ∈ fs, DelimitedHook f
  | .list ds => AllHooksDelimited ds
  | .plist ds => AllHooksDelimited ds
  | _ => True
def AllHooksDelimited : List Iface.Dst → Prop
  | [] => True
  | d :: ds => HooksDelimited d ∧ AllHooksDelimited ds
end

/-- A proper prefix. -/
def CutShort (p b : Bytes) : Prop := ∃ s, s ≠ [] ∧ b = p ++ s

end Verif.Spec
