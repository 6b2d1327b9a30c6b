import Verif.Model.ReaderCache

/-! Specification for the cache of readers. -/
namespace Verif.Spec
open Verif.Marshal Verif.ReaderCache

/-- What a call returns when it has its readers to itself. -/
def alone {α : Type} (c : Call α) : α :=
  c.out (c.prog.foldl (fun p f => f p) (⟨c.body, none⟩, ⟨[], none⟩))

/-- The pair a goroutine is working with. -/
def holds {α : Type} : PC α → Option Nat
  | .reset _ r | .run _ r _ | .store _ r _ => some r
  | _ => none

end Verif.Spec
