import Verif.Model.Context
/-!
Notions used to state the properties of contexts.
-/
namespace Verif.Context

/-- Canceler `x` was registered, and its owner has not called `RemoveCanceler` yet. -/
def Outstanding (s : St) (x : Nat) : Prop := s.ap x = .done true ∧ s.gone x = false

/-- What the context has stored. -/
def Stored (s : St) (x : Nat) : Prop := s.s0 = some x ∨ s.s1 = some x ∨ x ∈ s.m

/-- `AddCanceler(x)` (or the refusal before it) has returned. -/
def Added (s : St) (x : Nat) : Prop := s.ap x = .done true ∨ s.ap x = .done false

/-- `P` holds in every state of the run from `s` by the schedule `cs`. -/
def Along (P : St → Prop) : St → List Choice → Prop
  | s, [] => P s
  | s, c :: cs => P s ∧ ∀ s', step s c = some s' → Along P s' cs

/-- The context is not cancelled between the look at `State` in `AddCanceler` and the storing of the canceler. -/
def Clear (s : St) : Prop := s.state ≠ 0 → ∀ x, s.ap x ≠ .reg

end Verif.Context
