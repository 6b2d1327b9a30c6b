import Verif.Model.Conn
/-!
Terms in which the theorems about the client connection are stated.
-/
namespace Verif.Conn

/-- A request was given this id and no response with it has been received. -/
def Expected (s : St) (id : Nat) : Prop := (∃ r, s.idOf r = some id) ∧ id ∉ s.removed

/-- The peer answers only what it was asked, and once. -/
def Polite : St → List Choice → Prop
  | _, [] => True
  | s, c :: cs => (∀ id x, c = .resp id x → Expected s id) ∧ ∀ s', step s c = some s' → Polite s' cs

/-- Fewer than 2^32 - 1 ids were used. -/
def Young (s : St) : Prop := s.h.got ≤ M - 2

/-- `r` was taken from the channel and is not answered. -/
def Outstanding (s : St) (r : Nat) : Prop := s.rs r = .inFly

/-- Request `r` is not in the write loop's hands and was not written. -/
def Unwritten (s : St) (r : Nat) : Prop :=
  (∀ i f, (i, r, f) ∉ s.wire) ∧ (∀ o j, s.wp ≠ .header r o j) ∧ ∀ i f, s.wp ≠ .write i r f

end Verif.Conn
