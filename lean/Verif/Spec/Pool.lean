import Verif.Model.Pool
/-!
Terms in which the theorems about the connection pool are stated.
-/
namespace Verif.Pool

/-- The connection is being dialed. -/
def Dials (c : Con) : Bool := c.lp = .start ∨ c.lp = .dial

/-- The connection is established and its write loop has not ended. -/
def Up (c : Con) : Bool := (c.lp = .markUp ∨ c.lp = .running) ∧ c.wp ≠ .notify ∧ c.wp ≠ .send ∧ c.wp ≠ .done

/-- The number of connections with a property. -/
def count (p : Con → Bool) (s : St) : Nat := ((List.range s.cur).filter fun i => p (s.con i)).length

/-- The server knows all that has happened: no message is on its way. -/
def Quiet (s : St) : Prop :=
  s.q = [] ∧ ∀ i, i < s.cur → (s.con i).lp ≠ .sendErr ∧ (s.con i).lp ≠ .sendOk ∧ (s.con i).wp ≠ .notify ∧ (s.con i).wp ≠ .send

instance (s : St) : Decidable (Quiet s) := by unfold Quiet; infer_instance

/-- The server's loop never goes on. -/
def Stuck (s : St) : Prop := ∀ ds s', run s ds = some s' → s'.pc = s.pc

end Verif.Pool
