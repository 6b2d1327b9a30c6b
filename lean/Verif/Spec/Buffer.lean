import Verif.Model.Buffer
/-!
What can be read off a history of the queue.
-/
namespace Verif.Buffer

/-- The requests in the order in which their slots were reserved. -/
def slots (log : List Ev) : List Nat := log.filterMap fun | .slot r => some r | _ => none

/-- The requests put into the endpoint's channel by the forwarding goroutine, in order. -/
def forwarded (log : List Ev) : List Nat := log.filterMap fun | .forward r => some r | _ => none

/-- The requests put into the endpoint's channel by whomever, in order. -/
def sent (log : List Ev) : List Nat := log.filterMap fun | .forward r => some r | .direct r => some r | _ => none

/-- The event puts `r` into the channel. -/
def Sends (r : Nat) (e : Ev) : Prop := e = .direct r ∨ e = .forward r

/-- An event of the first kind is followed, later, by one of the second kind. -/
def Before (p q : Ev → Prop) (log : List Ev) : Prop :=
  ∃ l₁ l₂, log = l₁ ++ l₂ ∧ (∃ a ∈ l₁, p a) ∧ (∃ b ∈ l₂, q b)

/-- `r` has begun to be pushed and its `push` has not returned. -/
def Pushing (log : List Ev) (r : Nat) : Prop := .call r ∈ log ∧ .ret r ∉ log

/-- `r` waits in the queue behind a request whose `push` has not returned. -/
def Behind (log : List Ev) (r : Nat) : Prop :=
  ∃ m n q : Nat, m < n ∧ (slots log)[m]? = some q ∧ (slots log)[n]? = some r ∧ Pushing log q

end Verif.Buffer
