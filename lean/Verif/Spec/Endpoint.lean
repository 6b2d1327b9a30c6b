import Verif.Model.Endpoint
import Verif.Spec.Buffer
import Verif.Spec.Conn
/-!
Terms in which the theorems about a client endpoint are stated.
-/
namespace Verif.Endpoint

/-- The peers of all connections answer only what they were asked, and once. -/
def Polite (R cap : Nat) : St → List Choice → Prop
  | _, [] => True
  | s, c :: cs => (∀ i id x, c = .conn i (.resp id x) → Conn.Expected (s.c i) id) ∧ ∀ s', step R cap s c = some s' → Polite R cap s' cs

/-- No connection has used up its ids. -/
def Young (s : St) : Prop := ∀ i, Conn.Young (s.c i)

/-- Request `r` was answered, or is being answered. -/
def Answered (s : St) (r : Nat) : Prop := .answered r ∈ s.b.log

/-- The queue is at rest: the forwarding goroutine waits, or has ended, and no signal is outstanding. -/
def Quiet (s : St) : Prop := (s.b.loop = .wait ∨ s.b.loop = .exited) ∧ s.b.sig = false

/-- `Send` of `r` has got as far as returning from `push`. -/
def Sent (s : St) (r : Nat) : Prop := .ret r ∈ s.b.log

/-- Connection `i` received `r` from the channel. -/
def TakenBy (s : St) (r i : Nat) : Prop := (r, some i) ∈ s.got

/-- The step is one of the forwarding goroutine, or of the write loop of connection `i`, without an error. -/
def Forwards (i : Nat) (c : Choice) : Prop :=
  c = .queue .loop ∨ c = .take i ∨ c = .conn i .header ∨ c = .conn i (.wrote true)

end Verif.Endpoint
