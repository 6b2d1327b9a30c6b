import Verif.Spec.Buffer
/-!
Terms in which it is stated that the queue comes to rest.
-/
namespace Verif.Buffer

/-- The step belongs to a call of `push` or to an answering that has begun, to the forwarding goroutine, or to somebody who receives from the
channel; nobody pushes or answers another request, nor closes the queue. -/
def Begun (log : List Ev) : Choice → Prop
  | .push r => .call r ∈ log
  | .answer r => .answered r ∈ log
  | .close => False
  | .headFirst _ | .loop | .recv => True

/-- Such steps lead from `s` to `s'`. -/
def Onward (R cap : Nat) : St → List Choice → St → Prop
  | s, [], s' => s' = s
  | s, c :: cs, s' => Begun s.log c ∧ ∃ t, step R cap s c = some t ∧ Onward R cap t cs s'

end Verif.Buffer
