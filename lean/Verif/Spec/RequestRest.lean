import Verif.Model.Request
/-! Notions used to state that the calls on a request come back. -/
namespace Verif.Request

/-- A step of a goroutine that is inside a method of the request, in which a bookmark or the Responder does at most `a` things to the request; nobody calls anything anew. -/
def Goes (a : Nat) : Choice → Prop
  | .call .. => False
  | .go _ => True
  | .bookmark _ acts => acts.length ≤ a
  | .responder _ acts => acts.length ≤ a

end Verif.Request
