import Verif.Model.Send
import Verif.Spec.Request
/-!
Terms in which the theorems about `Send` are stated.
-/
namespace Verif.Send

/-- How often the request was queued or given to a function. -/
def handovers : List Out → Nat
  | [] => 0
  | .handed _ _ _ _ :: l => handovers l + 1
  | _ :: l => handovers l

/-- How often the request became pending. -/
def sends : List Request.Ev → Nat
  | [] => 0
  | .sent :: l => sends l + 1
  | _ :: l => sends l

/-- How often an answer was accepted. -/
def answers : List Request.Ev → Nat
  | [] => 0
  | .accepted _ _ _ :: l => answers l + 1
  | _ :: l => answers l

/-- Somebody's answer was accepted: the Responder is told or will be. -/
def Answered (l : List Request.Ev) : Prop := 0 < answers l

/-- Nobody's bookmark or Responder resets the request or hangs. -/
def Choice.plain : Choice → Bool
  | .env c => c.plain
  | _ => true

/-- Everybody else only chains bookmarks and answers, cancels or expires the request. -/
def Choice.bystander : Choice → Bool
  | .env (.call _ .setPending) | .env (.call _ .claim) | .env (.call _ (.claimWith _)) => false
  | .env (.bookmark _ acts) | .env (.responder _ acts) => acts.isEmpty
  | _ => true

def Choice.isSend : Choice → Bool
  | .send _ _ _ => true
  | _ => false

end Verif.Send
