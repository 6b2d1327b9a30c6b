import Verif.Model.Request
/-!
What the history of a request is supposed to look like, in terms of events only. Histories are lists with the
newest event first.
-/
namespace Verif.Request

/-- How often the Responder was called. -/
def deliveries : List Ev → Nat
  | [] => 0
  | .delivered _ :: l => deliveries l + 1
  | _ :: l => deliveries l

/-- `Q e older` for every event `e` of the history and the history before it. -/
def Everywhere (Q : Ev → List Ev → Prop) : List Ev → Prop
  | [] => True
  | e :: l => Q e l ∧ Everywhere Q l

/-- The answering call accepted last. -/
def lastAccepted : List Ev → Option (Bool × UInt32 × Option (List UInt8))
  | [] => none
  | .accepted k c b :: _ => some (k, c, b)
  | _ :: l => lastAccepted l

/-- Bookmarks which are chained and were not passed by a response yet, the latest first. -/
def outstanding : List Ev → List Nat
  | [] => []
  | .chained b :: l => b :: outstanding l
  | .passed _ :: l => (outstanding l).drop 1
  | _ :: l => outstanding l

/-- The bookmarks notified since the last accepted answer, in order of notification. -/
def notifiedSince : List Ev → List Nat
  | [] => []
  | .accepted _ _ _ :: _ => []
  | .notified b _ :: l => notifiedSince l ++ [b]
  | _ :: l => notifiedSince l

/-- The history before the last accepted answer. -/
def beforeAccepted : List Ev → List Ev
  | [] => []
  | .accepted _ _ _ :: l => l
  | _ :: l => beforeAccepted l

/-- Successful claims since the request was last sent. -/
def claimsSinceSent : List Ev → Nat
  | [] => 0
  | .sent :: _ => 0
  | .claimed _ :: l => claimsSinceSent l + 1
  | _ :: l => claimsSinceSent l

/-- All bookmarks ever chained, the latest first. -/
def allChained : List Ev → List Nat
  | [] => []
  | .chained b :: l => b :: allChained l
  | _ :: l => allChained l

/-- All notifications, in order. -/
def allNotified : List Ev → List Nat
  | [] => []
  | .notified b _ :: l => allNotified l ++ [b]
  | _ :: l => allNotified l

def wasClaimed (l : List Ev) : Prop := ∃ t, Ev.claimed t ∈ l

def Act.isReset : Act → Bool
  | .resetPending | .resetNew => true
  | _ => false

/-- No user code resets the request and none gets stuck under the request's lock. -/
def Choice.plain : Choice → Bool
  | .bookmark _ acts | .responder _ acts => acts.all fun a => !a.isReset && a != .stuck
  | _ => true

/-- The Responder does not reset the request. -/
def Choice.finalPlain : Choice → Bool
  | .responder _ acts => acts.all fun a => !a.isReset
  | _ => true

/-- No claim with a bookmark. -/
def Choice.noClaimWith : Choice → Bool
  | .call _ (.claimWith _) => false
  | _ => true

/-- No claim without a bookmark. -/
def Choice.noPlainClaim : Choice → Bool
  | .call _ .claim => false
  | .bookmark _ acts | .responder _ acts => acts.all fun a => a != .claim
  | _ => true

end Verif.Request
