import Verif.Model.Request

/-! The timeout of one `Request`: `SetTimeout`, `Expire` and the timer (request.go:36-53,129-153), together with everything else anybody
may do to the request (Model/Request.lean).

* The timer is the one of C35-C38 seen from outside: `After` arms it, it fires at most once after that, `Stop` disarms it.
* Goroutine 0 is the one that calls `Expire` when the timer fires; nobody else uses that number.
* `timerSet` is looked at and set in one step (request.go:41-42). Calls of `SetTimeout` with a timeout of zero do nothing and are left out.
* `r.timer.Stop()` (request.go:152) happens together with `r.state = RsPerformed` (request.go:149), under the same lock. -/
namespace Verif.ReqTimer

/-- The timer. -/
inductive Tm | off | armed | fired | stopped
deriving DecidableEq, Repr

structure St where
  r : Request.St
  /-- `timerSet` -/
  set : Bool
  /-- the goroutine between `r.timerSet = true` and `r.timer.After` (request.go:42-43) -/
  arming : Option Nat
  tm : Tm

def init (id msg : UInt32) (resp : Option Request.Resp) : St := ⟨Request.init id msg resp, false, none, .off⟩

inductive Choice
  | req (c : Request.Choice)
  | setTimeout (t : Nat)
  | arm (t : Nat)
  | fire
deriving DecidableEq, Repr

/-- `Stop`. -/
def Tm.stop : Tm → Tm
  | .armed => .stopped
  | x => x

/-- The goroutine finishes `chainResponse` (request.go:149-152). -/
def ends (s : Request.St) : Request.Choice → Bool
  | .go t => match s.pc t with
    | .finish _ => true
    | _ => false
  | _ => false

def step (s : St) : Choice → Option St
  | .req (.call 0 _) => none
  | .req c => (Request.step s.r c).map fun r => { s with r, tm := if ends s.r c then s.tm.stop else s.tm }
  | .setTimeout t => if s.set then some s else some { s with set := true, arming := some t }
  | .arm t => if s.arming = some t then some { s with arming := none, tm := .armed } else none
  | .fire => if s.tm = .armed then (Request.step s.r (.call 0 (.fail Misc.RcTimeout))).map fun r => { s with r, tm := .fired } else none

def run (s : St) : List Choice → Option St
  | [] => some s
  | c :: cs => match step s c with
    | none => none
    | some s => run s cs

end Verif.ReqTimer
