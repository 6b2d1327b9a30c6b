import Verif.Model.Multi
import Verif.Model.Request
/-!
A multi-request with its requests (wait_group.go, request.go): the product of Model/Multi.lean and of one request machine
(Model/Request.lean) for each request.

* In each request goroutine 0 is the owner of the multi-request, goroutine `2k+1` is canceler `k`, and goroutines 2, 4, 6, … are
  everybody else: servers that answer, timers of the request, callers of `Cancel`. They have the request only after `Request` has returned it.
* The Responder of the requests is the multi-request (wait_group.go:87): a goroutine of a request that enters its Responder begins
  the `Respond` of Model/Multi.lean, and leaves the Responder when that is done.
* `r.Cancel()` and `r.Expire()` (request.go:51-57) of `performFail` are `RespondFail` on the request machine.
* Bookmarks do nothing to the request (`acts = []`): a bookmark that sets the request back undoes the cancellation, and is left out.
* `Request` makes the response object together with the request (generator.go:21-43).
-/
namespace Verif.MultiReq

structure St where
  m : Multi.St
  r : Nat → Request.St

/-- Request number `i` as `RGenerator.Request` makes it (wait_group.go:86, generator.go:21-43). -/
def fresh (msg : Nat → UInt32) (i : Nat) : Request.St := Request.init (UInt32.ofNat i) (msg i) (some ⟨0, 0, 0, none⟩)

def init (msg : Nat → UInt32) : St := { m := Multi.init, r := fresh msg }

inductive Choice
  | multi (c : Multi.Choice)
  | req (i : Nat) (c : Request.Choice)
deriving DecidableEq, Repr

def St.withM (s : St) (o : Option Multi.St) : Option St := o.map fun m => { s with m }

def St.withReq (s : St) (i : Nat) (o : Option Request.St) : Option St := o.map fun r => { s with r := fun j => if j = i then r else s.r j }

/-- Goroutine `t` calls `RespondFail` of request `i` (request.go:51-57). -/
def St.fail (s : St) (i t : Nat) (code : UInt32) : Option St := s.withReq i (Request.step (s.r i) (.call t (.fail code)))

/-- A step of the multi-request. Inside a call of `RespondFail` the goroutine moves in the request. -/
def multiStep (s : St) : Multi.Choice → Option St
  | .answer .. => none
  | .owner =>
    match s.m.own with
    | .chkA i code => s.fail i 0 code
    | .failA _ i _ code => s.fail i 0 code
    | .failW _ => none
    | .failX .. => none
    | _ => s.withM (Multi.step s.m .owner)
  | .canc k =>
    match s.m.cp k with
    | .failA _ i _ code => s.fail i (2 * k + 1) code
    | .failX .. => none
    | _ => s.withM (Multi.step s.m (.canc k))
  | c => s.withM (Multi.step s.m c)

/-- Goroutine `t` of request `i` enters `Respond` of the multi-request with a response (wait_group.go:170). -/
def enter (t i : Nat) (code : UInt32) : Multi.Choice :=
  if t = 0 then .owner else if t % 2 = 1 then .canc (t / 2) else .answer i code

/-- Goroutine `t` comes back from the request: if it is the owner or a canceler, `performFail` is over. If its answer was not taken,
that is two steps of Model/Multi.lean. -/
def leave (m : Multi.St) (t : Nat) : Option Multi.St :=
  if t = 0 then
    match m.own with
    | .chkA .. => Multi.run m [.owner, .owner]
    | .failA .. => Multi.run m [.owner, .owner]
    | _ => Multi.step m .owner
  else if t % 2 = 1 then
    match m.cp (t / 2) with
    | .failA .. => Multi.run m [.canc (t / 2), .canc (t / 2)]
    | _ => Multi.step m (.canc (t / 2))
  else some m

/-- A step of request `i`. -/
def reqStep (s : St) (i : Nat) : Request.Choice → Option St
  | .call t op => if t ≠ 0 ∧ t % 2 = 0 ∧ i < s.m.ret then s.withReq i (Request.step (s.r i) (.call t op)) else none
  | .bookmark t acts => if acts = [] then s.withReq i (Request.step (s.r i) (.bookmark t acts)) else none
  | .responder t acts =>
    match (s.r i).d.resp with
    | none => none
    | some x =>
      if acts = [] then
        (s.withReq i (Request.step (s.r i) (.responder t acts))).bind fun s => s.withM (Multi.step s.m (enter t i x.code))
      else none
  | .go t =>
    match (s.r i).pc t with
    | .fin _ [] => if s.m.rp i = .done then s.withReq i (Request.step (s.r i) (.go t)) else none
    | .leave _ => (s.withReq i (Request.step (s.r i) (.go t))).bind fun s => s.withM (leave s.m t)
    | _ => s.withReq i (Request.step (s.r i) (.go t))

def step (s : St) : Choice → Option St
  | .multi c => multiStep s c
  | .req i c => reqStep s i c

def run : St → List Choice → Option St
  | s, [] => some s
  | s, c :: cs => (step s c).bind fun s => run s cs

end Verif.MultiReq
