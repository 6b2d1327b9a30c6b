import Verif.Model.Misc
/-!
The life of one `Request` (request.go) shared by any number of goroutines, as a small-step machine.

Every field access which other goroutines can observe is a separate step; `Choice` says which goroutine moves
next (and, where user code runs, what the user code does), so a list of choices is a schedule. The `log`
field is a history variable: it is only written.

Simplifications:
* bookmark objects are named by numbers and a bookmark object is chained at most once at a time (chaining the same
  object twice makes the linked list of request.go cyclic);
* what `Respond` of a bookmark or of the Responder does to *this* request is a list of `Act`s chosen freely by the
  schedule; what it does elsewhere is not visible here; it does not modify the response object;
* `r.timer.Stop()` (request.go:152) is the business of the timer model; an expiring timer is a goroutine calling
  `RespondFail`.
-/
namespace Verif.Request

/-- Request states (request.go:223-233). -/
inductive RS | new | pending | inFly | prepared | performed
deriving DecidableEq, Repr

/-- The part of `Response` (response.go:31-36) that matters. `body = none` is a nil body. -/
structure Resp where
  id : UInt32
  msg : UInt32
  code : UInt32
  body : Option (List UInt8)
deriving DecidableEq, Repr

/-- Method calls on the request. -/
inductive Op
  | setPending                                   -- request.go:76-78
  | claim                                        -- SetInFly(nil), request.go:85-87
  | claimWith (b : Nat)                          -- SetInFly(mid), request.go:88-96
  | chain (b : Nat)                              -- ChainBookmark, request.go:181-189
  | respond (code : UInt32) (body : Option (List UInt8)) -- RespondBytes, request.go:165-171
  | fail (code : UInt32)                         -- RespondFail, request.go:173-179
deriving DecidableEq, Repr

/-- What user code called by `chainResponse` may do to the request while the lock is held. -/
inductive Act
  | resetPending   -- ResetToPending, request.go:111-118
  | resetNew       -- ResetToNew, request.go:120-127
  | setPending
  | claim          -- SetInFly(nil)
  | stuck          -- panics, or calls a method which takes the lock again
deriving DecidableEq, Repr

/-- Observable events. -/
inductive Ev
  | sent                                        -- became pending
  | claimed (t : Nat)                           -- SetInFly succeeded in goroutine t
  | chained (b : Nat)                           -- bookmark b was chained
  | reset                                       -- ResetToPending / ResetToNew succeeded
  | accepted (bytes : Bool) (code : UInt32) (body : Option (List UInt8)) -- an answering call was accepted
  | ignored (op : Op)                           -- an answering call had no effect
  | notified (b : Nat) (r : Resp)               -- bookmark b's Respond(r) was called
  | passed (b : Nat)                            -- ... returned, the request was not reset
  | delivered (r : Resp)                        -- Responder.Respond(r) was called
  | returned (t : Nat) (op : Op)                -- goroutine t came back from the method
deriving DecidableEq, Repr

/-- Where a goroutine is. `locked` .. `finish` hold the mutex. -/
inductive Pc
  | idle
  | wait (op : Op)                       -- called, nothing done yet
  | locked (op : Op)                     -- after r.Lock(), before the state is examined
  | claimW (b : Nat)                     -- saw RsPending, before r.state = RsInFly (request.go:91)
  | claimC (b : Nat)                     -- before mid.setReq (request.go:92)
  | fill (op : Op) (bytes : Bool) (code : UInt32) (body : Option (List UInt8)) -- chainResponse entered
  | mark (op : Op)                       -- before r.state = RsPrepared (request.go:140)
  | walk (op : Op)                       -- loop head (request.go:141)
  | react (op : Op) (acts : List Act)    -- inside chain.Respond(res)
  | check (op : Op)                      -- before `if r.state != RsPrepared` (request.go:143)
  | fin (op : Op) (acts : List Act)      -- inside r.Responder.Respond(res)
  | finish (op : Op)                     -- before r.state = RsPerformed (request.go:149)
  | leave (op : Op)                      -- before r.Unlock()
  | dead                                 -- stuck with the lock held
deriving DecidableEq, Repr

/-- The request object itself, with the history. -/
structure Data where
  rs : RS
  chain : List Nat          -- head is the bookmark chained last
  id : UInt32
  msg : UInt32
  resp : Option Resp        -- r.Response
  log : List Ev             -- newest first

/-- The request, its mutex and all goroutines. -/
structure St where
  d : Data
  lock : Option Nat
  pc : Nat → Pc

/-- A schedule entry. -/
inductive Choice
  | call (t : Nat) (op : Op)        -- an idle goroutine calls a method
  | go (t : Nat)                    -- goroutine t makes its next step
  | bookmark (t : Nat) (acts : List Act)  -- ... which enters a bookmark's Respond, which will do acts
  | responder (t : Nat) (acts : List Act) -- ... which enters the Responder
deriving DecidableEq, Repr

def setPc (f : Nat → Pc) (t : Nat) (p : Pc) : Nat → Pc := fun u => if u = t then p else f u

/-- A fresh request; its `Response` field may already point to a response object. -/
def init (id msg : UInt32) (resp : Option Resp) : St :=
  { d := { rs := .new, chain := [], id, msg, resp, log := [] }, lock := none, pc := fun _ => .idle }

/-- Note an event. -/
def Data.note (d : Data) (e : Ev) : Data := { d with log := e :: d.log }

/-- `cas(RsNew, RsPending)` (request.go:71-78). -/
def casPending (d : Data) : Data :=
  if d.rs = .new then { d with rs := .pending, log := .sent :: d.log } else d

/-- `cas(RsPending, RsInFly)` (request.go:71-74, 87). -/
def casInFly (d : Data) (t : Nat) : Data :=
  if d.rs = .pending then { d with rs := .inFly, log := .claimed t :: d.log } else d

/-- One action of user code; `none` when the goroutine never gets further. -/
def doAct (d : Data) (t : Nat) : Act → Option Data
  | .resetPending =>
    if d.rs = .prepared then some { d with rs := .pending, log := .sent :: .reset :: d.log } else none
  | .resetNew =>
    if d.rs = .prepared then some { d with rs := .new, log := .reset :: d.log } else none
  | .setPending => some (casPending d)
  | .claim => some (casInFly d t)
  | .stuck => none

/-- The examination of `r.state` after locking. -/
def lockedStep (d : Data) : Op → Data × Pc
  | .setPending => (d, .leave .setPending)     -- not reachable
  | .claim => (d, .leave .claim)               -- not reachable
  | .claimWith b => -- request.go:90
    if d.rs = .pending then (d, .claimW b) else (d, .leave (.claimWith b))
  | .chain b => -- request.go:183-186
    if d.rs = .new ∨ d.rs = .pending then
      ({ d with chain := b :: d.chain, log := .chained b :: d.log }, .leave (.chain b))
    else (d, .leave (.chain b))
  | .respond code body => -- request.go:167
    if d.rs = .inFly then (d, .fill (.respond code body) true code body)
    else (d.note (.ignored (.respond code body)), .leave (.respond code body))
  | .fail code => -- request.go:175
    if d.rs = .prepared ∨ d.rs = .performed then (d.note (.ignored (.fail code)), .leave (.fail code))
    else (d, .fill (.fail code) false code none)

/-- `chainResponse` filling the response object (request.go:130-138). -/
def filled (d : Data) (code : UInt32) (body : Option (List UInt8)) : Resp :=
  match d.resp with
  | none => { id := d.id, msg := d.msg, code, body }
  | some r => { r with id := d.id, msg := d.msg, code, body }

/-- One step of the goroutine `t` which holds the mutex, where no decision by user code is needed.
Going to `idle` releases the mutex. -/
def own (d : Data) (t : Nat) : Pc → Option (Data × Pc)
  | .idle => none
  | .wait _ => none
  | .locked op => some (lockedStep d op)
  | .claimW b => some ({ d with rs := .inFly, log := .claimed t :: d.log }, .claimC b)
  | .claimC b => some ({ d with chain := b :: d.chain, log := .chained b :: d.log }, .leave (.claimWith b))
  | .fill op bytes code body =>
    some ({ d with resp := some (filled d code body), log := .accepted bytes code body :: d.log }, .mark op)
  | .mark op => some ({ d with rs := .prepared }, .walk op)
  | .walk _ => none
  | .react op [] => some (d, .check op)
  | .react op (a :: acts) =>
    match doAct d t a with
    | some d' => some (d', .react op acts)
    | none => some (d, .dead)
  | .check op =>
    match d.chain with
    | [] => none -- not reachable
    | b :: rest =>
      if d.rs = .prepared then
        some ({ d with chain := rest, log := .passed b :: d.log }, .walk op) -- unchain, request.go:146
      else some (d, .leave op)
  | .fin op [] => some (d, .finish op)
  | .fin op (a :: acts) =>
    match doAct d t a with
    | some d' => some (d', .fin op acts)
    | none => some (d, .dead)
  | .finish op => some ({ d with rs := .performed }, .leave op)
  | .leave op => some (d.note (.returned t op), .idle)
  | .dead => none

/-- The owner enters `Respond` of the latest bookmark (request.go:142). -/
def enterBookmark (d : Data) (acts : List Act) : Pc → Option (Data × Pc)
  | .walk op =>
    match d.chain, d.resp with
    | b :: _, some r => some (d.note (.notified b r), .react op acts)
    | _, _ => none
  | _ => none

/-- The owner enters `Respond` of the Responder (request.go:148). -/
def enterResponder (d : Data) (acts : List Act) : Pc → Option (Data × Pc)
  | .walk op =>
    match d.chain, d.resp with
    | [], some r => some (d.note (.delivered r), .fin op acts)
    | _, _ => none
  | _ => none

/-- The owner's step in the whole system. -/
def St.ownStep (s : St) (t : Nat) : Option (Data × Pc) → Option St
  | none => none
  | some (d, p) => some { d, lock := if p = .idle then none else s.lock, pc := setPc s.pc t p }

/-- `r.Lock()`: possible only when the mutex is free. -/
def St.lockStep (s : St) (t : Nat) (op : Op) : Option St :=
  if s.lock = none then some { s with lock := some t, pc := setPc s.pc t (.locked op) } else none

/-- The first step of a method: the lock-free ones do all their work. -/
def St.begin (s : St) (t : Nat) : Op → Option St
  | .setPending => some { s with d := (casPending s.d).note (.returned t .setPending), pc := setPc s.pc t .idle }
  | .claim => some { s with d := (casInFly s.d t).note (.returned t .claim), pc := setPc s.pc t .idle }
  | .claimWith b => s.lockStep t (.claimWith b)
  | .chain b => s.lockStep t (.chain b)
  | .respond code body => s.lockStep t (.respond code body)
  | .fail code => s.lockStep t (.fail code)

/-- One step of the whole system; `none`: the schedule entry is not possible. -/
def step (s : St) : Choice → Option St
  | .call t op => if s.pc t = .idle then some { s with pc := setPc s.pc t (.wait op) } else none
  | .go t =>
    match s.pc t with
    | .wait op => s.begin t op
    | p => s.ownStep t (own s.d t p)
  | .bookmark t acts => s.ownStep t (enterBookmark s.d acts (s.pc t))
  | .responder t acts => s.ownStep t (enterResponder s.d acts (s.pc t))

def run (s : St) : List Choice → Option St
  | [] => some s
  | c :: cs => (step s c).bind fun s => run s cs

end Verif.Request
