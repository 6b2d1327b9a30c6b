/-!
What happens to the requests queued in front of a client endpoint when it has no connection: `AllDisconnected`, called by the
pool's loop (net/client/server.go:120-209), and the end of that loop.

* The pool itself is in `Model/Pool.lean`, the queue in `Model/Buffer.lean`. Here: the endpoint's channel `chan` (capacity
  `cap`, service.go:92), the requests in the rows of the `Buffer` that do not fit (`behind`), and the counters of the pool.
* The endpoint is standalone (service.go:93), otherwise `AllDisconnected` is not called (server.go:170,178).
* A connection is dialing, or reported as established and about to start its loops (connection.go:124-128), or its write loop is
  up, or that has ended and the report is on its way. Connections that are dialing are not stopped. Reports do not wait.
* A request that was answered (cancelled, timed out) stays in the queue; `IOError` has no effect on it then (C28).
-/
namespace Verif.ClientQueue

/-- The pool's loop: in the select of server.go:125-135; in `AllDisconnected` with `i` iterations to go (server.go:198);
ended (server.go:139). -/
inductive Pc
  | loop
  | drain (i : Nat)
  | ended
deriving DecidableEq, Repr

/-- `est` is `established`; `mark` is the content of the channel when `AllDisconnected` was last called (history); `failed`
and `taken` are the requests `IOError` was called for, and those taken by a connection (history). -/
structure St where
  chan : List Nat := []
  behind : List Nat := []
  dialing : Nat := 0
  starting : Nat := 0
  up : Nat := 0
  fallen : Nat := 0
  est : Int := 0
  exiting : Bool := false
  pc : Pc := .loop
  failed : List Nat := []
  taken : List Nat := []
  mark : List Nat := []
deriving DecidableEq, Repr

inductive Choice
  /-- `Send(r)`. -/
  | push (r : Nat)
  /-- The buffer's goroutine forwards a request (buffer.go:120). -/
  | forward
  /-- A write loop takes a request (connection.go:268,276). -/
  | take
  /-- `fixConnections` opens a connection (server.go:90-96). -/
  | dial
  /-- A dial succeeds and is reported (server.go:156-159). -/
  | dialOk
  /-- A dial fails and is reported (server.go:156,160-172). -/
  | dialFail
  /-- A connection starts its loops. -/
  | start
  /-- A write loop ends. -/
  | fall
  /-- The report of that is received (server.go:174-180). -/
  | lost
  /-- `fixConnections` stops a connection (server.go:104-107). -/
  | stopConn
  /-- `Stop` (server.go:126-128). -/
  | stop
  /-- One iteration of `AllDisconnected`, or its return (server.go:198-208). -/
  | drain
  /-- The loop ends (server.go:137-140). -/
  | finish
deriving DecidableEq, Repr

/-- `if serv.established == 0 && serv.Standalone() { serv.AllDisconnected() }` (server.go:170-172,178-180,196-198). -/
def disconnected (s : St) : St :=
  if s.est = 0 then { s with pc := .drain s.chan.length, mark := s.chan } else s

/-- One step. -/
def step (cap : Nat) (s : St) : Choice → Option St
  | .push r =>
    if s.exiting then none
    else if s.behind = [] ∧ s.chan.length < cap then some { s with chan := s.chan ++ [r] }
    else some { s with behind := s.behind ++ [r] }
  | .forward => match s.behind with
    | r :: q => if s.chan.length < cap then some { s with chan := s.chan ++ [r], behind := q } else none
    | [] => none
  | .take => match s.chan with
    | r :: q => if 0 < s.up then some { s with chan := q, taken := r :: s.taken } else none
    | [] => none
  | .dial => if s.pc = .loop ∧ s.exiting = false then some { s with dialing := s.dialing + 1 } else none
  | .dialOk =>
    if s.pc = .loop ∧ 0 < s.dialing then
      some { s with dialing := s.dialing - 1, starting := s.starting + 1, est := s.est + 1 }
    else none
  | .dialFail =>
    if s.pc = .loop ∧ 0 < s.dialing then some (disconnected { s with dialing := s.dialing - 1 }) else none
  | .start => if 0 < s.starting then some { s with starting := s.starting - 1, up := s.up + 1 } else none
  | .fall => if 0 < s.up then some { s with up := s.up - 1, fallen := s.fallen + 1 } else none
  | .lost =>
    if s.pc = .loop ∧ 0 < s.fallen then some (disconnected { s with fallen := s.fallen - 1, est := s.est - 1 }) else none
  | .stopConn =>
    if s.pc = .loop ∧ 0 < s.up then some { s with up := s.up - 1, fallen := s.fallen + 1, est := s.est - 1 } else none
  | .stop => if s.pc = .loop then some { s with exiting := true } else none
  | .drain => match s.pc with
    | .drain 0 => some { s with pc := .loop }
    | .drain (i + 1) => match s.chan with
      | r :: q => some { s with chan := q, failed := r :: s.failed, pc := .drain i }
      | [] => some { s with pc := .loop }
    | _ => none
  | .finish =>
    if s.pc = .loop ∧ s.exiting = true ∧ s.est + (s.dialing : Int) = 0 then some { s with pc := .ended } else none

/-- A sequence of steps. -/
def run (cap : Nat) : St → List Choice → Option St
  | s, [] => some s
  | s, c :: l => match step cap s c with
    | none => none
    | some s => run cap s l

end Verif.ClientQueue
