import Verif.Model.Buffer
import Verif.Model.Conn
/-!
A client endpoint with any number of connections: the queue (Model/Buffer.lean), whose channel all connections receive from
(service.go:107-112, net/client/server.go:90-96), the connections (Model/Conn.lean), and `AllDisconnected` (net/client/server.go:194-209).

* Connections are numbered; one that is not open yet has made no step. Dialing and the counters of the pool are in Model/Pool.lean.
* Each connection has a copy of the states of all requests. What happens to a request outside of the connections happens to all copies; what
  a connection does to a request it has taken happens to its own copy only. Nobody else looks at the request then: C121_copies.
* An answer given by a connection, which is one step there, begins the answering of Model/Buffer.lean.
-/
namespace Verif.Endpoint

/-- `hand` is the request that `AllDisconnected` has received and not answered yet (server.go:200-204). `got` are the requests received from
the channel, newest first, each with the connection that has it, or none if it is `AllDisconnected` (never read). -/
structure St where
  b : Buffer.St
  c : Nat → Conn.St
  hand : Option Nat
  got : List (Nat × Option Nat)

def init : St := { b := Buffer.init, c := fun _ => Conn.init, hand := none, got := [] }

/-- Schedules: a step of the queue; somebody answers request `r`, by cancelling it or because its time is over; connection `i` receives from
the channel; connection `i` goes on; `AllDisconnected` receives from the channel, and answers. -/
inductive Choice
  | queue (x : Buffer.Choice)
  | fail (r : Nat)
  | take (i : Nat)
  | conn (i : Nat) (x : Conn.Choice)
  | drain
  | ioError
deriving DecidableEq, Repr

/-- The request which a step of a connection answers. -/
def answers (s : Conn.St) : Conn.Choice → Option Nat
  | .reply =>
    match s.rp with
    | .reply (some r) _ _ => if s.rs r = .inFly then some r else none
    | _ => none
  | .flushOne =>
    match s.cp with
    | .flush ((o, j) :: _) =>
      match (s.h.heap o).req j with
      | some r => if s.rs r = .performed then none else some r
      | none => none
    | _ => none
  | _ => none

/-- The answering of `r` begins, if it has not. -/
def begin (s : Buffer.St) (r : Nat) : Buffer.St :=
  if s.life r = .live then { s with life := Buffer.set s.life r .prepared, log := s.log ++ [.answered r] } else s

/-- `RespondFail` of `r` by somebody who is not a connection. -/
def failAll (s : St) (r : Nat) : St :=
  { s with b := begin s.b r, c := fun i => Conn.respondFail (s.c i) r .other }

def step (R cap : Nat) (s : St) : Choice → Option St
  | .queue .recv => none
  | .queue (.answer r) => if s.b.life r = .live then none else (Buffer.step R cap s.b (.answer r)).map fun b => { s with b }
  | .queue x => (Buffer.step R cap s.b x).map fun b => { s with b }
  | .fail r => some (failAll s r)
  | .take i =>
    match s.b.chan with
    | [] => none
    | r :: rest =>
      (Conn.step (s.c i) (.take r)).map fun k =>
        { s with b := { s.b with chan := rest }, c := Conn.set s.c i k, got := (r, some i) :: s.got }
  | .conn _ (.take _) => none
  | .conn _ (.fail _) => none
  | .conn i x =>
    (Conn.step (s.c i) x).map fun k =>
      { s with c := Conn.set s.c i k, b := match answers (s.c i) x with
        | some r => begin s.b r
        | none => s.b }
  | .drain =>
    match s.b.chan, s.hand with
    | r :: rest, none => some { s with b := { s.b with chan := rest }, hand := some r, got := (r, none) :: s.got }
    | _, _ => none
  | .ioError =>
    match s.hand with
    | some r => some { failAll s r with hand := none }
    | none => none

def run (R cap : Nat) : St → List Choice → Option St
  | s, [] => some s
  | s, c :: cs => (step R cap s c).bind fun s => run R cap s cs

end Verif.Endpoint
