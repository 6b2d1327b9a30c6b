import Verif.Model.Endpoint
import Verif.Model.Link
import Verif.Model.Served
/-!
Both ends: a client endpoint with its queue and its connections (Model/Endpoint.lean), and a server with its connections and its
parallel service (Model/Served.lean). The connections between them are those of Model/Link.lean: what one side writes, the other side
reads, in order. The server has other clients too, about which nothing is assumed.

Simplifications: those of the three models. A connection has the same number at both ends.
-/
namespace Verif.Whole

/-- `up i`: how many of the frames which the client wrote to connection `i` the server has read; `down i`: the other way round. -/
structure St where
  e : Endpoint.St
  s : Served.St
  up : Nat → Nat
  down : Nat → Nat

def init (n : Nat) : St := { e := Endpoint.init, s := Served.init n, up := fun _ => 0, down := fun _ => 0 }

inductive Choice
  | client (c : Endpoint.Choice)
  | server (c : Served.Choice)
  | up (i : Nat)   -- the server reads a request from connection i (net/server/connection.go:170-203)
  | down (i : Nat) -- the client reads a response from it (net/client/connection/connection.go:204-220)
deriving DecidableEq, Repr

/-- `own i`: connection `i` belongs to the endpoint; the others belong to other clients. -/
def step (R cap : Nat) (own : Nat → Bool) (w : St) : Choice → Option St
  | .client (.conn _ (.resp _ _)) => none
  | .client (.take i) => if own i then (Endpoint.step R cap w.e (.take i)).map fun e => { w with e } else none
  | .client c => (Endpoint.step R cap w.e c).map fun e => { w with e }
  | .server (.net i (.recv id)) => if own i then none else (Served.step w.s (.net i (.recv id))).map fun s => { w with s }
  | .server c => (Served.step w.s c).map fun s => { w with s }
  | .up i =>
    if own i then
      match (w.e.c i).wire[w.up i]? with
      | none => none
      | some (id, _, _) => (Served.step w.s (.net i (.recv id))).map fun s => { w with s, up := Served.set w.up i (w.up i + 1) }
    else none
  | .down i =>
    if own i then
      match (w.s.c i).wire[w.down i]? with
      | none => none
      | some (.pong _) => if (w.e.c i).rp = .read then some { w with down := Served.set w.down i (w.down i + 1) } else none
      | some (.resp id k) =>
        (Endpoint.step R cap w.e (.conn i (.resp id k))).map fun e => { w with e, down := Served.set w.down i (w.down i + 1) }
    else none

def run (R cap : Nat) (own : Nat → Bool) : St → List Choice → Option St
  | w, [] => some w
  | w, c :: cs => (step R cap own w c).bind fun w => run R cap own w cs

end Verif.Whole
