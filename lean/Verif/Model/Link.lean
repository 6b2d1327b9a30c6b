import Verif.Model.Conn
import Verif.Model.Serv
/-!
A client connection (Model/Conn.lean) whose peer is a server connection (Model/Serv.lean): what one side writes, the other
side reads, in order.

Simplifications:
* bytes on the wire are the subject of C01-C08: here frames arrive whole and in order, and any number of the last ones may
  never arrive (either side may stop reading at any time);
* the content of a response is the number of the request it answers, in the order in which the server received them;
* pings are not modelled in the client; the server may receive one at any time. The client ignores the answers
  (net/client/connection/connection.go:213-215).
-/
namespace Verif.Link

/-- `up`: how many of the frames written by the client the server has read; `down`: the other way round. -/
structure St where
  c : Conn.St
  s : Serv.St
  up : Nat
  down : Nat

def init : St := ⟨Conn.init, Serv.init, 0, 0⟩

inductive Choice
  | client (c : Conn.Choice)
  | server (c : Serv.Choice)
  | up   -- the server reads a request (net/server/connection.go:170-203)
  | down -- the client reads a response (net/client/connection/connection.go:204-220)
deriving DecidableEq, Repr

def step (l : St) : Choice → Option St
  | .client (.resp _ _) => none
  | .client c => (Conn.step l.c c).map fun c => { l with c }
  | .server (.recv _) => none
  | .server c => (Serv.step l.s c).map fun s => { l with s }
  | .up => match l.c.wire[l.up]? with
    | none => none
    | some (id, _, _) => (Serv.step l.s (.recv id)).map fun s => { l with s, up := l.up + 1 }
  | .down => match l.s.wire[l.down]? with
    | none => none
    | some (.pong _) => if l.c.rp = .read then some { l with down := l.down + 1 } else none
    | some (.resp id k) => (Conn.step l.c (.resp id k)).map fun c => { l with c, down := l.down + 1 }

def run : St → List Choice → Option St
  | l, [] => some l
  | l, c :: cs => (step l c).bind fun l => run l cs

end Verif.Link
