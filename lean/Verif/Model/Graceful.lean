import Verif.Model.Link
/-!
How a client connection and its peer, a server connection, end when nothing goes wrong: no read and no write fails, and a side
stops reading only for the reasons that are in the code.

Simplifications, besides those of Model/Link.lean:
* `CloseWrite` and `CloseRead` take effect at once: the write loop of the client has ended and the server has read everything
  written: `ReadRequest` gives io.EOF;
* a panic of the server (C57) stops its goroutines; that its connections are closed then is left out.
-/
namespace Verif.Graceful

/-- `half`: the connection can be closed in one direction (`net.TCPConn`, `net.UnixConn`). `RwcWrapper` closes both
(net/net_conn.go:23-29). `stop`: the server may be stopped (`Connection.Stop`, net/server/connection.go:70-72). -/
structure Env where
  half : Bool
  stop : Bool

/-- The reasons for the client's read loop to end: the server has closed its side (net/server/connection.go:248) and everything
was read; the write loop has ended, which has closed everything (net/client/connection/connection.go:247); the control loop has
called `CloseRead`, as no id is out (net/client/connection/connection.go:175-178, request_holder.go:118-122). -/
def clientEof (e : Env) (l : Link.St) : Prop :=
  ((l.s.wp = .fin false ∨ l.s.wp = .done false) ∧ l.down = l.s.wire.length) ∨
  (e.half = false ∧ l.c.wp = .ended) ∨
  (l.c.wp = .ended ∧ l.c.h.got - l.c.h.put = 0)

/-- The reasons for the server's: the client has closed its side and everything was read; `Stop`. -/
def serverEof (e : Env) (l : Link.St) : Prop := (l.c.wp = .ended ∧ l.up = l.c.wire.length) ∨ e.stop = true

instance (e : Env) (l : Link.St) : Decidable (clientEof e l) := inferInstanceAs (Decidable (_ ∨ _))
instance (e : Env) (l : Link.St) : Decidable (serverEof e l) := inferInstanceAs (Decidable (_ ∨ _))

def step (e : Env) (l : Link.St) : Link.Choice → Option Link.St
  | .client (.wrote false) => none
  | .client (.endWrite false) => none
  | .server .wErr => none
  | .client .endRead => if clientEof e l then Link.step l (.client .endRead) else none
  | .server .rErr => if serverEof e l then Link.step l (.server .rErr) else none
  | c => Link.step l c

def run (e : Env) : Link.St → List Link.Choice → Option Link.St
  | l, [] => some l
  | l, c :: cs => (step e l c).bind fun l => run e l cs

end Verif.Graceful
