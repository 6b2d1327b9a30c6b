/-!
Accepting connections (net/server/server.go): `Stop` (65-71), `controlLoop` (73-97) and `listenLoop` (99-126), with the calls of
`Accept` and `Close` of the listener and what happens to every socket that `Accept` returns.

Simplifications: what is done under the server's lock without waiting is one step, which waits for the lock. Of a connection only the two
calls `connection.Run()` (one step with its registration, line 120-123) and `conn.Stop()` are kept, and its reports (connection.go:116, 122).
The listener: `Accept` may fail at any time; once the listener is closed it fails always, and it never returns a socket again
(contract of `net.Listener`). `closing` is a field of the server's lock section only.
`log` is a ghost: what has happened, in order.
-/
namespace Verif.Listen

/-- What can be seen from outside. Sockets are numbered in the order in which `Accept` returned them, connections by `currentId`. -/
inductive Ev
  | accepted (k : Nat)      -- Accept returned socket k
  | failed                  -- Accept failed and a line was logged (server.go:108)
  | started (k id : Nat)    -- socket k became connection id: NewConnection, conns[id] = ..., Run (server.go:120-123)
  | shut (k : Nat)          -- conn.Close() (server.go:117)
  | stopping                -- a call of Stop has set `closing` (server.go:67)
  | told (id : Nat)         -- conn.Stop() (server.go:88)
  | handled                 -- the control loop has told all connections (server.go:86-94)
  | gone (id : Nat)         -- the control loop has taken connection id out of the map (server.go:79)
  | over                    -- Running is closed (server.go:74)
deriving DecidableEq, Repr

/-- Where `listenLoop` is. -/
inductive Pc
  | accept         -- line 101
  | failed         -- line 103: waits for the lock
  | got (k : Nat)  -- line 114: waits for the lock
  | ended
deriving DecidableEq, Repr

/-- What the control loop has received and not handled yet. -/
inductive Got
  | closed (id : Nat)
  | stop
deriving DecidableEq, Repr

structure St where
  pc : Pc
  next : Nat       -- how many sockets Accept has returned
  cur : Nat        -- currentId
  conns : List Nat -- keys of the map conns
  closing : Bool
  stop : Nat       -- how many elements are in the channel `stop` (capacity 1)
  lock : Bool      -- a call of Stop holds the lock and waits to send to `stop`
  opened : Bool    -- the listener is open
  toClose : Nat    -- calls of Stop which have not closed the listener yet (server.go:70)
  got : Option Got
  running : Bool   -- the control loop runs
  log : List Ev
deriving DecidableEq, Repr

def init : St :=
  { pc := .accept, next := 0, cur := 0, conns := [], closing := false, stop := 0, lock := false, opened := true, toClose := 0,
    got := none, running := true, log := [] }

inductive Choice
  | accept           -- Accept returns a socket
  | fail             -- Accept returns an error
  | listen           -- listenLoop goes on with what Accept returned
  | stop             -- Stop locks and sends if there is room
  | stopSend         -- a Stop that had to wait sends and unlocks
  | close            -- Stop closes the listener
  | onStop           -- the control loop receives from `stop`
  | report (id : Nat)  -- it receives from `connClosed`
  | handle           -- it handles what it has received
deriving DecidableEq, Repr

/-- `listenLoop` with the lock (server.go:103-111, 114-124). -/
def listen (s : St) : Option St :=
  match s.pc with
  | .failed =>
    if s.closing then some { s with pc := .ended }
    else some { s with pc := .accept, log := s.log ++ [.failed] }
  | .got k =>
    if s.closing then some { s with pc := .ended, log := s.log ++ [.shut k] }
    else some { s with pc := .accept, cur := s.cur + 1, conns := (s.cur + 1) :: s.conns, log := s.log ++ [.started k (s.cur + 1)] }
  | _ => none

/-- `controlLoop` with the lock (server.go:78-84, 86-94). -/
def handle (s : St) : Option St :=
  match s.got with
  | some (.closed id) =>
    let conns := s.conns.filter (· ≠ id)
    if s.closing ∧ conns = [] then some { s with got := none, conns, running := false, log := s.log ++ [.gone id, .over] }
    else some { s with got := none, conns, log := s.log ++ [.gone id] }
  | some .stop =>
    let log := s.log ++ s.conns.map .told ++ [.handled]
    if s.conns = [] then some { s with got := none, running := false, log := log ++ [.over] }
    else some { s with got := none, log }
  | none => none

def step (s : St) : Choice → Option St
  | .accept =>
    if s.pc = .accept ∧ s.opened then some { s with pc := .got s.next, next := s.next + 1, log := s.log ++ [.accepted s.next] } else none
  | .fail => if s.pc = .accept then some { s with pc := .failed } else none
  | .listen => if s.lock then none else listen s
  | .stop =>
    if s.lock then none
    else if s.stop = 0 then some { s with closing := true, stop := 1, toClose := s.toClose + 1, log := s.log ++ [.stopping] }
    else some { s with closing := true, lock := true, log := s.log ++ [.stopping] }
  | .stopSend => if s.lock ∧ s.stop = 0 then some { s with lock := false, stop := 1, toClose := s.toClose + 1 } else none
  | .close => if s.toClose = 0 then none else some { s with toClose := s.toClose - 1, opened := false }
  | .onStop => if s.running ∧ s.got = none ∧ s.stop = 1 then some { s with stop := 0, got := some .stop } else none
  | .report id =>
    -- a connection that was started reports (twice: see C77)
    if s.running ∧ s.got = none ∧ 0 < id ∧ id ≤ s.cur then some { s with got := some (.closed id) } else none
  | .handle => if s.lock then none else handle s

def run : St → List Choice → Option St
  | s, [] => some s
  | s, c :: cs => (step s c).bind fun s => run s cs

end Verif.Listen
