/-!
A connection of the server (net/server/connection.go).

Goroutines: the read, the write and the control loop, and any number of handlers, each of which calls `Respond` once for its
request (at most once: C29, C31; `Request.Cancel` calls it too).

Simplifications:
* bytes, messages, codes (C07) and bodies are left out: a response is known by its id and the request it answers;
* requests are numbered in the order in which they are received; `Request.Cancel` is: call `Respond`, or, if somebody else
  has been chosen to do so, wait until they have done it (request.go:173-179: they hold the lock of the request; see
  Model/Request.lean);
* whatever is done under the lock without waiting is one step, which waits for the lock;
* `conn.Server.connClosed <-` never waits (see Model/ServStop.lean for the server);
* `CloseRead` and the peer make the read loop end at any time;
* `bufRealCap` and the copying of the buffer are left out (they do not change its contents).
-/
namespace Verif.Serv

inductive Item
  | pong (id : Nat)
  | resp (id k : Nat)
deriving DecidableEq, Repr

/-- `notifyAction` (connection.go:15-19). -/
inductive Act | readClosed | writeClosed | inFlyEmpty
deriving DecidableEq, Repr

/-- `writeLoop` (connection.go:239-290). -/
inductive WPc
  | sel            -- in the first select (260-264)
  | lk             -- nothing was there; about to lock (266)
  | empty          -- about to notify inFlyEmpty (274)
  | flush          -- about to flush (278)
  | wait           -- waiting for `conn.out` (281)
  | got (m : Item) -- about to write (286)
  | fin (err : Bool)  -- about to notify writeClosed (251)
  | done (err : Bool)
deriving DecidableEq, Repr

/-- `readLoop` (connection.go:159-205). -/
inductive RPc
  | run
  | pong (id : Nat) -- about to send a pong to `conn.out` (180)
  | reg (id : Nat)  -- about to register a request and to hand it over (199-203)
  | notify          -- about to notify readClosed (165)
  | done
deriving DecidableEq, Repr

/-- `controlLoop`, `cancelInFly`, `closed` (connection.go:103-153). -/
inductive CPc
  | loop
  | rlock                          -- readClosed; about to lock (131)
  | wlock                          -- writeClosed; about to lock (104)
  | cancel (ks : List Nat)         -- about to cancel these requests (113-115)
  | cancelIn (k : Nat) (ks : List Nat) -- in Cancel, which calls Respond
  | report                         -- about to tell the server (116)
  | chk                            -- about to look whether both sides are closed (149)
  | closing                        -- in closed() (119-123)
  | done
deriving DecidableEq, Repr

/-- A request: handed over, `Respond` called, `Respond` holds the lock and sends, `Respond` has returned. -/
inductive RS | new | sent | called | busy | done
deriving DecidableEq, Repr

/-- `inFly`: the map, as a list without repeated ids. `wire`: what was written. `fresh`: the ids of the requests which, when
received, were not in flight (never read). -/
structure St where
  out : List Item
  outClosed : Bool
  buf : List Item
  inFly : List (Nat × Nat)
  lock : Option Nat
  q : List Act
  rdClosed : Bool
  wrClosed : Bool
  wp : WPc
  rp : RPc
  cp : CPc
  n : Nat
  idOf : Nat → Nat
  rs : Nat → RS
  wire : List Item
  pings : List Nat
  fresh : List Nat
  panicked : Bool

/-- `NewConnection`, `Run` (connection.go:47-69). -/
def init : St :=
  { out := [], outClosed := false, buf := [], inFly := [], lock := none, q := [], rdClosed := false, wrClosed := false,
    wp := .sel, rp := .run, cp := .loop, n := 0, idOf := fun _ => 0, rs := fun _ => .new, wire := [], pings := [], fresh := [],
    panicked := false }

/-- The capacity of `out` (connection.go:53). -/
def cap : Nat := 128

def set {α : Type} (f : Nat → α) (k : Nat) (v : α) : Nat → α := fun j => if j = k then v else f j

/-- `close(conn.out)`. -/
def closeOut (s : St) : St := if s.outClosed then { s with panicked := true } else { s with outClosed := true }

def has (l : List (Nat × Nat)) (id : Nat) : Bool := l.any fun p => p.1 = id

def del (l : List (Nat × Nat)) (id : Nat) : List (Nat × Nat) := l.filter fun p => p.1 ≠ id

/-- `Respond` up to the send (connection.go:86-99). -/
def beginRespond (s : St) (k : Nat) : St :=
  if has s.inFly (s.idOf k) then
    if s.buf = [] then { s with inFly := del s.inFly (s.idOf k), lock := some k, rs := set s.rs k .busy }
    else { s with inFly := del s.inFly (s.idOf k), buf := s.buf ++ [.resp (s.idOf k) k], rs := set s.rs k .done }
  else { s with rs := set s.rs k .done }

/-- The read loop goes on. -/
def stepR (s : St) : Option St :=
  match s.rp with
  | .pong id =>
    if s.outClosed then some { s with panicked := true }
    else if s.out.length < cap then some { s with out := s.out ++ [.pong id], rp := .run } else none
  | .reg id =>
    if s.lock = none then
      some { s with inFly := (id, s.n) :: del s.inFly id, idOf := set s.idOf s.n id, rs := set s.rs s.n .sent, n := s.n + 1,
                    fresh := if has s.inFly id then s.fresh else s.fresh ++ [id], rp := .run }
    else none
  | .notify => if s.q.length < 2 then some { s with q := s.q ++ [.readClosed], rp := .done } else none
  | _ => none

/-- The write loop goes on without an error. `cleanBuffer` (connection.go:207-237): as much of the buffer as fits goes to
`out`; it returns true if the buffer was not empty. -/
def stepW (s : St) : Option St :=
  match s.wp with
  | .sel =>
    match s.out with
    | m :: out => some { s with out, wp := .got m }
    | [] => if s.outClosed then some { s with wp := .fin false } else some { s with wp := .lk }
  | .lk =>
    if s.lock = none then
      if s.buf ≠ [] then
        some { s with out := s.out ++ s.buf.take (cap - s.out.length), buf := s.buf.drop (cap - s.out.length), wp := .sel }
      else if s.rdClosed ∧ s.inFly = [] ∧ s.out = [] then some { s with wp := .empty }
      else some { s with wp := .flush }
    else none
  | .empty => if s.q.length < 2 then some { s with q := s.q ++ [.inFlyEmpty], wp := .fin false } else none
  | .flush => some { s with wp := .wait }
  | .wait =>
    match s.out with
    | m :: out => some { s with out, wp := .got m }
    | [] => if s.outClosed then some { s with wp := .fin false } else none
  | .got m => some { s with wire := s.wire ++ [m], wp := .sel }
  | .fin e => if s.q.length < 2 then some { s with q := s.q ++ [.writeClosed], wp := .done e } else none
  | .done _ => none

/-- The control loop goes on. -/
def stepC (s : St) : Option St :=
  match s.cp with
  | .loop =>
    match s.q with
    | .readClosed :: q => some { s with q, cp := .rlock }
    | .writeClosed :: q => some { s with q, wrClosed := true, cp := .wlock }
    | .inFlyEmpty :: q => some (closeOut { s with q, cp := .chk })
    | [] => none
  | .rlock =>
    if s.lock = none then
      if s.inFly = [] ∧ s.buf = [] ∧ s.out = [] then some (closeOut { s with rdClosed := true, cp := .chk })
      else some { s with rdClosed := true, cp := .chk }
    else none
  | .wlock => if s.lock = none then some { s with cp := .cancel (s.inFly.map (·.2)) } else none
  | .cancel (k :: ks) =>
    if s.rs k = .sent then some { s with rs := set s.rs k .called, cp := .cancelIn k ks }
    else if s.rs k = .done then some { s with cp := .cancel ks } else none
  | .cancel [] => some { s with cp := .report }
  | .cancelIn k ks => if s.rs k = .done then some { s with cp := .cancel ks } else none
  | .report => some { s with cp := .chk }
  | .chk => if s.rdClosed ∧ s.wrClosed then some { s with cp := .closing } else some { s with cp := .loop }
  | .closing => some { s with buf := [], inFly := [], cp := .done }
  | .done => none

inductive Choice
  | recv (id : Nat)  -- the read loop reads a request
  | ping (id : Nat)  -- ... a ping
  | rErr             -- ... an error or the end
  | rl               -- it goes on
  | call (k : Nat)   -- a handler calls Respond
  | begin (k : Nat)  -- Respond locks
  | send (k : Nat)   -- Respond sends and unlocks (connection.go:92-94)
  | wl               -- the write loop goes on
  | wErr             -- writing or flushing fails
  | ctl              -- the control loop goes on
deriving DecidableEq, Repr

def step1 (s : St) : Choice → Option St
  | .recv id => if s.rp = .run then some { s with rp := .reg id } else none
  | .ping id => if s.rp = .run then some { s with rp := .pong id, pings := id :: s.pings } else none
  | .rErr => if s.rp = .run then some { s with rp := .notify } else none
  | .rl => stepR s
  | .call k => if s.rs k = .sent then some { s with rs := set s.rs k .called } else none
  | .begin k => if s.rs k = .called ∧ s.lock = none then some (beginRespond s k) else none
  | .send k =>
    if s.rs k = .busy then
      if s.outClosed then some { s with panicked := true }
      else if s.out.length < cap then
        some { s with out := s.out ++ [.resp (s.idOf k) k], lock := none, rs := set s.rs k .done }
      else none
    else none
  | .wl => stepW s
  | .wErr =>
    match s.wp with
    | .flush => some { s with wp := .fin true }
    | .got _ => some { s with wp := .fin true }
    | .fin false => some { s with wp := .fin true }
    | _ => none
  | .ctl => stepC s

/-- A panic ends the program. -/
def step (s : St) (c : Choice) : Option St := if s.panicked then none else step1 s c

def run : St → List Choice → Option St
  | s, [] => some s
  | s, c :: cs => (step s c).bind fun s => run s cs

end Verif.Serv
