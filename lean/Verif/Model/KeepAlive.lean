/-!
Read timeouts and pings of a connection between this library's client and server, with time.

Goroutines: the client's write loop and read loop, the server's read loop; the runtime's ticker. Time is a number which
grows by `tick`s; whatever has to happen by a certain time (below) keeps the time from going on.

Simplifications:
* what is read is one event, which ends the read in progress and begins the next one at the same time; bytes of a frame that
  arrive one after the other are several such events;
* writing takes no time (write timeouts are left out); instead the write loop may be away from its second `select` for some
  time (`lat`);
* of requests and responses only how many are in flight;
* when the client's read loop has ended, its write loop ends at once (the control loop calls `CloseWrite`, connection.go:168).
-/
namespace Verif.KeepAlive

/-- `ping`: `PingInterval`, greater than zero. `cread`, `sread`: `ReadTimeout` of the client and of the server; zero is none.
About the world: `lat`: the longest time from a tick of `pingTicker` to its being received; `there`, `back`: the longest time a
ping and a pong take (a pong: from the server's reading the ping). -/
structure Cfg where
  ping : Nat
  cread : Nat
  sread : Nat
  lat : Nat
  there : Nat
  back : Nat

/-- `tick`: when the tick that is in the channel of `pingTicker` was sent. `next`: when the next one will be. `pings`, `pongs`: by
when they will have arrived. `cdl`, `sdl`: the deadlines of the reads in progress. `cend`, `send`: whether the read loop has ended
with a timeout. `stopped`: the client's write loop has ended. -/
structure St where
  now : Nat
  tick : Option Nat
  next : Nat
  pings : List Nat
  pongs : List Nat
  cdl : Option Nat
  sdl : Option Nat
  cend : Bool
  send : Bool
  stopped : Bool
  inFly : Nat
  failed : Nat
deriving DecidableEq, Repr

/-- `SetReadDeadline(time.Now().Add(sl.timeout))` before each read (net/slice_reader.go:73-81). The deadline of a successful read is
removed (net/slice_reader.go:87-89), and the next read sets its own. -/
def deadline (timeout now : Nat) : Option Nat := if timeout > 0 then some (now + timeout) else none

/-- The loops start (net/client/connection/connection.go:128-130, 230-237). -/
def init (c : Cfg) : St :=
  { now := 0, tick := none, next := c.ping, pings := [], pongs := [], cdl := deadline c.cread 0, sdl := deadline c.sread 0,
    cend := false, send := false, stopped := false, inFly := 0, failed := 0 }

inductive Choice
  | time     -- time goes on
  | fire     -- the ticker sends a tick, unless there is one in the channel
  | ping     -- the write loop receives the tick and writes a ping (connection.go:273-275, 284)
  | server   -- the server reads a ping and sends a pong (net/server/connection.go:175-182)
  | pong     -- the client reads a pong
  | request  -- the write loop writes a request; the server reads it
  | response -- the client reads a response
  | stop     -- the write loop ends, and stops the ticker (connection.go:243-245)
  | cTimeout -- the client's read loop ends because of the deadline; what is in flight is failed
  | sTimeout
deriving DecidableEq, Repr

/-- Nothing is overdue at the next moment. -/
def free (c : Cfg) (s : St) : Prop :=
  (s.stopped = true ∨ s.now < s.next) ∧ (s.stopped = true ∨ ∀ t, s.tick = some t → s.now < t + c.lat) ∧ (∀ d ∈ s.pings, s.now < d) ∧
    (∀ d ∈ s.pongs, s.now < d)

instance (c : Cfg) (s : St) : Decidable (free c s) :=
  inferInstanceAs (Decidable ((_ ∨ _) ∧ (_ ∨ ∀ t, s.tick = some t → s.now < t + c.lat) ∧ _ ∧ _))

def step (c : Cfg) (s : St) : Choice → Option St
  | .time => if free c s then some { s with now := s.now + 1 } else none
  | .fire =>
    if s.stopped = false ∧ s.now = s.next then some { s with tick := some (s.tick.getD s.now), next := s.now + c.ping } else none
  | .ping =>
    if s.stopped = false ∧ s.tick ≠ none then some { s with tick := none, pings := s.pings ++ [s.now + c.there] } else none
  | .server =>
    match s.pings with
    | [] => none
    | _ :: pings =>
      if s.send then some { s with pings }
      else some { s with pings, sdl := deadline c.sread s.now, pongs := s.pongs ++ [s.now + c.back] }
  | .pong =>
    match s.pongs with
    | [] => none
    | _ :: pongs => if s.cend then some { s with pongs } else some { s with pongs, cdl := deadline c.cread s.now }
  | .request =>
    if s.stopped = false ∧ s.send = false then some { s with inFly := s.inFly + 1, sdl := deadline c.sread s.now } else none
  | .response =>
    if s.inFly > 0 ∧ s.cend = false then some { s with inFly := s.inFly - 1, cdl := deadline c.cread s.now } else none
  | .stop => some { s with stopped := true }
  | .cTimeout =>
    match s.cdl with
    | none => none
    | some d =>
      if d ≤ s.now ∧ s.cend = false then some { s with cend := true, stopped := true, inFly := 0, failed := s.failed + s.inFly }
      else none
  | .sTimeout =>
    match s.sdl with
    | none => none
    | some d => if d ≤ s.now ∧ s.send = false then some { s with send := true } else none

def run (c : Cfg) : St → List Choice → Option St
  | s, [] => some s
  | s, x :: xs => (step c s x).bind fun s => run c s xs

end Verif.KeepAlive
