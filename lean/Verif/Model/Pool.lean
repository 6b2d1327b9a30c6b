/-!
The client's connection pool: `client.Server` (net/client/server.go) and, of its connections
(net/client/connection/connection.go), what the pool sees of them: dialing, the ends of the two sides, `Stop`.

Goroutines: the server's loop; for each connection its `Loop`, write, read and control loop.

Simplifications:
* requests, pings and bytes are left out (the write loop may go round at any time, and may fail at any time);
  `AllDisconnected` and logging are left out;
* `State` (which the server reads without synchronisation) is read and written in single steps;
* after a failed dial the sending of the error and the setting of `State` are one step (connection.go:107-108, 120-121);
* `loopNotify` (capacity 2) is two flags: each side notifies once; `readEmpty` (connection.go:222-224) and the closing of
  sockets are left out: a read loop may end at any time;
* sends on `connErr` wait while its buffer of 4 is full; a server whose loop has ended receives nothing;
* `time.Ticker` may tick at any time.
-/
namespace Verif.Pool

/-- `Connection.Loop` (connection.go:103-130). -/
inductive LPc
  | start    -- about to set State = CsDialing (105)
  | dial     -- dialing and pinging (106-117)
  | sendErr  -- about to send Error{conn, Dial, err} (107, 120)
  | sendOk   -- about to send Error{conn, Dial, nil} (124)
  | markUp   -- about to set State = CsConnected (125)
  | running  -- the three loops were started (126-128)
  | failed
deriving DecidableEq, Repr

/-- The write loop (connection.go:230-305). -/
inductive WPc
  | off
  | top      -- about to look at Stopped() (262)
  | body     -- not stopped; about to look for a request, to flush, to write (267-303)
  | wait     -- in the waiting select (273)
  | notify   -- ended; about to notify the control loop (250)
  | send     -- about to send Error{conn, Write, err} (251)
  | done
deriving DecidableEq, Repr

/-- The read loop (connection.go:204-226). -/
inductive RPc | off | run | done
deriving DecidableEq, Repr

/-- The control loop (connection.go:146-183). -/
inductive CPc
  | off
  | loop
  | send     -- about to send Error{conn, Read, err} (150)
  | flush    -- about to answer what is in flight (151)
  | done
deriving DecidableEq, Repr

/-- `ConnState` (connection.go:40-47), as far as the server looks at it. -/
inductive CState | new | dialing | connected | closed
deriving DecidableEq, Repr

structure Con where
  lp : LPc
  wp : WPc
  rp : RPc
  cp : CPc
  st : CState
  stopped : Bool
  wClosed : Bool   -- notified
  rClosed : Bool
  wSeen : Bool     -- handled by the control loop
  rSeen : Bool
deriving DecidableEq, Repr

/-- `NewConnection`, `RunChild` (connection.go:87-98). -/
def Con.new : Con :=
  { lp := .start, wp := .off, rp := .off, cp := .off, st := .new, stopped := false, wClosed := false, rClosed := false,
    wSeen := false, rSeen := false }

/-- `connection.Error`. -/
inductive Msg
  | dialErr (i : Nat)
  | dialOk (i : Nat)
  | write (i : Nat)
  | read (i : Nat)
deriving DecidableEq, Repr

/-- The server's loop (server.go:88-142). -/
inductive SPc
  | loop                                          -- in select
  | check                                         -- about to look whether to leave (137)
  | fix                                           -- in fixConnections, opening (89-96)
  | shrink (need : Int) (todo : List Nat)         -- in fixConnections, going through the map (97-113)
  | stopping (i : Nat) (need : Int) (todo : List Nat) (dial : Bool) -- in conn.Stop(), sending on its exit channel
  | ended
  | panicked
deriving DecidableEq, Repr

/-- `conns`: the keys of the map. `stopsD`, `stopsE`: how often `Stop` of a dialing or a
connected connection has returned (never read). Connections are numbered from 0. -/
structure St where
  con : Nat → Con
  cur : Nat
  conns : List Nat
  need : Int
  dialing : Int
  established : Int
  dying : Int
  exiting : Bool
  q : List Msg
  pc : SPc
  stopsD : Nat
  stopsE : Nat

/-- The start of `Loop` (server.go:120-123) with `n` connections configured. -/
def init (n : Nat) : St :=
  { con := fun _ => Con.new, cur := 0, conns := [], need := n, dialing := 0, established := 0, dying := 0, exiting := false,
    q := [], pc := .fix, stopsD := 0, stopsE := 0 }

def set {α : Type} (f : Nat → α) (k : Nat) (v : α) : Nat → α := fun j => if j = k then v else f j

inductive Choice
  | tick                         -- the server receives from the ticker (133)
  | recv                         -- ... from connErr (129)
  | setConns (n : Nat)           -- ... from actions (131)
  | exit                         -- ... from its exit channel (126)
  | serv                         -- the server goes on, where there is nothing to choose
  | pick (i : Nat)               -- the server goes on to connection i in the map
  | dialed (i : Nat) (ok : Bool) -- connection i has dialed
  | lp (i : Nat)                 -- its Loop goes on
  | wp (i : Nat)                 -- its write loop goes on
  | waits (i : Nat)              -- ... finds no request and waits
  | wErr (i : Nat)               -- ... fails
  | rErr (i : Nat)               -- its read loop ends
  | ctl (i : Nat)                -- its control loop goes on
deriving DecidableEq, Repr

/-- The capacity of `connErr` (server.go:77). -/
def cap : Nat := 4

/-- `onConnError` (server.go:152-189). -/
def onConnError (s : St) : Msg → St
  | .dialErr i =>
    if i ∈ s.conns then { s with dialing := s.dialing - 1, conns := s.conns.filter (· ≠ i), pc := .check }
    else { s with pc := .panicked }
  | .dialOk _ => { s with dialing := s.dialing - 1, established := s.established + 1, pc := .check }
  | .write _ => { s with established := s.established - 1, dying := s.dying + 1, pc := .check }
  | .read i =>
    if i ∈ s.conns then { s with dying := s.dying - 1, conns := s.conns.filter (· ≠ i), pc := .check }
    else { s with pc := .panicked }

/-- `AnyConnected` (server.go:211-213), called by anybody. -/
def anyConnected (s : St) : Bool := decide (0 < s.established)

/-- After `Stop` of a connection or after passing it over (server.go:103, 107, 109-111). -/
def shrunk (need : Int) (todo : List Nat) : SPc := if need = 0 then .check else .shrink need todo

/-- The server's steps without a choice. -/
def stepServ (s : St) : Option St :=
  match s.pc with
  | .check => if s.exiting ∧ s.established + s.dialing = 0 then some { s with pc := .ended } else some { s with pc := .loop }
  | .fix =>
    let need := s.need - (s.dialing + s.established)
    if 0 < need then
      some { s with cur := s.cur + 1, con := set s.con s.cur Con.new, conns := s.cur :: s.conns, dialing := s.dialing + 1 }
    else if need < 0 then some { s with pc := .shrink need s.conns }
    else some { s with pc := .check }
  | .shrink _ [] => some { s with pc := .check }
  | .stopping i need todo dial =>
    -- `exit <- true` (service.go:155) and its receiver (connection.go:277)
    if (s.con i).wp = .wait then
      if dial then some { s with con := set s.con i { s.con i with wp := .notify }, dialing := s.dialing - 1,
                                 stopsD := s.stopsD + 1, pc := shrunk (need + 1) todo }
      else some { s with con := set s.con i { s.con i with wp := .notify }, established := s.established - 1,
                         stopsE := s.stopsE + 1, pc := shrunk (need + 1) todo }
    else none
  | _ => none

/-- The next connection in the range over the map (server.go:98-112). -/
def stepPick (s : St) (i : Nat) : Option St :=
  match s.pc with
  | .shrink need todo =>
    if i ∈ todo then
      let todo := todo.filter (· ≠ i)
      match (s.con i).st with
      | .dialing =>
        some { s with con := set s.con i { s.con i with stopped := true }, pc := .stopping i need todo true }
      | .connected =>
        some { s with con := set s.con i { s.con i with stopped := true }, pc := .stopping i need todo false }
      | _ => some { s with pc := shrunk need todo }
    else none
  | _ => none

/-- A send on `connErr`. -/
def push (s : St) (m : Msg) (i : Nat) (c : Con) : Option St :=
  if s.q.length < cap then some { s with q := s.q ++ [m], con := set s.con i c } else none

/-- `Connection.Loop`. -/
def stepLp (s : St) (i : Nat) : Option St :=
  let c := s.con i
  match c.lp with
  | .start => some { s with con := set s.con i { c with lp := .dial, st := .dialing } }
  | .sendErr => push s (.dialErr i) i { c with lp := .failed, st := .closed }
  | .sendOk => push s (.dialOk i) i { c with lp := .markUp }
  | .markUp => some { s with con := set s.con i { c with lp := .running, st := .connected, wp := .top, rp := .run, cp := .loop } }
  | _ => none

/-- The write loop. -/
def stepWp (s : St) (i : Nat) : Option St :=
  let c := s.con i
  match c.wp with
  | .top =>
    if c.stopped then some { s with con := set s.con i { c with wp := .notify } }
    else some { s with con := set s.con i { c with wp := .body } }
  | .body => some { s with con := set s.con i { c with wp := .top } }
  | .wait => some { s with con := set s.con i { c with wp := .top } }
  | .notify => some { s with con := set s.con i { c with wp := .send, wClosed := true } }
  | .send => push s (.write i) i { c with wp := .done }
  | _ => none

/-- The control loop. -/
def stepCtl (s : St) (i : Nat) : Option St :=
  let c := s.con i
  match c.cp with
  | .loop =>
    if c.wSeen ∧ c.rSeen then some { s with con := set s.con i { c with cp := .send } }
    else if c.wClosed ∧ ¬ c.wSeen then some { s with con := set s.con i { c with wSeen := true, st := .closed } }
    else if c.rClosed ∧ ¬ c.rSeen then some { s with con := set s.con i { c with rSeen := true, st := .closed } }
    else none
  | .send => push s (.read i) i { c with cp := .flush }
  | .flush => some { s with con := set s.con i { c with cp := .done } }
  | _ => none

def step (s : St) : Choice → Option St
  | .tick => if s.pc = .loop then some { s with pc := .fix } else none
  | .recv =>
    if s.pc = .loop then
      match s.q with
      | m :: q => some (onConnError { s with q } m)
      | [] => none
    else none
  | .setConns n => if s.pc = .loop then some { s with need := n, pc := .check } else none
  | .exit => if s.pc = .loop then some { s with need := 0, exiting := true, pc := .check } else none
  | .serv => stepServ s
  | .pick i => stepPick s i
  | .dialed i ok =>
    if i < s.cur ∧ (s.con i).lp = .dial then
      if ok then some { s with con := set s.con i { s.con i with lp := .sendOk } }
      else some { s with con := set s.con i { s.con i with lp := .sendErr } }
    else none
  | .lp i => if i < s.cur then stepLp s i else none
  | .wp i => stepWp s i
  | .waits i =>
    if (s.con i).wp = .body then some { s with con := set s.con i { s.con i with wp := .wait } } else none
  | .wErr i =>
    if (s.con i).wp = .body then some { s with con := set s.con i { s.con i with wp := .notify } } else none
  | .rErr i =>
    if (s.con i).rp = .run then some { s with con := set s.con i { s.con i with rp := .done, rClosed := true } } else none
  | .ctl i => stepCtl s i

def run : St → List Choice → Option St
  | s, [] => some s
  | s, c :: cs => (step s c).bind fun s => run s cs

end Verif.Pool
