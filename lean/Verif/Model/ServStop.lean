/-!
The server and its connections (net/server/server.go): `Run`, `Stop`, `controlLoop`, `listenLoop`.

Simplifications: of a connection only the ends of its two sides and its two reports to the server are kept (connection.go:116,
122; see Model/Serv.lean); what is done under the server's lock without waiting is one step, which waits for the lock. `Stop` sends to
`stop` (capacity 1) with the lock held, so it may wait there.
-/
namespace Verif.ServStop

/-- The write side of a connection: running; ended, the control loop about to report or cancelling; reported. -/
inductive W | up | ended | reported
deriving DecidableEq, Repr

structure Con where
  w : W
  reading : Bool   -- the read loop runs: requests are received
  gone : Bool      -- the second report was received
deriving DecidableEq, Repr

/-- What the control loop has received and not handled yet (server.go:76-85). -/
inductive Got
  | closed (i : Nat)
  | stop
deriving DecidableEq, Repr

structure St where
  con : Nat → Con
  cur : Nat
  conns : List Nat
  closing : Bool
  stop : Nat       -- what is in the channel `stop`
  lock : Bool      -- a call of `Stop` holds the lock and waits to send to `stop`
  got : Option Got
  running : Bool   -- the control loop runs; when it ends, `Running` is closed

def init : St :=
  { con := fun _ => ⟨.up, true, false⟩, cur := 0, conns := [], closing := false, stop := 0, lock := false, got := none,
    running := true }

def set {α : Type} (f : Nat → α) (k : Nat) (v : α) : Nat → α := fun j => if j = k then v else f j

inductive Choice
  | accept          -- a connection is accepted (server.go:114-123)
  | stop            -- Stop locks and sends if there is room (server.go:65-69)
  | stopSend        -- Stop, which had to wait, sends and unlocks (server.go:68, 69)
  | onStop          -- the control loop receives from `stop` (server.go:85)
  | handle          -- it locks and handles what it has received (server.go:78-83, 86-94)
  | wEnd (i : Nat)  -- the write loop of connection i ends
  | rEnd (i : Nat)  -- its read loop ends
  | report (i : Nat)  -- the first report: after cancelInFly
  | report2 (i : Nat) -- the second: in closed()
deriving DecidableEq, Repr

/-- `case id := <-serv.connClosed` (server.go:77-83). -/
def onClosed (s : St) (i : Nat) : St :=
  let conns := s.conns.filter (· ≠ i)
  if s.closing ∧ conns = [] then { s with conns, running := false } else { s with conns }

def step (s : St) : Choice → Option St
  | .accept =>
    if s.closing ∨ s.lock then none
    else some { s with con := set s.con s.cur ⟨.up, true, false⟩, conns := s.cur :: s.conns, cur := s.cur + 1 }
  | .stop =>
    if s.lock then none
    else if s.stop = 0 then some { s with closing := true, stop := 1 }
    else some { s with closing := true, lock := true }
  | .stopSend => if s.lock ∧ s.stop = 0 then some { s with lock := false, stop := 1 } else none
  | .onStop =>
    if s.running ∧ s.got = none ∧ s.stop = 1 then some { s with stop := 0, got := some .stop } else none
  | .handle =>
    if s.lock then none
    else
      match s.got with
      | some (.closed i) => some (onClosed { s with got := none } i)
      | some .stop => if s.conns = [] then some { s with got := none, running := false } else some { s with got := none }
      | none => none
  | .wEnd i =>
    if i < s.cur ∧ (s.con i).w = .up then some { s with con := set s.con i { s.con i with w := .ended } } else none
  | .rEnd i =>
    if i < s.cur ∧ (s.con i).reading then some { s with con := set s.con i { s.con i with reading := false } } else none
  | .report i =>
    if s.running ∧ s.got = none ∧ (s.con i).w = .ended then
      some { s with con := set s.con i { s.con i with w := .reported }, got := some (.closed i) }
    else none
  | .report2 i =>
    if s.running ∧ s.got = none ∧ (s.con i).w = .reported ∧ (s.con i).reading = false ∧ (s.con i).gone = false then
      some { s with con := set s.con i { s.con i with gone := true }, got := some (.closed i) }
    else none

def run : St → List Choice → Option St
  | s, [] => some s
  | s, c :: cs => (step s c).bind fun s => run s cs

end Verif.ServStop
