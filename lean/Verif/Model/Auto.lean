import Verif.Model.Misc
/-!
`client.Auto` (net/client/auto.go): servers by address, created on demand, used by any number of goroutines.

Every access to the shared field `a.servers` and every operation of the mutex is a separate step; a list of `Choice`s is a
schedule. `log` is a history variable, newest first: it is only written.

Simplifications:
* addresses are numbers, `0` is the empty string; servers are numbered in the order in which they are created;
* a Go map is a list of pairs with different keys, `range` visits it in the order of the list;
* reading and assigning the field `a.servers` is atomic (the field is a pointer; the Go memory model calls the unlocked
  reads of lines 16 and 23 data races, hardware does not tear them);
* the published map is not changed any more (line 34 publishes a new one), so that a goroutine that read the pointer may look
  the address up at once;
* `serv.Stop()` and `iproto.Run(serv)` return (C55, C73 are about that);
* `NewServer` panics for the empty address and only then (config.go:34-36).
-/
namespace Verif.Auto

/-- A map from addresses to servers. -/
abbrev Map := List (Nat × Nat)

/-- `m[k]`. -/
def look (m : Map) (k : Nat) : Option Nat := (m.find? (·.1 = k)).map (·.2)

/-- `m[k] = v`. -/
def put (m : Map) (k v : Nat) : Map := (k, v) :: m.filter (·.1 ≠ k)

/-- `a.servers[k]`, where a nil map has no entries. -/
def lookNil (m : Option Map) (k : Nat) : Option Nat :=
  match m with
  | none => none
  | some m => look m k

/-- The entries of a map that may be nil. -/
def entries (m : Option Map) : Map :=
  match m with
  | none => []
  | some m => m

/-- The new map: first the new server, then everything the old one has (auto.go:30-34). -/
def copy (old : Option Map) (addr serv : Nat) : Map :=
  (entries old).foldl (fun m e => put m e.1 e.2) (put [] addr serv)

/-- What happens. -/
inductive Ev
  | called (t addr : Nat)           -- goroutine t called Get
  | made (addr serv : Nat)          -- a server was created and run
  | got (t addr serv : Nat)         -- Get of goroutine t returned serv
  | stopped (serv : Nat)            -- serv.Stop() was called
  | cleared                         -- Stop has finished its work
  | panicked (t : Nat)
deriving DecidableEq, Repr

/-- Where a goroutine is. -/
inductive Pc
  | idle
  | check (addr : Nat)              -- before `if a.servers == nil` (auto.go:16)
  | lock1 (addr : Nat)              -- before a.Lock() (auto.go:17)
  | make (addr : Nat)               -- lock held (auto.go:18-20)
  | unlock1 (addr : Nat)            -- lock held (auto.go:21)
  | read (addr : Nat)               -- before reading the map (auto.go:23)
  | lock2 (addr : Nat)              -- before a.Lock() (auto.go:24)
  | again (addr : Nat)              -- lock held (auto.go:25)
  | create (addr : Nat)             -- lock held (auto.go:26-29)
  | fill (addr serv : Nat)          -- lock held (auto.go:30-34)
  | publish (addr serv : Nat) (m : Map) -- lock held (auto.go:35)
  | unlock2 (addr serv : Nat)       -- lock held (auto.go:37)
  | ret (addr serv : Nat)           -- before return (auto.go:39)
  | sLock                           -- Stop, before a.Lock() (auto.go:43)
  | sCheck                          -- lock held (auto.go:44)
  | sLoop (rest : List Nat)         -- lock held (auto.go:45-47)
  | sUnlock                         -- lock held (auto.go:50)
  | dead                            -- panicked
deriving DecidableEq, Repr

structure St where
  servers : Option Map
  lock : Option Nat
  next : Nat                        -- the number of servers created
  pc : Nat → Pc
  log : List Ev

def init : St := { servers := none, lock := none, next := 0, pc := fun _ => .idle, log := [] }

def setPc (f : Nat → Pc) (t : Nat) (p : Pc) : Nat → Pc := fun u => if u = t then p else f u

/-- The goroutine goes on at `p`. -/
def St.at (s : St) (t : Nat) (p : Pc) : St := { s with pc := setPc s.pc t p }

/-- `a.Lock()`. -/
def St.acquire (s : St) (t : Nat) (p : Pc) : Option St :=
  if s.lock = none then some { s.at t p with lock := some t } else none

/-- `a.Unlock()`. -/
def St.release (s : St) (t : Nat) (p : Pc) : St := { s.at t p with lock := none }

/-- The next step of goroutine `t` (auto.go:15-51). -/
def go (s : St) (t : Nat) : Option St :=
  match s.pc t with
  | .idle => none
  | .check a => if s.servers = none then some (s.at t (.lock1 a)) else some (s.at t (.read a))
  | .lock1 a => s.acquire t (.make a)
  | .make a =>
    if s.servers = none then some { s.at t (.unlock1 a) with servers := some [] } else some (s.at t (.unlock1 a))
  | .unlock1 a => some (s.release t (.read a))
  | .read a =>
    match lookNil s.servers a with
    | some v => some (s.at t (.ret a v))
    | none => some (s.at t (.lock2 a))
  | .lock2 a => s.acquire t (.again a)
  | .again a =>
    match lookNil s.servers a with
    | some v => some (s.at t (.unlock2 a v))
    | none => some (s.at t (.create a))
  | .create a =>
    if a = 0 then some { s.at t .dead with log := .panicked t :: s.log }
    else some { s.at t (.fill a s.next) with next := s.next + 1, log := .made a s.next :: s.log }
  | .fill a v => some (s.at t (.publish a v (copy s.servers a v)))
  | .publish a v m => some { s.at t (.unlock2 a v) with servers := some m }
  | .unlock2 a v => some (s.release t (.ret a v))
  | .ret a v => some { s.at t .idle with log := .got t a v :: s.log }
  | .sLock => s.acquire t .sCheck
  | .sCheck =>
    match s.servers with
    | none => some { s.at t .sUnlock with log := .cleared :: s.log }
    | some m => some (s.at t (.sLoop (m.map (·.2))))
  | .sLoop (v :: rest) => some { s.at t (.sLoop rest) with log := .stopped v :: s.log }
  | .sLoop [] => some { s.at t .sUnlock with servers := none, log := .cleared :: s.log }
  | .sUnlock => some (s.release t .idle)
  | .dead => none

/-- A schedule entry: an idle goroutine calls a method, or a goroutine makes its next step. -/
inductive Choice
  | get (t addr : Nat)
  | stop (t : Nat)
  | go (t : Nat)
deriving DecidableEq, Repr

def step (s : St) : Choice → Option St
  | .get t a => if s.pc t = .idle then some { s.at t (.check a) with log := .called t a :: s.log } else none
  | .stop t => if s.pc t = .idle then some (s.at t .sLock) else none
  | .go t => Auto.go s t

def run : St → List Choice → Option St
  | s, [] => some s
  | s, c :: cs =>
    match step s c with
    | none => none
    | some s' => run s' cs

end Verif.Auto
