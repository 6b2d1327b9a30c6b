/-!
The timer goroutine, its condition variable and its runtime timer (custom_timer.go:98-135), interleaved with callers of
`Timer.After`/`Timer.Stop`. The heap is replaced by the collection of armed timers it holds (`C35`); time only moves when
a schedule says so. `sync.Cond.Wait` enters the waiting list and gives up the mutex in one step, as documented;
`Signal` wakes a waiting goroutine and is forgotten when there is none. Spurious wake-ups do not exist in Go.
-/
namespace Verif.TimerLoop

/-- Where the timer goroutine is. It holds the mutex at `top`, `scan` and `sleep`. -/
inductive Pc
  | top                              -- custom_timer.go:111
  | scan (t0 : Int) (reCheck : Bool) -- :113, the clock was read as t0
  | expire (x : Nat) (t0 : Int)      -- :124-126, `x` was removed
  | sleep                            -- :133, just before Wait
  | wait                             -- in Wait
  | woken                            -- signalled, has to lock again
deriving DecidableEq, Repr

structure St where
  armed : List (Nat × Int)
  now : Int
  pc : Pc
  /-- when the runtime timer calls `Signal` -/
  rt : Option Int
  /-- time between the last clock reading used for a `Reset` and that `Reset` -/
  lag : Int
  expired : List Nat
deriving DecidableEq, Repr

/-- `loop` up to the first lock (custom_timer.go:107-108). -/
def init : St := { armed := [], now := 0, pc := .top, rt := some 3600, lag := 0, expired := [] }

inductive Choice
  | tick (d : Nat)
  | after (x : Nat) (e : Int)   -- custom_timer.go:31-36
  | stop (x : Nat)              -- custom_timer.go:42-46
  | timer                       -- the runtime timer fires
  | loop                        -- the timer goroutine goes on
deriving DecidableEq, Repr

def Pc.locked : Pc → Bool
  | .top | .scan .. | .sleep => true
  | _ => false

/-- `h.c.Signal()`. -/
def Pc.signal : Pc → Pc
  | .wait => .woken
  | p => p

/-- The earliest armed timer. -/
def earliest : List (Nat × Int) → Option (Nat × Int)
  | [] => none
  | p :: r => match earliest r with
    | none => some p
    | some q => if p.2 ≤ q.2 then some p else some q

def step (s : St) : Choice → Option St
  | .tick d => some { s with now := s.now + d }
  | .after x e =>
    if s.pc.locked then none
    else
      let top := s.armed.all fun p => e < p.2
      some { s with armed := (x, e) :: s.armed, pc := if top then s.pc.signal else s.pc }
  | .stop x => if s.pc.locked then none else some { s with armed := s.armed.filter fun p => p.1 ≠ x }
  | .timer => match s.rt with
    | some t => if t ≤ s.now then some { s with rt := none, pc := s.pc.signal } else none
    | none => none
  | .loop => match s.pc with
    | .top => some { s with pc := .scan s.now false }
    | .scan t0 re => match earliest s.armed with
      | none => some { s with rt := some (s.now + 3600), pc := .sleep }
      | some (x, e) =>
        if e ≥ t0 then
          if re then some { s with pc := .top }
          else some { s with rt := some (s.now + (e - t0)), lag := s.now - t0, pc := .sleep }
        else some { s with armed := s.armed.erase (x, e), pc := .expire x t0 }
    | .expire x t0 => some { s with expired := x :: s.expired, pc := .scan t0 true }
    | .sleep => some { s with pc := .wait }
    | .wait => none
    | .woken => some { s with pc := .top }

def run (s : St) : List Choice → Option St
  | [] => some s
  | c :: cs => (step s c).bind fun s => run s cs

/-- The runtime timer never fires between its `Reset` and the goroutine's `Wait`. -/
def Calm (s : St) : List Choice → Prop
  | [] => True
  | c :: cs => ¬ (c = .timer ∧ s.pc = .sleep) ∧ ∀ s', step s c = some s' → Calm s' cs

end Verif.TimerLoop
