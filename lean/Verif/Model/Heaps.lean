/-!
Choosing the heap of a timer: `Timer.After`, `Timer.Stop`, `nextHeap`, `getHeap` (custom_timer.go:23-76).

* What happens inside a heap is in `Model/Timer.lean`; here a heap is its number. `heaps[k]` has the number `k + 1`
  (custom_timer.go:50,66), so the slice is modelled by its length.
* Any number of goroutines. Each uses one `Timer` at a time and turns to a new one when it likes.
* Memory is sequentially consistent, a slice header is read at once (in Go three words, so that the real behaviour is worse).
  `uint32` does not wrap. `GOMAXPROCS` may be different at each call.
* `heaps[i%heapN]` (custom_timer.go:71) reads two variables; Go leaves their order open, so both orders are modelled.
-/
namespace Verif.Heaps

/-- Where a goroutine is. -/
inductive Pc
  | idle
  /-- At `heapM.Lock()` (custom_timer.go:58). -/
  | lock (i : Nat)
  /-- In the loop that appends (custom_timer.go:65-67). -/
  | grow (i n : Nat)
  /-- Before `heapM.Unlock()` (custom_timer.go:69). -/
  | unlock (i : Nat)
  /-- Before `heaps[i%heapN]` (custom_timer.go:71). -/
  | pick (i : Nat)
  /-- `heaps` has been read and had length `l`. -/
  | haveLen (i l : Nat)
  /-- `heapN` has been read. -/
  | haveN (i m : Nat)
  /-- In `getHeap` (custom_timer.go:74-76). -/
  | get
  /-- Index out of range. -/
  | panic
deriving DecidableEq, Repr

/-- A goroutine and the field `h` of its timer (custom_timer.go:18-21). -/
structure Th where
  pc : Pc := .idle
  h : Nat := 0
deriving DecidableEq, Repr

/-- The shared variables (custom_timer.go:50-53), the lock, and the goroutines. -/
structure St where
  len : Nat := 2
  heapN : Nat := 2
  heapI : Nat := 0
  locked : Bool := false
  th : Nat → Th := fun _ => {}

/-- What a goroutine does next. -/
inductive Act
  /-- Turn to a new `Timer`. -/
  | fresh
  /-- Call `After`. -/
  | after
  /-- Call `Stop`. -/
  | stop
  /-- Go on; `p` is `GOMAXPROCS`, `lenFirst` the order of evaluation. -/
  | go (p : Nat) (lenFirst : Bool)
deriving DecidableEq, Repr

/-- The number of heaps wanted (custom_timer.go:59-64). -/
def wanted (p : Nat) : Nat := if p = 1 then 2 else p * 8

def St.set (s : St) (t : Nat) (x : Th) : St := { s with th := fun u => if u = t then x else s.th u }

/-- `heaps[i%heapN]`, then `t.h = h.i` (custom_timer.go:27,71). -/
def index (x : Th) (i m l : Nat) : Th :=
  if i % m < l then { pc := .idle, h := i % m + 1 } else { x with pc := .panic }

/-- One step of goroutine `t`. -/
def step (s : St) (t : Nat) (a : Act) : Option St :=
  let x := s.th t
  match x.pc, a with
  | .idle, .fresh => some (s.set t { x with h := 0 })
  | .idle, .after =>                                                     -- custom_timer.go:25-29
    if x.h = 0 then                                                      -- custom_timer.go:56-57
      let s := { s with heapI := s.heapI + 1 }
      if s.heapI % 10000 = 0 then some (s.set t { x with pc := .lock s.heapI })
      else some (s.set t { x with pc := .pick s.heapI })
    else some (s.set t { x with pc := .get })
  | .idle, .stop =>                                                      -- custom_timer.go:40-41
    if x.h = 0 then some s else some (s.set t { x with pc := .get })
  | .lock i, .go p _ =>
    if s.locked = true ∨ p = 0 then none
    else some ({ s with locked := true }.set t { x with pc := .grow i (wanted p) })
  | .grow i n, .go _ _ =>                                                -- custom_timer.go:65-68
    if s.len < n then some { s with len := s.len + 1 }
    else some ({ s with heapN := n }.set t { x with pc := .unlock i })
  | .unlock i, .go _ _ => some ({ s with locked := false }.set t { x with pc := .pick i })
  | .pick i, .go _ true => some (s.set t { x with pc := .haveLen i s.len })
  | .pick i, .go _ false => some (s.set t { x with pc := .haveN i s.heapN })
  | .haveLen i l, .go _ _ => some (s.set t (index x i s.heapN l))
  | .haveN i m, .go _ _ => some (s.set t (index x i m s.len))
  | .get, .go _ _ =>                                                     -- custom_timer.go:75
    if x.h - 1 < s.len then some (s.set t { x with pc := .idle }) else some (s.set t { x with pc := .panic })
  | _, _ => none

/-- A sequence of steps. -/
def run : St → List (Nat × Act) → Option St
  | s, [] => some s
  | s, (t, a) :: l => match step s t a with
    | none => none
    | some s => run s l

end Verif.Heaps
