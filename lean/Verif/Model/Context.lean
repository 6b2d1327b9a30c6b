/-!
`Context` (context.go): the registered cancelers, cancellation, `WaitAll`, `Go`.

Goroutines: one per canceler `x`, which registers it (`AddCanceler`, after the look at `State` which `NewRequest`,
`NewMulti` and `Child` begin with); the owners of cancelers, who call `RemoveCanceler` when they are done; one in
`Cancel` or `Expire` (of several calls only the one whose CAS succeeds does anything); any number in `WaitAll`.

Simplifications:
* cancelers are numbers; each is registered at most once (a bookmark, multi-request or child is made for the purpose);
* `RemoveCanceler` and the check in `WaitAll` are one step each (everything they touch is changed under the lock only,
  and each changes either the array or the map); `AddCanceler` is split at its read of `State`, which `Cancel` changes
  without the lock;
* calling `Cancel` of a canceler is recorded in `called`; what the canceler does then is up to the schedule;
* the order of iteration over the map is the order of insertion; steps are sequentially consistent.
-/
namespace Verif.Context

/-- A goroutine that registers canceler `x`. -/
inductive APc
  | idle
  | pre      -- about to load State (149, 171, 215)
  | want     -- about to take the lock (82)
  | locked   -- about to read State (84)
  | reg      -- State was 0; about to store the canceler (86-100)
  | refused  -- State was not 0; about to call Cancel (103, 151, 173, 219)
  | done (registered : Bool)
deriving DecidableEq, Repr

/-- The goroutine in `cancelAll` (context.go:107-125). -/
inductive CPc
  | idle
  | readM                   -- about to read len(c.cancelsm) (108)
  | readN                   -- the map was empty; about to read c.cancelsn (108)
  | snap                    -- about to copy the cancelers (109-119)
  | calling (l : List Nat)  -- about to call Cancel of those (120-122)
  | exit
deriving DecidableEq, Repr

/-- A goroutine in `WaitAll` (context.go:250-256). -/
inductive WPc
  | idle
  | asleep   -- in c.childCond.Wait()
  | woken    -- signalled, about to take the lock and to look again
  | done
deriving DecidableEq, Repr

/-- `called x`: `Cancel` of `x` was called. `gone x`: `RemoveCanceler(x)` was called. `queue`: the goroutines in
`Wait`, oldest first. `started x`: the function given to `Go` for child `x` was started. `passes`: how often
`cancelAll` was through with a copy. -/
structure St where
  state : Nat
  s0 : Option Nat
  s1 : Option Nat
  n : Int
  m : List Nat
  lock : Option Nat
  ap : Nat → APc
  gone : Nat → Bool
  called : Nat → Bool
  started : Nat → Bool
  cp : CPc
  passes : Nat
  wp : Nat → WPc
  queue : List Nat

def init : St :=
  { state := 0, s0 := none, s1 := none, n := 0, m := [], lock := none, ap := fun _ => .idle, gone := fun _ => false,
    called := fun _ => false, started := fun _ => false, cp := .idle, passes := 0, wp := fun _ => .idle, queue := [] }

inductive Choice
  | add (x : Nat) | adder (x : Nat) | remove (x : Nat) | cancel (expire : Bool) | canc | wait (w : Nat) | goRet (x : Nat)
deriving DecidableEq, Repr

def set {α : Type} (f : Nat → α) (k : Nat) (v : α) : Nat → α := fun j => if j = k then v else f j

/-- The storing part of `AddCanceler` (context.go:86-100). -/
def store (s : St) (x : Nat) : St :=
  if s.s0 = none then { s with s0 := some x, n := s.n + 1 }
  else if s.s1 = none then { s with s1 := some x, n := s.n + 1 }
  else { s with m := if x ∈ s.m then s.m else s.m ++ [x] }

/-- The deleting part of `RemoveCanceler` (context.go:63-73). -/
def delete (s : St) (x : Nat) : St :=
  if s.s0 = some x then { s with s0 := none, n := s.n - 1 }
  else if s.s1 = some x then { s with s1 := none, n := s.n - 1 }
  else { s with m := s.m.filter (· ≠ x) }

/-- `c.childCond.Signal()` if nothing is registered (context.go:74-76). -/
def signal (s : St) : St :=
  if s.n = 0 ∧ s.m.length = 0 then
    match s.queue with
    | [] => s
    | w :: q => { s with queue := q, wp := set s.wp w .woken }
  else s

/-- `AddCanceler` (context.go:80-105), and the look at `State` before it. -/
def stepAdder (s : St) (x : Nat) : Option St :=
  match s.ap x with
  | .idle => none
  | .pre => some { s with ap := set s.ap x (if s.state = 0 then .want else .refused) }
  | .want => if s.lock = none then some { s with lock := some x, ap := set s.ap x .locked } else none
  | .locked =>
    if s.state = 0 then some { s with ap := set s.ap x .reg }
    else some { s with lock := none, ap := set s.ap x .refused }
  | .reg =>
    let s := store s x
    some { s with lock := none, ap := set s.ap x (.done true) }
  | .refused => some { s with called := set s.called x true, ap := set s.ap x (.done false) }
  | .done _ => none

/-- The copy made by `cancelAll` (context.go:110-118). -/
def copy (s : St) : List Nat := s.s0.toList ++ s.s1.toList ++ s.m

/-- `cancelAll` (context.go:107-125). -/
def stepCancel (s : St) : Option St :=
  match s.cp with
  | .idle => none
  | .readM => some { s with cp := if 0 < s.m.length then .snap else .readN }
  | .readN => some { s with cp := if 0 < s.n then .snap else .exit }
  | .snap => if s.lock = none then some { s with cp := .calling (copy s) } else none
  | .calling [] => some { s with passes := s.passes + 1, cp := .readM }
  | .calling (x :: l) => some { s with called := set s.called x true, cp := .calling l }
  | .exit => none

/-- The result `ok` of `Child` (context.go:213-222): the variable is never assigned. -/
def childOk : Bool := false

def step (s : St) : Choice → Option St
  | .add x => if s.ap x = .idle then some { s with ap := set s.ap x .pre } else none
  | .adder x => stepAdder s x
  | .remove x =>
    if s.lock = none ∧ (s.ap x = .done true ∨ s.ap x = .done false) then
      some (signal { delete s x with gone := set s.gone x true })
    else none
  | .cancel e =>
    -- context.go:127-137
    if s.state = 0 then some { s with state := if e then 2 else 1, cp := .readM } else some s
  | .canc => stepCancel s
  | .wait w =>
    if s.lock = none ∧ (s.wp w = .idle ∨ s.wp w = .woken) then
      if s.n ≠ 0 ∨ 0 < s.m.length then some { s with queue := s.queue ++ [w], wp := set s.wp w .asleep }
      else some { s with wp := set s.wp w .done }
    else none
  | .goRet x =>
    -- Go, GoInt, GoAsync, GoIntAsync after Child returned (context.go:226, 239, 260, 268)
    if s.ap x = .done true ∨ s.ap x = .done false then
      some (if childOk then { s with started := set s.started x true } else s)
    else none

def run : St → List Choice → Option St
  | s, [] => some s
  | s, c :: cs => (step s c).bind fun s => run s cs

end Verif.Context
