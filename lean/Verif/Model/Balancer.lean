/-!
`BalancerPoint` (balancer.go) on top of `SimplePoint` (service.go): an endpoint whose children take the requests from its channel.

One goroutine, the user, calls `AddChild`, `Run` and `Stop`, one after another; the goroutine of `Loop` is the other one. Calls from several
goroutines at once would race for the slice `children`; that is left out, so that what is found here is found in sequential use.

Simplifications:
* children are numbers; `AddChild` is called once with each;
* `ch.Run` and `ch.Stop` of the children return (C55, C70 and C73 are about that);
* the channel and its buffer are left out (C39, C40, C65).
-/
namespace Verif.Balancer

/-- Where the goroutine of `Loop` is (balancer.go:19-27). -/
inductive LPc
  | none                         -- not started
  | start                        -- `go s.Loop()` was executed (service.go:100)
  | launch (rest : List Nat)     -- in the first loop
  | wait                         -- before `<-b.ExitChan()`
  | halt (rest : List Nat)       -- in the second loop
  | ended
deriving DecidableEq, Repr

/-- Where the user is. -/
inductive UPc
  | idle
  | added (c : Nat)              -- in AddChild, after the append (balancer.go:13-14)
  | run (c : Nat)                -- in AddChild, before ch.Run (balancer.go:15)
  | stopping                     -- in Stop, before `s.exit <- true` (service.go:155)
deriving DecidableEq, Repr

structure St where
  children : List Nat            -- in the order of AddChild
  ran : Bool                     -- b.ch != nil
  runs : Nat → Nat               -- how often each child was run
  stops : Nat → Nat              -- ... and stopped
  loop : LPc
  user : UPc
  stopped : Bool                 -- Stop was called
  panicked : Bool                -- "EndPoint already runned": the program ends

def init : St :=
  { children := [], ran := false, runs := fun _ => 0, stops := fun _ => 0, loop := .none, user := .idle, stopped := false, panicked := false }

def bump (f : Nat → Nat) (c : Nat) : Nat → Nat := fun d => if d = c then f d + 1 else f d

inductive Choice
  | add (c : Nat)                -- the user calls AddChild(c)
  | start                        -- ... iproto.Run(b)
  | stop                         -- ... Stop()
  | user                         -- the user goes on
  | loop                         -- Loop goes on
deriving DecidableEq, Repr

/-- Loop's next step. -/
def stepLoop (s : St) : Option St :=
  match s.loop with
  | .none => none
  | .start => some { s with loop := .launch s.children }
  | .launch [] => some { s with loop := .wait }
  | .launch (c :: rest) => -- RunChild, service.go:107-112
    if s.runs c ≠ 0 then some { s with panicked := true }
    else some { s with runs := bump s.runs c, loop := .launch rest }
  | .wait => if s.user = .stopping then some { s with user := .idle, loop := .halt s.children } else none
  | .halt [] => some { s with loop := .ended }
  | .halt (c :: rest) => some { s with stops := bump s.stops c, loop := .halt rest }
  | .ended => none

/-- The user's next step inside a method. -/
def stepUser (s : St) : Option St :=
  match s.user with
  | .idle => none
  | .added c => if s.ran then some { s with user := .run c } else some { s with user := .idle }
  | .run c => some { s with runs := bump s.runs c, user := .idle }
  | .stopping => none

def step (s : St) (c : Choice) : Option St :=
  if s.panicked then none else
  match c with
  | .add c => if s.user = .idle ∧ c ∉ s.children then some { s with children := s.children ++ [c], user := .added c } else none
  | .start => if s.user = .idle ∧ s.ran = false then some { s with ran := true, loop := .start } else none -- service.go:55-60, 90-101
  | .stop => if s.user = .idle ∧ s.ran = true ∧ s.stopped = false then some { s with stopped := true, user := .stopping } else none
  | .user => stepUser s
  | .loop => stepLoop s

def run : St → List Choice → Option St
  | s, [] => some s
  | s, c :: cs =>
    match step s c with
    | none => none
    | some s' => run s' cs

end Verif.Balancer
