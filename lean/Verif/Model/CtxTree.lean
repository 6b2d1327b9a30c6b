import Verif.Model.Context
/-! Contexts made from contexts (context.go:107-137, 213-284): each context is a machine of Model/Context.lean.

* Contexts are numbers, 0 is the one all others are made from; `par x` is the context that context `x` was made from with `Child` (or with `Go` etc., which call it).
  Canceler number `x` of context `par x` is context `x`.
* When `cancelAll` of a context calls `Cancel` of a child (context.go:120-122) that nobody has cancelled, the same goroutine runs `cancelAll` of the child and comes back at its end
  (context.go:127-131); `inside` records it. If somebody has cancelled it, the call comes back at once.
* The owner and others have a context only after `Child` has returned it. If the parent refuses it, its `Cancel` (context.go:103, 219) finds nothing and is one step, together with the end of
  `Child`.
* `Cancel` and `Expire` of any context may be called by anybody at any time; so may `Done` (context.go:275-284: the
  first call is `RemoveCanceler`, one step as in Model/Context.lean; others do nothing).
* Requests and multi-requests made from the contexts are left out (C108, C131). -/
namespace Verif.CtxTree

structure St where
  cx : Nat → Context.St
  /-- the goroutine in `cancelAll` of the context is in `cancelAll` of the child it is about -/
  inside : Nat → Bool

def init : St := { cx := fun _ => Context.init, inside := fun _ => false }

inductive Choice
  | make (x : Nat) | maker (x : Nat) | done (x : Nat) | cancel (x : Nat) (expire : Bool) | wait (x w : Nat)
  /-- the goroutine in `cancelAll` of context `x` -/
  | canc (x : Nat)
deriving DecidableEq, Repr

def St.withCx (s : St) (p : Nat) (o : Option Context.St) : Option St := o.map fun c => { s with cx := fun q => if q = p then c else s.cx q }

def St.set (s : St) (p : Nat) (b : Bool) : St := { s with inside := fun q => if q = p then b else s.inside q }

/-- Others have context `x`. -/
def Has (par : Nat → Nat) (s : St) (x : Nat) : Prop := x = 0 ∨ (s.cx (par x)).ap x = .done true ∨ (s.cx (par x)).ap x = .done false

instance (par : Nat → Nat) (s : St) (x : Nat) : Decidable (Has par s x) := by unfold Has; infer_instance

/-- `Cancel` of a context without anything in it (context.go:107-131). -/
def early : List Context.Choice := [.cancel false, .canc, .canc]

def step (par : Nat → Nat) (s : St) : Choice → Option St
  | .make x => if x ≠ 0 ∧ Has par s (par x) then s.withCx (par x) (Context.step (s.cx (par x)) (.add x)) else none
  | .maker x =>
    match (s.cx (par x)).ap x with
    | .refused => (s.withCx (par x) (Context.step (s.cx (par x)) (.adder x))).bind fun s => s.withCx x (Context.run (s.cx x) early)
    | _ => s.withCx (par x) (Context.step (s.cx (par x)) (.adder x))
  | .done x => if x ≠ 0 ∧ Has par s x ∧ (s.cx (par x)).gone x = false then s.withCx (par x) (Context.step (s.cx (par x)) (.remove x)) else none
  | .cancel x e => if Has par s x then s.withCx x (Context.step (s.cx x) (.cancel e)) else none
  | .wait x w => if Has par s x then s.withCx x (Context.step (s.cx x) (.wait w)) else none
  | .canc x =>
    match (s.cx x).cp with
    | .calling (y :: _) =>
      if s.inside x then
        if (s.cx y).cp = .exit then (s.set x false).withCx x (Context.step (s.cx x) .canc) else none
      else if (s.cx y).state = 0 then (s.set x true).withCx y (Context.step (s.cx y) (.cancel false))
      else s.withCx x (Context.step (s.cx x) .canc)
    | _ => s.withCx x (Context.step (s.cx x) .canc)

def run (par : Nat → Nat) : St → List Choice → Option St
  | s, [] => some s
  | s, c :: cs => (step par s c).bind fun s => run par s cs

end Verif.CtxTree
