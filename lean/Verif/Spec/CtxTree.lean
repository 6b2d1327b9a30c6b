import Verif.Model.CtxTree
import Verif.Spec.Context
/-! Notions used to state the properties of a tree of contexts. -/
namespace Verif.CtxTree

/-- Contexts are made from contexts that are there. -/
def Tree (par : Nat → Nat) : Prop := ∀ x, x ≠ 0 → par x < x

/-- `Alive` of the context is false (context.go:205-207). -/
def Cancelled (s : St) (x : Nat) : Prop := (s.cx x).state ≠ 0

/-- `Timeout` of the context is true (context.go:209-211). -/
def TimedOut (s : St) (x : Nat) : Prop := (s.cx x).state = 2

/-- `cancelAll` of the context has ended. -/
def Ended (s : St) (x : Nat) : Prop := (s.cx x).cp = .exit

/-- Context `x` was registered with the context it was made from, and its `Done` was not called. -/
def Open (par : Nat → Nat) (s : St) (x : Nat) : Prop := x ≠ 0 ∧ Context.Outstanding (s.cx (par x)) x

/-- Context `d` is `p`, or below it. -/
inductive Under (par : Nat → Nat) (s : St) (p : Nat) : Nat → Prop
  | refl : Under par s p p
  | child {d : Nat} (h : Under par s p (par d)) (o : Open par s d) : Under par s p d

/-- `P` holds in every state of the run from `s` by the schedule `cs`. -/
def Along (par : Nat → Nat) (P : St → Prop) : St → List Choice → Prop
  | s, [] => P s
  | s, c :: cs => P s ∧ ∀ s', step par s c = some s' → Along par P s' cs

/-- No context is cancelled between the look at `State` in `AddCanceler` and the storing of the canceler (the race of C44). -/
def Unraced (par : Nat → Nat) (s : St) (cs : List Choice) : Prop := Along par (fun s => ∀ p, Context.Clear (s.cx p)) s cs

/-- Nobody makes or cancels anything; goroutines inside `Child` and `cancelAll` go on; `Done` is called for cancelled contexts. -/
def Polite (s : St) : Choice → Prop
  | .maker _ | .canc _ => True
  | .done x => Cancelled s x
  | _ => False

/-- All steps of the run from `s` by the schedule `cs` are such. -/
def Goes (par : Nat → Nat) : St → List Choice → Prop
  | _, [] => True
  | s, c :: cs => Polite s c ∧ ∀ s', step par s c = some s' → Goes par s' cs

/-- `cancelAll` of context `p` has called `Cancel` of context `a` and waits for its end. -/
def Busy (s : St) (p a : Nat) : Prop := s.inside p = true ∧ ∃ l, (s.cx p).cp = .calling (a :: l)

/-- `Child` for context `x` has returned. -/
def Made (par : Nat → Nat) (s : St) (x : Nat) : Prop := x ≠ 0 ∧ Context.Added (s.cx (par x)) x

/-- `Child` for context `x` was not called yet. -/
def Unmade (par : Nat → Nat) (s : St) (x : Nat) : Prop := (s.cx (par x)).ap x = .idle

/-- `cancelAll` of the context was at least once through with all that it had. -/
def Passed (s : St) (x : Nat) : Prop := 0 < (s.cx x).passes ∨ Ended s x

end Verif.CtxTree
