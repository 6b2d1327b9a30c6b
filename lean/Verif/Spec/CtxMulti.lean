import Verif.Model.CtxMulti
import Verif.Spec.Context
import Verif.Spec.MultiReq
/-! Notions used to state the properties of a context with its multi-requests. -/
namespace Verif.CtxMulti

/-- `P` holds in every state of the run from `s` by the schedule `cs`. -/
def Along (P : St → Prop) : St → List Choice → Prop
  | s, [] => P s
  | s, c :: cs => P s ∧ ∀ s', step s c = some s' → Along P s' cs

/-- The context is never cancelled between the look at `State` in `AddCanceler` and the storing of the canceler (the race of C44). -/
def Unraced (msg : Nat → Nat → UInt32) (cs : List Choice) : Prop := Along (fun s => Context.Clear s.cx) (init msg) cs

/-- Every request which the owner of multi-request `x` has got has been delivered one response. -/
def Answered (s : St) (x : Nat) : Prop := ∀ i, i < (s.q x).m.ret → ∃ r, MultiReq.Got (s.q x) i r

/-- Nobody calls anything anew: goroutines inside `NewMulti`, `cancelAll` or a method of a multi-request or of a request go on. -/
def Goes : Choice → Prop
  | .adder _ => True
  | .canc f => f = true
  | .q _ c => MultiReq.Inner c
  | _ => False

/-- Some goroutine has panicked (C42, C67). -/
def Panicked (s : St) : Prop := ∃ x, Multi.Panicked (s.q x).m

end Verif.CtxMulti
