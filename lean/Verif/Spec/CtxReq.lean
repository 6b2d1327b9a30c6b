import Verif.Model.CtxReq
import Verif.Spec.Context
import Verif.Spec.Request

/-! Notions used to state the properties of a context with its requests. -/
namespace Verif.CtxReq

/-- `P` holds in every state of the run from `s` by the schedule `cs`. -/
def Along (P : St → Prop) (e : Env) : St → List Choice → Prop
  | s, [] => P s
  | s, c :: cs => P s ∧ ∀ s', step e s c = some s' → Along P e s' cs

/-- The context is never cancelled between the look at `State` in `AddCanceler` and the storing of the canceler (the race of C44). -/
def Unraced (e : Env) (cs : List Choice) : Prop := Along (fun s => Context.Clear s.cx) e (init e) cs

/-- Request `x` was never set back for another sending. -/
def Once (s : St) (x : Nat) : Prop := Request.Ev.reset ∉ (s.r x).d.log

/-- The answer of request `x` is fixed: nothing that comes later is taken. -/
def Answered (s : St) (x : Nat) : Prop := (s.r x).d.rs = .prepared ∨ (s.r x).d.rs = .performed

/-- The response of request `x` is in its channel. -/
def Delivered (s : St) (x : Nat) : Prop := 0 < Request.deliveries (s.r x).d.log

/-- A step of a goroutine that is inside a method of the context or of a request; nobody calls anything anew but `cancelAll`, and the
bookmarks and Responders entered do nothing to the request. -/
def Inner : Choice → Prop
  | .adder _ | .canc _ | .req _ (.go _) | .req _ (.bookmark _ []) | .req _ (.responder _ []) => True
  | _ => False

/-- A goroutine at this point has no bookmark or Responder left half way that still does something to the request, and has not panicked
inside one. -/
def Quiet : Request.Pc → Prop
  | .dead | .react _ (_ :: _) | .fin _ (_ :: _) => False
  | _ => True

end Verif.CtxReq
