import Verif.Model.ReqCtx
import Verif.Spec.CtxReq

/-! Notions used to state the properties of a served request with its context. -/
namespace Verif.ReqCtx

/-- Nobody but the request cancels the context. -/
def Left (cs : List Choice) : Prop := ∀ b, .inner (.cancel b) ∉ cs

/-- The context was told of an answer with this code. -/
def Told (s : St) (code : UInt32) : Prop := ∃ r : Request.Resp, .notified 0 r ∈ s.o.d.log ∧ r.code = code

/-- `P` holds in every state of the run from `s` by the schedule `cs`. -/
def Along (P : St → Prop) (e : CtxReq.Env) : St → List Choice → Prop
  | s, [] => P s
  | s, c :: cs => P s ∧ ∀ s', step e s c = some s' → Along P e s' cs

/-- The race of C44 does not happen. -/
def Unraced (e : CtxReq.Env) (s : St) (cs : List Choice) : Prop := Along (fun s => Context.Clear s.c.cx) e s cs

end Verif.ReqCtx
