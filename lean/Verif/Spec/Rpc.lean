import Verif.Model.Rpc
import Verif.Spec.Reflect
import Verif.Spec.ByteLink

/-! Specification of typed calls. -/
namespace Verif.Rpc
open Verif.Marshal Verif.Reflect Verif.Spec Verif.ByteLink

/-- A value that can be sent (cf. C18). -/
def Sendable (t : Ty) (v : Val) : Prop := Sound false t ∧ Fits false t v ∧ (counted t = true → countOf t v < 2 ^ 32)

/-- The interface of a service: for each type of message the types of its argument and its result, and the function. -/
structure Service where
  arg : UInt32 → Ty
  res : UInt32 → Ty
  f : UInt32 → Val → Val

/-- The k-th call of the server's handler reads its argument and responds with code 0 and the function's value; what it does if
the argument cannot be read is its business. -/
def Handles (s : Service) (e : Env) (b : ByteLink.St) : Prop :=
  ∀ k q v, b.seen k = some q → marshalRead (s.arg q.msg) q.body = some (none, v) →
    e.code k = 0 ∧ toBody (.val (s.res q.msg) (s.f q.msg v)) = some (e.answer k)

/-- Request `r` was made by a `Call` with the argument `x r`. -/
def Called (s : Service) (e : Env) (x : Nat → Val) (r : Nat) : Prop :=
  toBody (.val (s.arg (e.msg r)) (x r)) = some (e.body r)

end Verif.Rpc
