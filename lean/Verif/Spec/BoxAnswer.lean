import Verif.Spec.Box

/-! What a box answers to a request that stores a tuple. -/
namespace Verif.Box
open Verif.Spec Verif.Sbox

/-- The answer to a request that stores a tuple, whether it was there or not (mode 0): the number of tuples stored, and the tuple if the
request asks for it by flag 1. -/
def stores (flags : Nat) (t : List Bytes) : Bytes := if flags % 2 = 1 then response [tupleBytes t] else le 4 1

/-- The server answers so. -/
def Answers (e : ByteLink.Env) (b : ByteLink.St) : Prop :=
  ∀ k q, b.seen k = some q → ∀ space flags t, (Req.store space flags t).Fits → flags / 2 = 0 → q.msg = 13 →
    q.body = (Req.store space flags t).body → e.code k = 0 ∧ e.answer k = stores flags t

end Verif.Box
