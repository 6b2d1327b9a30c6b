import Verif.Model.MultiTimer
import Verif.Spec.MultiReq
/-! Notions used to state the properties of a multi-request with a timeout. -/
namespace Verif.MultiTimer

/-- Nobody calls anything anew: goroutines inside a method go on, and the timer fires. -/
def Goes : Choice → Prop
  | .q c => MultiReq.Inner c
  | .fire f => f = true
  | .setTimeout => False

/-- Every request which the owner has got has been delivered one response. -/
def Answered (s : St) : Prop := ∀ i, i < s.q.m.ret → ∃ x, MultiReq.Got s.q i x

/-- `Expire` that the timer called has returned, after the comparison which reads `w.c` first. -/
def Expired (s : St) : Prop := s.q.m.cp 0 = .done true

end Verif.MultiTimer
