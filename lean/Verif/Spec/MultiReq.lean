import Verif.Model.MultiReq
import Verif.Spec.Multi
import Verif.Spec.Request
/-! Notions used to state the properties of a multi-request with its requests. -/
namespace Verif.MultiReq

/-- The one response that was delivered to the multi-request for request `i`. -/
def Got (s : St) (i : Nat) (x : Request.Resp) : Prop := .delivered x ∈ (s.r i).d.log ∧ Request.deliveries (s.r i).d.log = 1

/-- The code of an answering call. -/
def code : Request.Op → Option UInt32
  | .respond c _ => some c
  | .fail c => some c
  | _ => none

/-- The owner is in `Request`, in `Each`, in `Results`. -/
def Creating : Multi.OPc → Prop
  | .store _ | .chk _ | .chkK _ | .chkA .. | .failW _ => True
  | _ => False

def Ranging : Multi.OPc → Prop
  | .enter .each | .fail .each .. | .fail2 .each .. | .failK .each .. | .failA .each .. | .failX .each .. | .lock .each => True
  | .eChan | .eSend _ | .eCmp | .eClose | .eUnlock => True
  | _ => False

def Collecting : Multi.OPc → Prop
  | .enter .results | .fail .results .. | .fail2 .results .. | .failK .results .. | .failA .results .. | .failX .results .. | .lock .results => True
  | .rCmp | .rWait _ | .rTake => True
  | _ => False

/-- A step of a goroutine that is inside a method of the multi-request or of a request; nobody calls anything anew. -/
def Inner : Choice → Prop
  | .multi .owner | .multi (.resp _) | .multi (.canc _) => True
  | .req _ (.go _) | .req _ (.bookmark _ _) | .req _ (.responder _ _) => True
  | _ => False

end Verif.MultiReq
