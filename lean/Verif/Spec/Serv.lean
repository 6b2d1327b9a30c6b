import Verif.Model.Serv
/-!
Terms in which the theorems about a server connection are stated.
-/
namespace Verif.Serv

/-- The requests answered by these responses. -/
def keys : List Item → List Nat
  | [] => []
  | .pong _ :: l => keys l
  | .resp _ k :: l => k :: keys l

/-- The ids of these responses. -/
def ids : List Item → List Nat
  | [] => []
  | .pong _ :: l => ids l
  | .resp id _ :: l => id :: ids l

/-- What the write loop holds. -/
def held : WPc → List Item
  | .got m => [m]
  | _ => []

/-- All that was handed to the write loop, and was not lost by an error. -/
def flow (s : St) : List Item := s.wire ++ held s.wp ++ s.out

/-- No request was received with the id of a request that was in flight on the connection. -/
def Polite (s : St) : Prop := s.fresh.length = s.n

/-- `Respond` for request `k` holds the lock of the connection and never returns. -/
def Blocked (s : St) (k : Nat) : Prop := ∀ ds s', run s ds = some s' → s'.lock = some k ∧ s'.rs k = .busy

end Verif.Serv
