import Verif.Model.Served
import Verif.Spec.Serv
import Verif.Spec.ParallelStop
/-!
Terms in which the theorems about a server in front of a parallel service are stated.
-/
namespace Verif.Served

/-- Somebody has called `Respond` of the connection for request `r`, and it has not returned. -/
def InRespond (s : St) (r : Nat) : Prop :=
  (s.c (s.conn r)).rs (s.key r) = .called ∨ (s.c (s.conn r)).rs (s.key r) = .busy

/-- The connection of request `r` has a lock that is never released. -/
def Stuck (s : St) (r : Nat) : Prop := ∃ k, Serv.Blocked (s.c (s.conn r)) k

/-- All slots are taken by handlers that wait in `Respond` of connections that are stuck. -/
structure Wedged (s : St) : Prop where
  slots : s.p.sema = 0
  disp : Parallel.holds s.p.d = 0
  live : ∀ r, Parallel.Live s.p r → s.ins r = true ∧ InRespond s r ∧ Stuck s r

/-- The dispatcher has taken a slot for request `r` and is about to lock it (`req.Context()`, parallel_service.go:88), while somebody is in
`Respond` for it, on a connection that is stuck. -/
structure Halted (s : St) (r : Nat) : Prop where
  disp : s.p.d = .claim r
  resp : InRespond s r
  stuck : Stuck s r

/-- Steps of the handler of `r` and of those who are in `Respond` of its connection. -/
def Own (i r : Nat) (o : Parallel.Outcome) (c : Choice) : Prop :=
  c = .svc (.hand r) ∨ c = .svc (.result r o) ∨ ∃ k, c = .net i (.begin k) ∨ c = .net i (.send k)

/-- The connection has received at most 128 requests and pings. -/
def Few (s : St) (i : Nat) : Prop := (s.c i).n + (s.c i).pings.length ≤ 128

/-- The server goes on by itself: read loops hand over the requests they have read, the dispatcher and the handlers go on (as in
`Parallel.Ending`: if somebody is waiting in `Stop` of the service, the dispatcher may take `exit`), so do those who are in `Respond`, and the write loops of the connections in `l`, without errors. -/
def Forth (ret : Nat → Parallel.Outcome) (l : List Nat) (c : Choice) : Prop :=
  (∃ i, c = .pass i) ∨ (∃ ch, c = .svc ch ∧ Parallel.Ending ret ch) ∨ (∃ i k, c = .net i (.begin k) ∨ c = .net i (.send k)) ∨
    ∃ i, i ∈ l ∧ c = .net i .wl

/-- Writing to the connection of request `r` has failed. -/
def Failed (s : St) (r : Nat) : Prop := (s.c (s.conn r)).wp = .fin true ∨ (s.c (s.conn r)).wp = .done true

/-- The response to request `r` was written to its connection. -/
def Written (s : St) (r : Nat) : Prop :=
  Serv.Item.resp ((s.c (s.conn r)).idOf (s.key r)) (s.key r) ∈ (s.c (s.conn r)).wire

end Verif.Served
