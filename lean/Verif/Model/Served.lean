import Verif.Model.Parallel
import Verif.Model.Serv
/-!
A server (net/server/connection.go) whose endpoint is a `ParallelService` (parallel_service.go): any number of connections
(Model/Serv.lean) in front of one service (Model/Parallel.lean). The read loop of a connection hands a request over to the
service (connection.go:199-204); whoever answers the request holds the lock of the request (request.go:165-179) and is inside
`Respond` of the connection (connection.go:73-101), which is the request's `Responder`, until that returns.

Simplifications: those of the two models, with these exceptions: a Responder need not return; `Cancel` by the control loop is
`RespondFail` of the request; a goroutine that calls a method of a request waits for its lock.
-/
namespace Verif.Served

/-- `c i`: connection `i`. `m`: the number of requests received on all connections; `conn r`, `key r`: the connection of request
`r` and its number there; `num`: the other way round. `rd i`: the read loop of connection `i` is about to hand this request over.
`ins r`: the handler goroutine of `r` has called an answering method of `r` that was accepted. `dis`: the same for the dispatcher.
`dead`: the program has panicked. -/
structure St where
  p : Parallel.St
  c : Nat → Serv.St
  m : Nat
  conn : Nat → Nat
  key : Nat → Nat
  num : Nat → Nat → Nat
  rd : Nat → Option Nat
  ins : Nat → Bool
  dis : Option Nat
  dead : Bool

def init (n : Nat) : St :=
  { p := Parallel.init n, c := fun _ => Serv.init, m := 0, conn := fun _ => 0, key := fun _ => 0, num := fun _ _ => 0,
    rd := fun _ => none, ins := fun _ => false, dis := none, dead := false }

def set {α : Type} (f : Nat → α) (k : Nat) (v : α) : Nat → α := fun j => if j = k then v else f j

/-- How far `Respond` of the connection has come for request `r`. -/
def St.resp (s : St) (r : Nat) : Serv.RS := (s.c (s.conn r)).rs (s.key r)

/-- Somebody is inside `Respond` of the connection for `r`, and holds the lock of `r`. -/
def St.locked (s : St) (r : Nat) : Bool := s.resp r = .called || s.resp r = .busy

/-- The request whose lock this step takes: `RespondFail`, `RespondBytes` (request.go:165-179), `Context`
(request.go:89, 215-221). -/
def locks (p : Parallel.St) : Parallel.Choice → Option Nat
  | .fail r _ => some r
  | .answer r _ => some r
  | .disp =>
    match p.d with
    | .got r => if Parallel.exiting p then some r else none
    | .claim r => some r
    | .refuse r => some r
    | _ => none
  | .dispExit =>
    match p.d with
    | .slot r => some r
    | _ => none
  | .hand r =>
    match p.h r with
    | .answer _ => some r
    | .fin => if p.ctxReq r then some r else none
    | _ => none
  | _ => none

/-- The goroutine that would make this step is still inside `Respond` of a connection. -/
def St.inside (s : St) : Parallel.Choice → Bool
  | .disp => s.dis.any fun r => s.locked r
  | .dispExit => s.dis.any fun r => s.locked r
  | .hand r => s.ins r && s.locked r
  | _ => false

/-- `fail` and `answer` are made with requests that were received; sending is the business of the read loops. -/
def St.known (s : St) : Parallel.Choice → Bool
  | .send _ => false
  | .fail r _ => r < s.m
  | .answer r _ => r < s.m
  | _ => true

/-- Connection `i` makes a step. A panic ends the program. -/
def St.net (s : St) (i : Nat) (ch : Serv.Choice) : Option St :=
  (Serv.step (s.c i) ch).map fun x => { s with c := set s.c i x, dead := x.panicked }

/-- Who has called the answering method. -/
def St.enter (s : St) (r : Nat) : Parallel.Choice → St
  | .hand _ => { s with ins := set s.ins r true }
  | .disp => { s with dis := some r }
  | .dispExit => { s with dis := some r }
  | _ => s

/-- A step of the service. If it answers request `r`, `Respond` of the connection is called (request.go:148). -/
def St.svc (s : St) (ch : Parallel.Choice) : Option St :=
  if s.known ch && !s.inside ch then
    match locks s.p ch with
    | none => (Parallel.step s.p ch).map fun p => { s with p }
    | some r =>
      if s.locked r then none
      else (Parallel.step s.p ch).bind fun p =>
        if s.p.ans r = none ∧ p.ans r ≠ none then
          (({ s with p } : St).net (s.conn r) (.call (s.key r))).map fun s => s.enter r ch
        else some { s with p }
  else none

/-- The read loop has registered a request (connection.go:199-202). -/
def St.reg (s : St) (i : Nat) : Option St :=
  (s.net i .rl).map fun s' =>
    { s' with conn := set s.conn s.m i, key := set s.key s.m (s.c i).n, num := set s.num i (set (s.num i) (s.c i).n s.m),
              rd := set s.rd i (some s.m), m := s.m + 1 }

/-- The control loop cancels request `k` of its connection (connection.go:113-115): if the request has not been answered, this
answers it. -/
def St.cancel (s : St) (i k : Nat) : Option St :=
  if (s.c i).rs k = .sent then
    (Parallel.step s.p (.fail (s.num i k) Parallel.rcCanceled)).bind fun p => ({ s with p } : St).net i .ctl
  else s.net i .ctl

inductive Choice
  | net (i : Nat) (ch : Serv.Choice)  -- a step of connection i
  | pass (i : Nat)                    -- its read loop calls EndPoint.Send (connection.go:204)
  | svc (ch : Parallel.Choice)        -- a step of the service, or of anybody with a request
deriving DecidableEq, Repr

def step (s : St) (ch : Choice) : Option St :=
  if s.dead then none
  else match ch with
    | .net i .rl =>
      match (s.c i).rp with
      | .reg _ => s.reg i
      | _ => s.net i .rl
    | .net i (.recv id) => if s.rd i = none then s.net i (.recv id) else none
    | .net i (.ping id) => if s.rd i = none then s.net i (.ping id) else none
    | .net i .rErr => if s.rd i = none then s.net i .rErr else none
    | .net i .ctl =>
      match (s.c i).cp with
      | .cancel (k :: _) => s.cancel i k
      | _ => s.net i .ctl
    | .net _ (.call _) => none -- through the service only
    | .net i ch => s.net i ch
    | .pass i =>
      match s.rd i with
      | some r => (Parallel.step s.p (.send r)).map fun p => { s with p, rd := set s.rd i none }
      | none => none
    | .svc ch => s.svc ch

def run : St → List Choice → Option St
  | s, [] => some s
  | s, c :: cs => (step s c).bind fun s => run s cs

end Verif.Served
