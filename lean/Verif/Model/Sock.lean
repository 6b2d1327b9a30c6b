import Verif.Model.Serv

/-! What a connection of the server does to its socket (net/server/connection.go:71,143,248), beside what it does otherwise
(Model/Serv.lean). There is no other call: nothing closes the socket (`Close` is called in server.go:117 only, for connections that are
accepted too late). For connections of the client see `shut`, `called` in Model/ConnClose.lean. -/
namespace Verif.Sock
open Verif.Serv (Choice)

/-- `shut`: `CloseWrite` was called, so that the client reads the end. `shutR`: the control loop has called `CloseRead`. `failed`: writing
failed. -/
structure St where
  s : Serv.St
  shut : Bool
  shutR : Bool
  failed : Bool

def init : St := { s := Serv.init, shut := false, shutR := false, failed := false }

/-- The write loop calls `CloseWrite` if there was no error, before it notifies (connection.go:245-251; here: at once with it); the control
loop calls `CloseRead` when the write loop has ended and the read loop has not (connection.go:141-144). -/
def step (x : St) (c : Choice) : Option St :=
  match Serv.step x.s c with
  | none => none
  | some s => some
    { s
      shut := x.shut || (c == .wl && x.s.wp == .fin false)
      shutR := x.shutR || (c == .ctl && x.s.cp == .report && !x.s.rdClosed)
      failed := x.failed || c == .wErr }

def run : St → List Choice → Option St
  | x, [] => some x
  | x, c :: cs => (step x c).bind fun x => run x cs

end Verif.Sock
