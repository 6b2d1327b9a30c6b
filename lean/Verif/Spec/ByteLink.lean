import Verif.Model.ByteLink
import Verif.Spec.Frames
import Verif.Spec.Conn
/-!
Words used in the statements about a link of bytes.
-/
namespace Verif.ByteLink

/-- Requests are no pings, and every body fits into a frame. -/
def Env.Fits (e : Env) : Prop :=
  (∀ r, e.msg r ≠ 0xFF00 ∧ (e.body r).length < 2 ^ 32) ∧ ∀ k, (e.answer k).length + 4 < 2 ^ 32

/-- Return codes are not sent; or they have four bytes, and the client never pings. -/
def Sane (e : Env) (dial : Bool) (cs : List Choice) : Prop :=
  e.rc = .rc0 ∨ (e.rc = .rc4 ∧ dial = false ∧ ∀ k, Choice.ping k ∉ cs)

/-- What of a return code reaches the client. -/
def Env.carried (e : Env) (c : UInt32) : UInt32 :=
  match e.rc with | .rc0 => 0 | .rc1 => c &&& 0xFF | .rc4 => c

/-- The code which the server sends for the handler's code `c`: a code of the internal kind is replaced by what the server's
map has for it, or else becomes fatal. -/
def Env.sent (e : Env) (c : UInt32) : UInt32 :=
  if c &&& 7 = 3 then
    match e.map.bind (·.lookup c) with
    | some v => if v = 0 then (c &&& ~~~7) ||| 2 else v
    | none => (c &&& ~~~7) ||| 2
  else c

/-- What the server's handler sees of the k-th request received, now. -/
def St.seen (b : St) (k : Nat) : Option Spec.ReqMsg := b.got[k]?.map fun q => ⟨q.msg, q.id, b.sr.mem.view q.body⟩

/-- What the client sees of the d-th frame received, now. -/
def St.read (b : St) (d : Nat) : Option Spec.RespMsg := b.back[d]?.map fun q => ⟨q.msg, q.id, q.code, b.cr.mem.view q.body⟩

/-- The client has read every byte which the server has written. -/
def St.drained (b : St) : Prop :=
  b.downN = b.sw.conn.out.length ∧ b.cr.mem.view b.cr.buf = [] ∧ b.cr.src.chunks.flatten = []

end Verif.ByteLink
