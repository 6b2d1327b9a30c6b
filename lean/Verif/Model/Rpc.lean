import Verif.Model.Iface
import Verif.Model.ByteLink

/-!
Calls with typed arguments and results on top of the byte streams: `SendMsgBody`, `CallMsgBody`, `Request.Respond`, `Body.Read` (request.go:155-163,
235-264,289-291), `marshal.Write` and `marshal.Read` (marshal/marshal.go:76-83,100-106).

* The pooled writer is a new one, and so is the pooled reader: what a call gets does not depend on which one it is (C106; the reader is
  emptied before it is put back, marshal/marshal.go:80).
-/
namespace Verif.Rpc
open Verif.Marshal Verif.Reflect

/-- `marshal.Write` (marshal/marshal.go:100-106). `none`: it panics. -/
def marshalWrite (i : Iface.Any) : Option Bytes :=
  (Iface.writeAny i (Wr.new 512)).map fun w => w.written.1.mem.view w.written.2

/-- `marshal.Read` into a new variable of type `t` (marshal/marshal.go:76-83), and `Body.Read` (request.go:289-291): the error and the
variable. What is left of the body is dropped. -/
def marshalRead (t : Ty) (b : Bytes) : Option (Option RErr × Val) :=
  (Iface.readPtr t ⟨b, none⟩ (zero t)).map fun q => (q.1.err, q.2)

/-- The argument of `Send`, `Call` or `Respond`: a `Body`, or another value. -/
inductive Arg
  | body (b : Bytes)
  | val (t : Ty) (v : Val)

/-- The body of the request (request.go:236-240,252-256) or of the response (request.go:156-161). -/
def toBody : Arg → Option Bytes
  | .body b => some b
  | .val t v => marshalWrite (.val t v)

end Verif.Rpc
