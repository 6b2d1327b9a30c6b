import Verif.Model.Link
import Verif.Model.Net
import Verif.Model.Misc
/-!
A client connection (Model/Conn.lean) and a server connection (Model/Serv.lean) joined by two streams of bytes: each side
writes frames through its buffered writer and reads them through its slice reader (Model/Net.lean).

Simplifications, besides those of the parts:
* bytes arrive in any pieces, in order; a call which reads a frame is one step, taken once all its bytes have arrived. Until
  then it waits. That it fails or panics because the stream ends is `rErr`, `endRead` (see C06);
* a handler is a pair of functions from the number of the request to the code and the body of its answer;
* `readEmpty` (net/client/connection/connection.go:222-224) is left out, as in Model/Conn.lean.
-/
namespace Verif.ByteLink
open Verif.Net

/-- `rc`: the return code type of both sides. `msg`, `body`: the requests of the client. `code`, `answer`: what the handler
gives for the k-th request received by the server. `map`: the server's `RCMap`. -/
structure Env where
  rc : RCType
  msg : Nat → UInt32
  body : Nat → Bytes
  code : Nat → UInt32
  answer : Nat → Bytes
  map : Option Misc.RCMap

/-- Where `Loop` is (net/client/connection/connection.go:102-127): about to ping, waiting for the pong, the loops run. -/
inductive Phase | ping | pong | run
deriving DecidableEq, Repr

/-- `cw`, `cr`: writer and reader of the client; `sw`, `sr`: of the server. `cok`: the client's write loop has had no error.
`upN`: how many bytes of those written by the client have arrived; `downN`: the other way. `got`: the requests read by the
server, without pings; `back`: the frames read by the client, with pongs. -/
structure St where
  c : Conn.St
  s : Serv.St
  phase : Phase
  cw : BufW
  cok : Bool
  upN : Nat
  sr : SR
  sw : BufW
  downN : Nat
  cr : SR
  got : List (Req Slc)
  back : List (Resp Slc)

/-- Without `dial` the handshake is left out: what `RunWithConn` (net/client/connection/connection.go:130-141) would do if it initialised
the reader and the writer, which it forgets, so that it panics. -/
def init (dial : Bool) : St :=
  { c := Conn.init, s := Serv.init, phase := if dial then .ping else .run, cw := BufW.init ⟨[], none⟩, cok := true, upN := 0,
    sr := SR.init ⟨[], .other 0, false⟩, sw := BufW.init ⟨[], none⟩, downN := 0, cr := SR.init ⟨[], .other 0, false⟩,
    got := [], back := [] }

/-- `k`: how many bytes the connection will still take. -/
def limit (w : BufW) (k : Option Nat) : BufW := { w with conn := { w.conn with budget := k } }

/-- The header of the request in hand (net/client/connection/connection.go:292-296). -/
def request (e : Env) (id r : Nat) (full : Bool) : Req Bytes :=
  ⟨e.msg r, if full then e.body r else [], UInt32.ofNat id⟩

/-- What the server writes: a pong (net/server/connection.go:174-178), or a response with the type and the id of its request
(request.go:129-137), its code changed by `Respond` (net/server/connection.go:75-84). -/
def response (e : Env) (got : List (Req Slc)) : Serv.Item → Resp Bytes
  | .pong id => ⟨pingType, UInt32.ofNat id, 0, []⟩
  | .resp id k => ⟨(got[k]?.map (·.msg)).getD 0, UInt32.ofNat id, Misc.wireCode e.map (e.code k), e.answer k⟩

/-- What the server's write loop does to its writer (net/server/connection.go:245, 278, 286). -/
def put (e : Env) (b : St) (w : BufW) : BufW × Out Unit :=
  match b.s.wp with
  | .got m => writeResponse e.rc w (response e b.got m)
  | .flush => w.flush
  | .fin false => w.flush
  | _ => (w, .ok ())

/-- `k = some n`: the connection takes `n` more bytes and then fails. -/
inductive Choice
  | dialPing
  | dialPong
  | client (c : Conn.Choice)
  | write (k : Option Nat)   -- the client writes the request in hand (299)
  | ping (k : Option Nat)    -- ... pings (284)
  | flush (k : Option Nat)   -- ... flushes (271, 249)
  | server (c : Serv.Choice)
  | put (k : Option Nat)     -- the server's write loop goes on
  | arriveUp (j : Nat)       -- j more bytes reach the server
  | arriveDown (j : Nat)     -- ... the client
  | up                       -- the server's read loop reads a frame (net/server/connection.go:170-203)
  | down                     -- the client's read loop reads a frame (net/client/connection/connection.go:210-220)
deriving DecidableEq, Repr

def step (e : Env) (b : St) : Choice → Option St
  | .dialPing =>
    if b.phase = .ping then
      match BufW.andThen (writePing b.cw) (·.flush) with
      | (cw, .ok ()) => some { b with cw, phase := .pong }
      | _ => none
    else none
  | .dialPong =>
    if b.phase = .pong then
      match readPing b.cr with
      | (cr, .ok ()) => some { b with cr, phase := .run, back := b.back ++ [⟨pingType, pingId, 0, Slc.nil⟩] }
      | _ => none
    else none
  | .client (.resp _ _) => none
  | .client (.wrote _) => none
  | .client (.endWrite false) => none
  | .client c => if b.phase = .run then (Conn.step b.c c).map fun c => { b with c } else none
  | .write k =>
    if b.phase = .run then
      match b.c.wp with
      | .write id r full =>
        match k, writeRequest (limit b.cw k) (request e id r full) with
        | none, (cw, .ok ()) => (Conn.step b.c (.wrote true)).map fun c => { b with c, cw }
        | some _, (cw, .err _) => (Conn.step b.c (.wrote false)).map fun c => { b with c, cw, cok := false }
        | _, _ => none
      | _ => none
    else none
  | .ping k =>
    if b.phase = .run ∧ b.c.wp = .loop then
      match k, writePing (limit b.cw k) with
      | none, (cw, .ok ()) => some { b with cw }
      | some _, (cw, .err _) => (Conn.step b.c (.endWrite false)).map fun c => { b with c, cw, cok := false }
      | _, _ => none
    else none
  | .flush k =>
    if b.phase = .run ∧ b.cok = true ∧ (b.c.wp = .loop ∨ b.c.wp = .ended) then
      match k, (limit b.cw k).flush with
      | none, (cw, .ok ()) => some { b with cw }
      | some _, (cw, .err _) =>
        if b.c.wp = .loop then (Conn.step b.c (.endWrite false)).map fun c => { b with c, cw, cok := false }
        else some { b with cw, cok := false }
      | _, _ => none
    else none
  | .server (.recv _) => none
  | .server (.ping _) => none
  | .server .wl => none
  | .server .wErr => none
  | .server c => (Serv.step b.s c).map fun s => { b with s }
  | .put k =>
    match k, put e b (limit b.sw k) with
    | none, (sw, .ok ()) => (Serv.step b.s .wl).map fun s => { b with s, sw }
    | some _, (sw, .err _) => (Serv.step b.s .wErr).map fun s => { b with s, sw }
    | _, _ => none
  | .arriveUp j =>
    let piece := (b.cw.conn.out.drop b.upN).take j
    some { b with upN := b.upN + piece.length, sr := { b.sr with src := { b.sr.src with chunks := b.sr.src.chunks ++ [piece] } } }
  | .arriveDown j =>
    let piece := (b.sw.conn.out.drop b.downN).take j
    some { b with downN := b.downN + piece.length, cr := { b.cr with src := { b.cr.src with chunks := b.cr.src.chunks ++ [piece] } } }
  | .up =>
    match readRequest b.sr with
    | (sr, .ok q) =>
      if q.msg = pingType then (Serv.step b.s (.ping q.id.toNat)).map fun s => { b with s, sr }
      else (Serv.step b.s (.recv q.id.toNat)).map fun s => { b with s, sr, got := b.got ++ [q] }
    | _ => none
  | .down =>
    if b.phase = .run then
      match readResponse e.rc b.cr with
      | (cr, .ok q) =>
        if q.id = pingId ∧ q.msg = pingType then
          if b.c.rp = .read then some { b with cr, back := b.back ++ [q] } else none
        else (Conn.step b.c (.resp q.id.toNat b.back.length)).map fun c => { b with c, cr, back := b.back ++ [q] }
      | _ => none
    else none

def run (e : Env) : St → List Choice → Option St
  | b, [] => some b
  | b, c :: cs => (step e b c).bind fun b => run e b cs

end Verif.ByteLink
