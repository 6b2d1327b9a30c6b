import Verif.Model.Whole
import Verif.Spec.Endpoint
import Verif.Spec.Served
/-!
Terms in which the theorems about both ends are stated.
-/
namespace Verif.Whole

/-- The request with number `q` at the server is request `r` of the endpoint: it came over the same connection, in the same place. -/
def Is (own : Nat → Bool) (w : St) (q r : Nat) : Prop :=
  q < w.s.m ∧ own (w.s.conn q) = true ∧ ∃ id f, (w.e.c (w.s.conn q)).wire[w.s.key q]? = some (id, r, f)

/-- The server has answered the request with number `q` with this code. -/
def Gave (w : St) (q : Nat) (src : Parallel.Src) (code : Nat) : Prop := w.s.p.ans q = some (src, code)

/-- Both ends go on by themselves: the server (as in `Served.Forth`); and on the connections in `l` the read loops of both sides read what the
other side has written and go on, and the write loop of the client finishes writing the request it has, without errors. -/
def Onward (ret : Nat → Parallel.Outcome) (l : List Nat) (c : Choice) : Prop :=
  (∃ x, c = .server x ∧ Served.Forth ret l x) ∨ ∃ i, i ∈ l ∧ (c = .server (.net i .rl) ∨ c = .up i ∨ c = .down i ∨
    c = .client (.conn i .header) ∨ c = .client (.conn i (.wrote true)) ∨ c = .client (.conn i .reply))

/-- Connection `i` of the endpoint has written request `r`, or is about to. -/
def Carries (w : St) (i r : Nat) : Prop :=
  (∃ id f, (id, r, f) ∈ (w.e.c i).wire) ∨ (∃ o j, (w.e.c i).wp = .header r o j) ∨ ∃ id f, (w.e.c i).wp = .write id r f

/-- Nobody has closed connection `i`: both sides read, and writing by the server has not failed. -/
structure Open (w : St) (i : Nat) : Prop where
  client : (w.e.c i).rp ≠ .ended
  server : (w.s.c i).rp ≠ .notify ∧ (w.s.c i).rp ≠ .done
  out : (w.s.c i).wp ≠ .fin true ∧ (w.s.c i).wp ≠ .done true

/-- Fewer than 128 requests and pings were written to connection `i`. -/
def Roomy (w : St) (i : Nat) : Prop := (w.e.c i).wire.length + (w.s.c i).pings.length < 128

/-- Everything goes on by itself: what `Onward` says; and the calls of `Send` of the requests in `rs`, their answering once it has begun, the
forwarding goroutine of the queue, and the write loops of the connections in `l`, which take requests from the queue; the write loops of the
connections in `d`, which may still take requests and write them, but end at some time (C145), and their control loops; and `AllDisconnected`, if it
has taken a request. -/
def Moves (ret : Nat → Parallel.Outcome) (l d rs : List Nat) (c : Choice) : Prop :=
  Onward ret l c ∨ (∃ i, i ∈ l ∧ c = .client (.take i)) ∨ c = .client (.queue .loop) ∨
    (∃ r, r ∈ rs ∧ (c = .client (.queue (.push r)) ∨ c = .client (.queue (.headFirst r)) ∨ c = .client (.queue (.answer r)))) ∨
    (∃ i, i ∈ d ∧ (c = .client (.conn i .flush) ∨ c = .client (.conn i .flushOne))) ∨ c = .client .ioError ∨
    (∃ i, i ∈ d ∧ (c = .client (.take i) ∨ c = .client (.conn i .header) ∨
      (∃ b, c = .client (.conn i (.wrote b)) ∨ c = .client (.conn i (.endWrite b)))))

/-- How many of the requests in `rs` were not yet taken from the queue. -/
def waiting (w : St) (rs : List Nat) : Nat := (rs.filter fun r => !(w.e.got.map (·.1)).contains r).length

/-- `rs` are the requests for which `Send` was called. -/
def Calls (w : St) (rs : List Nat) : Prop := ∀ r, r ∈ rs ↔ .call r ∈ w.e.b.log

/-- Connection `i` will have fewer than 128 requests and pings and does not run out of ids, even if it gets everything that waits. -/
def Fits (w : St) (rs : List Nat) (i : Nat) : Prop :=
  (w.e.c i).wire.length + (w.s.c i).pings.length + waiting w rs < 128 ∧ (w.e.c i).h.got + waiting w rs ≤ Conn.M - 2

/-- Connection `i` belongs to the endpoint, nobody has closed it, the write loop of the client goes on, and there is room for what waits. -/
structure Works (own : Nat → Bool) (w : St) (rs : List Nat) (i : Nat) : Prop where
  mine : own i = true
  opn : Open w i
  writes : (w.e.c i).wp ≠ .ended
  fits : Fits w rs i

/-- Connection `i` has given request `r` the answer which the server has given to it. -/
def GotAnswer (own : Nat → Bool) (w : St) (i r : Nat) : Prop :=
  ∃ q id src code, (w.e.c i).ans r = some (.response id (w.s.key q)) ∧ Is own w q r ∧ w.s.conn q = i ∧ Gave w q src code ∧
    (src = .handler → w.s.p.out q = some (.returned code))

/-- The dispatcher of the service has received request `r` after it had left its loop (which it does when `Stop` is called). -/
def Dropped (own : Nat → Bool) (w : St) (r : Nat) : Prop := ∃ q, Is own w q r ∧ q ∈ w.s.p.drained

/-- The read loop and the write loop of connection `i` of the endpoint have ended. -/
def Over (w : St) (i : Nat) : Prop := (w.e.c i).wp = .ended ∧ (w.e.c i).rp = .ended

/-- The read loop of connection `i` has ended. If its write loop has not, it does not run out of ids, even if it gets everything that waits. -/
structure Down (w : St) (rs : List Nat) (i : Nat) : Prop where
  read : (w.e.c i).rp = .ended
  ids : (w.e.c i).h.got + waiting w rs ≤ Conn.M - 2

/-- Nobody but the connections in `l` has taken `r` from the queue. -/
def OnlyBy (w : St) (l : List Nat) (r : Nat) : Prop := ∀ x, (r, x) ∈ w.e.got → ∃ i, i ∈ l ∧ x = some i

/-- Nobody but the connections in `l` and in `d` and `AllDisconnected` has taken `r` from the queue. -/
def KeptBy (w : St) (l d : List Nat) (r : Nat) : Prop := ∀ i, (r, some i) ∈ w.e.got → i ∈ l ∨ i ∈ d

end Verif.Whole
