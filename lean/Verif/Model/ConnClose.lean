/-!
The end of a client connection: how the write loop, the read loop and the control loop of `Connection` (net/client/connection/connection.go)
agree that the connection can be closed.

Simplifications:
* requests are counted, not named: `got` and `put` are those of `RequestHolder` (request_holder.go:28-31); which response belongs to which
  request is the subject of C51-C54 and C71, C72;
* the peer answers each request that was written at most once, in any order, whenever it likes, and may close the connection;
* the reports on `ConnErr` are left out (C73), as are pings, which do not touch the holder;
* `flushInFly` is what the control loop does when it has ended (C53).
-/
namespace Verif.ConnClose

/-- `notifyAction` (connection.go:16-22). -/
inductive Act | writeClosed | readClosed | readEmpty
deriving DecidableEq, Repr

/-- The write loop (connection.go:230-305). -/
inductive WPc
  | loop
  | claimed               -- SetInFly succeeded, before WriteRequest (connection.go:299)
  | closing               -- the deferred function, before Flush (connection.go:246), err == nil
  | notify                -- before notifyLoop(writeClosed) (connection.go:250)
  | ended
deriving DecidableEq, Repr

/-- The read loop (connection.go:204-226). -/
inductive RPc
  | read
  | check                 -- a response was read and its id removed; before looking at State (connection.go:222)
  | empty                 -- before notifyLoop(readEmpty) (connection.go:223)
  | notify                -- before notifyLoop(readClosed) (connection.go:208)
  | ended
deriving DecidableEq, Repr

/-- The control loop (connection.go:154-183). -/
inductive CPc
  | recv                  -- before receiving from loopNotify (connection.go:158)
  | eval                  -- after the switch (connection.go:173)
  | ended
deriving DecidableEq, Repr

/-- `held`: the write loop has an id which it has not used (`req != nil`). `lost`: writing a request failed. `written`, `sent`: the numbers
of requests written, and of responses sent by the peer, of which `wire` were not read yet. -/
structure St where
  got : Nat
  put : Nat
  held : Bool
  lost : Bool
  written : Nat
  sent : Nat
  wire : Nat
  wp : WPc
  rp : RPc
  cp : CPc
  queue : List Act        -- loopNotify, room for two (connection.go:92)
  stW : Bool              -- State&CsWriteClosed != 0
  stR : Bool              -- State&CsReadClosed != 0
  called : Bool           -- closeReadCalled: CloseRead was called
  shut : Bool             -- CloseWrite was called
  broken : Bool           -- the peer has closed the connection or reading failed otherwise
deriving DecidableEq, Repr

def init : St :=
  { got := 0, put := 0, held := false, lost := false, written := 0, sent := 0, wire := 0, wp := .loop, rp := .read, cp := .recv, queue := [],
    stW := false, stR := false, called := false, shut := false, broken := false }

inductive Choice
  | take (pending : Bool) -- the write loop receives a request, which is still pending or was cancelled (connection.go:268, 276, 286-291)
  | write (ok : Bool)     -- WriteRequest (connection.go:299)
  | stop                  -- the write loop is told to stop (connection.go:262-265, 277-279)
  | flushErr              -- Flush or Ping fails in the loop (connection.go:270, 284)
  | flush (ok : Bool)     -- the last Flush (connection.go:246-247)
  | tellW                 -- notifyLoop(writeClosed)
  | respond               -- the peer sends a response
  | hangUp                -- the peer closes the connection, or a read timeout
  | read                  -- the read loop reads a response and removes its id (connection.go:211-221)
  | look                  -- ... looks at State, put and got (connection.go:222)
  | tellE                 -- notifyLoop(readEmpty)
  | readErr               -- reading fails, because of CloseRead or the peer
  | tellR                 -- notifyLoop(readClosed)
  | recv                  -- the control loop receives (connection.go:158-171)
  | eval                  -- ... and decides (connection.go:173-181)
deriving DecidableEq, Repr

/-- The case of the control loop's switch for an action (connection.go:160-171). -/
def act (s : St) : Act → St
  | .writeClosed => { s with stW := true, cp := .eval }
  | .readClosed => { s with stR := true, shut := s.shut || !s.stW, cp := .eval }
  | .readEmpty => { s with cp := .eval }

def step (s : St) : Choice → Option St
  | .take pending =>
    if s.wp = .loop then
      let s := if s.held then s else { s with got := s.got + 1 }
      if pending then some { s with held := false, wp := .claimed } else some { s with held := true }
    else none
  | .write ok =>
    if s.wp = .claimed then
      if ok then some { s with written := s.written + 1, wp := .loop } else some { s with lost := true, wp := .notify }
    else none
  | .stop => if s.wp = .loop then some { s with wp := .closing } else none
  | .flushErr => if s.wp = .loop then some { s with wp := .notify } else none
  | .flush ok => if s.wp = .closing then some { s with shut := s.shut || ok, wp := .notify } else none
  | .tellW => if s.wp = .notify ∧ s.queue.length < 2 then some { s with queue := s.queue ++ [.writeClosed], wp := .ended } else none
  | .respond => if s.sent < s.written then some { s with sent := s.sent + 1, wire := s.wire + 1 } else none
  | .hangUp => some { s with broken := true }
  | .read => if s.rp = .read ∧ 0 < s.wire then some { s with wire := s.wire - 1, put := s.put + 1, rp := .check } else none
  | .look =>
    if s.rp = .check then
      if s.stW ∧ s.got ≤ s.put then some { s with rp := .empty } else some { s with rp := .read }
    else none
  | .tellE => if s.rp = .empty ∧ s.queue.length < 2 then some { s with queue := s.queue ++ [.readEmpty], rp := .read } else none
  | .readErr => if s.rp = .read ∧ (s.called ∨ s.broken) then some { s with rp := .notify } else none
  | .tellR => if s.rp = .notify ∧ s.queue.length < 2 then some { s with queue := s.queue ++ [.readClosed], rp := .ended } else none
  | .recv =>
    match s.queue with
    | a :: q => if s.cp = .recv then some (act { s with queue := q } a) else none
    | [] => none
  | .eval =>
    if s.cp = .eval then
      let s := if s.stW ∧ s.called = false ∧ s.got - s.put = 0 then { s with called := true } else s
      if s.stW ∧ s.stR then some { s with cp := .ended } else some { s with cp := .recv }
    else none

def run : St → List Choice → Option St
  | s, [] => some s
  | s, c :: cs =>
    match step s c with
    | none => none
    | some s' => run s' cs

end Verif.ConnClose
