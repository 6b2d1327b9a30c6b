/-!
How a client connection finds out that its peer has closed it: the write loop with its two selects, its buffer and its pings, the read loop and the
control loop of `Connection` (net/client/connection/connection.go).

Simplifications:
* `getNext` and `SetInFly` are part of the step that receives a request (C51-C54, C71); a request that is in flight stays there until the read loop or
  `flushInFly` answers it (a cancelled one is answered by nobody else: C71);
* of the buffer of the writer only `dirty` is kept: whether there is something in it (buf_writer.go:11); after `CloseWrite` the socket refuses what
  is written to it, before it may accept it or not;
* `Ping` is written to an empty buffer (the write loop has flushed before it waits), so it does not fail (connection.go:270-275, 284);
* a response is read in the step in which it is sent; the peer may answer whatever is in flight;
* `Stop` is a flag, which both `Stopped()` and the exit channel show; the reports on `ConnErr` are left out (C73, C143);
* `flushInFly` is one step (C53).
-/
namespace Verif.Lost

/-- `notifyAction` (connection.go:16-22). -/
inductive Act | writeClosed | readClosed | readEmpty
deriving DecidableEq, Repr

/-- How a request is answered: by the peer's response, or with `RcIOError` or `RcShutdown` (connection.go:189-196). -/
inductive Ans | response | ioError | shutdown
deriving DecidableEq, Repr

/-- The write loop (connection.go:230-305). -/
inductive WPc
  | top                   -- before `Stopped()` (262)
  | sel                   -- in the outer select (267-270)
  | wait                  -- in the inner select (273)
  | write                 -- SetInFly succeeded, before WriteRequest (299)
  | closing               -- in the deferred function with err == nil (245)
  | notify                -- before notifyLoop(writeClosed) (250)
  | ended
deriving DecidableEq, Repr

/-- The read loop (connection.go:204-226). -/
inductive RPc
  | read
  | check                 -- before looking at State (222)
  | empty                 -- before notifyLoop(readEmpty) (223)
  | notify                -- before notifyLoop(readClosed) (208)
  | ended
deriving DecidableEq, Repr

/-- The control loop (connection.go:146-183). -/
inductive CPc
  | recv                  -- before receiving from loopNotify (158)
  | eval                  -- after the switch (173)
  | flush                 -- before flushInFly (151)
  | ended
deriving DecidableEq, Repr

/-- `pings`: `PingInterval > 0`. `q`: the requests waiting in the receive channel. `taken`: all requests for which `SetInFly` succeeded (never read).
`held`: an id was taken for a request that turned out to be cancelled (`req != nil`, connection.go:286-291). -/
structure St where
  pings : Bool
  q : List Nat
  stopped : Bool
  gone : Bool             -- the peer has closed the connection
  shut : Bool             -- CloseWrite was called
  dirty : Bool            -- there is something in the writer's buffer
  taken : List Nat
  fly : List Nat
  held : Bool
  ans : List (Nat × Ans)
  wp : WPc
  rp : RPc
  cp : CPc
  note : List Act         -- loopNotify, room for two (92)
  stW : Bool              -- State&CsWriteClosed != 0
  stR : Bool              -- State&CsReadClosed != 0
  called : Bool           -- closeReadCalled
  shutdown : Bool
deriving DecidableEq, Repr

def init (pings : Bool) : St :=
  { pings, q := [], stopped := false, gone := false, shut := false, dirty := false, taken := [], fly := [], held := false, ans := [], wp := .top,
    rp := .read, cp := .recv, note := [], stW := false, stR := false, called := false, shutdown := false }

inductive Wrote
  | kept                  -- the request is in the buffer
  | through               -- it was written to the socket, with all there was in the buffer
  | failed
deriving DecidableEq, Repr

inductive Choice
  | send (r : Nat)        -- somebody sends a request
  | stop                  -- somebody stops the connection
  | hangUp                -- the peer closes the connection
  | resp (r : Nat)        -- the peer's response is read (211-221)
  | go                    -- the write loop looks at `Stopped()` (262-265)
  | take (pending : Bool) -- ... receives a request, which is still pending or was cancelled (268, 276, 286-297)
  | flush (ok : Bool)     -- ... finds no request, and flushes (269-272)
  | tick                  -- ... gets a tick and writes a ping (274-275, 284)
  | exit                  -- ... receives from its exit channel (277-279)
  | write (w : Wrote)     -- ... writes a request (299-303)
  | last (ok : Bool)      -- ... flushes for the last time (246-248)
  | tellW                 -- ... and notifies the control loop (250)
  | look                  -- the read loop looks at State, put and got (222)
  | tellE                 -- ... notifies the control loop that nothing is in flight (223)
  | readErr               -- reading fails (211-213)
  | tellR                 -- the read loop notifies the control loop (208)
  | recv                  -- the control loop receives (158-171)
  | eval                  -- ... and decides (173-181)
  | fail                  -- ... and answers what is in flight (185-198)
deriving DecidableEq, Repr

/-- `inFly.count() == 0`, `inFly.put >= inFly.got` (request_holder.go:108-112). -/
def noneLeft (s : St) : Bool := s.fly.isEmpty && !s.held

/-- The case of the control loop's switch for an action (connection.go:160-171). -/
def act (s : St) : Act → St
  | .writeClosed => { s with stW := true, cp := .eval }
  | .readClosed => { s with stR := true, shut := s.shut || !s.stW, cp := .eval }
  | .readEmpty => { s with cp := .eval }

def step (s : St) : Choice → Option St
  | .send r => some { s with q := s.q ++ [r] }
  | .stop => some { s with stopped := true }
  | .hangUp => some { s with gone := true }
  | .resp r =>
    if s.rp = .read ∧ r ∈ s.fly then some { s with fly := s.fly.erase r, ans := s.ans ++ [(r, .response)], rp := .check } else none
  | .go =>
    if s.wp = .top then
      if s.stopped then some { s with shutdown := true, wp := .closing } else some { s with wp := .sel }
    else none
  | .take pending =>
    if s.wp = .sel ∨ s.wp = .wait then
      match s.q with
      | [] => none
      | r :: q =>
        if pending then some { s with q, taken := s.taken ++ [r], fly := s.fly ++ [r], held := false, wp := .write }
        else some { s with q, held := true, wp := .top }
    else none
  | .flush ok =>
    if s.wp = .sel ∧ s.q = [] then
      if ok then
        if s.dirty ∧ s.shut then none else some { s with dirty := false, wp := .wait }
      else if s.dirty then some { s with wp := .notify }
      else none
    else none
  | .tick => if s.wp = .wait ∧ s.pings then some { s with dirty := true, wp := .top } else none
  | .exit => if s.wp = .wait ∧ s.stopped then some { s with shutdown := true, wp := .closing } else none
  | .write w =>
    if s.wp = .write then
      match w with
      | .kept => some { s with dirty := true, wp := .top }
      | .through => if s.shut then none else some { s with dirty := false, wp := .top }
      | .failed => some { s with wp := .notify }
    else none
  | .last ok =>
    if s.wp = .closing then
      if ok then
        if s.dirty ∧ s.shut then none else some { s with dirty := false, shut := true, wp := .notify }
      else if s.dirty then some { s with wp := .notify }
      else none
    else none
  | .tellW => if s.wp = .notify ∧ s.note.length < 2 then some { s with note := s.note ++ [.writeClosed], wp := .ended } else none
  | .look =>
    if s.rp = .check then
      if s.stW ∧ noneLeft s then some { s with rp := .empty } else some { s with rp := .read }
    else none
  | .tellE => if s.rp = .empty ∧ s.note.length < 2 then some { s with note := s.note ++ [.readEmpty], rp := .read } else none
  | .readErr => if s.rp = .read ∧ (s.called ∨ s.gone) then some { s with rp := .notify } else none
  | .tellR => if s.rp = .notify ∧ s.note.length < 2 then some { s with note := s.note ++ [.readClosed], rp := .ended } else none
  | .recv =>
    match s.note with
    | a :: q => if s.cp = .recv then some (act { s with note := q } a) else none
    | [] => none
  | .eval =>
    if s.cp = .eval then
      let s := if s.stW ∧ s.called = false ∧ noneLeft s then { s with called := true } else s
      if s.stW ∧ s.stR then some { s with cp := .flush } else some { s with cp := .recv }
    else none
  | .fail =>
    if s.cp = .flush then
      some { s with ans := s.ans ++ s.fly.map fun r => (r, if s.shutdown then .shutdown else .ioError), fly := [], cp := .ended }
    else none

def run : St → List Choice → Option St
  | s, [] => some s
  | s, c :: cs => (step s c).bind fun s => run s cs

end Verif.Lost
