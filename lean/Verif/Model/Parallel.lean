/-!
`ParallelService` (parallel_service.go) on its `SimplePoint` (service.go), with any number of requests.

Goroutines: the dispatcher (`Loop`), one handler goroutine per dispatched request (`serv`), one caller of `Stop`, and
everybody who has a request in hand and may cancel, expire or answer it at any time.

Simplifications:
* a request's methods are one step each (what happens inside is the subject of `Verif.Model.Request`); requests have no
  bookmarks except the `ReqContext` set by the dispatcher, and `Buffer.push`'s, which do not interfere; Responders return;
* the buffer in front of the channel (`Buffer`, C39, C40) is left out: a request sent is put into the channel;
* what a handler does is: return a code, or panic; what it does besides is up to the schedule (`answer`, `fail`);
* `Cancel`, `Expire` and `Done` of the request's context only set its state (see `Verif.Model.Context`);
* there is one call of `Stop` (a second one closes a closed channel and panics).
-/
namespace Verif.Parallel

/-- Return codes (response.go:20-29). `RcCanceled` has the same value as `RcShutdown`. -/
def rcShutdown : Nat := 0xff03
def rcCanceled : Nat := 0xff03
def rcTimeout : Nat := 0xfd03
def rcInternalError : Nat := 0xfc02

/-- Request states (request.go:223-233); `RsPrepared` is seen by the answering goroutine only. -/
inductive RS | new | pending | inFly | performed
deriving DecidableEq, Repr

/-- Who answered: the handler's result, `ReqContext.Done`, the dispatcher's `ShutDown`, somebody else. -/
inductive Src | handler | done | shutdown | other
deriving DecidableEq, Repr

/-- What the handler `f` did. -/
inductive Outcome
  | returned (code : Nat)
  | panicked
deriving DecidableEq, Repr

/-- The dispatcher (parallel_service.go:45-102). -/
inductive DPc
  | top                 -- about to look for exit (50)
  | poll                -- about to receive without waiting (54)
  | block               -- waiting for a request or exit (60)
  | got (r : Nat)       -- about to look for exit again (71)
  | grab (r : Nat)      -- about to take a slot without waiting (76)
  | slot (r : Nat)      -- waiting for a slot or exit (79)
  | claim (r : Nat)     -- has a slot; about to call req.Context() (88)
  | giveBack            -- the request was gone; about to return the slot (92)
  | drain               -- after the loop, receiving (97)
  | refuse (r : Nat)    -- about to call req.Respond(RcShutdown, nil) (100)
deriving DecidableEq, Repr

/-- A handler goroutine (parallel_service.go:104-121). -/
inductive HPc
  | idle
  | look                      -- about to read ctx.Request (118)
  | running                   -- in serv.f (119)
  | answer (code : Nat)       -- serv.f returned; about to call req.Respond (119)
  | fin                       -- in inc; about to call ctx.Done() (111)
  | release                   -- about to release the generator and to return the slot (112-113)
  | ended
deriving DecidableEq, Repr

/-- The caller of `Stop` (service.go:150-156). -/
inductive SPc | idle | sending | done
deriving DecidableEq, Repr

/-- `ctxReq r`: `ctx.Request ≠ nil` for the request's context. `cx r`: the context's `State`. `ans r`: the answer, and who
gave it. `out r`: what the handler did. `spawned`: the requests for which a handler was started, latest first (never
read). `drained`: the requests received after the loop (never
read). `atStop`: the number of
handlers started before `Stop` (never read). -/
structure St where
  cap : Nat
  sema : Nat
  ch : List Nat
  d : DPc
  h : Nat → HPc
  rs : Nat → RS
  ctxReq : Nat → Bool
  cx : Nat → Nat
  ans : Nat → Option (Src × Nat)
  out : Nat → Option Outcome
  stop : SPc
  spawned : List Nat
  drained : List Nat
  atStop : Nat

/-- `BF.New` (parallel_service.go:17-35): `N` slots, one if `N` is zero. -/
def init (n : Nat) : St :=
  let n := if n = 0 then 1 else n
  { cap := n, sema := n, ch := [], d := .top, h := fun _ => .idle, rs := fun _ => .new, ctxReq := fun _ => false,
    cx := fun _ => 0, ans := fun _ => none, out := fun _ => none, stop := .idle, spawned := [], drained := [], atStop := 0 }

def set {α : Type} (f : Nat → α) (k : Nat) (v : α) : Nat → α := fun j => if j = k then v else f j

/-- `chainResponse` (request.go:129-153) with `ReqContext.Respond` (request.go:196-206) if the context is chained: an
answer `RcTimeout` expires the context and leaves the request in flight, any other is delivered and unchains the context. -/
def chainResponse (s : St) (src : Src) (r code : Nat) : St :=
  if s.ctxReq r then
    if code = rcTimeout then { s with cx := set s.cx r (if s.cx r = 0 then 2 else s.cx r), rs := set s.rs r .inFly }
    else
      { s with cx := if code = rcCanceled then set s.cx r (if s.cx r = 0 then 1 else s.cx r) else s.cx,
               ctxReq := set s.ctxReq r false, rs := set s.rs r .performed, ans := set s.ans r (some (src, code)) }
  else { s with rs := set s.rs r .performed, ans := set s.ans r (some (src, code)) }

/-- `RespondBytes` (request.go:165-171). -/
def respond (s : St) (src : Src) (r code : Nat) : St :=
  if s.rs r = .inFly then chainResponse s src r code else s

/-- `RespondFail` (request.go:173-179). -/
def respondFail (s : St) (src : Src) (r code : Nat) : St :=
  if s.rs r = .performed then s else chainResponse s src r code

inductive Choice
  | send (r : Nat)              -- SimplePoint.Send (service.go:123-148)
  | fail (r code : Nat)         -- Cancel, Expire, IOError of a request by anybody
  | answer (r code : Nat)       -- Respond by anybody
  | stop                        -- a call of Stop
  | disp                        -- the dispatcher's next step
  | dispExit                    -- ... taking exit in a waiting select
  | hand (r : Nat)              -- the next step of the handler goroutine of r
  | result (r : Nat) (o : Outcome) -- serv.f ends
deriving DecidableEq, Repr

/-- Somebody is sending on `exit`. -/
def exiting (s : St) : Bool := s.stop = .sending

/-- The dispatcher receives from `exit` and leaves the loop: `Stop` returns. -/
def leave (s : St) : St := { s with stop := .done, d := .drain }

/-- The dispatcher, where nothing is to be chosen (parallel_service.go:45-102). -/
def stepDisp (s : St) : Option St :=
  match s.d with
  | .top => if exiting s then some (leave s) else some { s with d := .poll }
  | .poll => match s.ch with
    | r :: ch => some { s with ch, d := .got r }
    | [] => some { s with d := .block }
  | .block => match s.ch with
    | r :: ch => some { s with ch, d := .got r }
    | [] => none
  | .got r => if exiting s then some (leave (respondFail s .shutdown r rcShutdown)) else some { s with d := .grab r }
  | .grab r => if 0 < s.sema then some { s with sema := s.sema - 1, d := .claim r } else some { s with d := .slot r }
  | .slot r => if 0 < s.sema then some { s with sema := s.sema - 1, d := .claim r } else none
  | .claim r =>
    -- req.Context() (request.go:215-221), then `go serv.serv(ctx)`
    if s.rs r = .pending then
      some { s with rs := set s.rs r .inFly, ctxReq := set s.ctxReq r true, h := set s.h r .look,
                    spawned := r :: s.spawned, d := .top }
    else some { s with d := .giveBack }
  | .giveBack => if s.sema < s.cap then some { s with sema := s.sema + 1, d := .top } else none
  | .drain => match s.ch with
    | r :: ch => some { s with ch, drained := r :: s.drained, d := .refuse r }
    | [] => none
  | .refuse r => some { respond s .shutdown r rcShutdown with d := .drain }

/-- The dispatcher takes `exit` in a waiting select (parallel_service.go:65, 81). -/
def stepDispExit (s : St) : Option St :=
  if exiting s then
    match s.d with
    | .block => some (leave s)
    | .slot r => some (leave (respondFail s .shutdown r rcShutdown))
    | _ => none
  else none

/-- A handler goroutine (parallel_service.go:104-121). -/
def stepHand (s : St) (r : Nat) : Option St :=
  match s.h r with
  | .look => some { s with h := set s.h r (if s.ctxReq r then .running else .fin) }
  | .answer code =>
    let s := respond s .handler r code
    some { s with h := set s.h r .fin }
  | .fin =>
    -- ReqContext.Done (request.go:208-213)
    let s := if s.ctxReq r then respondFail s .done r rcInternalError else s
    some { s with h := set s.h r .release }
  | .release => if s.sema < s.cap then some { s with sema := s.sema + 1, h := set s.h r .ended } else none
  | _ => none

def step (s : St) : Choice → Option St
  | .send r =>
    if s.rs r = .new then some { s with rs := set s.rs r .pending, ch := s.ch ++ [r] }
    else some s
  | .fail r code => some (respondFail s .other r code)
  | .answer r code => some (respond s .other r code)
  | .stop => if s.stop = .idle then some { s with stop := .sending, atStop := s.spawned.length } else none
  | .disp => stepDisp s
  | .dispExit => stepDispExit s
  | .hand r => stepHand s r
  | .result r o =>
    if s.h r = .running then
      match o with
      | .returned code => some { s with out := set s.out r (some o), h := set s.h r (.answer code) }
      | .panicked => some { s with out := set s.out r (some o), h := set s.h r .fin }
    else none

def run : St → List Choice → Option St
  | s, [] => some s
  | s, c :: cs => (step s c).bind fun s => run s cs

end Verif.Parallel
