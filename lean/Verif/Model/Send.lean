import Verif.Model.Request
/-!
`Send` of the services (service.go, stat.go) on one request, in any number of goroutines, while everybody else does to the request what
the machine of `Verif.Model.Request` allows.

A service is a list of wrappers around an endpoint or a function: `StatWrap(s, f)` (stat.go), a `Route` that passes the request on, and at
the end a `SimplePoint` or an `SF`.

Simplifications:
* `Send` of a `SimplePoint` that is not running, or that is a child, panics at once (service.go:124-130) and is left out;
* `r.SetTimeout` (service.go:140) arms a timer, whose firing is a goroutine calling `RespondFail`, which the schedule can contain anyway;
* `s.b.push(r)` is one event here; C39, C40 and C65 are about what happens then;
* a `Route` function passes the request to the next service and does nothing else;
* the statistics callback is the notification of the bookmark which `StatService.Send` chains.
-/
namespace Verif.Send

open Verif.Request (RS)

/-- Services around others (stat.go:5-14, service.go:17-23). -/
inductive Wrap
  | stat (b : Nat)     -- StatService, whose Send makes the bookmark object b
  | route
deriving DecidableEq, Repr

/-- The service which takes the request (service.go:33-39, 66-150). -/
inductive Term | point | sf
deriving DecidableEq, Repr

/-- Where a goroutine is in `Send`; `out`: not in `Send`. -/
inductive Pc
  | out
  | at (ps ws : List Wrap) (k : Term)    -- ps were passed, Send of the next service is called
  | chain (b : Nat) (ps ws : List Wrap) (k : Term) (res : Option Bool) -- inside r.ChainBookmark (stat.go:11)
  | failed                               -- SetPending returned false (service.go:132)
  | armed (n : Nat) (ps : List Wrap)     -- SetPending returned true (service.go:140)
  | claim (n : Nat) (ps : List Wrap)     -- SetPending returned true, before SetInFly (service.go:36)
deriving DecidableEq, Repr

/-- What became of a call of `Send`. -/
inductive Out
  | handed (n t : Nat) (ps : List Wrap) (k : Term) -- queued, or f(r) was called, having passed ps
  | dropped (t : Nat)                    -- returned without doing anything with the request
  | panicked (t : Nat)                   -- "Request already sent somewhere"
deriving DecidableEq, Repr

structure St where
  r : Request.St
  pc : Nat → Pc
  hist : List Out
  taken : Nat                            -- how often SetPending returned true inside Send

def init (id msg : UInt32) (resp : Option Request.Resp) : St :=
  { r := Request.init id msg resp, pc := fun _ => .out, hist := [], taken := 0 }

def setPc (f : Nat → Pc) (t : Nat) (p : Pc) : Nat → Pc := fun u => if u = t then p else f u

/-- The call of `Send` is over. -/
def St.over (s : St) (t : Nat) (o : Out) : St := { s with pc := setPc s.pc t .out, hist := o :: s.hist }

/-- `r.Performed()` (request.go:100-103). -/
def performed (s : St) : Bool := s.r.d.rs = .prepared ∨ s.r.d.rs = .performed

/-- A lock-free method of the request, called and finished. -/
def St.call (s : St) (t : Nat) (op : Request.Op) : Option Request.St := Request.run s.r [.call t op, .go t]

/-- The goroutine that a step of the request's machine belongs to. -/
def who : Request.Choice → Nat
  | .call t _ | .go t | .bookmark t _ | .responder t _ => t

/-- Does `ChainBookmark` find a state in which it chains? (request.go:183) -/
def chains (d : Request.Data) : Bool := d.rs = .new ∨ d.rs = .pending

/-- The next step of goroutine `t` inside `Send`. -/
def go (s : St) (t : Nat) : Option St :=
  match s.pc t with
  | .out => none
  | .at ps (.route :: ws) k => -- service.go:20
    if s.r.d.rs = .new then some { s with pc := setPc s.pc t (.at (ps ++ [.route]) ws k) } else some (s.over t (.dropped t))
  | .at ps (.stat b :: ws) k => -- stat.go:11
    match Request.step s.r (.call t (.chain b)) with
    | none => none
    | some r => some { s with r, pc := setPc s.pc t (.chain b ps ws k none) }
  | .chain b ps ws k res =>
    if s.r.pc t = .idle then
      if res = some true then some { s with pc := setPc s.pc t (.at (ps ++ [.stat b]) ws k) } -- stat.go:12
      else some (s.over t (.dropped t))
    else
      match Request.step s.r (.go t) with
      | none => none
      | some r =>
        if s.r.pc t = .locked (.chain b) then some { s with r, pc := setPc s.pc t (.chain b ps ws k (some (chains s.r.d))) }
        else some { s with r, pc := setPc s.pc t (.chain b ps ws k res) }
  | .at ps [] k =>
    match s.call t .setPending with
    | none => none
    | some r =>
      if s.r.d.rs = .new then
        match k with
        | .point => some { s with r, pc := setPc s.pc t (.armed s.taken ps), taken := s.taken + 1 }
        | .sf => some { s with r, pc := setPc s.pc t (.claim s.taken ps), taken := s.taken + 1 }
      else
        match k with
        | .point => some { s with r, pc := setPc s.pc t .failed }
        | .sf => some ({ s with r }.over t (.dropped t))
  | .failed => -- service.go:134-137
    if performed s then some (s.over t (.dropped t)) else some (s.over t (.panicked t))
  | .armed n ps => -- service.go:143-147
    if performed s then some (s.over t (.dropped t)) else some (s.over t (.handed n t ps .point))
  | .claim n ps => -- service.go:36-37
    match s.call t .claim with
    | none => none
    | some r =>
      if s.r.d.rs = .pending then some ({ s with r }.over t (.handed n t ps .sf)) else some ({ s with r }.over t (.dropped t))

/-- A schedule entry: somebody does something to the request, a goroutine calls `Send`, a goroutine in `Send` goes on. -/
inductive Choice
  | env (c : Request.Choice)
  | send (t : Nat) (ws : List Wrap) (k : Term)
  | go (t : Nat)
deriving DecidableEq, Repr

def step (s : St) : Choice → Option St
  | .env c =>
    if s.pc (who c) = .out then
      match Request.step s.r c with
      | none => none
      | some r => some { s with r }
    else none
  | .send t ws k =>
    if s.pc t = .out ∧ s.r.pc t = .idle then some { s with pc := setPc s.pc t (.at [] ws k) } else none
  | .go t => Send.go s t

def run : St → List Choice → Option St
  | s, [] => some s
  | s, c :: cs =>
    match step s c with
    | none => none
    | some s' => run s' cs

end Verif.Send
