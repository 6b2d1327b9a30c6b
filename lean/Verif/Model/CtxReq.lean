import Verif.Model.Context
import Verif.Model.Request

/-! Requests made from a context (context.go:17-32,139-163): the product of the context (Model/Context.lean) and its requests
(Model/Request.lean).

* Canceler number `x` is the `contextBookmark` of request number `x` if `isReq x`; the others are multi-requests and child contexts, which
  behave as in Model/Context.lean.
* In each request bookmark 0 is the `contextBookmark`, goroutine 0 is the one in `cancelAll`, goroutine 1 the one that made the request.
  Nobody else chains bookmark 0, and nobody else is goroutine 0.
* Nobody but its maker has the request before `NewRequest` has returned or the context has stored the bookmark, so `r.ChainBookmark(m)`
  (context.go:159) happens together with the load of `State` before it (context.go:149).
* If the context refuses the bookmark, the step that calls `Cancel` and the end of `AddCanceler` change places: nobody looks at either.
* `RemoveCanceler` is one step, as in Model/Context.lean, at the end of `contextBookmark.Respond` (context.go:22-26).
* The Responder is the channel of context.go:146, with room for the one response: it does nothing to the request. -/
namespace Verif.CtxReq

structure Env where
  isReq : Nat → Bool
  /-- `r.Id` (context.go:140,145) -/
  id : Nat → UInt32
  msg : Nat → UInt32

structure St where
  cx : Context.St
  r : Nat → Request.St
  /-- `cancelAll` is inside `contextBookmark.Cancel` and has found a request (context.go:29-30) -/
  busy : Bool

/-- The request as `RGenerator.Request` makes it (generator.go:21-43), with its response object. -/
def fresh (e : Env) (x : Nat) : Request.St := Request.init (e.id x) (e.msg x) (some ⟨0, 0, 0, none⟩)

/-- The request with the context's bookmark (context.go:159). -/
def chained (e : Env) (x : Nat) : Request.St :=
  { fresh e x with d := { (fresh e x).d with chain := [0], log := [.returned 1 (.chain 0), .chained 0] } }

def init (e : Env) : St := { cx := Context.init, r := fresh e, busy := false }

inductive Choice
  | add (x : Nat) | adder (x : Nat) | remove (x : Nat) | cancel (expire : Bool) | wait (w : Nat) | goRet (x : Nat)
  /-- the goroutine in `cancelAll`; `found`: it reads a request in `cm.Request` (context.go:29) -/
  | canc (found : Bool)
  | req (x : Nat) (c : Request.Choice)
deriving DecidableEq, Repr

/-- The bookmark an operation chains. -/
def Op.mark : Request.Op → Option Nat
  | .claimWith b | .chain b => some b
  | _ => none

/-- The goroutine is inside `contextBookmark.Respond`. -/
def inRespond (r : Request.St) (t : Nat) : Bool :=
  r.d.chain.head? = some 0 && match r.pc t with
    | .react _ [] => true
    | _ => false

def St.withCx (s : St) (o : Option Context.St) : Option St := o.map fun cx => { s with cx }

def St.withReq (s : St) (x : Nat) (o : Option Request.St) : Option St := o.map fun r => { s with r := fun y => if y = x then r else s.r y }

/-- A step of a request (`x` is a request that others have). -/
def reqStep (s : St) (x : Nat) : Request.Choice → Option St
  | .call t op => if t = 0 ∨ Op.mark op = some 0 then none else s.withReq x (Request.step (s.r x) (.call t op))
  | .go t =>
    if inRespond (s.r x) t then (s.withCx (Context.step s.cx (.remove x))).bind fun s => s.withReq x (Request.step (s.r x) (.go t))
    else s.withReq x (Request.step (s.r x) (.go t))
  | .bookmark t acts => if (s.r x).d.chain.head? = some 0 ∧ acts ≠ [] then none else s.withReq x (Request.step (s.r x) (.bookmark t acts))
  | .responder t acts => if acts ≠ [] then none else s.withReq x (Request.step (s.r x) (.responder t acts))

def step (e : Env) (s : St) : Choice → Option St
  | .add x => s.withCx (Context.step s.cx (.add x))
  | .adder x =>
    match s.cx.ap x with
    | .pre => -- context.go:149-159
      (s.withCx (Context.step s.cx (.adder x))).bind fun s' =>
        if e.isReq x ∧ s.cx.state = 0 then s'.withReq x (some (chained e x)) else some s'
    | .refused => -- context.go:103, 151
      (s.withCx (Context.step s.cx (.adder x))).bind fun s' =>
        if e.isReq x then s'.withReq x (Request.step (s.r x) (.call 1 (.fail Misc.RcCanceled))) else some s'
    | _ => s.withCx (Context.step s.cx (.adder x))
  | .remove x => if e.isReq x then none else s.withCx (Context.step s.cx (.remove x))
  | .cancel b => s.withCx (Context.step s.cx (.cancel b))
  | .wait w => s.withCx (Context.step s.cx (.wait w))
  | .goRet x => s.withCx (Context.step s.cx (.goRet x))
  | .canc found =>
    match s.cx.cp with
    | .calling (x :: _) =>
      if e.isReq x = false then s.withCx (Context.step s.cx .canc)
      else if s.busy then
        if (s.r x).pc 0 = .idle then St.withCx { s with busy := false } (Context.step s.cx .canc) else none
      else if found then St.withReq { s with busy := true } x (Request.step (s.r x) (.call 0 (.fail Misc.RcCanceled)))
      else if 0 ∈ (s.r x).d.chain then none
      else s.withCx (Context.step s.cx .canc)
    | _ => s.withCx (Context.step s.cx .canc)
  | .req x c =>
    if e.isReq x ∧ (s.cx.ap x = .done true ∨ s.cx.ap x = .done false) then reqStep s x c else none

def run (e : Env) (s : St) : List Choice → Option St
  | [] => some s
  | c :: cs => (step e s c).bind fun s => run e s cs

end Verif.CtxReq
