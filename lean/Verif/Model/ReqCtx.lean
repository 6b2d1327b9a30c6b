import Verif.Model.CtxReq

/-! A request that is served, with the context of its handler (request.go:191-221): the product of the request (Model/Request.lean) and of the
context with what was made from it (Model/CtxReq.lean).

* `Request.Context` makes a `ReqContext` and chains it with `SetInFly`: bookmark 0 of the request. It is called once, by goroutine 1 (the
  handler, or the dispatcher on its behalf); other calls would make other contexts.
* `ReqContext.Respond` (request.go:196-206) runs in the goroutine that answers the request, which holds the mutex of the request. `Cancel`
  and `Expire` of the context (context.go:127-137) are called in it, so it waits for `cancelAll` if it was the one that changed `State`.
* `Done` of the context gives back a generator only (a `ReqContext` has no parent) and is left out.
* `cm.Request` is the request: a bookmark is unchained after it has reacted only.
* Goroutines of the request and of what was made from the context are numbered independently. -/
namespace Verif.ReqCtx

structure St where
  o : Request.St
  c : CtxReq.St
  /-- `ReqContext.Respond` was the one that changed `State` -/
  mine : Bool

def init (e : CtxReq.Env) (id msg : UInt32) (resp : Option Request.Resp) : St :=
  { o := Request.init id msg resp, c := CtxReq.init e, mine := false }

inductive Choice
  /-- a step of somebody who has the request -/
  | outer (c : Request.Choice)
  /-- a step of somebody who has the context or something made from it -/
  | inner (c : CtxReq.Choice)
deriving DecidableEq, Repr

/-- What `ReqContext.Respond` does to the request (request.go:201-202). -/
def reaction (code : UInt32) : List Request.Act := if code = Misc.RcTimeout then [.resetPending, .claim] else []

/-- The goroutine is in `ReqContext.Respond`, and `cancelAll` called by it has not ended. -/
def blocked (s : St) (t : Nat) : Bool :=
  s.mine && s.c.cx.cp ≠ .exit && s.o.d.chain.head? = some 0 && match s.o.pc t with
    | .react _ _ => true
    | _ => false

def St.withO (s : St) (r : Option Request.St) : Option St := r.map fun o => { s with o }

def St.withC (s : St) (c : Option CtxReq.St) : Option St := c.map fun c => { s with c }

/-- `Cancel` or `Expire` of the context. -/
def enter (e : CtxReq.Env) (s : St) (expire : Bool) : Option St :=
  ({ s with mine := s.mine || decide (s.c.cx.state = 0) } : St).withC (CtxReq.step e s.c (.cancel expire))

/-- `ReqContext.Respond` is called (request.go:196-200). -/
def react (e : CtxReq.Env) (s : St) (code : UInt32) : Option St :=
  if code = Misc.RcCanceled then enter e s false
  else if code = Misc.RcTimeout then enter e s true
  else some s

def step (e : CtxReq.Env) (s : St) : Choice → Option St
  | .outer (.call t op) =>
    match CtxReq.Op.mark op with
    | some 0 => if t = 1 ∧ op = .claimWith 0 ∧ .chained 0 ∉ s.o.d.log then s.withO (Request.step s.o (.call t op)) else none
    | _ => s.withO (Request.step s.o (.call t op))
  | .outer (.go t) => if blocked s t then none else s.withO (Request.step s.o (.go t))
  | .outer (.bookmark t acts) =>
    match s.o.d.chain.head?, s.o.d.resp with
    | some 0, some r => if acts = reaction r.code then (s.withO (Request.step s.o (.bookmark t acts))).bind fun s => react e s r.code else none
    | _, _ => s.withO (Request.step s.o (.bookmark t acts))
  | .outer (.responder t acts) => s.withO (Request.step s.o (.responder t acts))
  | .inner c => s.withC (CtxReq.step e s.c c)

def run (e : CtxReq.Env) (s : St) : List Choice → Option St
  | [] => some s
  | c :: cs => (step e s c).bind fun s => run e s cs

end Verif.ReqCtx
