import Verif.Model.Context
import Verif.Model.MultiReq
/-! Multi-requests made from a context (context.go:107-137,165-178, wait_group.go:161-166,189-191): the product of the context (Model/Context.lean) and of
its multi-requests with their requests (Model/MultiReq.lean).

* Canceler number `x` of the context is multi-request number `x`.
* In each multi-request, canceler 0 is the goroutine in `NewMulti`, cancelers 2, 4, 6, … are the calls of `cancelAll` (numbered by `calls`, over all
  multi-requests), and cancelers 1, 3, 5, … are everybody else who calls `Cancel` or `Expire`, e.g. the timer.
* The owner and others have the multi-request only after `NewMulti` has returned. If the context refuses it, its `Cancel` (context.go:103, 173) finds no
  request and is one step, together with the end of `AddCanceler`.
* `RemoveCanceler` (wait_group.go:163-165, 189-191) is one step, as in Model/Context.lean, together with the end of `Results` and of the last `Respond`.
* Single requests and child contexts of the context are left out (Model/CtxReq.lean); the generator which the multi-requests share is C113. -/
namespace Verif.CtxMulti

structure St where
  cx : Context.St
  q : Nat → MultiReq.St
  /-- how many calls of `Cancel` the goroutine in `cancelAll` has begun -/
  calls : Nat
  /-- it is inside one (context.go:121) -/
  busy : Bool

/-- `msg x i`: the type of message number `i` of multi-request `x`. -/
def init (msg : Nat → Nat → UInt32) : St := { cx := Context.init, q := fun x => MultiReq.init (msg x), calls := 0, busy := false }

inductive Choice
  | add (x : Nat) | adder (x : Nat) | cancel (expire : Bool) | wait (w : Nat) | goRet (x : Nat)
  /-- the goroutine in `cancelAll`; when it calls `Cancel`: whether that reads `w.c` before `w.r` (wait_group.go:197) -/
  | canc (cFirst : Bool)
  | q (x : Nat) (c : MultiReq.Choice)
deriving DecidableEq, Repr

def St.withCx (s : St) (o : Option Context.St) : Option St := o.map fun cx => { s with cx }

def St.withQ (s : St) (x : Nat) (o : Option MultiReq.St) : Option St := o.map fun q => { s with q := fun y => if y = x then q else s.q y }

/-- The step calls `RemoveCanceler` (wait_group.go:163-165, 189-191). -/
def removes (m : Multi.St) : MultiReq.Choice → Bool
  | .multi .owner => m.own = .rTake
  | .multi (.resp i) => m.rp i = .remove
  | _ => false

/-- A call of `Cancel` that only `NewMulti` and `cancelAll` make. -/
def reserved : MultiReq.Choice → Bool
  | .multi (.cancel k _ _) => k % 2 = 0
  | _ => false

/-- A step of multi-request `x`, which others have. -/
def qStep (s : St) (x : Nat) (c : MultiReq.Choice) : Option St :=
  if reserved c then none
  else if removes (s.q x).m c then (s.withCx (Context.step s.cx (.remove x))).bind fun s => s.withQ x (MultiReq.step (s.q x) c)
  else s.withQ x (MultiReq.step (s.q x) c)

/-- `multi.Cancel()` of a multi-request without requests (wait_group.go:195-199). -/
def early : List MultiReq.Choice := [.multi (.cancel 0 false true), .multi (.canc 0), .multi (.canc 0)]

def step (s : St) : Choice → Option St
  | .add x => s.withCx (Context.step s.cx (.add x))
  | .adder x =>
    match s.cx.ap x with
    | .refused => (s.withCx (Context.step s.cx (.adder x))).bind fun s => s.withQ x (MultiReq.run (s.q x) early)
    | _ => s.withCx (Context.step s.cx (.adder x))
  | .cancel b => s.withCx (Context.step s.cx (.cancel b))
  | .wait w => s.withCx (Context.step s.cx (.wait w))
  | .goRet x => s.withCx (Context.step s.cx (.goRet x))
  | .canc f =>
    match s.cx.cp with
    | .calling (x :: _) =>
      if s.busy then
        match (s.q x).m.cp (2 * s.calls) with
        | .done _ => St.withCx { s with busy := false } (Context.step s.cx .canc)
        | _ => none
      else St.withQ { s with busy := true, calls := s.calls + 1 } x (MultiReq.step (s.q x) (.multi (.cancel (2 * s.calls + 2) false f)))
    | _ => s.withCx (Context.step s.cx .canc)
  | .q x c => if s.cx.ap x = .done true ∨ s.cx.ap x = .done false then qStep s x c else none

def run (s : St) : List Choice → Option St
  | [] => some s
  | c :: cs => (step s c).bind fun s => run s cs

end Verif.CtxMulti
