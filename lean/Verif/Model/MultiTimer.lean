import Verif.Model.MultiReq
/-! The timeout of a multi-request (wait_group.go:74-79, 170-193, 203-209): `SetTimeout`, the timer and `Expire`, together with everything else that happens to
the multi-request and to its requests (Model/MultiReq.lean).

* The timer is the one of C35-C38 seen from outside: `After` arms it, it fires at most once after that, `Stop` disarms it.
* `Expire` which the timer calls when it fires is canceler 0; nobody else uses that number.
* `SetTimeout` is called by the owner, before `Results` or `Each`. Calls with a timeout of zero do nothing and are left out.
* `w.timer.Stop()` (wait_group.go:177, 187) happens together with the signal of line 178 or the closing of line 188. -/
namespace Verif.MultiTimer

/-- The timer. -/
inductive Tm | off | armed | fired | stopped
deriving DecidableEq, Repr

structure St where
  q : MultiReq.St
  /-- `timerSet` -/
  set : Bool
  tm : Tm

def init (msg : Nat → UInt32) : St := ⟨MultiReq.init msg, false, .off⟩

/-- The timer fires; `c` says whether `Expire` reads `w.c` before `w.r` (wait_group.go:205). -/
inductive Choice
  | q (c : MultiReq.Choice)
  | setTimeout
  | fire (cFirst : Bool)
deriving DecidableEq, Repr

/-- `Stop`. -/
def Tm.stop : Tm → Tm
  | .armed => .stopped
  | x => x

/-- `Respond` stops the timer in this step (wait_group.go:176-177, 186-187). -/
def stops (m : Multi.St) : MultiReq.Choice → Bool
  | .multi (.resp i) =>
    match m.rp i with
    | .count => m.c + 1 = m.r && m.wait
    | .close => true
    | _ => false
  | _ => false

def step (s : St) : Choice → Option St
  | .q (.multi (.cancel 0 _ _)) => none
  | .q c => (MultiReq.step s.q c).map fun q => { s with q, tm := if stops s.q.m c then s.tm.stop else s.tm }
  | .setTimeout => if s.q.m.own = .idle then (if s.set then some s else some { s with set := true, tm := .armed }) else none
  | .fire f => if s.tm = .armed then (MultiReq.step s.q (.multi (.cancel 0 true f))).map fun q => { s with q, tm := .fired } else none

def run (s : St) : List Choice → Option St
  | [] => some s
  | c :: cs => (step s c).bind fun s => run s cs

end Verif.MultiTimer
