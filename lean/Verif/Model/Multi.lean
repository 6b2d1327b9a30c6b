import Verif.Model.Misc
/-!
`MultiRequest` (wait_group.go): one goroutine creates requests and then collects the answers with `Results` or `Each`;
any number of goroutines answer requests; any number of goroutines call `Cancel` or `Expire`.

Every access to a field of the multi-request which other goroutines may touch is one step; a list of `Choice`s is a
schedule.

Simplifications:
* a request is named by its position in `w.requests`, which is also its id (wait_group.go:86); a response is named by the
  id of its request; the first answer to a request is accepted and makes its Responder's `Respond` run once, later ones
  are ignored and wait for the first to be through (this is C28 for requests; bookmarks which reset the request are left
  out);
* `Request`, `Results` and `Each` are called by one goroutine, one after the other, and nothing is called after `Results`
  or `Each`;
* `w.requests` grows by being copied into another array, in one step (the lock is held): arrays are numbered, `gone a i` says that
  entry `i` of array `a` is nil. It may grow whenever a request is created (the capacities are up to Go); a goroutine which took the
  slice before goes on reading the old array, where entries that were there when it was copied are never set to nil again;
* steps are sequentially consistent; plain reads in one expression are separate steps, in either order (`cFirst`);
* counters do not wrap at 2^32; timers and generators have their own models.
-/
namespace Verif.Multi

/-- RcCanceled and RcTimeout (response.go:26, 28). -/
abbrev rcCanceled : UInt32 := Misc.RcCanceled
abbrev rcTimeout : UInt32 := Misc.RcTimeout

/-- Who holds `w.m`. -/
inductive Who | owner | resp (i : Nat)
deriving DecidableEq, Repr

/-- The goroutine in `Respond` for request `i` (wait_group.go:170-193). -/
inductive RPc
  | idle       -- request not answered
  | look       -- about to read w.ch (171)
  | lock       -- about to take the lock (172)
  | check      -- about to read w.ch again (173)
  | add        -- about to append to w.responses and to clear the entry of w.requests (174-175)
  | count      -- about to increment w.c and to signal (176-179)
  | unlock     -- before w.m.Unlock() (180)
  | miss       -- w.ch was set in the meantime; before w.m.Unlock() (183)
  | send       -- about to send to w.ch (185)
  | bump       -- about to add 1 to w.c (186)
  | close      -- it was the last one; about to close w.ch (188)
  | remove     -- about to call RemoveCanceler (189-191)
  | done
  | sendPanic  -- send on closed channel
  | closePanic -- close of closed channel
deriving DecidableEq, Repr

/-- What the owner goes on to after failing all requests. -/
inductive Mode | results | each
deriving DecidableEq, Repr

/-- The owner. -/
inductive OPc
  | idle
  | store (i : Nat)      -- Request: appended; about to store w.r (101)
  | chk (i : Nat)        -- about to load w.kind (102)
  | chkK (i : Nat)       -- in performFail, about to read w.kind (225-230)
  | chkA (i : Nat) (code : UInt32) -- in r.Cancel() or r.Expire(), before the request is answered
  | failW (i : Nat)      -- in performFail, after
  | enter (m : Mode)     -- about to test kind, c, r (121, 144)
  | fail (m : Mode) (i n : Nat)   -- performFailAll: about to read allReqs[i] (218)
  | fail2 (m : Mode) (i n : Nat)  -- about to read it again (219)
  | failK (m : Mode) (i n : Nat)  -- in performFail, about to read w.kind (225-230)
  | failA (m : Mode) (i n : Nat) (code : UInt32) -- in r.Cancel() or r.Expire(), before the request is answered
  | failX (m : Mode) (i n : Nat)  -- after
  | lock (m : Mode)      -- about to take the lock (124, 147)
  | rCmp                 -- Results: mrWait set; about to compare c and r (158)
  | rWait (sig : Bool)   -- in w.w.Wait(), signalled or not (159)
  | rTake                -- about to take w.responses (161-166)
  | eChan                -- Each: about to make w.ch (129)
  | eSend (l : List Nat) -- about to send the rest of w.responses (131-134)
  | eCmp                 -- about to compare c and r (136)
  | eClose               -- about to close w.ch (137)
  | eUnlock
  | fin (m : Mode)       -- returned
  | nilPanic             -- nil dereference in performFailAll
  | chanPanic            -- send on or close of closed channel in Each
deriving DecidableEq, Repr

/-- A goroutine in `Cancel` (`exp = false`) or `Expire` (wait_group.go:195-222). -/
inductive CPc
  | idle
  | readC (exp : Bool)          -- kind set; about to read w.c, then w.r (197, 205)
  | readR (exp : Bool) (c : Nat)
  | readR' (exp : Bool)         -- about to read w.r, then w.c
  | readC' (exp : Bool) (r : Nat)
  | snap (exp : Bool)           -- about to take the lock and to read w.r (212-215)
  | fail (a i n : Nat)          -- about to read allReqs[i] (218), in array a
  | fail2 (a i n : Nat)         -- about to read it again (219)
  | failK (a i n : Nat)         -- in performFail, about to read w.kind (225-230)
  | failA (a i n : Nat) (code : UInt32) -- in r.Cancel() or r.Expire(), before the request is answered
  | failX (a i n : Nat)         -- after
  | done (cFirst : Bool)        -- returned
  | dead                        -- nil dereference
deriving DecidableEq, Repr

/-- The multi-request and the goroutines around it. `ch` is everything ever sent to `w.ch`, `closed` how often the channel
was closed, `ret` the number of `Request` calls that returned, `got` what `Results` returned. `removed` says that
`RemoveCanceler` was called. `log` (requests in the order in which they were counted) is a history variable. -/
structure St where
  len : Nat
  r : Nat
  ret : Nat
  c : Nat
  arr : Nat
  gone : Nat → Nat → Bool
  code : Nat → Option UInt32
  cancel : Bool
  expire : Bool
  wait : Bool
  responses : List Nat
  ch : Option (List Nat)
  closed : Nat
  lock : Option Who
  removed : Bool
  got : Option (List Nat)
  own : OPc
  rp : Nat → RPc
  cp : Nat → CPc
  log : List Nat

def init : St :=
  { len := 0, r := 0, ret := 0, c := 0, arr := 0, gone := fun _ _ => false, code := fun _ => none, cancel := false, expire := false,
    wait := false, responses := [], ch := none, closed := 0, lock := none, removed := false, got := none, own := .idle,
    rp := fun _ => .idle, cp := fun _ => .idle, log := [] }

/-- Schedules: the owner calls `Request`, `Results` or `Each`, or goes on; somebody answers request `i`; `Respond` for
request `i` goes on; goroutine `k` calls `Cancel`/`Expire`, or goes on. -/
inductive Choice
  | request (grow : Bool) | results | each | owner
  | answer (i : Nat) (code : UInt32) | resp (i : Nat)
  | cancel (k : Nat) (exp cFirst : Bool) | canc (k : Nat)
deriving DecidableEq, Repr

def set {α : Type} (f : Nat → α) (k : Nat) (v : α) : Nat → α := fun j => if j = k then v else f j

/-- `w.requests[i] = nil`. -/
def put (g : Nat → Nat → Bool) (a i : Nat) : Nat → Nat → Bool := fun b j => if b = a ∧ j = i then true else g b j

/-- The entries of array `a` are copied into the next one. -/
def copy (g : Nat → Nat → Bool) (a : Nat) : Nat → Nat → Bool := fun b j => if b = a + 1 then g a j else g b j

/-- A request is answered unless it was (request.go:165-179): its `Respond` begins. -/
def answer (s : St) (i : Nat) (code : UInt32) : St :=
  match s.code i with
  | some _ => s
  | none => { s with code := set s.code i (some code), rp := set s.rp i .look }

/-- The code `performFail` answers with (wait_group.go:225-230). -/
def failCode (s : St) : Option UInt32 :=
  if s.cancel then some rcCanceled else if s.expire then some rcTimeout else none

/-- `Respond` for request `i` (wait_group.go:170-193). -/
def stepResp (s : St) (i : Nat) : Option St :=
  match s.rp i with
  | .idle => none
  | .look => some { s with rp := set s.rp i (if s.ch = none then .lock else .send) }
  | .lock => if s.lock = none then some { s with lock := some (.resp i), rp := set s.rp i .check } else none
  | .check => some { s with rp := set s.rp i (if s.ch = none then .add else .miss) }
  | .add => some { s with responses := s.responses ++ [i], gone := put s.gone s.arr i, rp := set s.rp i .count }
  | .count =>
    let s := { s with c := s.c + 1, log := s.log ++ [i], rp := set s.rp i .unlock }
    some (if s.c = s.r ∧ s.wait = true ∧ s.own = .rWait false then { s with own := .rWait true } else s)
  | .unlock => some { s with lock := none, rp := set s.rp i .done }
  | .miss => some { s with lock := none, rp := set s.rp i .send }
  | .send =>
    match s.ch with
    | none => none
    | some l =>
      if 0 < s.closed then some { s with rp := set s.rp i .sendPanic }
      else some { s with ch := some (l ++ [i]), rp := set s.rp i .bump }
  | .bump =>
    some { s with c := s.c + 1, log := s.log ++ [i], rp := set s.rp i (if s.c + 1 = s.r then .close else .done) }
  | .close =>
    if 0 < s.closed then some { s with rp := set s.rp i .closePanic }
    else some { s with closed := s.closed + 1, rp := set s.rp i .remove }
  | .remove => some { s with removed := true, rp := set s.rp i .done }
  | .done => none
  | .sendPanic => none
  | .closePanic => none

/-- The owner goes on: `Request` (wait_group.go:81-106), `Results` (143-168), `Each` (120-141), `performFailAll`
(211-222). -/
def stepOwner (s : St) : Option St :=
  match s.own with
  | .idle => none
  | .store i => some { s with r := s.len, own := .chk i }
  | .chk i =>
    if s.cancel ∨ s.expire then some { s with own := .chkK i } else some { s with ret := s.r, own := .idle }
  | .chkK i =>
    match failCode s with
    | some code => some { s with own := .chkA i code }
    | none => some { s with ret := s.r, own := .idle }
  | .chkA i code => some { answer s i code with own := .failW i }
  | .failW i => if s.rp i = .done then some { s with ret := s.r, own := .idle } else none
  | .enter m =>
    if (s.cancel ∨ s.expire) ∧ s.c ≠ s.r then
      if s.lock = none then some { s with own := .fail m 0 s.r } else none
    else some { s with own := .lock m }
  | .fail m i n =>
    if i < n then some { s with own := if s.gone s.arr i then .fail m (i + 1) n else .fail2 m i n }
    else some { s with own := .lock m }
  | .fail2 m i n =>
    if s.gone s.arr i then some { s with own := .nilPanic } else some { s with own := .failK m i n }
  | .failK m i n =>
    match failCode s with
    | some code => some { s with own := .failA m i n code }
    | none => some { s with own := .fail m (i + 1) n }
  | .failA m i n code => some { answer s i code with own := .failX m i n }
  | .failX m i n => if s.rp i = .done then some { s with own := .fail m (i + 1) n } else none
  | .lock .results =>
    if s.lock = none then some { s with lock := some .owner, wait := true, own := .rCmp } else none
  | .lock .each => if s.lock = none then some { s with lock := some .owner, own := .eChan } else none
  | .rCmp => if s.c < s.r then some { s with lock := none, own := .rWait false } else some { s with own := .rTake }
  | .rWait sig => if sig = true ∧ s.lock = none then some { s with lock := some .owner, own := .rTake } else none
  | .rTake =>
    some { s with got := some s.responses, responses := [], removed := true, lock := none, own := .fin .results }
  | .eChan => some { s with ch := some [], own := .eSend s.responses }
  | .eSend [] => some { s with responses := [], own := .eCmp }
  | .eSend (i :: l) =>
    if 0 < s.closed then some { s with own := .chanPanic }
    else some { s with ch := s.ch.map (· ++ [i]), gone := put s.gone s.arr i, own := .eSend l }
  | .eCmp => some { s with own := if s.c = s.r then .eClose else .eUnlock }
  | .eClose =>
    if 0 < s.closed then some { s with own := .chanPanic } else some { s with closed := s.closed + 1, own := .eUnlock }
  | .eUnlock => some { s with lock := none, own := .fin .each }
  | .fin _ => none
  | .nilPanic => none
  | .chanPanic => none

/-- `Cancel` / `Expire` goes on (wait_group.go:195-222). -/
def stepCancel (s : St) (k : Nat) : Option St :=
  match s.cp k with
  | .idle => none
  | .readC e => some { s with cp := set s.cp k (.readR e s.c) }
  | .readR e c => some { s with cp := set s.cp k (if c = s.r then .done true else .snap e) }
  | .readR' e => some { s with cp := set s.cp k (.readC' e s.r) }
  | .readC' e r => some { s with cp := set s.cp k (if s.c = r then .done false else .snap e) }
  | .snap _ => if s.lock = none then some { s with cp := set s.cp k (.fail s.arr 0 s.r) } else none
  | .fail a i n =>
    if i < n then some { s with cp := set s.cp k (if s.gone a i then .fail a (i + 1) n else .fail2 a i n) }
    else some { s with cp := set s.cp k (.done true) }
  | .fail2 a i n =>
    if s.gone a i then some { s with cp := set s.cp k .dead } else some { s with cp := set s.cp k (.failK a i n) }
  | .failK a i n =>
    match failCode s with
    | some code => some { s with cp := set s.cp k (.failA a i n code) }
    | none => some { s with cp := set s.cp k (.fail a (i + 1) n) }
  | .failA a i n code => some { answer s i code with cp := set s.cp k (.failX a i n) }
  | .failX a i n => if s.rp i = .done then some { s with cp := set s.cp k (.fail a (i + 1) n) } else none
  | .done _ => none
  | .dead => none

/-- One step of the whole system. -/
def step (s : St) : Choice → Option St
  | .request grow =>
    if s.own = .idle then
      if grow then
        if s.lock = none then
          some { s with len := s.len + 1, arr := s.arr + 1, gone := copy s.gone s.arr, own := .store s.len }
        else none
      else some { s with len := s.len + 1, own := .store s.len }
    else none
  | .results => if s.own = .idle then some { s with own := .enter .results } else none
  | .each => if s.own = .idle then some { s with own := .enter .each } else none
  | .owner => stepOwner s
  | .answer i code => if i < s.ret then some (answer s i code) else none
  | .resp i => stepResp s i
  | .cancel k e f =>
    if s.cp k = .idle then
      let s := if e then { s with expire := true } else { s with cancel := true }
      some { s with cp := set s.cp k (if f then .readC e else .readR' e) }
    else none
  | .canc k => stepCancel s k

def run : St → List Choice → Option St
  | s, [] => some s
  | s, c :: cs => (step s c).bind fun s => run s cs

end Verif.Multi
