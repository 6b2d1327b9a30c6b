/-!
The queue in front of an endpoint (buffer.go) with any number of goroutines pushing, the forwarding goroutine
`loop`, `close`, and requests being answered (expired, cancelled) meanwhile.

Every access to a variable which another goroutine may touch is one step. A list of `Choice`s is a schedule.

Simplifications:
* each call of `push` has its own request (an endpoint pushes a request only after `SetPending` succeeded), so the
  request also names the pushing call; `push` is called at most once for it;
* steps are sequentially consistent, although `b.tail`, `b.tRow` and `middle.state` are read and written without
  synchronisation in the code;
* sections between `b.m.Lock` and `b.m.Unlock` are one step: of the variables they change only `b.tRow` is read
  outside of them, and it is written once;
* counters do not wrap at 2^64;
* `R` is `bufRow` (buffer.go:26-28, 1024 in the code), `cap` the capacity of the endpoint's channel
  (service.go:92: 16*1024); all theorems hold for every value of `cap` and every positive `R`.
-/
namespace Verif.Buffer

/-- Slots per row (buffer.go:26-28). -/
def bufRow : Nat := 1024

/-- `bufBookmark.state` (buffer.go:20-24). -/
inductive Mark | new | set | free
deriving DecidableEq, Repr

/-- One `bufBookmark` (buffer.go:11-14): the state and `Bookmark.Request`. -/
structure Slot where
  mark : Mark
  req : Option Nat
deriving DecidableEq, Repr

/-- How far the answering of a request has got (`chainResponse`, request.go:129-153): not begun; state set to
RsPrepared; `Respond` of the bookmark called; bookmark unchained and lock released. -/
inductive Life | live | prepared | told | gone
deriving DecidableEq, Repr

/-- Where a `push` is. -/
inductive PPc
  | idle                       -- not called
  | start                      -- called; about to read b.tail and b.head, in either order (buffer.go:53)
  | gotTail (t : Nat)          -- about to read b.head
  | gotHead (h : Nat)          -- about to read b.tail
  | direct                     -- they were equal; about to try b.ch <- r (buffer.go:55)
  | reserve                    -- about to add 1 to b.tail (buffer.go:61)
  | readRow (n : Nat)          -- has slot n; about to read b.tRow (buffer.go:63)
  | lookup (n : Nat)           -- it was another row; about to take b.m (buffer.go:66)
  | chain (n : Nat) (o : Nat)  -- has the row object o; about to call ChainBookmark (buffer.go:76)
  | markSet (n : Nat) (o : Nat)  -- about to write bsSet (buffer.go:77)
  | markFree (n : Nat) (o : Nat) -- about to write bsFree (buffer.go:79)
  | signal                     -- about to try b.set <- true (buffer.go:81)
  | done                       -- returned
  | panicked                   -- send on the closed channel b.set
deriving DecidableEq, Repr

/-- Where `loop` is. -/
inductive LPc
  | wait                          -- at `<-b.set` (buffer.go:96)
  | cmp                           -- about to compare head and tail (buffer.go:98)
  | row                           -- about to look for the row (buffer.go:101-111)
  | look (o : Nat)                -- about to read middle.state (buffer.go:113)
  | take (o : Nat)                -- it was bsSet; about to read middle.Request (buffer.go:117)
  | free (o : Nat) (q : Option Nat) -- about to write bsFree (buffer.go:118)
  | pend (q : Option Nat)         -- about to test req.IsPending() (buffer.go:119)
  | send (q : Nat)                -- at b.ch <- req (buffer.go:120)
  | inc                           -- about to increment head
  | exited                        -- b.set was closed and drained
deriving DecidableEq, Repr

/-- What the environment sees. -/
inductive Ev
  | call (r : Nat)      -- push(r) was called
  | slot (r : Nat)      -- push(r) reserved the next slot
  | direct (r : Nat)    -- push(r) put r into the channel itself
  | forward (r : Nat)   -- loop put r into the channel
  | answered (r : Nat)  -- r stopped being pending
  | ret (r : Nat)       -- push(r) returned
deriving DecidableEq, Repr

/-- `Buffer` (buffer.go:35-43). Row objects are numbered in order of creation: `ids` are their `id` fields,
`cell o i` is element `i` of the array of object `o`. `chan` is the content of `b.ch`; `sig` whether `b.set` holds
a value; `closing` counts the steps of `close` made. `log` is a history variable. -/
structure St where
  head : Nat
  tail : Nat
  ids : List Nat
  cell : Nat → Nat → Slot
  rows : Nat → Option Nat
  hRow : Nat
  tRow : Nat
  sig : Bool
  closing : Nat
  chan : List Nat
  push : Nat → PPc
  loop : LPc
  life : Nat → Life
  mark : Nat → Option (Nat × Nat)
  log : List Ev

/-- `Buffer.init` (buffer.go:45-50) with all requests live. -/
def init : St :=
  { head := 0, tail := 0, ids := [0], cell := fun _ _ => ⟨.new, none⟩, rows := fun k => if k = 0 then some 0 else none,
    hRow := 0, tRow := 0, sig := false, closing := 0, chan := [], push := fun _ => .idle, loop := .wait,
    life := fun _ => .live, mark := fun _ => none, log := [] }

/-- Schedules: call `push(r)` or continue it; continue it by reading `b.head` before `b.tail` (the order is up to the compiler); continue `loop`; continue `close`; go on answering request `r`;
somebody receives from the channel. -/
inductive Choice
  | push (r : Nat) | headFirst (r : Nat) | loop | close | answer (r : Nat) | recv
deriving DecidableEq, Repr

/-- A function changed at one place. -/
def set {α : Type} (f : Nat → α) (k : Nat) (v : α) : Nat → α := fun j => if j = k then v else f j

/-- An element of a row changed. -/
def setCell (c : Nat → Nat → Slot) (o i : Nat) (v : Slot) : Nat → Nat → Slot :=
  fun o' i' => if o' = o ∧ i' = i then v else c o' i'

/-- The `id` field of a row object. -/
def St.idOf (s : St) (o : Nat) : Nat := s.ids.getD o 0

/-- One step of `push(r)` (buffer.go:52-85); `none` when it has to wait. -/
def stepPush (R cap : Nat) (s : St) (r : Nat) : Option St :=
  match s.push r with
  | .idle => some { s with push := set s.push r .start, log := s.log ++ [.call r] }
  | .start => some { s with push := set s.push r (.gotTail s.tail) }
  | .gotTail t => some { s with push := set s.push r (if t = s.head then .direct else .reserve) }
  | .gotHead h => some { s with push := set s.push r (if h = s.tail then .direct else .reserve) }
  | .direct =>
    if s.chan.length < cap then
      some { s with chan := s.chan ++ [r], push := set s.push r .done, log := s.log ++ [.direct r, .ret r] }
    else some { s with push := set s.push r .reserve }
  | .reserve =>
    some { s with tail := s.tail + 1, push := set s.push r (.readRow s.tail), log := s.log ++ [.slot r] }
  | .readRow n =>
    some { s with push := set s.push r (if s.idOf s.tRow = n / R then .chain n s.tRow else .lookup n) }
  | .lookup n =>
    match s.rows (n / R) with
    | some o => some { s with push := set s.push r (.chain n o) }
    | none =>
      let o := s.ids.length
      some { s with ids := s.ids ++ [n / R], rows := set s.rows (n / R) (some o), tRow := o,
                    push := set s.push r (.chain n o) }
  | .chain n o =>
    match s.life r with
    | .live =>
      some { s with mark := set s.mark r (some (o, n % R)),
                    cell := setCell s.cell o (n % R) { s.cell o (n % R) with req := some r },
                    push := set s.push r (.markSet n o) }
    | .gone => some { s with push := set s.push r (.markFree n o) }
    | _ => none
  | .markSet n o =>
    some { s with cell := setCell s.cell o (n % R) { s.cell o (n % R) with mark := .set },
                  push := set s.push r .signal }
  | .markFree n o =>
    some { s with cell := setCell s.cell o (n % R) { s.cell o (n % R) with mark := .free },
                  push := set s.push r .signal }
  | .signal =>
    if s.closing = 2 then some { s with push := set s.push r .panicked }
    else some { s with sig := true, push := set s.push r .done, log := s.log ++ [.ret r] }
  | .done => none
  | .panicked => none

/-- One step of `loop` (buffer.go:95-129). -/
def stepLoop (R cap : Nat) (s : St) : Option St :=
  match s.loop with
  | .wait =>
    if s.sig then some { s with sig := false, loop := .cmp }
    else if s.closing = 2 then some { s with loop := .exited }
    else none
  | .cmp => some { s with loop := if s.head < s.tail then .row else .wait }
  | .row =>
    if s.idOf s.hRow = s.head / R then some { s with loop := .look s.hRow }
    else
      let found := s.rows (s.head / R)
      let s := { s with rows := set s.rows (s.head / R - 1) none }
      match found with
      | none => some { s with loop := .wait }
      | some o => some { s with hRow := o, loop := .look o }
  | .look o =>
    match (s.cell o (s.head % R)).mark with
    | .new => some { s with loop := .wait }
    | .set => some { s with loop := .take o }
    | .free => some { s with loop := .inc }
  | .take o => some { s with loop := .free o (s.cell o (s.head % R)).req }
  | .free o q =>
    some { s with cell := setCell s.cell o (s.head % R) { s.cell o (s.head % R) with mark := .free },
                  loop := .pend q }
  | .pend none => some { s with loop := .inc }
  | .pend (some q) => some { s with loop := if s.life q = .live then .send q else .inc }
  | .send q =>
    if s.chan.length < cap then some { s with chan := s.chan ++ [q], loop := .inc, log := s.log ++ [.forward q] }
    else none
  | .inc => some { s with head := s.head + 1, loop := .cmp }
  | .exited => none

/-- One step of `close` (buffer.go:87-93), called once. -/
def stepClose (s : St) : Option St :=
  match s.closing with
  | 0 => some { s with sig := true, closing := 1 }
  | 1 => some { s with closing := 2 }
  | _ => none

/-- One step of answering `r` (`chainResponse`, request.go:140-148, `bufBookmark.Respond`, buffer.go:16-18, and
`unchain`, response.go:81-87). The other bookmarks and the Responder are not modelled. -/
def stepAnswer (s : St) (r : Nat) : Option St :=
  match s.life r with
  | .live => some { s with life := set s.life r .prepared, log := s.log ++ [.answered r] }
  | .prepared =>
    let s := { s with life := set s.life r .told }
    match s.mark r with
    | none => some s
    | some (o, i) => some { s with cell := setCell s.cell o i { s.cell o i with mark := .free } }
  | .told =>
    let s := { s with life := set s.life r .gone }
    match s.mark r with
    | none => some s
    | some (o, i) => some { s with cell := setCell s.cell o i { s.cell o i with req := none } }
  | .gone => none

/-- One step of the whole system. -/
def step (R cap : Nat) (s : St) : Choice → Option St
  | .push r => stepPush R cap s r
  | .headFirst r => if s.push r = .start then some { s with push := set s.push r (.gotHead s.head) } else none
  | .loop => stepLoop R cap s
  | .close => stepClose s
  | .answer r => stepAnswer s r
  | .recv => match s.chan with
    | [] => none
    | _ :: rest => some { s with chan := rest }

/-- A schedule; `none` when it asks for a step that is not possible. -/
def run (R cap : Nat) : St → List Choice → Option St
  | s, [] => some s
  | s, c :: cs => (step R cap s c).bind fun s => run R cap s cs

end Verif.Buffer
