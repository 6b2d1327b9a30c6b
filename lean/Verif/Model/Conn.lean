/-!
A client connection: `RequestHolder` (net/client/connection/request_holder.go) and the three loops of `Connection`
(net/client/connection/connection.go) as far as they deal with requests.

Goroutines: the write loop, the read loop, the control loop, and everybody who has a request in hand and may cancel or
expire it at any time.

Simplifications:
* a request's methods are one step each (see `Verif.Model.Request`); requests are numbers, initially all pending (not yet
  taken from the channel); their only bookmark is the slot of the holder; nobody resets them;
* bytes on the wire are the subject of C01-C10: here a request is written with its id or writing fails, and a response has
  any id and some content (a number);
* the control loop's bookkeeping of which side is closed is left out: it ends when both other loops have;
* pings do not touch the holder and are left out, as are responses to them;
* `getNext` and `remove` are one step each: the write loop alone uses `cur`, `big`, `got`, the read loop alone `last`,
  `lastBig`, `put`, `freed`, the map is changed under the lock; the two meet in a slot only if the peer answers an id before
  it was sent.
-/
namespace Verif.Conn

/-- 2^32. -/
def M : Nat := 4294967296

/-- `iproto.PingRequestId` (request.go:20). -/
def pingId : Nat := 4294967295

/-- `RequestRow` (request_holder.go:22-25): `fake j` is `reqs[j].fakeId`, `req j` is `reqs[j].Request`. -/
structure Row where
  freed : Nat
  fake : Nat → Nat
  req : Nat → Option Nat

def Row.new : Row := ⟨0, fun _ => 0, fun _ => none⟩

/-- `RequestHolder` (request_holder.go:28-38). Row objects are named by the order in which they were made; `heap` has their
contents, `rows` is the map `reqs`. `freed` is a 32 bit number, `got` and `put` have 64 bits: their overflows are left
out. -/
structure Holder where
  got : Nat
  put : Nat
  curId : Nat
  rows : List (Nat × Nat)
  cur : Nat
  big : Nat
  last : Nat
  lastBig : Nat
  made : Nat
  heap : Nat → Row

def set {α : Type} (f : Nat → α) (k : Nat) (v : α) : Nat → α := fun j => if j = k then v else f j

/-- `init` (request_holder.go:40-45). -/
def Holder.init : Holder :=
  { got := 0, put := 0, curId := 0, rows := [(0, 0)], cur := 0, big := 0, last := 0, lastBig := 0, made := 1,
    heap := fun _ => Row.new }

/-- `m[k] = v`. -/
def put (m : List (Nat × Nat)) (k v : Nat) : List (Nat × Nat) := (k, v) :: m.filter (·.1 ≠ k)

/-- `m[k]`. -/
def get (m : List (Nat × Nat)) (k : Nat) : Option Nat := (m.find? (·.1 = k)).map (·.2)

/-- The new row, if the id is beyond the present one (request_holder.go:51-58). -/
def Holder.turn (h : Holder) : Holder :=
  let big := h.curId / 256
  if h.big ≠ big then
    { h with big, cur := h.made, rows := Conn.put h.rows big h.made, made := h.made + 1, heap := set h.heap h.made Row.new }
  else h

/-- One round of the loop in `getNext` (request_holder.go:50-67); the second part is the slot, if there was one. -/
def Holder.round (h : Holder) : Holder × Option (Nat × Nat) :=
  let h := { h with curId := (h.curId + 1) % M }
  let h := h.turn
  let id := h.curId
  if id ≠ 0 ∧ id ≠ pingId then
    let row := h.heap h.cur
    if row.fake (id % 256) ≠ 0 then (h, none)
    else ({ h with heap := set h.heap h.cur { row with fake := set row.fake (id % 256) id } }, some (h.cur, id % 256))
  else (h, none)

/-- The loop, with a bound on the number of rounds. -/
def Holder.rounds : Nat → Holder → Option (Holder × Nat × Nat)
  | 0, _ => none
  | n + 1, h => match h.round with
    | (h, some (o, j)) => some (h, o, j)
    | (h, none) => h.rounds n

/-- `getNext` (request_holder.go:47-69): the slot is `reqs[j]` of row object `o`. Three rounds are enough
(`C51_three_rounds`). -/
def Holder.getNext (h : Holder) : Option (Holder × Nat × Nat) := Holder.rounds 3 { h with got := h.got + 1 }

/-- The row `remove` uses, fetched unless it is the one used last (request_holder.go:73-82); `none`: panic. -/
def Holder.fetch (h : Holder) (big : Nat) : Option Holder :=
  if h.lastBig ≠ big then
    match Conn.get h.rows big with
    | some o => some { h with last := o, lastBig := big }
    | none => none
  else some h

/-- `remove` (request_holder.go:71-98): `none` is the panic; the second part is the request found. -/
def Holder.remove (h : Holder) (id : Nat) : Option (Holder × Option Nat) :=
  (h.fetch (id / 256)).map fun h =>
    let big := id / 256
    let row := h.heap h.last
    let freed := row.freed + 1
    let rows := if freed = 256 ∨ freed = 255 ∧ (big = 0 ∨ big = pingId / 256) then h.rows.filter (·.1 ≠ big) else h.rows
    ({ h with rows, heap := set h.heap h.last { row with freed, fake := set row.fake (id % 256) 0 }, put := h.put + 1 },
      row.req (id % 256))

/-- The slots `getAll` finds (request_holder.go:105-113). -/
def Holder.found (h : Holder) : List (Nat × Nat) :=
  h.rows.flatMap fun p => ((List.range 256).filter fun j =>
    (h.heap p.2).fake j ≠ 0 ∧ (h.heap p.2).req j ≠ none).map fun j => (p.2, j)

/-- `getAll` (request_holder.go:100-116): `none` is a panic, because the length is negative (103) or too small (109). -/
def Holder.getAll (h : Holder) : Option (List (Nat × Nat)) :=
  if h.put ≤ h.got ∧ h.found.length ≤ h.got - h.put then some h.found else none

/-- How a request was answered: by the response with this id and content, by the flush, by somebody else. -/
inductive Ans
  | response (id content : Nat)
  | flushed (code : Nat)
  | other
deriving DecidableEq, Repr

/-- Request states (request.go:223-233). -/
inductive RS | pending | inFly | performed
deriving DecidableEq, Repr

/-- The write loop (connection.go:230-305). -/
inductive WPc
  | loop
  | header (r o j : Nat)              -- SetInFly succeeded; about to read the slot's id and the body (292-296)
  | write (id r : Nat) (full : Bool)  -- about to write request r, with its body or without (299)
  | ended
deriving DecidableEq, Repr

/-- The read loop (connection.go:204-226). -/
inductive RPc
  | read
  | reply (ireq : Option Nat) (id content : Nat) -- remove has returned; about to call RespondBytes (220)
  | ended
  | panicked
deriving DecidableEq, Repr

/-- The control loop (connection.go:154-198). -/
inductive CPc
  | loop
  | flush (l : List (Nat × Nat)) -- in flushInFly, about to answer those (193-197)
  | ended
  | panicked
deriving DecidableEq, Repr

def rcShutdown : Nat := 0xff03
def rcIOError : Nat := 0xfe03

/-- `slot r`: the bookmark which SetInFly chained to the request. `idOf r`: the id put into its header. `wreq`: the slot
kept by the write loop for the next request. `wire`: what was written: id, request, whether with its body. `removed`: ids of the
responses received (never read). -/
structure St where
  h : Holder
  rs : Nat → RS
  ans : Nat → Option Ans
  slot : Nat → Option (Nat × Nat)
  idOf : Nat → Option Nat
  wreq : Option (Nat × Nat)
  wp : WPc
  rp : RPc
  cp : CPc
  shutdown : Bool
  wire : List (Nat × Nat × Bool)
  removed : List Nat

def init : St :=
  { h := Holder.init, rs := fun _ => .pending, ans := fun _ => none, slot := fun _ => none, idOf := fun _ => none,
    wreq := none, wp := .loop, rp := .read, cp := .loop, shutdown := false, wire := [], removed := [] }

/-- `unchain` (response.go:81-87): the slot forgets the request. -/
def unchain (h : Holder) (slot : Option (Nat × Nat)) : Holder :=
  match slot with
  | none => h
  | some (o, j) => { h with heap := set h.heap o { h.heap o with req := set (h.heap o).req j none } }

/-- An accepted answer (`chainResponse`, request.go:129-153). -/
def answer (s : St) (r : Nat) (a : Ans) : St :=
  { s with h := unchain s.h (s.slot r), slot := set s.slot r none, rs := set s.rs r .performed, ans := set s.ans r (some a) }

/-- `RespondBytes` (request.go:165-171). -/
def respond (s : St) (r : Nat) (a : Ans) : St := if s.rs r = .inFly then answer s r a else s

/-- `RespondFail` (request.go:173-179). -/
def respondFail (s : St) (r : Nat) (a : Ans) : St := if s.rs r = .performed then s else answer s r a

/-- `SetInFly(req)` of a pending request (request.go:85-98). -/
def claim (s : St) (r o j : Nat) : St :=
  let row := s.h.heap o
  { s with h := { s.h with heap := set s.h.heap o { row with req := set row.req j (some r) } },
           rs := set s.rs r .inFly, slot := set s.slot r (some (o, j)), wreq := none, wp := .header r o j }

/-- The write loop has received request `r` and has slot `(o, j)` (connection.go:286-291). -/
def offer (s : St) (r o j : Nat) : St :=
  if s.rs r = .pending then claim s r o j else { s with wreq := some (o, j) }

inductive Choice
  | take (r : Nat)               -- the write loop receives r (connection.go:268, 276)
  | header                       -- the write loop makes the header
  | wrote (ok : Bool)            -- WriteRequest returns
  | endWrite (shutdown : Bool)   -- Stop, or an error when flushing or pinging (connection.go:262-280, 284)
  | resp (id content : Nat)      -- the read loop gets a response and removes its id
  | reply                        -- ... and answers the request
  | endRead
  | fail (r : Nat)               -- RespondFail by anybody
  | flush                        -- the control loop ends
  | flushOne
deriving DecidableEq, Repr

def step (s : St) : Choice → Option St
  | .take r =>
    if s.wp = .loop then
      match s.wreq with
      | some (o, j) => some (offer s r o j)
      | none => match s.h.getNext with
        | some (h, o, j) => some (offer { s with h } r o j)
        | none => none
    else none
  | .header =>
    -- a request answered in the meantime has lost its body (request.go:151)
    match s.wp with
    | .header r o j =>
      let id := (s.h.heap o).fake j
      some { s with idOf := set s.idOf r (some id), wp := .write id r (s.rs r = .inFly) }
    | _ => none
  | .wrote ok =>
    match s.wp with
    | .write id r full =>
      if ok then some { s with wire := s.wire ++ [(id, r, full)], wp := .loop } else some { s with wp := .ended }
    | _ => none
  | .endWrite b => if s.wp = .loop then some { s with wp := .ended, shutdown := b } else none
  | .resp id content =>
    if s.rp = .read ∧ id < M then
      match s.h.remove id with
      | some (h, ireq) => some { s with h, rp := .reply ireq id content, removed := id :: s.removed }
      | none => some { s with rp := .panicked }
    else none
  | .reply =>
    match s.rp with
    | .reply none _ _ => some { s with rp := .read }
    | .reply (some r) id content =>
      let s := respond s r (.response id content)
      some { s with rp := .read }
    | _ => none
  | .endRead => if s.rp = .read then some { s with rp := .ended } else none
  | .fail r => some (respondFail s r .other)
  | .flush =>
    -- getAll, then `conn.inFly = RequestHolder{}` (connection.go:186-187): the rows stay reachable by the slots found
    if s.cp = .loop ∧ s.wp = .ended ∧ s.rp = .ended then
      match s.h.getAll with
      | some l => some { s with cp := .flush l }
      | none => some { s with cp := .panicked }
    else none
  | .flushOne =>
    match s.cp with
    | .flush [] => some { s with cp := .ended }
    | .flush ((o, j) :: l) =>
      match (s.h.heap o).req j with
      | some r =>
        let s := respondFail s r (.flushed (if s.shutdown then rcShutdown else rcIOError))
        some { s with cp := .flush l }
      | none => some { s with cp := .flush l }
    | _ => none

def run : St → List Choice → Option St
  | s, [] => some s
  | s, c :: cs => (step s c).bind fun s => run s cs

end Verif.Conn
