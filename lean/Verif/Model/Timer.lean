/-!
The timer heap (custom_timer.go): a 4-ary heap whose nodes live in a slot array and are linked by indices.

Conventions: slot contents are a total function; the invariant (Proofs/Timer.lean) shows that all slots ever looked at
are smaller than the length `n` of the array, so no index panic is hidden. `uint32`/`uint16` are `Nat`: slots and
child counts stay far below the limits, except `upi` of the unused slot 0, which wraps in Go, stops at 0 here, and is
never read. Deadlines (`Epoch`, int64) are integers. Expirators are named by numbers. The recursion
`putUnder -> sort4 -> putUnder` carries fuel, `none` is running out of it, which is proved not to happen.
-/
namespace Verif.Timer

/-- `tItem` (custom_timer.go:79-85). -/
structure Item where
  x : Option Nat
  e : Int
  upi : Nat
  downl : Nat
  up : Nat
  down : List Nat     -- four entries
deriving DecidableEq, Repr

/-- `tItem{}`. -/
def Item.zero : Item := ⟨none, 0, 0, 0, 0, [0, 0, 0, 0]⟩

abbrev Slots := Nat → Item

/-- Assignment to one slot. -/
def upd (h : Slots) (i : Nat) (it : Item) : Slots := fun j => if j = i then it else h j

/-- `tHeap` without mutex and condition variable (custom_timer.go:87-96); `n` is `len(h.h)`. -/
structure Heap where
  h : Slots
  n : Nat
  top : Nat
  size : Nat
  free : Nat

/-- `newHeap` (custom_timer.go:98-104): one unused slot. -/
def Heap.new : Heap := { h := fun _ => Item.zero, n := 1, top := 0, size := 0, free := 0 }

/-- The comparisons and exchanges of `sort4` (custom_timer.go:263-289). The local copies `e0`..`e3` always equal the
deadlines of the entries they travel with, so `e` is looked up instead. -/
def order4 (e : Nat → Int) (a b c d : Nat) : Nat × Nat × Nat × Nat :=
  let (a, b) := if e b < e a then (b, a) else (a, b)
  let (a, b, c) :=
    if e c < e b then
      let (b, c) := (c, b)
      if e b < e a then (b, a, c) else (a, b, c)
    else (a, b, c)
  if e d < e c then
    let (c, d) := (d, c)
    if e c < e b then
      let (b, c) := (c, b)
      if e b < e a then (b, a, c, d) else (a, b, c, d)
    else (a, b, c, d)
  else (a, b, c, d)

/-- The comparisons of case 3 of `remove` (custom_timer.go:206-219). -/
def order3 (e : Nat → Int) (a b c : Nat) : Nat × Nat × Nat :=
  let (a, b) := if e b < e a then (b, a) else (a, b)
  if e c < e b then
    let (b, c) := (c, b)
    if e b < e a then (b, a, c) else (a, b, c)
  else (a, b, c)

/-- `down[k]`. -/
def Item.kid (it : Item) (k : Nat) : Nat := it.down.getD k 0

/-- `sort4(&h.h[p].down)` (custom_timer.go:262-293), with `putUnder` as an argument. -/
def sort4 (put : Slots → Nat → Nat → Option Slots) (h : Slots) (p : Nat) : Option Slots :=
  let it := h p
  let (a, b, c, d) := order4 (fun i => (h i).e) (it.kid 0) (it.kid 1) (it.kid 2) (it.kid 3)
  let h := upd h p { it with down := [a, b, c, d] }
  (put h c d).bind fun h =>
  (put h b c).bind fun h =>
  put h a b

/-- `putUnder(upi, downi)` (custom_timer.go:243-260). -/
def putUnder : Nat → Slots → Nat → Nat → Option Slots
  | 0, _, _, _ => none
  | f + 1, h, u, d =>
    let h := upd h d { h d with up := u }
    if (h u).downl = 4 then
      (sort4 (putUnder f) h u).bind fun h =>
      let a := (h u).kid 0
      let h := upd h u { h u with down := [a, d, 0, 0] }
      let h := upd h a { h a with upi := 0 }
      let h := upd h d { h d with upi := 1 }
      some (upd h u { h u with downl := 2 })
    else
      let l := (h u).downl
      let h := upd h u { h u with down := (h u).down.set l d }
      let h := upd h d { h d with upi := l }
      some (upd h u { h u with downl := l + 1 })

/-- One `case` of the fall-through switch (custom_timer.go:178-179): move entry `j+1` of `up` to `j`. -/
def shift1 (h : Slots) (up j : Nat) : Slots :=
  let h := upd h up { h up with down := (h up).down.set j ((h up).kid (j + 1)) }
  let s := (h up).kid (j + 1)
  upd h s { h s with upi := (h s).upi - 1 }

/-- The switch (custom_timer.go:176-191). Only positions 0..3 occur. -/
def shift (h : Slots) (up upi : Nat) : Slots :=
  let h := if upi ≤ 0 then shift1 h up 0 else h
  let h := if upi ≤ 1 then shift1 h up 1 else h
  let h := if upi ≤ 2 then shift1 h up 2 else h
  upd h up { h up with down := (h up).down.set 3 0 }

/-- Joining the children of the slot `at` (custom_timer.go:195-226, cases 1 to 4); also yields the new root. -/
def join (f : Nat) (h : Slots) (a : Nat) : Option (Slots × Nat) :=
  let t := h a
  if t.downl = 1 then some (h, t.kid 0)
  else if t.downl = 2 then
    if (h (t.kid 0)).e ≤ (h (t.kid 1)).e then
      (putUnder f h (t.kid 0) (t.kid 1)).map fun h => (h, t.kid 0)
    else
      (putUnder f h (t.kid 1) (t.kid 0)).map fun h => (h, t.kid 1)
  else if t.downl = 3 then
    let (x, y, z) := order3 (fun i => (h i).e) (t.kid 0) (t.kid 1) (t.kid 2)
    let h := upd h a { t with down := [x, y, z, t.kid 3] }
    (putUnder f h y z).bind fun h => (putUnder f h x y).map fun h => (h, x)
  else if t.downl = 4 then
    (sort4 (putUnder f) h a).map fun h => (h, (h a).kid 0)
  else none

/-- `remove(at)` (custom_timer.go:165-241), without the assignment to the expirator's timer (see `St.remove`). -/
def Heap.remove (H : Heap) (a : Nat) : Option Heap :=
  let t := H.h a
  if t.downl = 0 then
    let (h, top) :=
      if a = H.top then (H.h, 0)
      else
        let h := shift H.h t.up t.upi
        (upd h t.up { h t.up with downl := (h t.up).downl - 1 }, H.top)
    some { H with h := upd h a { Item.zero with up := H.free }, top, size := H.size - 1, free := a }
  else
    (join H.n H.h a).map fun (h, m) =>
    let t := h a
    let (h, top) :=
      if a = H.top then (upd h m { h m with up := 0, upi := 0 }, m)
      else
        let h := upd h m { h m with up := t.up, upi := t.upi }
        (upd h t.up { h t.up with down := (h t.up).down.set t.upi m }, H.top)
    { H with h := upd h a { Item.zero with up := H.free }, top, size := H.size - 1, free := a }

/-- `push(x, e)` (custom_timer.go:137-163): the heap, the slot used (`x.Timer().i`) and the result. -/
def Heap.push (H : Heap) (x : Nat) (e : Int) : Option (Heap × Nat × Bool) :=
  let it : Item := { Item.zero with x := some x, e := e }
  let (H, i) : Heap × Nat :=
    if H.free ≠ 0 then ({ H with h := upd H.h H.free it, free := (H.h H.free).up }, H.free)
    else ({ H with h := upd H.h H.n it, n := H.n + 1 }, H.n)
  let H := { H with size := H.size + 1 }
  if H.top = 0 then some ({ H with top := i }, i, true)
  else if e ≤ (H.h H.top).e then
    (putUnder H.n H.h i H.top).map fun h => ({ H with h, top := i }, i, decide ((h i).e < (h H.top).e))
  else
    (putUnder H.n H.h H.top i).map fun h => ({ H with h }, i, false)

/-- One heap and the `i` field of the timers of all expirators (custom_timer.go:18-21). -/
structure St where
  hp : Heap
  ti : Nat → Nat

def St.new : St := ⟨Heap.new, fun _ => 0⟩

/-- `remove` with `t.x.Timer().i = 0` (custom_timer.go:167); a nil expirator would panic. -/
def St.remove (s : St) (a : Nat) : Option St :=
  match (s.hp.h a).x with
  | none => none
  | some x => (s.hp.remove a).map fun hp => ⟨hp, fun y => if y = x then 0 else s.ti y⟩

/-- Operations under the heap's mutex. -/
inductive Op
  | after (x : Nat) (e : Int)   -- Timer.After (custom_timer.go:23-37); `e` is `NowEpoch().Add(d)`
  | stop (x : Nat)              -- Timer.Stop (custom_timer.go:39-48)
  | scan (now : Int)            -- one round of the inner loop (custom_timer.go:113-122)
deriving DecidableEq, Repr

/-- What an operation tells: `after` whether it signalled, `scan` which expirator expires. -/
inductive Res
  | none
  | signal (b : Bool)
  | expired (x : Nat)
deriving DecidableEq, Repr

def St.step (s : St) : Op → Option (St × Res)
  | .after x e => (s.hp.push x e).map fun (hp, i, top) => (⟨hp, fun y => if y = x then i else s.ti y⟩, .signal top)
  | .stop x => if s.ti x > 0 then (s.remove (s.ti x)).map fun s => (s, .none) else some (s, .none)
  | .scan now =>
    if s.hp.size ≠ 0 then
      if (s.hp.h s.hp.top).e ≥ now then some (s, .none)
      else match (s.hp.h s.hp.top).x with
        | some x => (s.remove s.hp.top).map fun s => (s, .expired x)
        | none => none
    else some (s, .none)

/-- A history with what was observed. -/
def St.run (s : St) : List Op → Option (St × List Res)
  | [] => some (s, [])
  | o :: os => (s.step o).bind fun (s, r) => (St.run s os).map fun (s, rs) => (s, r :: rs)

/-- The inner loop (custom_timer.go:113-129) when nothing else gets the mutex while `Expire` runs: rounds until one
expires nothing. -/
def St.drain (now : Int) : Nat → St → Option (St × List Nat)
  | 0, _ => none
  | f + 1, s => (s.step (.scan now)).bind fun (s, r) =>
    match r with
    | .expired x => (St.drain now f s).map fun (s, xs) => (s, x :: xs)
    | _ => some (s, [])

end Verif.Timer
