import Verif.Model.Marshal

/-! The cache of readers in `sbox`: `ReadFirst` and `ReadMany` (sbox/result.go:12-62) called by any number of goroutines at once.

* A call is a program on its pair of readers, split into as many steps as one likes, which may depend on everything the call has
  done before (`Call.prog`), and a result taken from the pair at the end (`Call.out`). It may also panic on the way.
* Pairs of readers are numbered in the order of their creation. The first is the initial content of `readerCache` (:13).
* Memory is sequentially consistent (the load in :18,:45 is not atomic, which makes it a data race with the atomic accesses). -/
namespace Verif.ReaderCache
open Verif.Marshal

/-- `[2]marshal.Reader`. -/
abbrev Pair := Rd × Rd

/-- A call of `ReadFirst` or `ReadMany` with body `body`. -/
structure Call (α : Type) where
  body : Bytes
  prog : List (Pair → Pair)
  out : Pair → α

/-- `[2]marshal.Reader{{Body: b}, {}}` (:21,25,48,52). -/
def fresh (b : Bytes) : Pair := (⟨b, none⟩, ⟨[], none⟩)

/-- Where a goroutine is. -/
inductive PC (α : Type) where
  | idle
  /-- about to load `readerCache` (:18,:45) -/
  | load (c : Call α)
  /-- about to compare and swap (:19,:46) -/
  | cas (c : Call α) (t : Nat)
  /-- about to initialise the cached pair (:21,:48) -/
  | reset (c : Call α) (t : Nat)
  /-- about to allocate a pair (:25,:52) -/
  | alloc (c : Call α)
  /-- the rest of the program, on pair `r` (:27-37,:54-58) -/
  | run (c : Call α) (r : Nat) (rest : List (Pair → Pair))
  /-- about to store `r` in the cache (:38,:59); the result is computed -/
  | store (c : Call α) (r : Nat) (res : α)

structure St (α : Type) where
  cache : Option Nat
  mem : Nat → Pair
  n : Nat
  pc : Nat → PC α
  /-- the calls that returned, with their results -/
  rets : List (Call α × α)

/-- The initial state (:13). -/
def init (α : Type) : St α :=
  { cache := some 0, mem := fun _ => (⟨[], none⟩, ⟨[], none⟩), n := 1, pc := fun _ => .idle, rets := [] }

inductive Choice (α : Type) where
  | call (c : Call α)
  | next
  | panic

def St.go {α : Type} (s : St α) (g : Nat) (p : PC α) : St α := { s with pc := fun i => if i = g then p else s.pc i }

/-- One step of goroutine `g`. -/
def step {α : Type} (s : St α) (g : Nat) (ch : Choice α) : Option (St α) :=
  match ch, s.pc g with
  | .call c, .idle => some (s.go g (.load c))
  | .next, .load c => match s.cache with
    | some t => some (s.go g (.cas c t))
    | none => some (s.go g (.alloc c))
  | .next, .cas c t => if s.cache = some t then some { s.go g (.reset c t) with cache := none } else some (s.go g (.alloc c))
  | .next, .reset c t => some { s.go g (.run c t c.prog) with mem := fun i => if i = t then fresh c.body else s.mem i }
  | .next, .alloc c =>
    some { s.go g (.run c s.n c.prog) with n := s.n + 1, mem := fun i => if i = s.n then fresh c.body else s.mem i }
  | .next, .run c r (f :: fs) => some { s.go g (.run c r fs) with mem := fun i => if i = r then f (s.mem r) else s.mem i }
  | .next, .run c r [] => some (s.go g (.store c r (c.out (s.mem r))))
  | .panic, .run _ _ _ => some (s.go g .idle)
  | .next, .store c r res => some { s.go g .idle with cache := some r, rets := (c, res) :: s.rets }
  | _, _ => none

/-- Any interleaving. -/
def run {α : Type} (s : St α) : List (Nat × Choice α) → Option (St α)
  | [] => some s
  | (g, ch) :: cs => match step s g ch with
    | none => none
    | some s => run s cs

end Verif.ReaderCache
