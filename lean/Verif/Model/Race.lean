import Verif.Spec.Race
/-! Goroutines as programs of memory accesses, locks, channel operations and `go` statements, without the data: what matters for data races. Which branch
is taken is left open. Channel operations that no argument uses are left out of the programs. -/
namespace Verif.Race
variable {V : Type}

/-- A piece of code: an operation, nothing, one after the other, one or the other, any number of times. -/
inductive Prog (V : Type) where
  | op (o : Op V)
  | skip
  | seq (p q : Prog V)
  | alt (p q : Prog V)
  | loop (p : Prog V)

namespace Prog
/-- A plain read of `x`. -/
def r (x : V) : Prog V := .op (.acc x false false)
/-- A plain write of `x`. -/
def w (x : V) : Prog V := .op (.acc x true false)
/-- An atomic load of `x`. -/
def ar (x : V) : Prog V := .op (.acc x false true)
/-- An atomic store, addition or compare-and-swap on `x`. -/
def aw (x : V) : Prog V := .op (.acc x true true)
/-- Something that may be left out. -/
def opt (p : Prog V) : Prog V := .alt p .skip
/-- One after the other. -/
def all : List (Prog V) → Prog V
  | [] => .skip
  | [p] => p
  | p :: q :: l => .seq p (all (q :: l))
/-- `p` with the mutex `m` held. -/
def locked (m : V) (p : Prog V) : Prog V := all [.op (.lock m), p, .op (.unlock m)]
end Prog

/-- What a goroutine has still to do after `p` has been put in front. -/
def push : Prog V → List (Prog V) → List (Prog V)
  | .skip, k => k
  | .seq p q, k => push p (push q k)
  | p, k => p :: k

/-- `k t` is what goroutine `t` has still to do, `own m` who has locked `m`, `on t` whether `t` has been started. -/
structure St (V : Type) where
  k : Nat → List (Prog V)
  own : V → Option Nat := fun _ => none
  on : Nat → Bool
  tr : Trace V := []

def set {α : Type} [DecidableEq α] {β : Type} (f : α → β) (a : α) (b : β) : α → β := fun x => if x = a then b else f x

/-- Goroutine `t` does `o`; `r` is what it has to do then. Locking waits for the mutex, receiving for a message. -/
def perform [DecidableEq V] (s : St V) (t : Nat) (o : Op V) (r : List (Prog V)) : Option (St V) :=
  let s' := { s with k := set s.k t r, tr := s.tr ++ [⟨t, o⟩] }
  match o with
  | .acc .. => some s'
  | .lock m => if s.own m = none then some { s' with own := set s.own m (some t) } else none
  | .unlock m => some { s' with own := set s.own m none }
  | .send _ => some s'
  | .recv c => if recvs s.tr c < sends s.tr c then some s' else none
  | .fork u => if s.on u = false then some { s' with on := set s.on u true } else none

/-- Goroutine `t` goes on; `n` says which way. A goroutine that has nothing to do calls one of the methods in `menu t`. -/
def step [DecidableEq V] (menu : Nat → List (Prog V)) (s : St V) (c : Nat × Nat) : Option (St V) :=
  if s.on c.1 then
    match s.k c.1 with
    | [] => (menu c.1)[c.2]?.map fun p => { s with k := set s.k c.1 (push p []) }
    | .op o :: r => perform s c.1 o r
    | .alt p q :: r => some { s with k := set s.k c.1 (push (if c.2 = 0 then p else q) r) }
    | .loop p :: r => some { s with k := set s.k c.1 (if c.2 = 0 then r else push p (.loop p :: r)) }
    | .skip :: r => some { s with k := set s.k c.1 r }
    | .seq p q :: r => some { s with k := set s.k c.1 (push p (push q r)) }
  else none

def run [DecidableEq V] (menu : Nat → List (Prog V)) : St V → List (Nat × Nat) → Option (St V)
  | s, [] => some s
  | s, c :: cs => (step menu s c).bind fun s => run menu s cs

/-- Any number of goroutines which call the methods in their menus. -/
def idle : St V := { k := fun _ => [], on := fun _ => true }

end Verif.Race
