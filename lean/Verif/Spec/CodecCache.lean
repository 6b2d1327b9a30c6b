import Verif.Model.CodecCache

/-! What is said about the codec caches. -/
namespace Verif.CodecCache
variable {T A : Type} [DecidableEq T]

/-- A state of the program, after any calls by any number of goroutines. -/
def Reach (e : Env T A) (s : St T A) : Prop := ∃ cs, run e init cs = some s

/-- Using codec `c` may use codec `d`. -/
inductive Uses (s : St T A) : Nat → Nat → Prop
  | self (c : Nat) : Uses s c c
  | part (c d r : Nat) (x : Codec T A) : Uses s c d → s.cods d = some x → r ∈ x.refs → Uses s c r

/-- `m` is a part of `n`. -/
def PartOf (e : Env T A) (m n : T) : Prop := ∃ got, e.fill n got = .dep m

/-- The type is not recursive and has no recursive parts: there is no endless descent into parts of parts. -/
def Nonrec (e : Env T A) (n : T) : Prop := Acc (PartOf e) n

/-- Goroutine `t` is about to load the variable `ws`, without the lock. -/
def Loads (s : St T A) (t : Nat) : Prop := ∃ rt, s.pc t = .load rt

/-- Goroutine `t` is about to assign to the variable `ws`. -/
def Stores (s : St T A) (t : Nat) : Prop := ∃ rt c, s.pc t = .publish rt c

/-- Goroutine `t` may insert into the map `m` with its next step. -/
def Inserts (e : Env T A) (s : St T A) (t m : Nat) : Prop := ∃ s', step e s (.go t) = some s' ∧ s'.maps m ≠ s.maps m

/-- Goroutine `t` may change the codec `c` with its next step. -/
def Changes (e : Env T A) (s : St T A) (t c : Nat) : Prop := ∃ s', step e s (.go t) = some s' ∧ ¬ s'.cods c = s.cods c

/-- The type that the goroutine's call is about. -/
def about : PC T → Option T
  | .idle => none
  | .load rt | .index rt _ | .lock rt | .again rt | .copy rt | .enter rt | .fill rt | .publish rt _ | .unlock rt _ | .fail rt => some rt

/-- A finite set of types that contains the parts of its members, each of which has at most `K` parts. -/
structure Finite (e : Env T A) (U : List T) (K : Nat) : Prop where
  parts : ∀ n ∈ U, ∀ m, PartOf e m n → m ∈ U
  bound : ∀ n ∈ U, ∀ got m, e.fill n got = .dep m → got.length < K

end Verif.CodecCache
