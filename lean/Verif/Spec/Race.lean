/-! Data races, after the Go memory model (https://go.dev/ref/mem). -/
namespace Verif.Race
variable {V : Type}

/-- What a goroutine does that others may notice. `V` names variables, mutexes and channels. -/
inductive Op (V : Type) where
  /-- an access to the variable `x`: a write, or a read; with `sync/atomic`, or plain -/
  | acc (x : V) (write atomic : Bool)
  | lock (m : V)
  | unlock (m : V)
  | send (c : V)
  | recv (c : V)
  /-- `go`: starts goroutine `u` -/
  | fork (u : Nat)
  deriving DecidableEq

/-- An event: goroutine `t` does `op`. -/
structure Ev (V : Type) where
  t : Nat
  op : Op V

/-- An execution, in the order in which things happened. -/
abbrev Trace (V : Type) := List (Ev V)

def sends [DecidableEq V] (tr : Trace V) (c : V) : Nat := tr.countP fun e => e.op = .send c
def recvs [DecidableEq V] (tr : Trace V) (c : V) : Nat := tr.countP fun e => e.op = .recv c

/-- Event `i` happens before event `j`: by the order in one goroutine; from an unlock to a later lock of the same mutex; from the n-th send on a channel
to the n-th receive; from a `go` statement to the goroutine it starts; and what follows by transitivity. (What Go promises in addition, for example
for atomic operations, is not used.) -/
inductive HB [DecidableEq V] (tr : Trace V) : Nat → Nat → Prop
  | po {i j t a b} : i < j → tr[i]? = some ⟨t, a⟩ → tr[j]? = some ⟨t, b⟩ → HB tr i j
  | mutex {i j t u m} : i < j → tr[i]? = some ⟨t, .unlock m⟩ → tr[j]? = some ⟨u, .lock m⟩ → HB tr i j
  | chan {i j t u c} : i < j → tr[i]? = some ⟨t, .send c⟩ → tr[j]? = some ⟨u, .recv c⟩ → sends (tr.take i) c = recvs (tr.take j) c → HB tr i j
  | fork {i j t u a} : i < j → tr[i]? = some ⟨t, .fork u⟩ → tr[j]? = some ⟨u, a⟩ → HB tr i j
  | trans {i j k} : HB tr i j → HB tr j k → HB tr i k

/-- Events `i` and `j` are conflicting accesses to `x`: by different goroutines, one of them a write, and not both atomic. -/
def Conflict (tr : Trace V) (x : V) (i j : Nat) : Prop :=
  ∃ t u w a w' a', tr[i]? = some ⟨t, .acc x w a⟩ ∧ tr[j]? = some ⟨u, .acc x w' a'⟩ ∧ t ≠ u ∧ (w || w') = true ∧ (a && a') = false

/-- There is no data race on `x`: of two conflicting accesses one happens before the other. -/
def Free [DecidableEq V] (tr : Trace V) (x : V) : Prop := ∀ i j, i < j → Conflict tr x i j → HB tr i j

/-- Two goroutines access `x` at the same time: two conflicting accesses follow each other immediately. -/
def Clash (tr : Trace V) (x : V) : Prop := ∃ i, Conflict tr x i (i + 1)

end Verif.Race
