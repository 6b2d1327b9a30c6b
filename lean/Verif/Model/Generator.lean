/-!
Request generators (generator.go). Objects are named by allocation numbers, bodies are left out (they are the
`Writer`'s, see C15). The cache of generators is the channel `gencache`.
-/
namespace Verif.Generator

/-- `rrsize` (generator.go:9). -/
def rrsize : Nat := 32

/-- `RGenerator` (generator.go:12-19) without writer and mutex: which slab of requests it uses (`gen.req`, `gen.res` are
allocated and dropped together), the next place in it, and whether it still knows the cache (`gen.g`). -/
structure Gen where
  slab : Option Nat
  i : Nat
  g : Bool
deriving DecidableEq, Repr

/-- A request: its place in the slab, its `Response` field, its own fields as far as they are set. -/
structure Req where
  slab : Nat
  i : Nat
  response : Nat × Nat
  id : Nat
  msg : Nat
deriving DecidableEq, Repr

/-- All generators ever made (newest last), the cache (a channel of 128, first in first out), and the number of slabs
allocated so far by all generators. -/
structure St where
  gens : List Gen
  cache : List Nat
  slabs : Nat
deriving DecidableEq, Repr

def St.new : St := ⟨[], [], 0⟩

inductive Op
  | get                                   -- GetGenerator (generator.go:57-70)
  | request (gen : Nat) (id msg : Nat)    -- RGenerator.Request (generator.go:21-42)
  | release (gen : Nat)                   -- RGenerator.Release (generator.go:44-55)
deriving DecidableEq, Repr

inductive Res
  | gen (k : Nat)
  | req (r : Req)
  | none
deriving DecidableEq, Repr

/-- The slab to use, a new one if there is none (generator.go:23-26), and the number of slabs afterwards. -/
def Gen.pick (n : Nat) (gen : Gen) : Nat × Nat :=
  match gen.slab with
  | some s => (s, n)
  | none => (n, n + 1)

/-- `RGenerator.Request` (generator.go:21-42); yields also the number of slabs. -/
def Gen.request (n : Nat) (gen : Gen) (id msg : Nat) : Gen × Nat × Req :=
  let (slab, n) := gen.pick n
  let r : Req := { slab, i := gen.i, response := (slab, gen.i), id, msg }
  if gen.i + 1 = rrsize then ({ gen with i := 0, slab := none }, n, r)
  else ({ gen with i := gen.i + 1, slab := some slab }, n, r)

/-- One call. Calls on generators that do not exist are not possible. -/
def St.step (s : St) : Op → Option (St × Res)
  | .get => match s.cache with
    | k :: c => some ({ s with cache := c }, .gen k)
    | [] => some ({ s with gens := s.gens ++ [⟨none, 0, true⟩] }, .gen s.gens.length)
  | .request k id msg => match s.gens[k]? with
    | some gen =>
      let (gen, n, r) := gen.request s.slabs id msg
      some ({ s with gens := s.gens.set k gen, slabs := n }, .req r)
    | none => none
  | .release k => match s.gens[k]? with
    | some gen =>
      if gen.g then
        some ({ s with gens := s.gens.set k { gen with g := false },
                       cache := if s.cache.length < 128 then s.cache ++ [k] else s.cache }, .none)
      else some (s, .none)
    | none => none

/-- A history; the log has the newest entry first. -/
def St.run (s : St) : List Op → Option (St × List (Op × Res))
  | [] => some (s, [])
  | o :: os => (s.step o).bind fun (s, r) => (St.run s os).map fun (s, rs) => (s, (o, r) :: rs)

end Verif.Generator
