import Verif.Model.Generator

/-! Generators of requests used by contexts at the same time (generator.go; context.go:139-145,164-170,273-283; parallel_service.go:88-114;
wait_group.go:80-86,120-127,146-150).

* A user is a context, or a multi-request with a generator of its own, together with the goroutine that makes requests with it; what a
  multi-request of a context makes counts as made by the context. `c.gen` and `c.owngen` are set together, at the first request.
* `Done` of a context (`Each`, `Results` of a multi-request, `inc` of a parallel service) is called by any goroutine, since
  `ReqContext.Respond` does it for whoever answers the request. It is one step: `Release` is under the mutex of the generator.
* `RGenerator.Request` is six steps; values are numbers, the writer of the generator is the list of values written and not taken yet. An
  increment `gen.i++` is one step.
* The cache is one channel with room for `cap` generators: 128 for `gencache`, N for a parallel service. -/
namespace Verif.GenShare

/-- `RGenerator` (generator.go:12-19). -/
structure Gen where
  slab : Option Nat
  i : Nat
  g : Bool
  w : List Nat
deriving DecidableEq, Repr

/-- A request handed out: who asked, its place, the value given, the body it has. -/
structure Out where
  user : Nat
  slab : Nat
  i : Nat
  val : Nat
  body : List Nat
deriving DecidableEq, Repr

inductive Pc
  | idle
  | begin (v : Nat)                       -- before `c.gen == nil` (context.go:141)
  | check (k v : Nat)                     -- before `gen.req == nil` (generator.go:23)
  | take (k v : Nat)                      -- before `&gen.req[gen.i]` (generator.go:27-29)
  | inc (k v slab i : Nat)                -- before `gen.i++` (generator.go:30)
  | wrap (k v slab i : Nat)               -- before `gen.i == rrsize` (generator.go:30-34)
  | write (k v slab i : Nat)              -- before `gen.w.Write(val)` (generator.go:39)
  | written (k v slab i : Nat)            -- before `gen.w.Written()` (generator.go:40)
  | dead                                  -- panicked: nil slab or index out of range
deriving DecidableEq, Repr

/-- Generators with numbers below `n` have been made. -/
structure St where
  gens : Nat → Gen
  n : Nat
  cache : List Nat
  slabs : Nat
  gen : Nat → Option Nat
  own : Nat → Bool
  pc : Nat → Pc
  out : List Out

def init : St := ⟨fun _ => ⟨none, 0, true, []⟩, 0, [], 0, fun _ => none, fun _ => false, fun _ => .idle, []⟩

inductive Choice
  | call (u v : Nat)   -- the user makes a request with value `v`
  | go (u : Nat)
  | done (u : Nat)
deriving DecidableEq, Repr

def set {α : Type} (f : Nat → α) (k : Nat) (v : α) : Nat → α := fun j => if j = k then v else f j

/-- `generators.Get` (generator.go:57-65) by user `u`. -/
def get (s : St) (u v : Nat) : St :=
  match s.cache with
  | k :: c => { s with cache := c, gen := set s.gen u (some k), own := set s.own u true, pc := set s.pc u (.check k v) }
  | [] => { s with gens := set s.gens s.n ⟨none, 0, true, []⟩, n := s.n + 1, gen := set s.gen u (some s.n), own := set s.own u true,
                   pc := set s.pc u (.check s.n v) }

/-- `RGenerator.Release` (generator.go:44-55). -/
def release (cap : Nat) (s : St) (k : Nat) : St :=
  if (s.gens k).g then
    { s with gens := set s.gens k { s.gens k with g := false }, cache := if s.cache.length < cap then s.cache ++ [k] else s.cache }
  else s

/-- The next step of user `u` inside `NewRequest` (context.go:140-145, generator.go:21-43). -/
def go (s : St) (u : Nat) : Option St :=
  match s.pc u with
  | .idle | .dead => none
  | .begin v => match s.gen u with
    | none => some (get s u v)
    | some k => some { s with pc := set s.pc u (.check k v) }
  | .check k v =>
    if (s.gens k).slab = none then
      some { s with gens := set s.gens k { s.gens k with slab := some s.slabs }, slabs := s.slabs + 1, pc := set s.pc u (.take k v) }
    else some { s with pc := set s.pc u (.take k v) }
  | .take k v => match (s.gens k).slab with
    | none => some { s with pc := set s.pc u .dead }
    | some a =>
      if (s.gens k).i < Generator.rrsize then some { s with pc := set s.pc u (.inc k v a (s.gens k).i) }
      else some { s with pc := set s.pc u .dead }
  | .inc k v a i => some { s with gens := set s.gens k { s.gens k with i := (s.gens k).i + 1 }, pc := set s.pc u (.wrap k v a i) }
  | .wrap k v a i =>
    if (s.gens k).i = Generator.rrsize then
      some { s with gens := set s.gens k { s.gens k with i := 0, slab := none }, pc := set s.pc u (.write k v a i) }
    else some { s with pc := set s.pc u (.write k v a i) }
  | .write k v a i => some { s with gens := set s.gens k { s.gens k with w := (s.gens k).w ++ [v] }, pc := set s.pc u (.written k v a i) }
  | .written k v a i =>
    some { s with gens := set s.gens k { s.gens k with w := [] }, pc := set s.pc u .idle, out := ⟨u, a, i, v, (s.gens k).w⟩ :: s.out }

def step (cap : Nat) (s : St) : Choice → Option St
  | .call u v => if s.pc u = .idle then some { s with pc := set s.pc u (.begin v) } else none
  | .go u => go s u
  | .done u => -- context.go:278-281
    match s.own u, s.gen u with
    | true, some k => some (release cap { s with own := set s.own u false } k)
    | _, _ => some s

def run (cap : Nat) (s : St) : List Choice → Option St
  | [] => some s
  | c :: cs => (step cap s c).bind fun s => run cap s cs

end Verif.GenShare
