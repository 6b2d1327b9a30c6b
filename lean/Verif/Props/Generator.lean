import Verif.Model.Generator
/-!
Theorems about request generators (C59, C66).
-/
namespace Verif.Generator

/-- The requests handed out in a history. -/
def reqs (l : List (Op × Res)) : List Req := l.filterMap fun p => match p.2 with | .req r => some r | _ => none

/-- How often generator `k` was handed out. -/
def gets (k : Nat) (l : List (Op × Res)) : Nat := l.countP fun p => p.2 = .gen k

/-- Every generator's slab exists, no two generators share one, places are in range. -/
structure Ok (s : St) : Prop where
  slab : ∀ (k : Nat) g sl, s.gens[k]? = some g → g.slab = some sl → sl < s.slabs
  own : ∀ (k k' : Nat) g g' sl, s.gens[k]? = some g → s.gens[k']? = some g' → g.slab = some sl → g'.slab = some sl → k = k'
  fresh : ∀ (k : Nat) g, s.gens[k]? = some g → g.slab = none → g.i = 0
  range : ∀ (k : Nat) g, s.gens[k]? = some g → g.i < rrsize

/-- The place has not been handed out yet. -/
def Unused (s : St) (sl i : Nat) : Prop :=
  s.slabs ≤ sl ∨ ∃ (k : Nat) (g : Gen), s.gens[k]? = some g ∧ g.slab = some sl ∧ g.i ≤ i

theorem ok_new : Ok St.new := by constructor <;> simp [St.new]

theorem getElem?_set' {l : List Gen} {k j : Nat} {a g : Gen} (h : (l.set k a)[j]? = some g) :
    (j = k ∧ g = a ∧ k < l.length) ∨ (j ≠ k ∧ l[j]? = some g) := by
  rw [List.getElem?_set] at h
  split at h
  · next hk =>
    split at h
    · next hl => cases h; exact .inl ⟨hk.symm, rfl, hl⟩
    · cases h
  · next hk => exact .inr ⟨fun e => hk e.symm, h⟩

theorem ok_step {s s' : St} {o r} (h : Ok s) (hs : s.step o = some (s', r)) :
    Ok s' ∧ (∀ sl i, Unused s' sl i → Unused s sl i) ∧
      ∀ q, r = .req q → Unused s q.slab q.i ∧ ¬ Unused s' q.slab q.i ∧ q.response = (q.slab, q.i) := by
  cases o with
  | get =>
    simp only [St.step] at hs
    split at hs
    · cases hs
      exact ⟨⟨h.slab, h.own, h.fresh, h.range⟩, fun _ _ hu => hu, fun q hq => by cases hq⟩
    · cases hs
      have app : ∀ {k : Nat} {g : Gen}, (s.gens ++ [⟨none, 0, true⟩])[k]? = some g →
          s.gens[k]? = some g ∨ g = ⟨none, 0, true⟩ := by
        intro k g hk
        rw [List.getElem?_append] at hk
        split at hk
        · exact .inl hk
        · right
          have := List.mem_of_getElem? hk
          simpa using this
      refine ⟨⟨?_, ?_, ?_, ?_⟩, ?_, fun q hq => by cases hq⟩
      · intro k g sl hk hsl
        rcases app hk with hk | rfl
        · exact h.slab k g sl hk hsl
        · cases hsl
      · intro k k' g g' sl hk hk' hsl hsl'
        rcases app hk with hk | rfl
        · rcases app hk' with hk' | rfl
          · exact h.own k k' g g' sl hk hk' hsl hsl'
          · cases hsl'
        · cases hsl
      · intro k g hk hsl
        rcases app hk with hk | rfl
        · exact h.fresh k g hk hsl
        · rfl
      · intro k g hk
        rcases app hk with hk | rfl
        · exact h.range k g hk
        · simp [rrsize]
      · rintro sl i (hu | ⟨k, g, hk, hsl, hi⟩)
        · exact .inl hu
        · rcases app hk with hk | rfl
          · exact .inr ⟨k, g, hk, hsl, hi⟩
          · cases hsl
  | release k =>
    simp only [St.step] at hs
    split at hs
    · next gen hg =>
      split at hs
      · cases hs
        have app : ∀ {j : Nat} {g : Gen}, (s.gens.set k { gen with g := false })[j]? = some g →
            ∃ g0, s.gens[j]? = some g0 ∧ g0.slab = g.slab ∧ g0.i = g.i := by
          intro j g hj
          rcases getElem?_set' hj with ⟨rfl, rfl, _⟩ | ⟨_, hj⟩
          · exact ⟨gen, hg, rfl, rfl⟩
          · exact ⟨g, hj, rfl, rfl⟩
        refine ⟨⟨?_, ?_, ?_, ?_⟩, ?_, fun q hq => by cases hq⟩
        · intro j g sl hj hsl
          obtain ⟨g0, h1, h2, h3⟩ := app hj
          exact h.slab j g0 sl h1 (h2.trans hsl)
        · intro j j' g g' sl hj hj' hsl hsl'
          obtain ⟨g0, h1, h2, h3⟩ := app hj
          obtain ⟨g0', h1', h2', h3'⟩ := app hj'
          exact h.own j j' g0 g0' sl h1 h1' (h2.trans hsl) (h2'.trans hsl')
        · intro j g hj hsl
          obtain ⟨g0, h1, h2, h3⟩ := app hj
          rw [← h3]; exact h.fresh j g0 h1 (h2.trans hsl)
        · intro j g hj
          obtain ⟨g0, h1, h2, h3⟩ := app hj
          rw [← h3]; exact h.range j g0 h1
        · rintro sl i (hu | ⟨j, g, hj, hsl, hi⟩)
          · exact .inl hu
          · obtain ⟨g0, h1, h2, h3⟩ := app hj
            exact .inr ⟨j, g0, h1, h2.trans hsl, by omega⟩
      · cases hs
        exact ⟨h, fun _ _ hu => hu, fun q hq => by cases hq⟩
    · cases hs
  | request k id msg =>
    simp only [St.step] at hs
    split at hs
    · next gen hg =>
      have hlt : k < s.gens.length := (List.getElem?_eq_some_iff.1 hg).1
      have hr := h.range k gen hg
      -- the slab used and the number of slabs afterwards
      obtain ⟨sl, n, hsn, hsl⟩ : ∃ sl n, gen.pick s.slabs = (sl, n) ∧
          ((gen.slab = some sl ∧ n = s.slabs ∧ sl < s.slabs) ∨ (gen.slab = none ∧ sl = s.slabs ∧ n = s.slabs + 1 ∧ gen.i = 0)) := by
        cases hgs : gen.slab with
        | some x => exact ⟨x, s.slabs, by simp [Gen.pick, hgs], .inl ⟨rfl, rfl, h.slab k gen x hg hgs⟩⟩
        | none => exact ⟨s.slabs, s.slabs + 1, by simp [Gen.pick, hgs], .inr ⟨rfl, rfl, rfl, h.fresh k gen hg hgs⟩⟩
      have hother : ∀ j g, j ≠ k → s.gens[j]? = some g → g.slab = some sl → False := by
        intro j g hjk hj hgs
        rcases hsl with ⟨h1, _, _⟩ | ⟨_, h2, _, _⟩
        · exact hjk (h.own j k g gen sl hj hg hgs h1)
        · have := h.slab j g sl hj hgs; omega
      have hn : s.slabs ≤ n ∧ sl < n := by
        rcases hsl with ⟨_, h2, h3⟩ | ⟨_, h2, h3, _⟩ <;> omega
      have unused : Unused s sl gen.i := by
        rcases hsl with ⟨h1, _, _⟩ | ⟨_, h2, _, _⟩
        · exact .inr ⟨k, gen, hg, h1, Nat.le_refl _⟩
        · exact .inl (by omega)
      have hge : ∀ x, n ≤ x → s.slabs ≤ x := fun x hx => by omega
      simp only [Gen.request, hsn] at hs
      by_cases hfull : gen.i + 1 = rrsize
      · rw [if_pos hfull] at hs
        simp only [Option.some.injEq, Prod.mk.injEq] at hs
        obtain ⟨rfl, rfl⟩ := hs
        refine ⟨⟨?_, ?_, ?_, ?_⟩, ?_, ?_⟩
        · intro j g x hj hx
          rcases getElem?_set' hj with ⟨rfl, rfl, _⟩ | ⟨_, hj⟩
          · cases hx
          · have := h.slab j g x hj hx; exact Nat.lt_of_lt_of_le this hn.1
        · intro j j' g g' x hj hj' hx hx'
          rcases getElem?_set' hj with ⟨rfl, rfl, _⟩ | ⟨_, hj⟩
          · cases hx
          · rcases getElem?_set' hj' with ⟨rfl, rfl, _⟩ | ⟨_, hj'⟩
            · cases hx'
            · exact h.own j j' g g' x hj hj' hx hx'
        · intro j g hj hx
          rcases getElem?_set' hj with ⟨rfl, rfl, _⟩ | ⟨_, hj⟩
          · rfl
          · exact h.fresh j g hj hx
        · intro j g hj
          rcases getElem?_set' hj with ⟨rfl, rfl, _⟩ | ⟨_, hj⟩
          · simp [rrsize]
          · exact h.range j g hj
        · rintro x i (hu | ⟨j, g, hj, hx, hi⟩)
          · exact .inl (hge x hu)
          · rcases getElem?_set' hj with ⟨rfl, rfl, _⟩ | ⟨_, hj⟩
            · cases hx
            · exact .inr ⟨j, g, hj, hx, hi⟩
        · rintro q ⟨⟩
          refine ⟨unused, ?_, rfl⟩
          rintro (hu | ⟨j, g, hj, hx, hi⟩)
          · have : n ≤ sl := hu; omega
          · rcases getElem?_set' hj with ⟨rfl, rfl, _⟩ | ⟨hjk, hj⟩
            · cases hx
            · exact hother j g hjk hj hx
      · rw [if_neg hfull] at hs
        simp only [Option.some.injEq, Prod.mk.injEq] at hs
        obtain ⟨rfl, rfl⟩ := hs
        refine ⟨⟨?_, ?_, ?_, ?_⟩, ?_, ?_⟩
        · intro j g x hj hx
          rcases getElem?_set' hj with ⟨rfl, rfl, _⟩ | ⟨_, hj⟩
          · cases hx; exact hn.2
          · have := h.slab j g x hj hx; exact Nat.lt_of_lt_of_le this hn.1
        · intro j j' g g' x hj hj' hx hx'
          rcases getElem?_set' hj with ⟨rfl, rfl, _⟩ | ⟨hjk, hj⟩
          · rcases getElem?_set' hj' with ⟨rfl, rfl, _⟩ | ⟨hjk', hj'⟩
            · rfl
            · cases hx; exact (hother j' g' hjk' hj' hx').elim
          · rcases getElem?_set' hj' with ⟨rfl, rfl, _⟩ | ⟨_, hj'⟩
            · cases hx'; exact (hother j g hjk (by assumption) hx).elim
            · exact h.own j j' g g' x hj hj' hx hx'
        · intro j g hj hx
          rcases getElem?_set' hj with ⟨rfl, rfl, _⟩ | ⟨_, hj⟩
          · cases hx
          · exact h.fresh j g hj hx
        · intro j g hj
          rcases getElem?_set' hj with ⟨rfl, rfl, _⟩ | ⟨_, hj⟩
          · show gen.i + 1 < rrsize; omega
          · exact h.range j g hj
        · rintro x i (hu | ⟨j, g, hj, hx, hi⟩)
          · exact .inl (hge x hu)
          · rcases getElem?_set' hj with ⟨rfl, rfl, _⟩ | ⟨_, hj⟩
            · cases hx
              have hi' : gen.i + 1 ≤ i := hi
              rcases hsl with ⟨h1, _, _⟩ | ⟨_, h2, _, _⟩
              · exact .inr ⟨j, gen, hg, h1, by omega⟩
              · exact .inl (by omega)
            · exact .inr ⟨j, g, hj, hx, hi⟩
        · rintro q ⟨⟩
          refine ⟨unused, ?_, rfl⟩
          rintro (hu | ⟨j, g, hj, hx, hi⟩)
          · have : n ≤ sl := hu; omega
          · rcases getElem?_set' hj with ⟨rfl, rfl, _⟩ | ⟨hjk, hj⟩
            · have : gen.i + 1 ≤ gen.i := hi; omega
            · exact hother j g hjk hj hx
    · cases hs

theorem run_reqs : ∀ (os : List Op) {s s' : St} {l}, Ok s → s.run os = some (s', l) →
    (∀ q ∈ reqs l, Unused s q.slab q.i ∧ q.response = (q.slab, q.i)) ∧
      (reqs l).Pairwise (fun a b => (a.slab, a.i) ≠ (b.slab, b.i)) := by
  intro os
  induction os with
  | nil => intro s s' l _ h; simp [St.run] at h; obtain ⟨_, rfl⟩ := h; simp [reqs]
  | cons o os ih =>
    intro s s' l hok h
    simp only [St.run] at h
    cases hs : s.step o with
    | none => simp [hs] at h
    | some p =>
      obtain ⟨s1, r⟩ := p
      rw [hs] at h
      simp only [Option.bind_some] at h
      cases hr : s1.run os with
      | none => simp [hr] at h
      | some p2 =>
        obtain ⟨s2, l2⟩ := p2
        rw [hr] at h
        simp at h
        obtain ⟨rfl, rfl⟩ := h
        obtain ⟨hok1, mono, hq⟩ := ok_step hok hs
        obtain ⟨i1, i2⟩ := ih hok1 hr
        cases r with
        | req q =>
          obtain ⟨u, nu, hresp⟩ := hq q rfl
          have hl : reqs ((o, Res.req q) :: l2) = q :: reqs l2 := rfl
          rw [hl]
          refine ⟨?_, List.pairwise_cons.2 ⟨?_, i2⟩⟩
          · intro q' hq'
            rcases List.mem_cons.1 hq' with rfl | hq'
            · exact ⟨u, hresp⟩
            · exact ⟨mono _ _ (i1 q' hq').1, (i1 q' hq').2⟩
          · intro q' hq' he
            simp only [Prod.mk.injEq] at he
            have := (i1 q' hq').1
            rw [← he.1, ← he.2] at this
            exact nu this
        | gen k =>
          have hl : reqs ((o, Res.gen k) :: l2) = reqs l2 := rfl
          rw [hl]
          exact ⟨fun q' hq' => ⟨mono _ _ (i1 q' hq').1, (i1 q' hq').2⟩, i2⟩
        | none =>
          have hl : reqs ((o, Res.none) :: l2) = reqs l2 := rfl
          rw [hl]
          exact ⟨fun q' hq' => ⟨mono _ _ (i1 q' hq').1, (i1 q' hq').2⟩, i2⟩

/-- Generator `k` is in the cache, or may still get there. -/
structure Cache (s : St) : Prop where
  nodup : s.cache.Nodup
  mem : ∀ k ∈ s.cache, k < s.gens.length
  gone : ∀ k ∈ s.cache, ∀ g, s.gens[k]? = some g → g.g = false

/-- How often `k` may still be handed out. -/
def credit (s : St) (k : Nat) : Nat :=
  (if k ∈ s.cache then 1 else 0) + (match s.gens[k]? with | none => 2 | some g => if g.g then 1 else 0)

theorem cache_step {s s' : St} {o r} (h : Cache s) (hs : s.step o = some (s', r)) :
    Cache s' ∧ ∀ k, credit s' k + (if r = .gen k then 1 else 0) ≤ credit s k := by
  cases o with
  | get =>
    simp only [St.step] at hs
    split at hs
    · next j c hc =>
      cases hs
      have hn := h.nodup
      rw [hc] at hn
      refine ⟨⟨(List.nodup_cons.1 hn).2, fun k hk => h.mem k (by rw [hc]; simp [hk]), fun k hk => h.gone k (by rw [hc]; simp [hk])⟩, fun k => ?_⟩
      simp only [credit, hc, List.mem_cons, Res.gen.injEq]
      by_cases hk : j = k
      · subst hk
        simp [(List.nodup_cons.1 hn).1]
        omega
      · simp [hk, Ne.symm hk]
    · next hc =>
      cases hs
      refine ⟨⟨by rw [hc]; simp, by rw [hc]; simp, by rw [hc]; simp⟩, fun k => ?_⟩
      simp only [credit, hc, Res.gen.injEq]
      rw [List.getElem?_append]
      by_cases hk : s.gens.length = k
      · subst hk; simp
      · by_cases hlt : k < s.gens.length
        · simp [hlt, hk]
        · have : 1 ≤ k - s.gens.length := by omega
          obtain ⟨m, hm⟩ : ∃ m, k - s.gens.length = m + 1 := ⟨k - s.gens.length - 1, by omega⟩
          simp [hlt, hk, hm]
  | release j =>
    simp only [St.step] at hs
    split at hs
    · next gen hg =>
      have hlt : j < s.gens.length := (List.getElem?_eq_some_iff.1 hg).1
      split at hs
      · next hgg =>
        cases hs
        have hj : j ∉ s.cache := fun hm => by have := h.gone j hm gen hg; rw [hgg] at this; cases this
        have hset : ∀ k, (s.gens.set j { gen with g := false })[k]? = if k = j then some { gen with g := false } else s.gens[k]? := by
          intro k; rw [List.getElem?_set]
          by_cases hk : j = k
          · subst hk; simp [hlt]
          · simp [hk, Ne.symm hk]
        refine ⟨⟨?_, ?_, ?_⟩, fun k => ?_⟩
        · show (if _ then s.cache ++ [j] else s.cache).Nodup
          split
          · rw [List.nodup_append]
            exact ⟨h.nodup, by simp, fun a ha b hb => by simp at hb; subst hb; exact fun e => hj (e ▸ ha)⟩
          · exact h.nodup
        · intro k hk
          show k < (s.gens.set j _).length
          rw [List.length_set]
          have hk' : k ∈ (if s.cache.length < 128 then s.cache ++ [j] else s.cache) := hk
          split at hk'
          · rcases List.mem_append.1 hk' with hk' | hk'
            · exact h.mem k hk'
            · simp at hk'; subst hk'; exact hlt
          · exact h.mem k hk'
        · intro k hk g hkg
          have hk' : k ∈ (if s.cache.length < 128 then s.cache ++ [j] else s.cache) := hk
          have hkg' : (s.gens.set j { gen with g := false })[k]? = some g := hkg
          rw [hset] at hkg'
          by_cases hkj : k = j
          · rw [if_pos hkj] at hkg'; cases hkg'; rfl
          · rw [if_neg hkj] at hkg'
            split at hk'
            · rcases List.mem_append.1 hk' with hk' | hk'
              · exact h.gone k hk' g hkg'
              · simp at hk'; exact absurd hk' hkj
            · exact h.gone k hk' g hkg'
        · simp only [credit, hset]
          by_cases hkj : k = j
          · subst hkj
            simp only [hg, hgg, hj, if_true, if_false]
            simp only [Bool.false_eq_true, if_false, reduceCtorEq]
            (repeat' split) <;> omega
          · have : (k ∈ if s.cache.length < 128 then s.cache ++ [j] else s.cache) ↔ k ∈ s.cache := by
              split <;> simp [hkj]
            simp [this, hkj]
      · cases hs; exact ⟨h, fun k => by simp⟩
    · cases hs
  | request j id msg =>
    simp only [St.step] at hs
    split at hs
    · next gen hg =>
      have hlt : j < s.gens.length := (List.getElem?_eq_some_iff.1 hg).1
      cases hs
      have hgg : (gen.request s.slabs id msg).1.g = gen.g := by
        simp only [Gen.request]; split <;> rfl
      have hset : ∀ k, (s.gens.set j (gen.request s.slabs id msg).1)[k]? = if k = j then some (gen.request s.slabs id msg).1 else s.gens[k]? := by
        intro k; rw [List.getElem?_set]
        by_cases hk : j = k
        · subst hk; simp [hlt]
        · simp [hk, Ne.symm hk]
      refine ⟨⟨h.nodup, fun k hk => by show k < (s.gens.set j _).length; rw [List.length_set]; exact h.mem k hk, ?_⟩, fun k => ?_⟩
      · intro k hk g hkg
        have hkg' : (s.gens.set j (gen.request s.slabs id msg).1)[k]? = some g := hkg
        rw [hset] at hkg'
        by_cases hkj : k = j
        · rw [if_pos hkj] at hkg'; cases hkg'; rw [hgg]; subst hkj; exact h.gone k hk gen hg
        · rw [if_neg hkj] at hkg'; exact h.gone k hk g hkg'
      · simp only [credit, hset]
        by_cases hkj : k = j
        · subst hkj; simp [hg, hgg]
        · simp [hkj]
    · cases hs

end Verif.Generator

namespace Verif.Props
open Verif.Generator

/-- C59. All requests ever handed out, by all generators together, are different objects, each with a response object of
its own. -/
theorem C59_requests_are_distinct (os : List Op) (s : St) (l : List (Op × Res)) (h : St.new.run os = some (s, l)) :
    ((reqs l).map fun r => (r.slab, r.i)).Nodup ∧ ((reqs l).map (·.response)).Nodup ∧
      ∀ r ∈ reqs l, r.response = (r.slab, r.i) := by
  obtain ⟨h1, h2⟩ := run_reqs os ok_new h
  have e : (reqs l).map (·.response) = (reqs l).map fun r => (r.slab, r.i) :=
    List.map_congr_left fun r hr => (h1 r hr).2
  have n : ((reqs l).map fun r => (r.slab, r.i)).Nodup := by
    rw [List.Nodup, List.pairwise_map]; exact h2
  exact ⟨n, e ▸ n, fun r hr => (h1 r hr).2⟩

/-- A history over more than one slab. -/
example : ∃ s l, St.new.run (.get :: List.replicate 40 (.request 0 7 1)) = some (s, l) ∧ (reqs l).length = 40 ∧ s.slabs = 2 :=
  ⟨_, _, rfl, rfl, rfl⟩

/-- A request carries the id and the type asked for. -/
theorem C59_request_fields (s s' : St) (k id msg : Nat) (r : Res) (h : s.step (.request k id msg) = some (s', r)) :
    ∃ q, r = .req q ∧ q.id = id ∧ q.msg = msg := by
  simp only [St.step] at h
  split at h
  · cases h
    simp only [Gen.request]
    split <;> exact ⟨_, rfl, rfl, rfl⟩
  · cases h

/-- C66. However often and by whomever `Release` is called, a generator is handed out at most twice: when it is made,
and once more from the cache. -/
theorem C66_handed_out_at_most_twice (os : List Op) (s : St) (l : List (Op × Res)) (h : St.new.run os = some (s, l)) (k : Nat) :
    gets k l ≤ 2 := by
  have key : ∀ (os : List Op) {s s' : St} {l}, Cache s → s.run os = some (s', l) → gets k l + credit s' k ≤ credit s k := by
    intro os
    induction os with
    | nil => intro s s' l _ h; simp [St.run] at h; obtain ⟨rfl, rfl⟩ := h; simp [gets]
    | cons o os ih =>
      intro s s' l hc h
      simp only [St.run] at h
      cases hs : s.step o with
      | none => simp [hs] at h
      | some p =>
        obtain ⟨s1, r⟩ := p
        rw [hs] at h
        simp only [Option.bind_some] at h
        cases hr : s1.run os with
        | none => simp [hr] at h
        | some p2 =>
          obtain ⟨s2, l2⟩ := p2
          rw [hr] at h
          simp at h
          obtain ⟨rfl, rfl⟩ := h
          obtain ⟨hc1, hle⟩ := cache_step hc hs
          have i1 := ih hc1 hr
          have i2 := hle k
          simp only [gets, List.countP_cons, decide_eq_true_eq] at i1 ⊢
          omega
  have := key os ⟨by simp [St.new], by simp [St.new], by simp [St.new]⟩ h
  have hc : credit St.new k = 2 := by simp [credit, St.new]
  omega

theorem no_get_step {s s' : St} {o r k} (hc : Cache s) (hk : k ∉ s.cache) (hl : k < s.gens.length) (hr : o ≠ .release k)
    (hs : s.step o = some (s', r)) : r ≠ .gen k ∧ k ∉ s'.cache ∧ k < s'.gens.length := by
  cases o with
  | get =>
    simp only [St.step] at hs
    split at hs
    · next j c hj =>
      cases hs
      rw [hj] at hk
      simp only [List.mem_cons, not_or] at hk
      exact ⟨by simp [Ne.symm hk.1], hk.2, hl⟩
    · next hj =>
      cases hs
      exact ⟨by simp; omega, by simp [hj], by simp; omega⟩
  | release j =>
    simp only [St.step] at hs
    split at hs
    · split at hs
      · cases hs
        have hjk : j ≠ k := fun e => hr (by rw [e])
        refine ⟨by simp, ?_, by simp [hl]⟩
        show k ∉ if _ then _ else _
        split <;> simp [hk, Ne.symm hjk]
      · cases hs; exact ⟨by simp, hk, hl⟩
    · cases hs
  | request j id msg =>
    simp only [St.step] at hs
    split at hs
    · cases hs; exact ⟨by simp, hk, by simp [hl]⟩
    · cases hs

/-- C66. A generator that was handed out is not handed out again before somebody calls its `Release`. -/
theorem C66_not_again_without_release (pre os : List Op) (s s1 s2 : St) (l1 l2 : List (Op × Res)) (k : Nat)
    (h : St.new.run pre = some (s, l1)) (hg : s.step .get = some (s1, .gen k)) (hr : .release k ∉ os)
    (h2 : s1.run os = some (s2, l2)) : gets k l2 = 0 := by
  have keyc : ∀ (os : List Op) {s s' : St} {l}, Cache s → s.run os = some (s', l) → Cache s' := by
    intro os
    induction os with
    | nil => intro s s' l hc h; simp [St.run] at h; obtain ⟨rfl, rfl⟩ := h; exact hc
    | cons o os ih =>
      intro s s' l hc h
      simp only [St.run] at h
      cases hs : s.step o with
      | none => simp [hs] at h
      | some p =>
        rw [hs] at h
        simp only [Option.bind_some] at h
        cases hr : p.1.run os with
        | none => simp [hr] at h
        | some p2 =>
          rw [hr] at h
          simp at h
          obtain ⟨rfl, rfl⟩ := h
          exact ih (cache_step hc (by rw [hs])).1 hr
  have hc := keyc pre ⟨by simp [St.new], by simp [St.new], by simp [St.new]⟩ h
  have hc1 := (cache_step hc hg).1
  have h1 : k ∉ s1.cache ∧ k < s1.gens.length := by
    simp only [St.step] at hg
    split at hg
    · next j c hj =>
      cases hg
      have hn := hc.nodup
      have hm := hc.mem
      rw [hj] at hn hm
      exact ⟨(List.nodup_cons.1 hn).1, hm k (by simp)⟩
    · next hj =>
      cases hg
      exact ⟨by simp [hj], by simp⟩
  have key : ∀ (os : List Op) {s s' : St} {l}, .release k ∉ os → Cache s → k ∉ s.cache → k < s.gens.length →
      s.run os = some (s', l) → gets k l = 0 := by
    intro os
    induction os with
    | nil => intro s s' l _ _ _ _ h; simp [St.run] at h; obtain ⟨rfl, rfl⟩ := h; simp [gets]
    | cons o os ih =>
      intro s s' l hno hc hk hl h
      simp only [St.run] at h
      simp only [List.mem_cons, not_or] at hno
      cases hs : s.step o with
      | none => simp [hs] at h
      | some p =>
        obtain ⟨a, r⟩ := p
        rw [hs] at h
        simp only [Option.bind_some] at h
        cases hr : a.run os with
        | none => simp [hr] at h
        | some p2 =>
          rw [hr] at h
          simp at h
          obtain ⟨rfl, rfl⟩ := h
          obtain ⟨h1, h2, h3⟩ := no_get_step hc hk hl (fun e => hno.1 e.symm) hs
          have := ih hno.2 (cache_step hc hs).1 h2 h3 hr
          simp only [gets, List.countP_cons, decide_eq_true_eq] at this ⊢
          simp [h1, this]
  exact key os hr hc1 h1.1 h1.2 h2

/-- A generator is used, released twice, handed out again, released again (which is without effect), and the next one
is new. -/
example : (St.new.run [.get, .request 0 1 2, .release 0, .release 0, .get, .release 0, .get]).map (fun p => p.2.map (·.2)) =
    some [.gen 0, .req ⟨0, 0, (0, 0), 1, 2⟩, .none, .none, .gen 0, .none, .gen 1] := by
  decide +kernel

end Verif.Props
