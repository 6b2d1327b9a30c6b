import Verif.Spec.GenShare

/-! Invariants of shared generators. -/
namespace Verif.GenShare

/-- The generator a user is in. -/
def Pc.uses : Pc → Option Nat
  | .idle | .begin _ | .dead => none
  | .check k _ | .take k _ | .inc k _ _ _ | .wrap k _ _ _ | .write k _ _ _ | .written k _ _ _ => some k

/-- The place a user has got. -/
def Pc.place : Pc → Option (Nat × Nat)
  | .wrap _ _ a i | .write _ _ a i | .written _ _ a i => some (a, i)
  | _ => none

/-- What holds of the generator at a point of its user. -/
def At (x : Gen) : Pc → Prop
  | .take _ _ => x.w = [] ∧ x.i < 32 ∧ x.slab ≠ none
  | .inc _ _ a i => x.w = [] ∧ x.i = i ∧ i < 32 ∧ x.slab = some a
  | .wrap _ _ a i => x.w = [] ∧ x.i = i + 1 ∧ i < 32 ∧ x.slab = some a
  | .written _ v _ _ => x.w = [v] ∧ x.i < 32
  | _ => x.w = [] ∧ x.i < 32

/-- `D`: the users whose `Done` was called. -/
structure Inv (D : Nat → Prop) (s : St) : Prop where
  nodup : s.cache.Nodup
  cached : ∀ k ∈ s.cache, k < s.n ∧ (s.gens k).g = false
  hold : ∀ u, ¬ D u → ∀ k, s.gen u = some k → k < s.n ∧ k ∉ s.cache ∧ s.own u = true
  uniq : ∀ u v, ¬ D u → ¬ D v → ∀ k, s.gen u = some k → s.gen v = some k → u = v
  uses : ∀ u, ¬ D u → ∀ k, (s.pc u).uses = some k → s.gen u = some k
  alive : ∀ u, ¬ D u → s.pc u ≠ .dead
  quiet : ∀ u, D u → s.pc u = .idle
  closed : ∀ u, D u → s.own u = false
  owns : ∀ u, s.own u = true → s.gen u ≠ none
  rest : ∀ k, (∀ u, (s.pc u).uses ≠ some k) → (s.gens k).w = [] ∧ (s.gens k).i < 32
  busy : ∀ u k, (s.pc u).uses = some k → At (s.gens k) (s.pc u)
  slabLt : ∀ k a, (s.gens k).slab = some a → k < s.n ∧ a < s.slabs
  slabInj : ∀ j k a, (s.gens j).slab = some a → (s.gens k).slab = some a → j = k
  outs : ∀ o ∈ s.out, o.slab < s.slabs ∧ ∀ k, (s.gens k).slab = some o.slab → o.i < (s.gens k).i
  places : ∀ u a i, (s.pc u).place = some (a, i) → a < s.slabs ∧ ∀ k, (s.gens k).slab = some a → i < (s.gens k).i
  apart : ∀ u v p, (s.pc u).place = some p → (s.pc v).place = some p → u = v
  fresh : ∀ u a i, (s.pc u).place = some (a, i) → ∀ o ∈ s.out, ¬ (o.slab = a ∧ o.i = i)
  distinct : Distinct s
  body : OwnBody s

theorem inv_init : Inv (fun _ => False) init := by
  constructor <;> simp [init, Pc.uses, Pc.place, Distinct, OwnBody]

/-- Nobody else is in the generator. -/
theorem Inv.alone {D s} (h : Inv D s) {u v k} (hu : (s.pc u).uses = some k) (hv : (s.pc v).uses = some k) : u = v := by
  have nd : ∀ w, (s.pc w).uses = some k → ¬ D w := by
    intro w hw hd
    rw [h.quiet w hd] at hw; cases hw
  exact h.uniq u v (nd u hu) (nd v hv) k (h.uses u (nd u hu) k hu) (h.uses v (nd v hv) k hv)

theorem rest_set {D s u k q} {gens : Nat → Gen} (h : Inv D s) (hu : (s.pc u).uses = some k ∨ (s.pc u).uses = none)
    (hq : q.uses = some k ∨ (gens k).w = [] ∧ (gens k).i < 32) (hg : ∀ j, j ≠ k → gens j = s.gens j) :
    ∀ j, (∀ v, (set s.pc u q v).uses ≠ some j) → (gens j).w = [] ∧ (gens j).i < 32 := by
  intro j hj
  by_cases hk : j = k
  · subst hk
    rcases hq with hq | hq
    · have := hj u
      simp [set, hq] at this
    · exact hq
  · rw [hg j hk]
    refine h.rest j fun v hv => ?_
    by_cases he : v = u
    · subst he
      rcases hu with hu | hu
      · rw [hu] at hv; exact hk (Option.some.inj hv).symm
      · rw [hu] at hv; cases hv
    · have := hj v
      simp only [set, if_neg he] at this
      exact this hv

set_option maxHeartbeats 2000000 in
theorem inv_go {D s s' u} (h : Inv D s) (hs : go s u = some s') : Inv D s' := by
  have hd : ¬ D u := by
    intro hd
    have := h.quiet u hd
    simp [go, this] at hs
  have al := @Inv.alone D s h
  have hr := fun k q gens => @rest_set D s u k q gens h
  cases hp : s.pc u with
  | idle => simp [go, hp] at hs
  | dead => simp [go, hp] at hs
  | begin v =>
    simp only [go, hp] at hs
    cases hg : s.gen u with
    | none =>
      simp only [hg, get] at hs
      split at hs
      · rename_i k c hc
        cases hs
        have hr := hr k (.check k v) s.gens (.inr (by rw [hp]; rfl)) (.inl rfl) (fun _ _ => rfl)
        have hf : ∀ w, (s.pc w).uses ≠ some k := by
          intro w hw
          by_cases hdw : D w
          · rw [h.quiet w hdw] at hw; cases hw
          · exact (h.hold w hdw k (h.uses w hdw k hw)).2.1 (by simp [hc])
        have h1 := h.rest k hf
        obtain ⟨⟩ := h
        constructor <;> first | assumption | grind [set, Pc.uses, Pc.place, At, Distinct, OwnBody]
      · rename_i hc
        cases hs
        have hf : ∀ w, (s.pc w).uses ≠ some s.n := by
          intro w hw
          by_cases hdw : D w
          · rw [h.quiet w hdw] at hw; cases hw
          · exact absurd (h.hold w hdw _ (h.uses w hdw _ hw)).1 (Nat.lt_irrefl _)
        have hr := hr s.n (.check s.n v) (set s.gens s.n ⟨none, 0, true, []⟩) (.inr (by rw [hp]; rfl)) (.inl rfl)
          (fun j hj => by simp [set, hj])
        obtain ⟨⟩ := h
        constructor <;> first | assumption | grind [set, Pc.uses, Pc.place, At, Distinct, OwnBody]
    | some k =>
      simp only [hg] at hs
      cases hs
      have hr := hr k (.check k v) s.gens (.inr (by rw [hp]; rfl)) (.inl rfl) (fun _ _ => rfl)
      have h3 := h.hold u hd k hg
      have hf : ∀ w, (s.pc w).uses ≠ some k := by
        intro w hw
        have hdw : ¬ D w := by intro hdw; rw [h.quiet w hdw] at hw; cases hw
        have := h.uniq w u hdw hd k (h.uses w hdw k hw) hg
        subst this
        rw [hp] at hw; cases hw
      have h1 := h.rest k hf
      obtain ⟨⟩ := h
      constructor <;> first | assumption | grind [set, Pc.uses, Pc.place, At, Distinct, OwnBody]
  | check k v =>
    simp only [go, hp] at hs
    have h1 := h.busy u k (by rw [hp]; rfl)
    have h2 := h.uses u hd k (by rw [hp]; rfl)
    have h3 := h.hold u hd k h2
    have hr := fun q gens => hr k q gens (.inl (by rw [hp]; rfl))
    split at hs <;> cases hs
    · have hr := hr (.take k v) (set s.gens k { s.gens k with slab := some s.slabs }) (.inl rfl) (fun j hj => by simp [set, hj])
      obtain ⟨⟩ := h
      constructor <;> first | assumption | grind [set, Pc.uses, Pc.place, At, Distinct, OwnBody]
    · have hr := hr (.take k v) s.gens (.inl rfl) (fun j hj => rfl)
      obtain ⟨⟩ := h
      constructor <;> first | assumption | grind [set, Pc.uses, Pc.place, At, Distinct, OwnBody]
  | take k v =>
    simp only [go, hp] at hs
    have h1 := h.busy u k (by rw [hp]; rfl)
    have h2 := h.uses u hd k (by rw [hp]; rfl)
    have h3 := h.hold u hd k h2
    rw [hp] at h1
    simp only [At] at h1
    split at hs
    · rename_i hn; exact (h1.2.2 hn).elim
    · rename_i a ha
      rw [if_pos (by exact h1.2.1)] at hs
      cases hs
      have hr := hr k (.inc k v a (s.gens k).i) s.gens (.inl (by rw [hp]; rfl)) (.inl rfl) (fun j hj => rfl)
      obtain ⟨⟩ := h
      constructor <;> first | assumption | grind [set, Pc.uses, Pc.place, At, Distinct, OwnBody]
  | inc k v a i =>
    simp only [go, hp] at hs
    have h1 := h.busy u k (by rw [hp]; rfl)
    have h2 := h.uses u hd k (by rw [hp]; rfl)
    have h3 := h.hold u hd k h2
    rw [hp] at h1
    simp only [At] at h1
    cases hs
    have hr := hr k (.wrap k v a i) (set s.gens k { s.gens k with i := (s.gens k).i + 1 }) (.inl (by rw [hp]; rfl)) (.inl rfl)
      (fun j hj => by simp [set, hj])
    obtain ⟨⟩ := h
    constructor <;> first | assumption | grind [set, Pc.uses, Pc.place, At, Distinct, OwnBody]
  | wrap k v a i =>
    simp only [go, hp] at hs
    have h32 : Generator.rrsize = 32 := rfl
    have h1 := h.busy u k (by rw [hp]; rfl)
    have h2 := h.uses u hd k (by rw [hp]; rfl)
    have h3 := h.hold u hd k h2
    rw [hp] at h1
    simp only [At] at h1
    have hr := fun gens => hr k (.write k v a i) gens (.inl (by rw [hp]; rfl)) (.inl rfl)
    split at hs <;> cases hs
    · have hr := hr (set s.gens k { s.gens k with i := 0, slab := none }) (fun j hj => by simp [set, hj])
      obtain ⟨⟩ := h
      constructor <;> first | assumption | grind [set, Pc.uses, Pc.place, At, Distinct, OwnBody]
    · have hr := hr s.gens (fun j hj => rfl)
      obtain ⟨⟩ := h
      constructor <;> first | assumption | grind [set, Pc.uses, Pc.place, At, Distinct, OwnBody]
  | write k v a i =>
    simp only [go, hp] at hs
    have h1 := h.busy u k (by rw [hp]; rfl)
    have h2 := h.uses u hd k (by rw [hp]; rfl)
    have h3 := h.hold u hd k h2
    rw [hp] at h1
    simp only [At] at h1
    cases hs
    have hr := hr k (.written k v a i) (set s.gens k { s.gens k with w := (s.gens k).w ++ [v] }) (.inl (by rw [hp]; rfl)) (.inl rfl)
      (fun j hj => by simp [set, hj])
    obtain ⟨⟩ := h
    constructor <;> first | assumption | grind [set, Pc.uses, Pc.place, At, Distinct, OwnBody]
  | written k v a i =>
    simp only [go, hp] at hs
    have h1 := h.busy u k (by rw [hp]; rfl)
    have h2 := h.uses u hd k (by rw [hp]; rfl)
    have h3 := h.hold u hd k h2
    rw [hp] at h1
    simp only [At] at h1
    cases hs
    have hr := hr k .idle (set s.gens k { s.gens k with w := [] }) (.inl (by rw [hp]; rfl)) (.inr (by simp [set, h1.2]))
      (fun j hj => by simp [set, hj])
    have h4 := h.fresh u a i (by rw [hp]; rfl)
    obtain ⟨⟩ := h
    constructor <;> first | assumption | grind [set, Pc.uses, Pc.place, At, Distinct, OwnBody]

theorem inv_call {D s u v} (h : Inv D s) (hd : ¬ D u) (hp : s.pc u = .idle) : Inv D { s with pc := set s.pc u (.begin v) } := by
  have hr := @rest_set D s u 0 (.begin v) s.gens h (.inr (by rw [hp]; rfl))
  have hr : ∀ j, (∀ w, (set s.pc u (.begin v) w).uses ≠ some j) → (s.gens j).w = [] ∧ (s.gens j).i < 32 := by
    intro j hj
    refine h.rest j fun w hw => ?_
    by_cases he : w = u
    · subst he; rw [hp] at hw; cases hw
    · have := hj w
      simp only [set, if_neg he] at this
      exact this hw
  obtain ⟨⟩ := h
  constructor <;> first | assumption | grind [set, Pc.uses, Pc.place, At, Distinct, OwnBody]

theorem inv_done {D cap s s' u} (h : Inv D s) (hp : s.pc u = .idle) (hs : step cap s (.done u) = some s') : Inv (fun v => D v ∨ v = u) s' := by
  simp only [step] at hs
  split at hs
  · rename_i k ho hg
    cases hs
    have hd : ¬ D u := by intro hd; rw [h.closed u hd] at ho; cases ho
    have h3 := h.hold u hd k hg
    have un := h.uniq
    unfold release
    split
    · rename_i hgk
      have hr : ∀ j, (∀ w, (s.pc w).uses ≠ some j) → (set s.gens k { s.gens k with g := false } j).w = [] ∧
        (set s.gens k { s.gens k with g := false } j).i < 32 := by
        intro j hj
        have := h.rest j hj
        simp only [set]; split <;> grind
      have hb : ∀ w j, (s.pc w).uses = some j → At (set s.gens k { s.gens k with g := false } j) (s.pc w) := by
        intro w j hj
        have := h.busy w j hj
        simp only [set]
        split
        · rename_i e; subst e; cases hw : s.pc w <;> rw [hw] at this <;> exact this
        · exact this
      obtain ⟨⟩ := h
      constructor <;> first | assumption | grind [set, Distinct, OwnBody]
    · obtain ⟨⟩ := h
      constructor <;> first | assumption | grind [set, Distinct, OwnBody]
  · rename_i hn
    cases hs
    have : s.own u = false := by
      cases ho : s.own u with
      | false => rfl
      | true =>
        cases hg : s.gen u with
        | none => exact absurd hg (h.owns u ho)
        | some k => exact (hn k ho hg).elim
    obtain ⟨⟩ := h
    constructor <;> first | assumption | grind

theorem inv_run {D cap s s' cs} (h : Inv D s) (hq : ∀ u, D u → Quits u cs) (ho : Orderly cap s cs) (hs : run cap s cs = some s') : ∃ D, Inv D s' := by
  induction cs generalizing s D with
  | nil => cases hs; exact ⟨D, h⟩
  | cons c cs ih =>
    simp only [run] at hs
    cases h1 : step cap s c with
    | none => rw [h1] at hs; cases hs
    | some s1 =>
      rw [h1] at hs
      have ho' := ho.2 s1 h1
      have hq' : ∀ u, D u → Quits u cs := fun u hu => ⟨fun hm => (hq u hu).1 (by simp [hm]), fun v hm => (hq u hu).2 v (by simp [hm])⟩
      cases c with
      | go u => exact ih (inv_go h h1) hq' ho' hs
      | call u v =>
        simp only [step] at h1
        split at h1 <;> cases h1
        rename_i hp
        exact ih (inv_call h (fun hd => (hq u hd).2 v (by simp)) hp) hq' ho' hs
      | done u =>
        obtain ⟨h2, h3⟩ := ho.1 u rfl
        refine ih (inv_done h h2 h1) ?_ ho' hs
        rintro w (hw | rfl)
        · exact hq' w hw
        · exact h3

end Verif.GenShare
