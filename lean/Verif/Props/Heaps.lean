import Verif.Model.Heaps

/-! C90: every timer has a heap. -/
namespace Verif.Heaps

/-- What holds of one goroutine. -/
def Good (s : St) (x : Th) : Prop :=
  x.h ≤ s.len ∧
  match x.pc with
  | .grow _ n => 2 ≤ n
  | .haveLen _ l => 2 ≤ l ∧ l ≤ s.len
  | .haveN _ m => 0 < m ∧ m ≤ s.len
  | .get => 0 < x.h
  | _ => True

/-- The invariant. -/
structure Inv (s : St) : Prop where
  len : 2 ≤ s.len
  pos : 0 < s.heapN
  le : s.heapN ≤ s.len
  th : ∀ t, Good s (s.th t)

theorem inv_init : Inv {} := ⟨by decide, by decide, by decide, fun _ => ⟨Nat.zero_le _, trivial⟩⟩

theorem wanted_ge (p : Nat) (h : p ≠ 0) : 2 ≤ wanted p := by
  unfold wanted; split <;> omega

/-- A goroutine that is fine stays so when the slice grows. -/
theorem Good.mono {s s' : St} {x : Th} (h : Good s x) (hl : s.len ≤ s'.len) : Good s' x := by
  obtain ⟨h1, h2⟩ := h
  refine ⟨by omega, ?_⟩
  split at h2 <;> simp_all <;> omega

/-- The invariant after a step of goroutine `t`. -/
theorem Inv.set {s s' : St} (hi : Inv s) (t : Nat) (x : Th) (hl : s.len ≤ s'.len) (hp : 0 < s'.heapN)
    (hn : s'.heapN ≤ s'.len) (hth : s'.th = s.th) (hx : Good s' x) : Inv (s'.set t x) := by
  refine ⟨Nat.le_trans hi.len hl, hp, hn, fun u => ?_⟩
  by_cases hu : u = t
  · simpa [St.set, hu, Good] using hx
  · have := (hi.th u).mono (s' := s') hl
    simpa [St.set, hu, hth, Good] using this

theorem index_good {s : St} {x : Th} (hx : x.h ≤ s.len) (i m l : Nat) (hl : l ≤ s.len) : Good s (index x i m l) := by
  unfold index
  split
  · exact ⟨by simp; omega, trivial⟩
  · exact ⟨hx, trivial⟩

theorem inv_step {s s' : St} (hi : Inv s) {t a} (hs : step s t a = some s') : Inv s' := by
  have hx := hi.th t
  have hlen := hi.len
  unfold step at hs
  simp only at hs
  split at hs <;> rename_i hpc <;> simp only [Good, hpc] at hx
  all_goals repeat' split at hs
  all_goals simp only [Option.some.injEq, reduceCtorEq] at hs <;> subst hs
  all_goals first
    | exact hi
    | exact ⟨Nat.le_succ_of_le hi.len, hi.pos, Nat.le_succ_of_le hi.le, fun u => (hi.th u).mono (Nat.le_succ _)⟩
    | refine Inv.set hi t _ (Nat.le_refl _) (by first | exact hi.pos | exact Nat.lt_of_lt_of_le Nat.zero_lt_two hx.2)
        (by first | exact hi.le | exact Nat.le_of_not_lt ‹_›) rfl ?_
  all_goals first
    | exact ⟨hx.1, trivial⟩
    | exact ⟨Nat.zero_le _, by simp [hpc]⟩
    | exact index_good hx.1 _ _ _ hx.2.2
    | exact index_good hx.1 _ _ _ (Nat.le_refl _)
    | exact ⟨hx.1, hi.len, Nat.le_refl _⟩
    | exact ⟨hx.1, hi.pos, hi.le⟩
    | exact ⟨hx.1, Nat.pos_of_ne_zero ‹_›⟩
    | exact ⟨hx.1, wanted_ge _ (by simp_all)⟩

theorem inv_run {s s' : St} (hi : Inv s) : ∀ {l}, run s l = some s' → Inv s' := by
  intro l
  induction l generalizing s with
  | nil => rintro ⟨⟩; exact hi
  | cons c l ih =>
    obtain ⟨t, a⟩ := c
    intro h
    simp only [run] at h
    split at h
    · contradiction
    · exact ih (inv_step hi ‹_›) h

/-- Goroutine `t` has panicked. -/
def Panicked (s : St) (t : Nat) : Prop := (s.th t).pc = .panic

/-- How a panic can come about: the slice was read before it grew, `heapN` afterwards. -/
theorem panic_step {s s' : St} (hi : Inv s) {t a u} (hs : step s t a = some s') (h0 : ¬ Panicked s u)
    (h1 : Panicked s' u) : u = t ∧ ∃ i l, (s.th u).pc = .haveLen i l ∧ l ≤ i % s.heapN ∧ l < s.len := by
  have hx := hi.th t
  have hp := hi.pos
  have hle := hi.le
  by_cases hut : u = t
  · subst hut
    refine ⟨rfl, ?_⟩
    unfold step at hs
    simp only at hs
    split at hs <;> rename_i hpc <;> simp only [Good, hpc] at hx
    all_goals repeat' split at hs
    all_goals simp only [Option.some.injEq, reduceCtorEq] at hs <;> subst hs
    all_goals simp only [Panicked, St.set, hpc, if_true, index, reduceCtorEq, not_false_eq_true] at h0 h1
    · rename_i i l _ _
      split at h1
      · exact absurd h1 (by simp)
      · refine ⟨_, _, hpc, by omega, ?_⟩
        have := Nat.mod_lt i hp
        omega
    · rename_i i m _ _
      split at h1
      · exact absurd h1 (by simp)
      · have := Nat.mod_lt i hx.2.1
        omega
    · omega
  · exfalso
    apply h0
    have : s'.th u = s.th u := by
      unfold step at hs
      simp only at hs
      split at hs
      all_goals repeat' split at hs
      all_goals simp only [Option.some.injEq, reduceCtorEq] at hs <;> subst hs
      all_goals simp [St.set, hut]
    rw [Panicked, ← this]; exact h1

/-- C90 (partial: whenever `heapN` is read before `heaps`). Neither `After` nor `Stop` goes beyond the slice. -/
theorem C90_found_partial (l : List (Nat × Act)) (s : St) (hr : run {} l = some s)
    (ho : ∀ t p, (t, Act.go p true) ∉ l) (t : Nat) : ¬ Panicked s t := by
  have key : ∀ (l : List (Nat × Act)) (s0 s : St), Inv s0 → (∀ t, ¬ Panicked s0 t) →
      (∀ t i l, (s0.th t).pc ≠ .haveLen i l) → (∀ t p, (t, Act.go p true) ∉ l) → run s0 l = some s →
      ∀ t, ¬ Panicked s t := by
    intro l
    induction l with
    | nil => rintro s0 s - h1 - - ⟨⟩; exact h1
    | cons c l ih =>
      obtain ⟨t, a⟩ := c
      intro s0 s hi h1 h2 ho h
      simp only [run] at h
      split at h
      · contradiction
      · rename_i s1 hs
        refine ih s1 s (inv_step hi hs) ?_ ?_ (fun u p hm => ho u p (by simp [hm])) h
        · intro u hu
          obtain ⟨rfl, i, l, hpc, _⟩ := panic_step hi hs (h1 u) hu
          exact h2 _ _ _ hpc
        · intro u i l hpc
          have hne : ∀ p, a ≠ .go p true := fun p e => ho t p (by simp [e])
          by_cases hut : u = t
          · subst hut
            have h2' := h2 u i l
            unfold step at hs
            simp only at hs
            split at hs <;> rename_i hpc'
            all_goals repeat' split at hs
            all_goals simp only [Option.some.injEq, reduceCtorEq] at hs <;> subst hs
            all_goals simp_all [St.set, index]
            all_goals (split at hpc <;> simp_all)
          · have : s1.th u = s0.th u := by
              unfold step at hs
              simp only at hs
              split at hs
              all_goals repeat' split at hs
              all_goals simp only [Option.some.injEq, reduceCtorEq] at hs <;> subst hs
              all_goals simp [St.set, hut]
            exact h2 u i l (this ▸ hpc)
  exact key l {} s inv_init (fun _ => by simp [Panicked]) (fun _ _ _ => by simp) ho hr t

/-- C90: `Stop`, and `After` of a timer that has been used, find the heap in every execution. -/
theorem C90_again (l : List (Nat × Act)) (s s' : St) (hr : run {} l = some s) (t : Nat) (a : Act)
    (hg : (s.th t).pc = .get) (hs : step s t a = some s') : (s'.th t).pc = .idle ∧ (s'.th t).h = (s.th t).h := by
  have hx := (inv_run inv_init hr).th t
  simp only [Good, hg] at hx
  unfold step at hs
  simp only [hg] at hs
  split at hs <;> simp_all
  rw [if_pos (by omega)] at hs
  simp only [Option.some.injEq] at hs
  subst hs
  simp [St.set]

theorem run_append {l m : List (Nat × Act)} {s s' : St} (h : run s l = some s') : run s (l ++ m) = run s' m := by
  induction l generalizing s with
  | nil => cases h; rfl
  | cons c l ih =>
    obtain ⟨t, a⟩ := c
    simp only [run, List.cons_append] at h ⊢
    split at h
    · contradiction
    · exact ih h

/-- Ten thousand timers can be made one after the other. -/
theorem many : ∀ k < 10000, ∃ l s, run {} l = some s ∧ s.heapI = k ∧ s.len = 2 ∧ s.heapN = 2 ∧ s.locked = false ∧
    ∀ t, s.th t = {} := by
  intro k
  induction k with
  | zero => intro _; exact ⟨[], {}, rfl, rfl, rfl, rfl, rfl, fun _ => rfl⟩
  | succ k ih =>
    intro hk
    obtain ⟨l, s, h1, h2, h3, h4, h5, h6⟩ := ih (by omega)
    have e0 := h6 0
    have hmod : (k + 1) % 10000 ≠ 0 := by omega
    have hlt : (k + 1) % 2 < 2 := Nat.mod_lt _ (by decide)
    refine ⟨l ++ [(0, .after), (0, .go 1 false), (0, .go 1 false), (0, .fresh)],
      { s with heapI := k + 1, th := fun _ => {} }, ?_, rfl, h3, h4, h5, fun _ => rfl⟩
    rw [run_append h1]
    simp [run, step, e0, h2, hmod, St.set, index, h3, h4, hlt]
    funext t
    by_cases ht : t = 0
    · simp [ht]
    · simp [ht, h6 t]

/-- Armed, and about to be stopped, in the second heap. -/
example : ((run {} [(0, .after), (0, .go 1 false), (0, .go 1 false), (0, .stop)]).map fun s => s.th 0) =
    some ⟨.get, 2⟩ := by decide +kernel

/-- C90 is violated: when a timer is armed for the first time while another goroutine adds heaps, the index can be out of
range. (Two processors, the ten thousandth timer.) -/
theorem C90_grow_violated : ∃ l s t, run {} l = some s ∧ Panicked s t := by
  obtain ⟨l, s, h1, h2, h3, h4, h5, h6⟩ := many 9999 (by decide)
  refine ⟨l ++ ([(0, .after), (1, .after), (2, .after), (2, .go 2 true), (0, .go 2 true)] ++
    List.replicate 15 (0, .go 2 true) ++ [(2, .go 2 true)]), ?_⟩
  rw [run_append h1]
  simp [run, step, St.set, h2, h3, h4, h5, h6, wanted, List.replicate, index]
  exact ⟨2, by simp [Panicked]⟩

end Verif.Heaps
