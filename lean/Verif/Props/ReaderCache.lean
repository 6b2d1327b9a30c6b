import Verif.Spec.ReaderCache

/-! C105: the cache of readers in `sbox`. -/
namespace Verif.ReaderCache
open Verif.Marshal Verif.Spec

variable {α : Type}

/-- What a goroutine has done so far is what it would have done alone. -/
def Right (s : St α) : PC α → Prop
  | .run c r rest => c.out (rest.foldl (fun p f => f p) (s.mem r)) = alone c
  | .store c _ res => res = alone c
  | _ => True

structure Inv (s : St α) : Prop where
  old : ∀ r, s.cache = some r → r < s.n
  held : ∀ g r, holds (s.pc g) = some r → r < s.n
  free : ∀ g r, holds (s.pc g) = some r → s.cache ≠ some r
  one : ∀ g h r, holds (s.pc g) = some r → holds (s.pc h) = some r → g = h
  right : ∀ g, Right s (s.pc g)
  rets : ∀ c a, (c, a) ∈ s.rets → a = alone c

theorem inv_init : Inv (init α) := by
  constructor <;> simp [init, holds, Right]

theorem right_keeps {s s' : St α} {p : PC α} (h : Right s p) (hm : ∀ r, holds p = some r → s'.mem r = s.mem r) : Right s' p := by
  cases p <;> simp_all [Right, holds]

theorem inv_upd {s s' : St α} (i : Inv s) (g : Nat) (p : PC α) (hpc : s'.pc = fun k => if k = g then p else s.pc k) (hn : s.n ≤ s'.n)
    (hc : ∀ r, s'.cache = some r → r < s'.n)
    (hp : ∀ r, holds p = some r → r < s'.n ∧ s'.cache ≠ some r ∧ ∀ h, h ≠ g → holds (s.pc h) ≠ some r)
    (ho : ∀ h, h ≠ g → ∀ r, holds (s.pc h) = some r → s'.cache ≠ some r ∧ s'.mem r = s.mem r)
    (hr : Right s' p) (hl : ∀ c a, (c, a) ∈ s'.rets → a = alone c) : Inv s' := by
  obtain ⟨i1, i2, i3, i4, i5, i6⟩ := i
  refine ⟨hc, ?_, ?_, ?_, ?_, hl⟩
  · intro k r h
    simp only [hpc] at h
    split at h
    · exact (hp r h).1
    · exact Nat.lt_of_lt_of_le (i2 k r h) hn
  · intro k r h
    simp only [hpc] at h
    split at h
    · exact (hp r h).2.1
    · rename_i hk; exact (ho k hk r h).1
  · intro k l r h1 h2
    simp only [hpc] at h1 h2
    split at h1 <;> split at h2
    · rename_i a b; rw [a, b]
    · rename_i a b; exact absurd h2 ((hp r h1).2.2 l b)
    · rename_i a b; exact absurd h1 ((hp r h2).2.2 k a)
    · exact i4 k l r h1 h2
  · intro k
    simp only [hpc]
    split
    · exact hr
    · rename_i hk; exact right_keeps (i5 k) (fun r h => (ho k hk r h).2)

theorem inv_step (s s' : St α) (g : Nat) (ch : Choice α) (h : step s g ch = some s') (i : Inv s) : Inv s' := by
  have i' := i
  obtain ⟨i1, i2, i3, i4, i5, i6⟩ := i'
  have k := i5 g
  have hne : ∀ r, holds (s.pc g) = some r → ∀ h, h ≠ g → holds (s.pc h) ≠ some r := fun r h1 h hh h2 => hh (i4 h g r h2 h1)
  simp only [step] at h
  split at h
  · rename_i c hp
    cases h
    exact inv_upd i g _ rfl (Nat.le_refl _) i1 (by simp [holds]) (fun h _ r hr => ⟨i3 h r hr, rfl⟩) (by simp [Right]) i6
  · rename_i c hp
    split at h <;> cases h <;>
      exact inv_upd i g _ rfl (Nat.le_refl _) i1 (by simp [holds]) (fun h _ r hr => ⟨i3 h r hr, rfl⟩) (by simp [Right]) i6
  · rename_i c0 t0 hp
    split at h <;> cases h
    · rename_i c t hc
      refine inv_upd i g _ rfl (Nat.le_refl _) (by simp) ?_ (fun h _ r hr => ⟨by simp, rfl⟩) (by simp [Right]) i6
      intro r hr
      simp only [holds, Option.some.injEq] at hr
      subst hr
      exact ⟨i1 _ hc, by simp, fun h _ hh => i3 h _ hh hc⟩
    · exact inv_upd i g _ rfl (Nat.le_refl _) i1 (by simp [holds]) (fun h _ r hr => ⟨i3 h r hr, rfl⟩) (by simp [Right]) i6
  · rename_i c t hp
    cases h
    have hg : holds (s.pc g) = some t := by rw [hp]; rfl
    refine inv_upd i g _ rfl (Nat.le_refl _) i1 ?_ ?_ (by simp [Right, alone, fresh]) i6
    · intro r hr
      have : t = r := by simpa [holds] using hr
      subst this
      exact ⟨i2 g _ hg, i3 g _ hg, hne _ hg⟩
    · intro h hh r hr
      refine ⟨i3 h r hr, ?_⟩
      have : r ≠ t := fun e => hne t hg h hh (e ▸ hr)
      simp [this]
  · rename_i c hp
    cases h
    refine inv_upd i g _ rfl (Nat.le_succ _) (fun r hr => Nat.lt_succ_of_lt (i1 r hr)) ?_ ?_ (by simp [Right, alone, fresh]) i6
    · intro r hr
      have : s.n = r := by simpa [holds] using hr
      subst this
      refine ⟨Nat.lt_succ_self _, fun e => Nat.lt_irrefl _ (i1 _ e), fun h _ hh => Nat.lt_irrefl _ (i2 h _ hh)⟩
    · intro h hh r hr
      refine ⟨i3 h r hr, ?_⟩
      have : r ≠ s.n := Nat.ne_of_lt (i2 h r hr)
      simp [this]
  · rename_i c t f fs hp
    cases h
    have hg : holds (s.pc g) = some t := by rw [hp]; rfl
    rw [hp] at k
    refine inv_upd i g _ rfl (Nat.le_refl _) i1 ?_ ?_ (by simpa [Right] using k) i6
    · intro r hr
      have : t = r := by simpa [holds] using hr
      subst this
      exact ⟨i2 g _ hg, i3 g _ hg, hne _ hg⟩
    · intro h hh r hr
      refine ⟨i3 h r hr, ?_⟩
      have : r ≠ t := fun e => hne t hg h hh (e ▸ hr)
      simp [this]
  · rename_i c t hp
    cases h
    have hg : holds (s.pc g) = some t := by rw [hp]; rfl
    rw [hp] at k
    refine inv_upd i g _ rfl (Nat.le_refl _) i1 ?_ (fun h _ r hr => ⟨i3 h r hr, rfl⟩) (by simpa [Right] using k) i6
    intro r hr
    have : t = r := by simpa [holds] using hr
    subst this
    exact ⟨i2 g _ hg, i3 g _ hg, hne _ hg⟩
  · rename_i hp
    cases h
    exact inv_upd i g _ rfl (Nat.le_refl _) i1 (by simp [holds]) (fun h _ r hr => ⟨i3 h r hr, rfl⟩) (by simp [Right]) i6
  · rename_i c t res hp
    cases h
    have hg : holds (s.pc g) = some t := by rw [hp]; rfl
    rw [hp] at k
    refine inv_upd i g _ rfl (Nat.le_refl _) ?_ (by simp [holds]) ?_ (by simp [Right]) ?_
    · intro r hr
      have : t = r := by simpa using hr
      subst this; exact i2 g _ hg
    · intro h hh r hr
      refine ⟨fun e => ?_, rfl⟩
      have : t = r := by simpa using e
      subst this; exact hne _ hg h hh hr
    · intro c' a hm
      simp only [List.mem_cons, Prod.mk.injEq] at hm
      rcases hm with ⟨rfl, rfl⟩ | hm
      · exact k
      · exact i6 c' a hm
  · cases h

theorem inv_run (s s' : St α) (cs : List (Nat × Choice α)) (h : run s cs = some s') (i : Inv s) : Inv s' := by
  induction cs generalizing s with
  | nil => cases h; exact i
  | cons c cs ih =>
    obtain ⟨g, ch⟩ := c
    simp only [run] at h
    split at h
    · cases h
    · rename_i s1 h1
      exact ih s1 h (inv_step s s1 g ch h1 i)

/-- C105. Whatever goroutines call `ReadFirst` and `ReadMany` at the same time, and whichever of them panic, every call returns
what it would have returned alone. -/
theorem C105_alone (cs : List (Nat × Choice α)) (s : St α) (h : run (init α) cs = some s) (c : Call α) (a : α) (hr : (c, a) ∈ s.rets) :
    a = alone c :=
  (inv_run _ _ cs h inv_init).rets c a hr

/-- No two goroutines ever work with the same pair of readers, and the cached pair is not in use. -/
theorem C105_exclusive (cs : List (Nat × Choice α)) (s : St α) (h : run (init α) cs = some s) (g k r : Nat)
    (hg : holds (s.pc g) = some r) : s.cache ≠ some r ∧ (holds (s.pc k) = some r → g = k) :=
  ⟨(inv_run _ _ cs h inv_init).free g r hg, fun hk => (inv_run _ _ cs h inv_init).one g k r hg hk⟩

/-- A call is never stuck: it can always take its next step. -/
theorem C105_progress (s : St α) (g : Nat) (h : s.pc g ≠ .idle) : ∃ s', step s g .next = some s' := by
  cases hp : s.pc g with
  | idle => exact absurd hp h
  | load c => cases hc : s.cache <;> simp [step, hp, hc]
  | cas c t => by_cases hc : s.cache = some t <;> simp [step, hp, hc]
  | reset c t => simp [step, hp]
  | alloc c => simp [step, hp]
  | run c r fs => cases fs <;> simp [step, hp]
  | store c r a => simp [step, hp]

/-- Two calls that both see the cached pair: one gets it, the other makes a new one, and both return the first byte of their own body. -/
example :
    let c (b : Bytes) : Call Nat := ⟨b, [fun p => ((p.1.scal .u8).1, p.2)], fun p => p.1.body.length⟩
    (run (init Nat) [(0, .call (c [1, 2, 3])), (1, .call (c [9])), (0, .next), (1, .next), (1, .next), (0, .next), (0, .next), (1, .next),
      (1, .next), (0, .next), (0, .next), (1, .next), (1, .next), (0, .next)]).map (fun s => (s.rets.map (·.2), s.n, s.cache)) =
    some ([2, 0], 2, some 1) := by
  rfl

end Verif.ReaderCache
