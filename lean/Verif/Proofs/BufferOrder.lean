import Verif.Proofs.Buffer
namespace Verif.Buffer

/-- `push(r₁)` returned before `push(r₂)` was called. -/
def Earlier (r₁ r₂ : Nat) (log : List Ev) : Prop := Before (· = .ret r₁) (· = .call r₂) log

structure Order (s : St) (S : List Nat) : Prop where
  order : ∀ r₁ r₂, Earlier r₁ r₂ s.log → ¬ Before (Sends r₂) (Sends r₁) s.log
  tail : ∀ r₁ r₂ (n t : Nat), Earlier r₁ r₂ s.log → S[n]? = some r₁ → s.push r₂ = .gotTail t → n < t
  head : ∀ r h, s.push r = .gotHead h → h ≤ s.head
  direct : ∀ r₁ r₂ (n : Nat), Earlier r₁ r₂ s.log → S[n]? = some r₁ → s.push r₂ = .direct → n < s.head
  slot : ∀ r₁ r₂ (n m : Nat), Earlier r₁ r₂ s.log → S[n]? = some r₁ → S[m]? = some r₂ → n < m
  sent : ∀ r₁ r₂ (n : Nat), Earlier r₁ r₂ s.log → S[n]? = some r₁ → (∃ e ∈ s.log, Sends r₂ e) → n < s.fin

theorem order_init : Order init [] := by
  constructor
  · rintro _ _ ⟨l₁, l₂, h, _, b, hb, _⟩
    have : l₂ = [] := (List.append_eq_nil_iff.1 h.symm).2
    subst this; cases hb
  all_goals simp [init]

theorem earlier_append {r₁ r₂ : Nat} {log : List Ev} {e : Ev} :
    Earlier r₁ r₂ (log ++ [e]) ↔ Earlier r₁ r₂ log ∨ (.ret r₁ ∈ log ∧ e = .call r₂) := by
  unfold Earlier
  rw [before_append]
  simp

theorem Earlier.ret {r₁ r₂ : Nat} {log : List Ev} (h : Earlier r₁ r₂ log) : .ret r₁ ∈ log := by
  obtain ⟨l₁, l₂, h, ⟨a, ha, rfl⟩, _⟩ := h
  rw [h]; exact List.mem_append_left _ ha

/-- Steps after which nothing new was called, reserved or sent. -/
theorem Order.still {s s' : St} {S : List Nat} (o : Order s S) (len : S.length = s.tail)
    (hlog : s'.log = s.log ∨ ∃ e, s'.log = s.log ++ [e] ∧ (∀ r, e ≠ .call r) ∧ ∀ r, ¬ Sends r e)
    (hpush : ∀ r t, s'.push r = .gotTail t → s.push r = .gotTail t ∨ t = s.tail)
    (hgh : ∀ r k, s'.push r = .gotHead k → s.push r = .gotHead k ∨ k ≤ s.head)
    (hdir : ∀ r, s'.push r = .direct → s.push r = .direct ∨ s.push r = .gotTail s.head ∨ s.push r = .gotHead s.tail)
    (hhead : s.head ≤ s'.head) (hfin : s.fin ≤ s'.fin) : Order s' S := by
  have e1 : ∀ r₁ r₂, Earlier r₁ r₂ s'.log → Earlier r₁ r₂ s.log := by
    intro r₁ r₂ h
    rcases hlog with h' | ⟨e, h', h1, _⟩
    · rwa [h'] at h
    · rw [h', earlier_append] at h
      rcases h with h | ⟨_, h⟩
      · exact h
      · exact absurd h (h1 _)
  have e2 : ∀ r, (∃ e ∈ s'.log, Sends r e) → ∃ e ∈ s.log, Sends r e := by
    rintro r ⟨x, hx, hs⟩
    rcases hlog with h' | ⟨e, h', _, h1⟩
    · rw [h'] at hx; exact ⟨x, hx, hs⟩
    · rw [h', List.mem_append, List.mem_singleton] at hx
      rcases hx with hx | rfl
      · exact ⟨x, hx, hs⟩
      · exact absurd hs (h1 r)
  have lt : ∀ (n r : Nat), S[n]? = some r → n < s.tail := by
    intro n r h; rw [← len]; exact (List.getElem?_eq_some_iff.1 h).1
  constructor
  · intro r₁ r₂ h hb
    rcases hlog with h' | ⟨e, h', _, h1⟩
    · rw [h'] at h hb; exact o.order r₁ r₂ h hb
    · rw [h', before_append] at hb
      rcases hb with hb | ⟨_, hb⟩
      · exact o.order r₁ r₂ (e1 _ _ h) hb
      · exact h1 _ hb
  · intro r₁ r₂ n t h hS hp
    rcases hpush r₂ t hp with hp | hp
    · exact o.tail r₁ r₂ n t (e1 _ _ h) hS hp
    · subst hp; exact lt n r₁ hS
  · intro r k hp
    rcases hgh r k hp with hp | hp
    · exact Nat.le_trans (o.head r k hp) hhead
    · exact Nat.le_trans hp hhead
  · intro r₁ r₂ n h hS hp
    rcases hdir r₂ hp with hp | hp | hp
    · exact Nat.lt_of_lt_of_le (o.direct r₁ r₂ n (e1 _ _ h) hS hp) hhead
    · exact Nat.lt_of_lt_of_le (o.tail r₁ r₂ n _ (e1 _ _ h) hS hp) hhead
    · exact Nat.lt_of_lt_of_le (lt n r₁ hS) (Nat.le_trans (o.head r₂ _ hp) hhead)
  · intro r₁ r₂ n m h; exact o.slot r₁ r₂ n m (e1 _ _ h)
  · intro r₁ r₂ n h hS hs
    exact Nat.lt_of_lt_of_le (o.sent r₁ r₂ n (e1 _ _ h) hS (e2 _ hs)) hfin

theorem Inv.not_sent {R : Nat} {s : St} {S : List Nat} (h : Inv R s S) {r : Nat} (hr : (s.push r).before) :
    ¬ ∃ e ∈ s.log, Sends r e := by
  intro he
  rcases h.sent_cases (mem_sent.2 he) with ⟨h1, _⟩ | ⟨n, _, h1⟩
  · rw [h1] at hr; exact hr
  · exact h.unslotted r hr (List.mem_of_getElem? h1)

theorem pushMoved {p : Nat → PPc} {r r' : Nat} {x y : PPc} (h : set p r x r' = y) :
    (r' = r ∧ x = y) ∨ p r' = y := by
  by_cases e : r' = r
  · subst e; rw [set_same] at h; exact .inl ⟨rfl, h⟩
  · rw [set_ne _ _ e] at h; exact .inr h

/-- What a step of `push` does. -/
theorem order_push {R cap : Nat} {s s' : St} {S S' : List Nat} (o : Order s S) (h : Inv R s S) (h' : Inv R s' S')
    {r : Nat} (hs : stepPush R cap s r = some s') : Order s' S' := by
  -- steps which only move the program counter to a harmless place
  have quiet : ∀ (s' : St), s'.log = s.log ∨ (∃ e, s'.log = s.log ++ [e] ∧ (∀ r, e ≠ .call r) ∧ ∀ r, ¬ Sends r e) →
      (∃ x : PPc, (∀ t, x ≠ .gotTail t ∧ x ≠ .gotHead t) ∧ x ≠ .direct ∧ s'.push = set s.push r x) → s'.head = s.head →
      s'.loop = s.loop → Inv R s' S' → slots s'.log = slots s.log → Order s' S' := by
    intro s' hlog ⟨x, h1, h2, hp⟩ hh hl h' hsl
    have : S' = S := by rw [← h'.slots, ← h.slots]; exact hsl
    subst this
    refine o.still h.len hlog ?_ ?_ ?_ (Nat.le_of_eq hh.symm) (by unfold St.fin; rw [hh, hl]; exact Nat.le_refl _)
    · intro r' t hx
      rw [hp] at hx
      rcases pushMoved hx with ⟨_, hx⟩ | hx
      · exact absurd hx (h1 t).1
      · exact .inl hx
    · intro r' t hx
      rw [hp] at hx
      rcases pushMoved hx with ⟨_, hx⟩ | hx
      · exact absurd hx (h1 t).2
      · exact .inl hx
    · intro r' hx
      rw [hp] at hx
      rcases pushMoved hx with ⟨_, hx⟩ | hx
      · exact absurd hx h2
      · exact .inl hx
  unfold stepPush at hs
  split at hs <;> rename_i hr
  · -- call
    cases hs
    have hb : (s.push r).before := by rw [hr]; trivial
    have : S' = S := by
      rw [← h'.slots, ← h.slots]; exact slots_single (by simp)
    subst this
    have hsent : ∀ r', (∃ e ∈ s.log ++ [.call r], Sends r' e) → ∃ e ∈ s.log, Sends r' e := by
      rintro r' ⟨e, he, hse⟩
      rw [List.mem_append, List.mem_singleton] at he
      rcases he with he | rfl
      · exact ⟨e, he, hse⟩
      · rcases hse with h | h <;> cases h
    have hearl : ∀ r₁ r₂, Earlier r₁ r₂ (s.log ++ [.call r]) → Earlier r₁ r₂ s.log ∨ r₂ = r := by
      intro r₁ r₂ h
      rcases earlier_append.1 h with h | ⟨_, h⟩
      · exact .inl h
      · cases h; exact .inr rfl
    have hord : ∀ r₁ r₂, Before (Sends r₂) (Sends r₁) (s.log ++ [.call r]) → Before (Sends r₂) (Sends r₁) s.log := by
      intro r₁ r₂ h
      rcases before_append.1 h with h | ⟨_, h | h⟩
      · exact h
      · cases h
      · cases h
    constructor
    · intro r₁ r₂ he hx
      replace hx := hord _ _ hx
      rcases hearl _ _ he with he | rfl
      · exact o.order r₁ r₂ he hx
      · obtain ⟨l₁, l₂, e', ⟨a, ha, hs⟩, _⟩ := hx
        exact h.not_sent hb ⟨a, by rw [show s.log = l₁ ++ l₂ from e']; exact List.mem_append_left _ ha, hs⟩
    · intro r₁ r₂ n t he hS hp
      replace hp := pushMoved hp; rcases hp with ⟨_, hp⟩ | hp
      · cases hp
      · rcases hearl _ _ he with he | rfl
        · exact o.tail r₁ r₂ n t he hS hp
        · rw [hr] at hp; cases hp
    · intro r' k hp
      rcases pushMoved hp with ⟨_, hp⟩ | hp
      · cases hp
      · exact o.head r' k hp
    · intro r₁ r₂ n he hS hp
      replace hp := pushMoved hp; rcases hp with ⟨_, hp⟩ | hp
      · cases hp
      · rcases hearl _ _ he with he | rfl
        · exact o.direct r₁ r₂ n he hS hp
        · rw [hr] at hp; cases hp
    · intro r₁ r₂ n m he hS hm
      rcases hearl _ _ he with he | rfl
      · exact o.slot r₁ r₂ n m he hS hm
      · exact absurd (List.mem_of_getElem? hm) (h.unslotted _ hb)
    · intro r₁ r₂ n he hS hse
      rcases hearl _ _ he with he | rfl
      · exact o.sent r₁ r₂ n he hS (hsent _ hse)
      · exact absurd (hsent _ hse) (h.not_sent hb)
  · cases hs
    have : S' = S := by rw [← h'.slots, ← h.slots]
    subst this
    refine o.still h.len (.inl rfl) ?_ ?_ ?_ (Nat.le_refl _) (Nat.le_refl _)
    · intro r' t hx
      rcases pushMoved hx with ⟨_, hx⟩ | hx
      · cases hx; exact .inr rfl
      · exact .inl hx
    · intro r' t hx
      rcases pushMoved hx with ⟨_, hx⟩ | hx
      · cases hx
      · exact .inl hx
    · intro r' hx
      rcases pushMoved hx with ⟨_, hx⟩ | hx
      · cases hx
      · exact .inl hx
  · rename_i t
    cases hs
    have : S' = S := by rw [← h'.slots, ← h.slots]
    subst this
    refine o.still h.len (.inl rfl) ?_ ?_ ?_ (Nat.le_refl _) (Nat.le_refl _)
    · intro r' t hx
      rcases pushMoved hx with ⟨_, hx⟩ | hx
      · split at hx <;> cases hx
      · exact .inl hx
    · intro r' t hx
      rcases pushMoved hx with ⟨_, hx⟩ | hx
      · split at hx <;> cases hx
      · exact .inl hx
    · intro r' hx
      rcases pushMoved hx with ⟨e, hx⟩ | hx
      · split at hx
        · rename_i e'; subst e e'; exact .inr (.inl hr)
        · cases hx
      · exact .inl hx
  · rename_i k
    cases hs
    have : S' = S := by rw [← h'.slots, ← h.slots]
    subst this
    refine o.still h.len (.inl rfl) ?_ ?_ ?_ (Nat.le_refl _) (Nat.le_refl _)
    · intro r' t hx
      rcases pushMoved hx with ⟨_, hx⟩ | hx
      · split at hx <;> cases hx
      · exact .inl hx
    · intro r' t hx
      rcases pushMoved hx with ⟨_, hx⟩ | hx
      · split at hx <;> cases hx
      · exact .inl hx
    · intro r' hx
      rcases pushMoved hx with ⟨e, hx⟩ | hx
      · split at hx
        · rename_i e'; subst e e'; exact .inr (.inr hr)
        · cases hx
      · exact .inl hx
  · split at hs
    · -- direct delivery
      cases hs
      have hb : (s.push r).before := by rw [hr]; trivial
      have hl : s.log ++ [.direct r, .ret r] = (s.log ++ [.direct r]) ++ [.ret r] := by simp
      have : S' = S := by
        rw [← h'.slots, ← h.slots]
        show slots (s.log ++ [_, _]) = _
        rw [hl, slots_single (by simp), slots_single (by simp)]
      subst this
      have hearl : ∀ r₁ r₂, Earlier r₁ r₂ (s.log ++ [.direct r, .ret r]) → Earlier r₁ r₂ s.log := by
        intro r₁ r₂ h
        rw [hl, earlier_append, earlier_append] at h
        rcases h with (h | ⟨_, h⟩) | ⟨_, h⟩
        · exact h
        · cases h
        · cases h
      have hord : ∀ r₁ r₂, Before (Sends r₂) (Sends r₁) (s.log ++ [.direct r, .ret r]) →
          Before (Sends r₂) (Sends r₁) s.log ∨ r₁ = r := by
        intro r₁ r₂ h
        rw [hl, before_append, before_append] at h
        rcases h with (h | ⟨_, h | h⟩) | ⟨_, h | h⟩
        · exact .inl h
        · cases h; exact .inr rfl
        all_goals cases h
      have hsent : ∀ r', (∃ e ∈ s.log ++ [.direct r, .ret r], Sends r' e) → (∃ e ∈ s.log, Sends r' e) ∨ r' = r := by
        rintro r' ⟨e, he, hse⟩
        simp only [List.mem_append, List.mem_cons, List.not_mem_nil, or_false] at he
        rcases he with he | rfl | rfl
        · exact .inl ⟨e, he, hse⟩
        · rcases hse with h | h <;> cases h; exact .inr rfl
        · rcases hse with h | h <;> cases h
      have nodone : ∀ r₂, ¬ Earlier r r₂ s.log := by
        intro r₂ he
        have := h.ret r he.ret
        rw [hr] at this; cases this
      constructor
      · intro r₁ r₂ he hx
        replace he := hearl _ _ he
        rcases hord _ _ hx with hx | rfl
        · exact o.order r₁ r₂ he hx
        · exact nodone _ he
      · intro r₁ r₂ n t he hS hp
        rcases pushMoved hp with ⟨_, hp⟩ | hp
        · cases hp
        · exact o.tail r₁ r₂ n t (hearl _ _ he) hS hp
      · intro r' k hp
        rcases pushMoved hp with ⟨_, hp⟩ | hp
        · cases hp
        · exact o.head r' k hp
      · intro r₁ r₂ n he hS hp
        rcases pushMoved hp with ⟨_, hp⟩ | hp
        · cases hp
        · exact o.direct r₁ r₂ n (hearl _ _ he) hS hp
      · intro r₁ r₂ n m he hS hm; exact o.slot r₁ r₂ n m (hearl _ _ he) hS hm
      · intro r₁ r₂ n he hS hse
        rcases hsent _ hse with hse | rfl
        · exact o.sent r₁ r₂ n (hearl _ _ he) hS hse
        · exact Nat.lt_of_lt_of_le (o.direct r₁ r₂ n (hearl _ _ he) hS hr) (Nat.le_add_right _ _)
    · cases hs
      exact quiet _ (.inl rfl) ⟨_, by simp, by simp, rfl⟩ rfl rfl h' rfl
  · -- a slot is reserved
    cases hs
    have hu : r ∉ S := h.unslotted r (by rw [hr]; trivial)
    have : S' = S ++ [r] := by
      rw [← h'.slots, ← h.slots]
      show slots (s.log ++ [_]) = _
      rw [slots_append]; rfl
    subst this
    have hS : ∀ (n r' : Nat), (S ++ [r])[n]? = some r' → S[n]? = some r' ∨ n = s.tail ∧ r' = r := by
      intro n r' hx
      rw [← h.len]
      rw [List.getElem?_append] at hx
      split at hx
      · exact .inl hx
      · have : n - S.length = 0 := by
          rcases Nat.eq_zero_or_pos (n - S.length) with h | h
          · exact h
          · rw [List.getElem?_eq_none (by simp; omega)] at hx; cases hx
        rw [this] at hx
        cases hx
        exact .inr ⟨by omega, rfl⟩
    have hearl : ∀ r₁ r₂, Earlier r₁ r₂ (s.log ++ [.slot r]) → Earlier r₁ r₂ s.log := by
      intro r₁ r₂ h
      rcases earlier_append.1 h with h | ⟨_, h⟩
      · exact h
      · cases h
    have nodone : ∀ r₂, ¬ Earlier r r₂ s.log := by
      intro r₂ he
      have := h.ret r he.ret
      rw [hr] at this; cases this
    have hS1 : ∀ r₁ r₂ (n : Nat), Earlier r₁ r₂ (s.log ++ [.slot r]) → (S ++ [r])[n]? = some r₁ →
        S[n]? = some r₁ := by
      intro r₁ r₂ n he hx
      rcases hS _ _ hx with hx | ⟨_, rfl⟩
      · exact hx
      · exact absurd (hearl _ _ he) (nodone _)
    constructor
    · intro r₁ r₂ he hx
      rcases before_append.1 hx with hx | ⟨_, hx | hx⟩
      · exact o.order r₁ r₂ (hearl _ _ he) hx
      · cases hx
      · cases hx
    · intro r₁ r₂ n t he hx hp
      rcases pushMoved hp with ⟨_, hp⟩ | hp
      · cases hp
      · exact o.tail r₁ r₂ n t (hearl _ _ he) (hS1 _ _ _ he hx) hp
    · intro r' k hp
      rcases pushMoved hp with ⟨_, hp⟩ | hp
      · cases hp
      · exact o.head r' k hp
    · intro r₁ r₂ n he hx hp
      rcases pushMoved hp with ⟨_, hp⟩ | hp
      · cases hp
      · exact o.direct r₁ r₂ n (hearl _ _ he) (hS1 _ _ _ he hx) hp
    · intro r₁ r₂ n m he hx hm
      have hx := hS1 _ _ _ he hx
      rcases hS _ _ hm with hm | ⟨rfl, _⟩
      · exact o.slot r₁ r₂ n m (hearl _ _ he) hx hm
      · rw [← h.len]; exact (List.getElem?_eq_some_iff.1 hx).1
    · intro r₁ r₂ n he hx ⟨e, h1, h2⟩
      refine o.sent r₁ r₂ n (hearl _ _ he) (hS1 _ _ _ he hx) ?_
      replace h1 : e ∈ s.log ++ [.slot r] := h1
      rw [List.mem_append, List.mem_singleton] at h1
      rcases h1 with h1 | rfl
      · exact ⟨e, h1, h2⟩
      · rcases h2 with h | h <;> cases h
  · cases hs
    exact quiet _ (.inl rfl) ⟨_, by intro t; split <;> simp, by split <;> simp, rfl⟩ rfl rfl h' rfl
  · split at hs <;> cases hs <;> exact quiet _ (.inl rfl) ⟨_, by simp, by simp, rfl⟩ rfl rfl h' rfl
  · split at hs
    · cases hs; exact quiet _ (.inl rfl) ⟨_, by simp, by simp, rfl⟩ rfl rfl h' rfl
    · cases hs; exact quiet _ (.inl rfl) ⟨_, by simp, by simp, rfl⟩ rfl rfl h' rfl
    · cases hs
  · cases hs; exact quiet _ (.inl rfl) ⟨_, by simp, by simp, rfl⟩ rfl rfl h' rfl
  · cases hs; exact quiet _ (.inl rfl) ⟨_, by simp, by simp, rfl⟩ rfl rfl h' rfl
  · split at hs
    · cases hs; exact quiet _ (.inl rfl) ⟨_, by simp, by simp, rfl⟩ rfl rfl h' rfl
    · cases hs
      exact quiet _ (.inr ⟨.ret r, rfl, by simp, by simp [Sends]⟩) ⟨_, by simp, by simp, rfl⟩ rfl rfl h'
        (slots_single (by simp))
  · cases hs
  · cases hs

theorem order_loop {R cap : Nat} {s s' : St} {S : List Nat} (o : Order s S) (h : Inv R s S)
    (hs : stepLoop R cap s = some s') : Order s' S := by
  have same : ∀ (s' : St), s'.log = s.log → s'.push = s.push → s.head ≤ s'.head → s.fin ≤ s'.fin → Order s' S :=
    fun s' h1 h2 h3 h4 => o.still h.len (.inl h1) (fun r t hx => .inl (by rw [h2] at hx; exact hx))
      (fun r t hx => .inl (by rw [h2] at hx; exact hx)) (fun r hx => .inl (by rw [h2] at hx; exact hx)) h3 h4
  have ninc : ∀ (s' : St), s.loop ≠ .inc → s'.log = s.log → s'.push = s.push → s'.head = s.head → Order s' S :=
    fun s' h0 h1 h2 h3 => same s' h1 h2 (Nat.le_of_eq h3.symm)
      (by unfold St.fin; rw [if_neg h0, h3]; omega)
  unfold stepLoop at hs
  split at hs <;> rename_i hl
  · split at hs
    · cases hs; exact ninc _ (by rw [hl]; simp) rfl rfl rfl
    · split at hs
      · cases hs; exact ninc _ (by rw [hl]; simp) rfl rfl rfl
      · cases hs
  · cases hs; exact ninc _ (by rw [hl]; simp) rfl rfl rfl
  · split at hs
    · cases hs; exact ninc _ (by rw [hl]; simp) rfl rfl rfl
    · simp only at hs
      split at hs <;> cases hs <;> exact ninc _ (by rw [hl]; simp) rfl rfl rfl
  · split at hs <;> cases hs <;> exact ninc _ (by rw [hl]; simp) rfl rfl rfl
  · cases hs; exact ninc _ (by rw [hl]; simp) rfl rfl rfl
  · cases hs; exact ninc _ (by rw [hl]; simp) rfl rfl rfl
  · cases hs; exact ninc _ (by rw [hl]; simp) rfl rfl rfl
  · cases hs; exact ninc _ (by rw [hl]; simp) rfl rfl rfl
  · rename_i q
    split at hs
    · cases hs
      have hS := h.loopreq q (by rw [hl]; rfl)
      have hfin : s.fin = s.head := by unfold St.fin; rw [hl]; simp
      have uniq : ∀ n : Nat, S[n]? = some q → n = s.head := fun n hn =>
        (List.getElem?_inj (List.getElem?_eq_some_iff.1 hn).1 h.nodup).1 (hn.trans hS.symm)
      have hearl : ∀ r₁ r₂, Earlier r₁ r₂ (s.log ++ [.forward q]) → Earlier r₁ r₂ s.log := by
        intro r₁ r₂ h
        rcases earlier_append.1 h with h | ⟨_, h⟩
        · exact h
        · cases h
      have hsent : ∀ r', (∃ e ∈ s.log ++ [.forward q], Sends r' e) → (∃ e ∈ s.log, Sends r' e) ∨ r' = q := by
        rintro r' ⟨e, he, hse⟩
        rw [List.mem_append, List.mem_singleton] at he
        rcases he with he | rfl
        · exact .inl ⟨e, he, hse⟩
        · rcases hse with h | h <;> cases h; exact .inr rfl
      constructor
      · intro r₁ r₂ he hx
        replace he := hearl _ _ he
        rcases before_append.1 hx with hx | ⟨h1, hx | hx⟩
        · exact o.order r₁ r₂ he hx
        · cases hx
        · cases hx
          have := o.sent _ r₂ _ he hS h1
          omega
      · intro r₁ r₂ n t he; exact o.tail r₁ r₂ n t (hearl _ _ he)
      · exact o.head
      · intro r₁ r₂ n he; exact o.direct r₁ r₂ n (hearl _ _ he)
      · intro r₁ r₂ n m he; exact o.slot r₁ r₂ n m (hearl _ _ he)
      · intro r₁ r₂ n he hn hse
        replace he := hearl _ _ he
        show n < s.head + 1
        rcases hsent _ hse with hse | rfl
        · have := o.sent r₁ r₂ n he hn hse
          omega
        · exact Nat.lt_succ_of_lt (o.slot r₁ _ n _ he hn hS)
    · cases hs
  · cases hs
    refine same _ rfl rfl (Nat.le_succ _) ?_
    unfold St.fin
    rw [hl]; simp
  · cases hs

theorem order_step {R cap : Nat} {s s' : St} {S S' : List Nat} (o : Order s S) (h : Inv R s S) (h' : Inv R s' S')
    {c : Choice} (hs : step R cap s c = some s') (hR : 0 < R) : Order s' S' := by
  have same : ∀ (s' : St), Inv R s' S' → s'.log = s.log → s'.push = s.push → s'.head = s.head → s'.loop = s.loop →
      Order s' S' := by
    intro s' h' h1 h2 h3 h4
    have : S' = S := by rw [← h'.slots, ← h.slots, h1]
    subst this
    refine o.still h.len (.inl h1) ?_ ?_ ?_ (Nat.le_of_eq h3.symm) (by unfold St.fin; rw [h3, h4]; exact Nat.le_refl _)
    · intro r t hx; exact .inl (by rw [h2] at hx; exact hx)
    · intro r t hx; exact .inl (by rw [h2] at hx; exact hx)
    · intro r hx; exact .inl (by rw [h2] at hx; exact hx)
  cases c with
  | push r => exact order_push o h h' hs
  | headFirst r =>
    simp only [step] at hs
    split at hs
    · cases hs
      have : S' = S := by rw [← h'.slots, ← h.slots]
      subst this
      refine o.still h.len (.inl rfl) ?_ ?_ ?_ (Nat.le_refl _) (Nat.le_refl _)
      · intro r' t hx
        rcases pushMoved hx with ⟨_, hx⟩ | hx
        · cases hx
        · exact .inl hx
      · intro r' t hx
        rcases pushMoved hx with ⟨_, hx⟩ | hx
        · cases hx; exact .inr (Nat.le_refl _)
        · exact .inl hx
      · intro r' hx
        rcases pushMoved hx with ⟨_, hx⟩ | hx
        · cases hx
        · exact .inl hx
    · cases hs
  | loop =>
    have h'' := inv_loop hR h hs
    have : S' = S := by rw [← h'.slots, ← h''.slots]
    subst this
    exact order_loop o h hs
  | close =>
    simp only [step, stepClose] at hs
    split at hs <;> cases hs
    · exact same _ h' rfl rfl rfl rfl
    · exact same _ h' rfl rfl rfl rfl
  | answer r =>
    simp only [step, stepAnswer] at hs
    split at hs
    · cases hs
      have : S' = S := by
        rw [← h'.slots, ← h.slots]; exact slots_single (by simp)
      subst this
      exact o.still h.len (.inr ⟨_, rfl, by simp, by simp [Sends]⟩) (fun r t hx => .inl hx) (fun r t hx => .inl hx) (fun r hx => .inl hx)
        (Nat.le_refl _) (Nat.le_refl _)
    · split at hs <;> cases hs <;> exact same _ h' rfl rfl rfl rfl
    · split at hs <;> cases hs <;> exact same _ h' rfl rfl rfl rfl
    · cases hs
  | recv =>
    simp only [step] at hs
    split at hs <;> cases hs
    exact same _ h' rfl rfl rfl rfl

theorem order_run {R cap : Nat} (hR : 0 < R) {s s' : St} {S : List Nat} (o : Order s S) (h : Inv R s S)
    {cs : List Choice} (hs : run R cap s cs = some s') : ∃ S', Inv R s' S' ∧ Order s' S' := by
  induction cs generalizing s S with
  | nil => cases hs; exact ⟨S, h, o⟩
  | cons c cs ih =>
    unfold run at hs
    obtain ⟨s₁, h1, h2⟩ := Option.bind_eq_some_iff.1 hs
    obtain ⟨S₁, h'⟩ := inv_step hR h h1
    exact ih (order_step o h h' h1 hR) h' h2

end Verif.Buffer
