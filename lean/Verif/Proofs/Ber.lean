import Verif.Proofs.Writer

namespace Verif.Marshal
open Verif.Spec

/-! ### bit facts -/

theorem lo7 (i : UInt64) : (i &&& 0x7f).toUInt8 = UInt8.ofNat (i.toNat % 128) := by
  apply UInt8.toNat_inj.mp
  rw [UInt64.toNat_toUInt8, UInt64.toNat_and]
  rw [show (0x7f : UInt64).toNat = 2 ^ 7 - 1 from rfl, Nat.and_two_pow_sub_one_eq_mod]
  simp

theorem or80 (y : UInt8) (n : Nat) (h : y = UInt8.ofNat n) (hn : n < 128) :
    (0x80 : UInt8) ||| y = UInt8.ofNat (128 + n) := by
  subst h
  apply UInt8.toNat_inj.mp
  rw [UInt8.toNat_or]
  have e1 : (UInt8.ofNat n).toNat = n := by simp; omega
  have e2 : (UInt8.ofNat (128 + n)).toNat = 128 + n := by
    rw [UInt8.toNat_ofNat']; omega
  rw [e1, e2]
  exact (Nat.two_pow_add_eq_or_of_lt (i := 7) hn 1).symm

theorem shr7 (i : UInt64) : (i >>> 7).toNat = i.toNat / 128 := by
  rw [UInt64.toNat_shiftRight]; simp [Nat.shiftRight_eq_div_pow]

theorem shr14 (i : UInt64) : (i >>> 14).toNat = i.toNat / 16384 := by
  rw [UInt64.toNat_shiftRight]; simp [Nat.shiftRight_eq_div_pow]

/-! ### `k` continuation digits -/

/-- `k` base-128 digits with continuation bit, most significant first. -/
def contDigits : Nat → Nat → Bytes
  | 0, _ => []
  | k + 1, n => contDigits k (n / 128) ++ [UInt8.ofNat (128 + n % 128)]

@[simp] theorem contDigits_length (k n : Nat) : (contDigits k n).length = k := by
  induction k generalizing n with
  | zero => rfl
  | succ k ih => simp [contDigits, ih]

theorem contDigits_eq_berCont (k n : Nat) (h1 : n < 128 ^ k) (h2 : k = 0 ∨ 128 ^ (k - 1) ≤ n) :
    contDigits k n = berCont n := by
  induction k generalizing n with
  | zero =>
    simp at h1; subst h1
    rw [berCont]; simp [contDigits]
  | succ k ih =>
    have h2' : 128 ^ k ≤ n := by simpa using h2
    have hp : 0 < 128 ^ k := Nat.pow_pos (by decide)
    rw [berCont, if_neg (by omega)]
    simp only [contDigits]
    rw [ih (n / 128)]
    · rw [Nat.pow_succ] at h1; omega
    · by_cases hk : k = 0
      · exact Or.inl hk
      · right
        obtain ⟨k', rfl⟩ : ∃ k', k = k' + 1 := ⟨k - 1, by omega⟩
        rw [Nat.pow_succ] at h2'
        simp; omega

theorem ber_eq (k n : Nat) (h1 : n < 128 ^ (k + 1)) (h2 : k = 0 ∨ 128 ^ k ≤ n) :
    ber n = contDigits k (n / 128) ++ [UInt8.ofNat (n % 128)] := by
  unfold ber
  rw [contDigits_eq_berCont]
  · rw [Nat.pow_succ] at h1; omega
  · rcases h2 with h2 | h2
    · exact Or.inl h2
    · by_cases hk : k = 0
      · exact Or.inl hk
      · right
        obtain ⟨k', rfl⟩ : ∃ k', k = k' + 1 := ⟨k - 1, by omega⟩
        rw [Nat.pow_succ] at h2
        simp; omega

/-! ### the encoder -/

theorem uvarLoop_fit (k j : Nat) (i : UInt64) (h : k ≤ j) :
    ∀ x ∈ Wr.uvarLoop k j i, x.1 + x.2.length ≤ j := by
  induction k generalizing j i with
  | zero => simp [Wr.uvarLoop]
  | succ k ih =>
    intro x hx
    simp only [Wr.uvarLoop, List.mem_cons] at hx
    rcases hx with rfl | hx
    · simp; omega
    · have := ih (j - 1) (i >>> 7) (by omega) x hx; omega

theorem uvarLoop_apply (k j : Nat) (i : UInt64) (B : Bytes) (h : k ≤ j) (hB : j ≤ B.length) :
    applyStores B (Wr.uvarLoop k j i) = B.take (j - k) ++ contDigits k (i.toNat / 128) ++ B.drop j := by
  induction k generalizing j i B with
  | zero => simp [Wr.uvarLoop, applyStores, contDigits]
  | succ k ih =>
    simp only [Wr.uvarLoop, applyStores]
    rw [or80 _ (i.toNat / 128 % 128) (by rw [lo7, shr7]) (Nat.mod_lt _ (by decide))]
    rw [ih (j - 1) (i >>> 7) _ (by omega) (by rw [overwrite_length _ _ _ (by simp; omega)]; omega)]
    rw [shr7]
    simp only [contDigits]
    generalize UInt8.ofNat (128 + i.toNat / 128 % 128) = c
    unfold overwrite
    simp only [List.append_assoc, List.length_singleton]
    rw [List.take_append_of_le_length (by rw [List.length_take]; omega), List.take_take]
    rw [List.drop_append, List.drop_eq_nil_of_le (by rw [List.length_take]; omega)]
    rw [List.length_take]
    have e1 : min (j - 1 - k) (j - 1) = j - (k + 1) := by omega
    have e2 : j - 1 - min (j - 1) B.length = 0 := by omega
    have e3 : j - 1 + 1 = j := by omega
    rw [e1, e2, e3]
    simp

theorem put_ber (w : Wr) (n : Nat) (i : UInt64) (h : Wr.Ok w) (h1 : i.toNat < 128 ^ (n + 1))
    (h2 : n = 0 ∨ 128 ^ n ≤ i.toNat) :
    ∃ w', w.put (n + 1) ((n, [(i &&& 0x7f).toUInt8]) :: Wr.uvarLoop n n i) = some w' ∧
      Wr.Ext w w' (ber i.toNat) := by
  apply Wr.put_det w _ _ _ h
  · intro x hx
    simp only [List.mem_cons] at hx
    rcases hx with rfl | hx
    · simp
    · have := uvarLoop_fit n n i (Nat.le_refl _) x hx; omega
  · intro stale hl
    simp only [applyStores]
    rw [uvarLoop_apply _ _ _ _ (Nat.le_refl _) (by rw [overwrite_length _ _ _ (by simp; omega)]; omega)]
    rw [ber_eq n i.toNat h1 h2, lo7]
    unfold overwrite
    simp only [Nat.sub_self, List.take_zero, List.nil_append, List.length_singleton, List.append_assoc]
    rw [List.drop_append, List.drop_eq_nil_of_le (by rw [List.length_take]; omega), List.length_take]
    rw [show n - min n stale.length = 0 by omega, List.drop_eq_nil_of_le (by omega : stale.length ≤ n + 1)]
    simp

theorem Wr.uvar_spec (w : Wr) (i : UInt64) (h : Wr.Ok w) :
    ∃ w', w.uvar i = some w' ∧ Wr.Ext w w' (ber i.toNat) := by
  have hi := i.toNat_lt
  unfold Wr.uvar
  by_cases c1 : i.toNat < 2 ^ 7
  · rw [if_pos c1]
    have := put_ber w 0 i h (by omega) (Or.inl rfl)
    simp only [Wr.uvarLoop] at this
    have e : i.toUInt8 = (i &&& 0x7f).toUInt8 := by
      rw [lo7]; apply UInt8.toNat_inj.mp; simp; omega
    rw [e]; exact this
  rw [if_neg c1]
  by_cases c2 : i.toNat < 2 ^ 14
  · rw [if_pos c2]
    apply Wr.put_det w _ _ _ h
    · simp
    · intro stale hl
      match stale, hl with
      | [a, b], _ =>
        rw [ber_eq 1 i.toNat (by omega) (by omega)]
        rw [or80 _ (i.toNat / 128) (by
          apply UInt8.toNat_inj.mp; rw [UInt64.toNat_toUInt8, shr7]; simp) (by omega), lo7]
        simp [applyStores, overwrite, contDigits]
        congr 1; omega
  rw [if_neg c2]
  by_cases c3 : i.toNat < 2 ^ 21
  · rw [if_pos c3]
    apply Wr.put_det w _ _ _ h
    · simp
    · intro stale hl
      match stale, hl with
      | [a, b, c], _ =>
        rw [ber_eq 2 i.toNat (by omega) (by omega)]
        rw [or80 _ (i.toNat / 16384) (by
          apply UInt8.toNat_inj.mp; rw [UInt64.toNat_toUInt8, shr14]; simp) (by omega), lo7, lo7, shr7,
          or80 _ (i.toNat / 128 % 128) rfl (by omega)]
        simp [applyStores, overwrite, contDigits]
        congr 1; omega
  rw [if_neg c3]
  simp only
  by_cases c4 : i.toNat < 2 ^ 28
  · rw [if_pos c4]; exact put_ber w 3 i h (by omega) (by omega)
  rw [if_neg c4]
  by_cases c5 : i.toNat < 2 ^ 35
  · rw [if_pos c5]; exact put_ber w 4 i h (by omega) (by omega)
  rw [if_neg c5]
  by_cases c6 : i.toNat < 2 ^ 42
  · rw [if_pos c6]; exact put_ber w 5 i h (by omega) (by omega)
  rw [if_neg c6]
  by_cases c7 : i.toNat < 2 ^ 49
  · rw [if_pos c7]; exact put_ber w 6 i h (by omega) (by omega)
  rw [if_neg c7]
  by_cases c8 : i.toNat < 2 ^ 56
  · rw [if_pos c8]; exact put_ber w 7 i h (by omega) (by omega)
  rw [if_neg c8]
  by_cases c9 : i.toNat < 2 ^ 63
  · rw [if_pos c9]; exact put_ber w 8 i h (by omega) (by omega)
  rw [if_neg c9]; exact put_ber w 9 i h (by omega) (by omega)

/-! ### the decoder -/

theorem digit_toNat (res : UInt64) (x : UInt8) (h : res.toNat < 2 ^ 57) :
    ((res <<< 7) ||| (x &&& 0x7f).toUInt64).toNat = res.toNat * 128 + x.toNat % 128 := by
  rw [UInt64.toNat_or, UInt64.toNat_shiftLeft]
  have e : (x &&& 0x7f).toUInt64.toNat = x.toNat % 128 := by
    rw [UInt8.toNat_toUInt64, UInt8.toNat_and, show (0x7f : UInt8).toNat = 2 ^ 7 - 1 from rfl,
      Nat.and_two_pow_sub_one_eq_mod]
  rw [e, show (7 : UInt64).toNat % 64 = 7 from rfl, Nat.mod_eq_of_lt (by rw [Nat.shiftLeft_eq]; omega)]
  rw [← Nat.shiftLeft_add_eq_or_of_lt (by omega : x.toNat % 128 < 2 ^ 7), Nat.shiftLeft_eq]

theorem max7 : ((0xffffffffffffffff : UInt64) >>> 7).toNat = 2 ^ 57 - 1 := by decide

/-- The loop in terms of exact arithmetic. -/
theorem uvarLoop_cases (b : Bytes) (res : UInt64) (h : res.toNat < 2 ^ 57) :
    (∀ v n, berValue b res.toNat = some (v, n) → v < 2 ^ 64 →
        Rd.uvarLoop b res = .done (UInt64.ofNat v) (b.drop n)) ∧
    (∀ v n, berValue b res.toNat = some (v, n) → 2 ^ 64 ≤ v → ∃ r, Rd.uvarLoop b res = .tooBig r) ∧
    (berValue b res.toNat = none → (∃ r, Rd.uvarLoop b res = .short r) ∨ ∃ r, Rd.uvarLoop b res = .tooBig r) := by
  induction b generalizing res with
  | nil => simp [berValue, Rd.uvarLoop]
  | cons x xs ih =>
    have hd := digit_toNat res x h
    simp only [berValue, Rd.uvarLoop]
    rw [← hd]
    generalize (res <<< 7) ||| (x &&& 0x7f).toUInt64 = r' at hd ⊢
    have hx : (x < 0x80) = (x.toNat < 128) := by rw [UInt8.lt_iff_toNat_lt]; rfl
    simp only [hx]
    by_cases c : x.toNat < 128
    · simp only [c, if_true]
      refine ⟨?_, ?_, by simp⟩
      · intro v n hv _
        simp only [Option.some.injEq, Prod.mk.injEq] at hv
        obtain ⟨rfl, rfl⟩ := hv
        simp
      · intro v n hv hlt
        simp only [Option.some.injEq, Prod.mk.injEq] at hv
        have := r'.toNat_lt
        omega
    · simp only [c, if_false]
      have hgt : (r' > (0xffffffffffffffff : UInt64) >>> 7) = (2 ^ 57 ≤ r'.toNat) := by
        rw [GT.gt, UInt64.lt_iff_toNat_lt, max7]; apply propext; omega
      simp only [hgt]
      by_cases c2 : 2 ^ 57 ≤ r'.toNat
      · simp only [c2, if_true]
        refine ⟨?_, fun _ _ _ _ => ⟨r', rfl⟩, fun _ => Or.inr ⟨r', rfl⟩⟩
        intro v n hv hlt
        exfalso
        have mono : ∀ (l : Bytes) (a v n : Nat), berValue l a = some (v, n) → a * 128 ≤ v := by
          intro l
          induction l with
          | nil => simp [berValue]
          | cons y ys ihy =>
            intro a v n hv
            simp only [berValue] at hv
            split at hv
            · simp only [Option.some.injEq, Prod.mk.injEq] at hv; omega
            · simp only [Option.map_eq_some_iff, Prod.mk.injEq, Prod.exists] at hv
              obtain ⟨v', n', h1, h2, h3⟩ := hv
              have := ihy _ _ _ h1; omega
        simp only [Option.map_eq_some_iff, Prod.mk.injEq, Prod.exists] at hv
        obtain ⟨v', n', h1, h2, h3⟩ := hv
        have := mono _ _ _ _ h1
        omega
      · simp only [c2, if_false]
        obtain ⟨i1, i2, i3⟩ := ih r' (by omega)
        refine ⟨?_, ?_, ?_⟩
        · intro v n hv hlt
          simp only [Option.map_eq_some_iff, Prod.mk.injEq, Prod.exists] at hv
          obtain ⟨v', n', h1, rfl, rfl⟩ := hv
          simpa using i1 _ _ h1 hlt
        · intro v n hv hlt
          simp only [Option.map_eq_some_iff, Prod.mk.injEq, Prod.exists] at hv
          obtain ⟨v', n', h1, rfl, rfl⟩ := hv
          exact i2 _ _ h1 hlt
        · intro hv
          rw [Option.map_eq_none_iff] at hv
          exact i3 hv

/-! ### reading back what was written -/

theorem berValue_cont (k n a : Nat) (rest : Bytes) (h : n < 128 ^ k) :
    berValue (contDigits k n ++ rest) a =
      (berValue rest (a * 128 ^ k + n)).map fun p => (p.1, p.2 + k) := by
  induction k generalizing n a rest with
  | zero => simp at h; subst h; simp [contDigits]
  | succ k ih =>
    simp only [contDigits, List.append_assoc, List.singleton_append]
    rw [ih _ _ _ (by rw [Nat.pow_succ] at h; omega)]
    have e : (UInt8.ofNat (128 + n % 128)).toNat = 128 + n % 128 := by
      rw [UInt8.toNat_ofNat']; omega
    simp only [berValue, e]
    rw [if_neg (by omega), Option.map_map]
    have e2 : (a * 128 ^ k + n / 128) * 128 + (128 + n % 128) % 128 = a * 128 ^ (k + 1) + n := by
      rw [Nat.add_mul, Nat.pow_succ, Nat.mul_assoc]; omega
    rw [e2]
    congr 1
    funext p
    simp; omega

theorem exists_class (n : Nat) : ∃ k, n < 128 ^ (k + 1) ∧ (k = 0 ∨ 128 ^ k ≤ n) := by
  induction n using Nat.strongRecOn with
  | ind n ih =>
    by_cases h : n < 128
    · exact ⟨0, by simpa using h, Or.inl rfl⟩
    · obtain ⟨k, h1, h2⟩ := ih (n / 128) (by omega)
      refine ⟨k + 1, ?_, Or.inr ?_⟩
      · rw [Nat.pow_succ]; omega
      · rcases h2 with rfl | h2
        · simp; omega
        · rw [Nat.pow_succ]; omega

theorem berValue_ber (n : Nat) (rest : Bytes) :
    berValue (ber n ++ rest) 0 = some (n, (ber n).length) := by
  obtain ⟨k, h1, h2⟩ := exists_class n
  rw [ber_eq k n h1 h2, List.append_assoc, berValue_cont _ _ _ _ (by rw [Nat.pow_succ] at h1; omega)]
  have e : (UInt8.ofNat (n % 128)).toNat = n % 128 := by rw [UInt8.toNat_ofNat']; omega
  simp only [List.singleton_append, berValue, e, Nat.zero_mul, Nat.zero_add]
  rw [if_pos (by omega)]
  simp; omega

theorem ber_length (n : Nat) : (ber n).length = berLen n := by
  induction n using Nat.strongRecOn with
  | ind n ih =>
    rw [berLen]
    split
    · rename_i h
      unfold ber
      rw [berCont, if_pos (by omega)]; rfl
    · rename_i h
      rw [← ih (n / 128) (by omega)]
      unfold ber
      rw [berCont, if_neg (by omega)]
      simp

theorem berLen_class (n k : Nat) (h1 : n < 128 ^ (k + 1)) (h2 : k = 0 ∨ 128 ^ k ≤ n) : berLen n = k + 1 := by
  rw [← ber_length, ber_eq k n h1 h2]; simp

/-- A base-128 string of `m` bytes has a value below `128^m`. -/
theorem berValue_lt (b : Bytes) (a v m : Nat) (h : berValue b a = some (v, m)) :
    v < (a + 1) * 128 ^ m ∧ 1 ≤ m ∧ m ≤ b.length := by
  induction b generalizing a v m with
  | nil => simp [berValue] at h
  | cons x xs ih =>
    simp only [berValue] at h
    split at h
    · simp only [Option.some.injEq, Prod.mk.injEq] at h
      obtain ⟨rfl, rfl⟩ := h
      simp; omega
    · simp only [Option.map_eq_some_iff, Prod.mk.injEq, Prod.exists] at h
      obtain ⟨v', m', h1, rfl, rfl⟩ := h
      have := ih _ _ _ h1
      refine ⟨Nat.lt_of_lt_of_le this.1 ?_, by omega, by simp; omega⟩
      rw [Nat.pow_succ, Nat.mul_comm (128 ^ m') 128, ← Nat.mul_assoc]
      apply Nat.mul_le_mul_right
      omega

/-! ### predicted sizes -/

/-- `x` is hit by the boundary error of the size loop: some shifted value is exactly 128. -/
def Hits128 (x : Nat) : Prop := ∃ j, x / 128 ^ j = 128

theorem hits_step (x : Nat) (h : x > 128) : Hits128 x ↔ Hits128 (x / 128) := by
  constructor
  · rintro ⟨j, hj⟩
    cases j with
    | zero => simp at hj; omega
    | succ j => exact ⟨j, by rw [Nat.div_div_eq_div_mul, ← Nat.pow_succ']; exact hj⟩
  · rintro ⟨j, hj⟩
    exact ⟨j + 1, by rw [Nat.pow_succ', ← Nat.div_div_eq_div_mul]; exact hj⟩

theorem varSizeLoop_spec (f x : Nat) (hx : x < 128 ^ f) :
    (Hits128 x → varSizeLoop f x + 2 = berLen x) ∧ (¬ Hits128 x → varSizeLoop f x + 1 = berLen x) := by
  induction f generalizing x with
  | zero =>
    have : x = 0 := by simpa using hx
    subst this
    refine ⟨fun ⟨j, hj⟩ => by simp at hj, fun _ => by rw [berLen]; simp [varSizeLoop]⟩
  | succ f ih =>
    by_cases c : x > 128
    · have := ih (x / 128) (by rw [Nat.pow_succ] at hx; omega)
      rw [hits_step x c, berLen, if_neg (by omega)]
      simp only [varSizeLoop, if_pos c]
      exact ⟨fun h => by have := this.1 h; omega, fun h => by have := this.2 h; omega⟩
    · simp only [varSizeLoop, if_neg c]
      by_cases e : x = 128
      · subst e
        refine ⟨fun _ => by rw [berLen, if_neg (by omega), berLen, if_pos (by omega)], fun h => ?_⟩
        exact absurd ⟨0, by simp⟩ h
      · refine ⟨fun ⟨j, hj⟩ => ?_, fun _ => by rw [berLen, if_pos (by omega)]⟩
        have := Nat.div_le_self x (128 ^ j); omega

/-- More fuel changes nothing on 64-bit values. -/
theorem varSizeLoop_fuel (f x : Nat) (hx : x < 128 ^ f) : varSizeLoop (f + 1) x = varSizeLoop f x := by
  induction f generalizing x with
  | zero => have : x = 0 := by simpa using hx
            subst this; simp [varSizeLoop]
  | succ f ih =>
    rw [varSizeLoop]
    conv => rhs; rw [varSizeLoop]
    split
    · rw [ih (x / 128) (by rw [Nat.pow_succ] at hx; omega)]
    · rfl

end Verif.Marshal
