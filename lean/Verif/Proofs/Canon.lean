import Verif.Proofs.ReflectExt
import Verif.Proofs.SboxResult
import Verif.Proofs.ReflectSpec
import Verif.Spec.Canon

/-! Reading without error means that the bytes are the layout of the value read. -/
namespace Verif.Canon
open Verif.Marshal Verif.Reflect Verif.Spec

theorem le_take (b : Bytes) (w : Nat) (h : w ≤ b.length) : le w (getLE (b.take w)) = b.take w := by
  have hl : (b.take w).length = w := by simp; omega
  rw [Sbox.le_putLE]
  have := putLE_getLE (b.take w)
  rwa [hl] at this

theorem getLE_take_lt (b : Bytes) (w : Nat) : getLE (b.take w) < 256 ^ w := by
  have := getLE_lt (b.take w)
  have h2 : (b.take w).length ≤ w := by simp; omega
  exact Nat.lt_of_lt_of_le this (Nat.pow_le_pow_right (by omega) h2)

theorem u16_nat (b : Bytes) : (getU16 b).toNat = getLE (b.take 2) := by
  have := getLE_take_lt b 2
  unfold getU16
  rw [UInt16.toNat_ofNat']; omega
theorem u32_nat (b : Bytes) : (getU32 b).toNat = getLE (b.take 4) := by
  have := getLE_take_lt b 4
  unfold getU32
  rw [UInt32.toNat_ofNat']; omega
theorem u64_nat (b : Bytes) : (getU64 b).toNat = getLE (b.take 8) := by
  have := getLE_take_lt b 8
  unfold getU64
  rw [UInt64.toNat_ofNat']; omega
theorem u8_nat (b : Bytes) : (b.headD 0).toNat = getLE (b.take 1) := by
  cases b <;> simp [getLE]

theorem decode_bytes (b : Bytes) (k : Kind) (h : width k ≤ b.length) : scalBytes (Rd.decode b k) = b.take (width k) := by
  cases k <;> simp only [width] at h <;> simp only [scalBytes, Rd.decode, Scal.kind, width, pattern]
  · rw [u8_nat]; exact le_take b 1 h
  · rw [← i8_pattern]; simp only [UInt8.toUInt8_toInt8]; rw [u8_nat]; exact le_take b 1 h
  · rw [u16_nat]; exact le_take b 2 h
  · rw [← i16_pattern]; simp only [UInt16.toUInt16_toInt16]; rw [u16_nat]; exact le_take b 2 h
  · rw [u32_nat]; exact le_take b 4 h
  · rw [← i32_pattern]; simp only [UInt32.toUInt32_toInt32]; rw [u32_nat]; exact le_take b 4 h
  · rw [u64_nat]; exact le_take b 8 h
  · rw [← i64_pattern]; simp only [UInt64.toUInt64_toInt64]; rw [u64_nat]; exact le_take b 8 h
  · rw [u32_nat]; exact le_take b 4 h
  · rw [u64_nat]; exact le_take b 8 h

theorem scal_bytes (r : Rd) (k : Kind) (h : (r.scal k).1.err = none) :
    r.err = none ∧ r.body = scalBytes (r.scal k).2 ++ (r.scal k).1.body := by
  unfold Rd.scal at h ⊢
  split at h
  · rename_i h1; exact absurd h h1
  · split at h
    · cases h
    · rename_i h1 h2
      rw [if_neg h1, if_neg h2]
      rw [need_eq] at h2
      refine ⟨by simpa using h1, ?_⟩
      rw [decode_bytes _ _ (by omega), step_eq, List.take_append_drop]

theorem slElems_bytes (b : Bytes) (k : Kind) (n j : Nat) (h : (j + n) * width k ≤ b.length) :
    ((Rd.slElems b k j n).map scalBytes).flatten ++ b.drop ((j + n) * width k) = b.drop (j * width k) ∧
    (Rd.slElems b k j n).length = n ∧ ∀ s ∈ Rd.slElems b k j n, s.kind = k := by
  induction n generalizing j with
  | zero => simp [Rd.slElems]
  | succ n ih =>
    have e : j + 1 + n = j + (n + 1) := by omega
    obtain ⟨h1, h2, h3⟩ := ih (j + 1) (by rw [e]; exact h)
    have hw : (j + 1) * width k ≤ b.length := Nat.le_trans (Nat.mul_le_mul_right _ (by omega)) h
    rw [Nat.add_mul, Nat.one_mul] at hw
    simp only [Rd.slElems, slWidth_eq, List.map_cons, List.flatten_cons, List.append_assoc, List.length_cons, List.mem_cons]
    refine ⟨?_, by omega, ?_⟩
    · rw [e] at h1
      rw [h1, decode_bytes _ _ (by simp; omega), Nat.add_mul, Nat.one_mul, ← List.drop_drop, List.take_append_drop]
    · rintro s (rfl | hs)
      · cases k <;> rfl
      · exact h3 s hs

theorem scalSl_bytes (r : Rd) (k : Kind) (xs : List Scal) (h : (r.scalSl k xs).1.err = none) :
    r.body = ((r.scalSl k xs).2.map scalBytes).flatten ++ (r.scalSl k xs).1.body ∧
    (r.scalSl k xs).2.length = xs.length ∧ ∀ s ∈ (r.scalSl k xs).2, s.kind = k := by
  unfold Rd.scalSl at h ⊢
  split at h
  · rename_i h1; exact absurd h h1
  · split at h
    · cases h
    · rename_i h1 h2
      rw [if_neg h1, if_neg h2]
      rw [slWidth_eq] at h2 ⊢
      obtain ⟨q1, q2, q3⟩ := slElems_bytes r.body k xs.length 0 (by rw [Nat.zero_add]; omega)
      simp only [Nat.zero_add, Nat.zero_mul, List.drop_zero] at q1
      exact ⟨q1.symm, q2, q3⟩

theorem slice_bytes (r : Rd) (n : Int) (r' : Rd) (b : Bytes) (h : r.slice n = some (r', b)) (he : r'.err = none) :
    r.body = b ++ r'.body ∧ (b.length : Int) = n := by
  unfold Rd.slice at h
  split at h
  · rename_i h1; cases h; exact absurd he h1
  · split at h
    · cases h; cases he
    · split at h
      · cases h
      · cases h
        refine ⟨(List.take_append_drop ..).symm, ?_⟩
        simp; omega

/-- A rigid prefix: what is read, and the bytes it was read from. -/
theorem pfx_bytes (p : Pfx) (hp : rigid p = true) (r : Rd) (h : (p.read r).1.err = none) (n : Nat) (hn : (p.read r).2.toInt = n) :
    r.body = pfxBytes p n ++ (p.read r).1.body := by
  have small : ∀ m : Nat, m < 2 ^ 63 → (UInt64.ofNat m).toInt64.toInt = n → m = n := by
    intro m hm e
    have : (UInt64.ofNat m).toInt64.toInt = m := toInt_ofNat m (by omega)
    omega
  cases p with
  | ber => simp [rigid] at hp
  | i8 =>
    obtain ⟨_, h2⟩ := scal_bytes r .u8 h
    have hk := scal_kind r .u8
    simp only [Pfx.read, Rd.intUint8] at hn h ⊢
    revert h2 hn hk
    generalize (r.scal .u8).2 = s
    intro hn h2 hk
    cases s <;> simp [Scal.kind] at hk
    rename_i x
    have := x.toNat_lt
    have := small x.toNat (by omega) hn
    rw [h2]; simp only [scalBytes, Scal.kind, width, pattern, pfxBytes, this]
  | i16 =>
    obtain ⟨_, h2⟩ := scal_bytes r .u16 h
    have hk := scal_kind r .u16
    simp only [Pfx.read, Rd.intUint16] at hn h ⊢
    revert h2 hn hk
    generalize (r.scal .u16).2 = s
    intro hn h2 hk
    cases s <;> simp [Scal.kind] at hk
    rename_i x
    have := x.toNat_lt
    have := small x.toNat (by omega) hn
    rw [h2]; simp only [scalBytes, Scal.kind, width, pattern, pfxBytes, this]
  | i32 =>
    obtain ⟨_, h2⟩ := scal_bytes r .u32 h
    have hk := scal_kind r .u32
    simp only [Pfx.read, Rd.intUint32] at hn h ⊢
    revert h2 hn hk
    generalize (r.scal .u32).2 = s
    intro hn h2 hk
    cases s <;> simp [Scal.kind] at hk
    rename_i x
    have := x.toNat_lt
    have := small x.toNat (by omega) hn
    rw [h2]; simp only [scalBytes, Scal.kind, width, pattern, pfxBytes, this]
  | i64 =>
    obtain ⟨_, h2⟩ := scal_bytes r .u64 h
    have hk := scal_kind r .u64
    simp only [Pfx.read, Rd.intUint64] at hn h ⊢
    revert h2 hn hk
    generalize (r.scal .u64).2 = s
    intro hn h2 hk
    cases s <;> simp [Scal.kind] at hk
    rename_i x
    have hx := x.toNat_lt
    have : x.toNat = n := by
      simp only [Rd.Scal.nat, UInt64.ofNat_toNat] at hn
      have e : x.toInt64.toInt = (x.toNat : Int).bmod (2 ^ 64) := by
        simp [UInt64.toInt64, Int64.toInt, BitVec.toInt_eq_toNat_bmod]
        rfl
      rw [e] at hn
      rw [Int.bmod_def] at hn
      split at hn <;> omega
    rw [h2]; simp only [scalBytes, Scal.kind, width, pattern, pfxBytes, this]

theorem lens_const (l : List Val) (f : Val → Bytes) (m : Nat) (h : ∀ v ∈ l, (f v).length = m) : (l.map f).flatten.length = l.length * m := by
  induction l with
  | nil => simp
  | cons x xs ih =>
    simp only [List.map_cons, List.flatten_cons, List.length_append, List.length_cons, Nat.add_mul, Nat.one_mul]
    rw [h x (by simp), ih (fun y hy => h y (by simp [hy]))]; omega

mutual
/-- A fixed size is the size of every value. -/
theorem pay_len' : (t : Ty) → ∀ (n : Nat) (v : Val), size? t = some n → HasTy t v → (pay t v).length = n
  | .scal k, n, v, h, hf => by
    cases v <;> simp only [HasTy] at hf
    simp only [size?, Option.some.injEq] at h
    simp [pay, hf, h]
  | .str, n, v, h, hf => by simp [size?] at h
  | .sl t, n, v, h, hf => by simp [size?] at h
  | .ptr t, n, v, h, hf => by simp [size?] at h
  | .arr m t, n, v, h, hf => by
    cases v <;> simp only [HasTy] at hf
    simp only [size?, Option.map_eq_some_iff] at h
    obtain ⟨q, hq, rfl⟩ := h
    simp only [pay, withCnt, not_counted hq, Bool.false_eq_true, if_false]
    rw [lens_const _ _ q (fun v hv => pay_len' t q v hq (hf.2 v hv)), hf.1]
  | .struct fs, n, v, h, hf => by
    cases v <;> simp only [HasTy] at hf
    simp only [size?] at h
    simp only [pay]
    exact payFl_len' fs n _ h hf
theorem payFl_len' : (fs : Fl) → ∀ (n : Nat) (vs : List Val), sizeFl? fs = some n → HasTyFl fs vs → (payFl fs vs).length = n
  | .nil, n, vs, h, hf => by
    cases vs <;> simp only [HasTyFl] at hf
    simp only [sizeFl?, Option.some.injEq] at h
    simp [payFl, h]
  | .cons g t fs, n, vs, h, hf => by
    cases vs with
    | nil => simp [HasTyFl] at hf
    | cons v vs =>
      simp only [HasTyFl] at hf
      match g, h with
      | .hidden, h => simp only [sizeFl?] at h; simp only [payFl]; exact payFl_len' fs n vs h hf.2
      | .skip, h => simp only [sizeFl?] at h; simp only [payFl]; exact payFl_len' fs n vs h hf.2
      | .use true _, h => simp [sizeFl?] at h
      | .use false .no, h => simp [sizeFl?] at h
      | .use false .none, h =>
        simp only [sizeFl?] at h
        split at h <;> cases h
        rename_i a b ha hb
        simp only [payFl, tagged, withCnt, not_counted ha, Bool.false_eq_true, if_false, List.length_append]
        rw [pay_len' t a v ha hf.1, payFl_len' fs b vs hb hf.2]
      | .use false (.size p), h =>
        simp only [sizeFl?] at h
        split at h <;> cases h
        rename_i a b ha hb
        simp only [payFl, tagged, Bool.false_eq_true, if_false, List.length_append, pfxBytes_length]
        rw [pay_len' t a v ha hf.1, payFl_len' fs b vs hb hf.2]
      | .use false (.cnt p), h =>
        simp only [sizeFl?] at h
        split at h <;> cases h
        rename_i c a b hc ha hb
        simp only [payFl, tagged, Bool.false_eq_true, if_false, List.length_append, pfxBytes_length]
        rw [pay_len' t a v ha hf.1, payFl_len' fs b vs hb hf.2, countOf_fixed hc]
end

/-- What a read that succeeds says about the bytes. -/
def Ex (t : Ty) (P : Val → Bytes → Prop) (q : Option (Rd × Val)) (r : Rd) : Prop :=
  ∀ r' v, q = some (r', v) → r'.err = none → ∃ u, r.body = u ++ r'.body ∧ P v u ∧ HasTy t v

/-- A pending error stays. -/
def Stick (f : Rd → Option (Rd × Val)) : Prop := ∀ r r' v, f r = some (r', v) → r'.err = none → r.err = none

theorem EX.stick {f : Rd → Option (Rd × Val)} (h : EX f) : Stick f := fun r r' v e he => (h r r' v e he).1

/-- A reader whose successes are canonical. -/
structure CR (tail : Bool) (t : Ty) (x : TR) : Prop where
  auto : tail = false → ∀ r d, HasTy t d → Ex t (fun v u => u = layout t v) (x.auto r d) r
  count : tail = false → ∀ (n : Int) r d, HasTy t d → Ex t (fun v u => u = pay t v ∧ (countOf t v : Int) = n) (x.byCount n r d) r
  fsize : tail = false → fixedSized t → ∀ (n : Int) r d, HasTy t d → Ex t (fun v u => u = pay t v ∧ (u.length : Int) = n) (x.bySize n r d) r
  tl : tail = true → ∀ r d, HasTy t d → Ex t (fun v u => u = pay t v) (x.tail r d) r
  stick : tail = true → ∀ d, Stick fun r => x.tail r d
  vsize : tail = true → varSized t → ∀ (n : Int) r d, HasTy t d → Ex t (fun v u => u = pay t v ∧ (u.length : Int) = n) (x.bySize n r d) r

/-- The payload is cut out and used up. -/
theorem sub_ex {t : Ty} {x : TR} (hst : ∀ d, Stick fun r => x.tail r d) (ht : ∀ r d, HasTy t d → Ex t (fun v u => u = pay t v) (x.tail r d) r) (n : Int) (r : Rd) (d : Val)
    (hd : HasTy t d) : Ex t (fun v u => u = pay t v ∧ (u.length : Int) = n) (x.sub n r d) r := by
  intro r' v h he
  simp only [TR.sub] at h
  split at h
  · cases h
  · rename_i r1 b e1
    split at h
    · cases h
    · rename_i rr v1 e2
      split at h
      · rename_i q; cases h; exact absurd he q
      · rename_i q
        split at h
        · cases h; cases he
        · rename_i q2
          cases h
          have q : rr.err = none := by simpa using q
          have q2 : rr.body = [] := by simpa using q2
          obtain ⟨u, p1, p2, p3⟩ := ht ⟨b, _⟩ d hd rr v e2 q
          simp only [q2, List.append_nil] at p1
          obtain ⟨h1, h2⟩ := slice_bytes r n _ b e1 he
          exact ⟨b, h1, ⟨by rw [p1, p2], h2⟩, p3⟩

theorem withCount_ex {t : Ty} {x : TR} (hx : XR x)
    (hc : ∀ (n : Int) r d, HasTy t d → Ex t (fun v u => u = pay t v ∧ (countOf t v : Int) = n) (x.byCount n r d) r)
    (p : Pfx) (hp : rigid p = true) (r : Rd) (d : Val) (hd : HasTy t d) :
    Ex t (fun v u => u = pfxBytes p (countOf t v) ++ pay t v) (x.withCount p r d) r := by
  intro r' v h he
  unfold TR.withCount at h
  split at h
  · rename_i h1; cases h; exact absurd he h1
  · have h1 : (p.read r).1.err = none := (byCount_ext hx _ d _ _ _ h he).1
    obtain ⟨u, h2, ⟨h3, h4⟩, h5⟩ := hc _ _ d hd r' v h he
    refine ⟨_, ?_, rfl, h5⟩
    rw [pfx_bytes p hp r h1 _ h4.symm, h2, h3, List.append_assoc]

theorem withSize_ex {t : Ty} {x : TR} (hx : XR x)
    (hc : ∀ (n : Int) r d, HasTy t d → Ex t (fun v u => u = pay t v ∧ (u.length : Int) = n) (x.bySize n r d) r)
    (p : Pfx) (hp : rigid p = true) (r : Rd) (d : Val) (hd : HasTy t d) :
    Ex t (fun v u => u = pfxBytes p (pay t v).length ++ pay t v) (x.withSize p r d) r := by
  intro r' v h he
  unfold TR.withSize at h
  split at h
  · rename_i h1; cases h; exact absurd he h1
  · have h1 : (p.read r).1.err = none := (bySize_ext hx _ d _ _ _ h he).1
    obtain ⟨u, h2, ⟨h3, h4⟩, h5⟩ := hc _ _ d hd r' v h he
    refine ⟨_, ?_, rfl, h5⟩
    rw [h3] at h4 h2
    rw [pfx_bytes p hp r h1 _ h4.symm, h2, List.append_assoc]

/-- Types of one count whose size is plain. -/
theorem cr_plain {tail : Bool} {t : Ty} {x : TR} (c : Nat) (hc : ∀ v, HasTy t v → countOf t v = c) (hu : counted t = false)
    (hb : fixedSized t → ∃ n : Nat, size? t = some n ∧ codeR t = n) (hv : varSized t → codeR t < 0)
    (hs : x.sz = codeR t) (hA : x.autoCount = none) (hS : x.autoSize = none) (hC : x.setCount = plainSetCount c)
    (hZ : x.setSize = plainSetSize x.sz)
    (ha : tail = false → ∀ r d, HasTy t d → Ex t (fun v u => u = pay t v) (x.auto r d) r)
    (hf : tail = false → ∀ r d, HasTy t d → Ex t (fun v u => u = pay t v) (x.fixed r d) r)
    (ht : tail = true → ∀ r d, HasTy t d → Ex t (fun v u => u = pay t v) (x.tail r d) r)
    (hst : tail = true → ∀ d, Stick fun r => x.tail r d) : CR tail t x := by
  refine ⟨?_, ?_, ?_, ht, hst, ?_⟩
  · intro hl r d hd r' v h he
    obtain ⟨u, h1, h2, h3⟩ := ha hl r d hd r' v h he
    exact ⟨u, h1, by simp only [layout, withCnt, hu, Bool.false_eq_true, if_false]; exact h2, h3⟩
  · intro hl n r d hd r' v h he
    simp only [TR.byCount, hA, hC, plainSetCount] at h
    by_cases hn : n = c
    · simp only [hn, ne_eq, not_true_eq_false, if_false] at h
      obtain ⟨u, h1, h2, h3⟩ := hf hl r d hd r' v h he
      exact ⟨u, h1, ⟨h2, by rw [hc v h3, hn]⟩, h3⟩
    · simp only [ne_eq, hn, not_false_eq_true, if_true, Option.some.injEq, Prod.mk.injEq] at h
      rw [← h.1] at he; cases he
  · intro hl hB n r d hd r' v h he
    obtain ⟨m, hm, hcm⟩ := hb hB
    simp only [TR.bySize, hS, hZ, plainSetSize, hs, hcm, Int.natCast_nonneg, if_true] at h
    by_cases hn : n = m
    · simp only [hn, ne_eq, not_true_eq_false, if_false] at h
      obtain ⟨u, h1, h2, h3⟩ := hf hl r d hd r' v h he
      exact ⟨u, h1, ⟨h2, by rw [h2, pay_len' t m v hm h3, hn]⟩, h3⟩
    · simp only [ne_eq, hn, not_false_eq_true, if_true, Option.some.injEq, Prod.mk.injEq] at h
      rw [← h.1] at he; cases he
  · intro hl hV n r d hd r' v h he
    have hV := hv hV
    simp only [TR.bySize, hS, hZ, plainSetSize, hs] at h
    rw [if_neg (by omega)] at h
    exact sub_ex (hst hl) (ht hl) n r d hd r' v h he

theorem cr_scal (tail : Bool) (k : Kind) : CR tail (.scal k) (scalR k) := by
  have key : ∀ r d, HasTy (.scal k) d → Ex (.scal k) (fun v u => u = pay (.scal k) v) ((scalR k).fixed r d) r := by
    intro r d _ r' v h he
    simp only [scalR, Option.some.injEq, Prod.mk.injEq] at h
    obtain ⟨rfl, rfl⟩ := h
    exact ⟨_, (scal_bytes r k he).2, by simp [pay], by simp only [HasTy]; exact scal_kind r k⟩
  refine cr_plain 1 ?_ rfl ?_ ?_ ?_ rfl rfl rfl rfl (fun _ => key) (fun _ => key) (fun _ => key) fun _ d => EX.stick ((xr_scal k).fixed d)
  · intro v hv; cases v <;> simp only [HasTy] at hv <;> rfl
  · intro h; exact h
  · intro h; simp [varSized] at h
  · simp only [scalR, codeR]; cases k <;> rfl

theorem setString_ex (n : Int) (r : Rd) (d : Val) :
    Ex .str (fun v u => u = pay .str v ∧ (u.length : Int) = n ∧ (countOf .str v : Int) = n) (setString n r d) r := by
  intro r' v h he
  unfold setString at h
  split at h
  · cases h
  · rename_i r1 b e
    cases h
    obtain ⟨h1, h2⟩ := slice_bytes r n _ b e he
    exact ⟨b, h1, ⟨by simp [pay], h2, by simp only [countOf]; exact h2⟩, trivial⟩

theorem tail_stick (r : Rd) (h : r.tail.1.err = none) : r.err = none := by
  unfold Rd.tail at h
  split at h
  · rename_i q; exact absurd h q
  · exact h

theorem tail_bytes (r : Rd) (h : r.tail.1.err = none) : r.body = r.tail.2 ++ r.tail.1.body := by
  unfold Rd.tail at h ⊢
  split at h
  · rename_i q; exact absurd h q
  · rename_i q; rw [if_neg q]; simp

theorem cr_str (tail : Bool) : CR tail .str strR := by
  refine ⟨fun _ => ?_, fun _ => ?_, fun _ => ?_, fun _ => ?_, fun _ => ?_, fun _ h => ?_⟩
  · intro r d hd r' v h he
    have hc : ∀ (n : Int) r d, HasTy .str d → Ex .str (fun v u => u = pay .str v ∧ (countOf .str v : Int) = n) (strR.byCount n r d) r := by
      intro n r d _ r' v h he
      obtain ⟨u, h1, h2, h3⟩ := setString_ex n r d r' v h he
      exact ⟨u, h1, ⟨h2.1, h2.2.2⟩, h3⟩
    obtain ⟨u, h1, h2, h3⟩ := withCount_ex xr_str hc .i32 rfl r d hd r' v h he
    exact ⟨u, h1, by simpa [layout, withCnt, counted, pfxBytes] using h2, h3⟩
  · intro n r d _ r' v h he
    obtain ⟨u, h1, h2, h3⟩ := setString_ex n r d r' v h he
    exact ⟨u, h1, ⟨h2.1, h2.2.2⟩, h3⟩
  · intro _ n r d _ r' v h he
    obtain ⟨u, h1, h2, h3⟩ := setString_ex n r d r' v h he
    exact ⟨u, h1, ⟨h2.1, h2.2.1⟩, h3⟩
  · intro r d _ r' v h he
    simp only [strR, Option.some.injEq, Prod.mk.injEq] at h
    obtain ⟨rfl, rfl⟩ := h
    exact ⟨_, tail_bytes r he, by simp [pay], trivial⟩
  · intro d r r' v h he
    simp only [strR, Option.some.injEq, Prod.mk.injEq] at h
    obtain ⟨rfl, rfl⟩ := h
    exact tail_stick r he
  · simp [varSized] at h

theorem readEach_ex {t : Ty} {f : RdF} (hx : ∀ v, EX fun r => f r v) (hf : ∀ r d, HasTy t d → Ex t (fun v u => u = layout t v) (f r d) r)
    (ds : List Val) (hd : ∀ d ∈ ds, HasTy t d) (r r' : Rd) (vs : List Val) (h : readEach f r ds = some (r', vs)) (he : r'.err = none) :
    r.body = (vs.map fun v => layout t v).flatten ++ r'.body ∧ vs.length = ds.length ∧ ∀ v ∈ vs, HasTy t v := by
  induction ds generalizing r vs with
  | nil => simp only [readEach, Option.some.injEq, Prod.mk.injEq] at h; obtain ⟨rfl, rfl⟩ := h; simp
  | cons d ds ih =>
    simp only [readEach] at h
    split at h
    · cases h
    · rename_i r1 v e1
      split at h
      · cases h
      · rename_i r2 ws e2
        cases h
        have he1 := (readEach_ext f hx ds r1 r' ws e2 he).1
        obtain ⟨u, q1, q2, q3⟩ := hf r d (hd d (by simp)) r1 v e1 he1
        obtain ⟨p1, p2, p3⟩ := ih (fun d hd' => hd d (by simp [hd'])) r1 ws e2
        refine ⟨?_, by simp [p2], ?_⟩
        · rw [q1, q2, p1]; simp
        · intro w hw
          rcases List.mem_cons.mp hw with rfl | hw
          · exact q3
          · exact p3 w hw

/-- The elements of an array or a slice. -/
theorem elems_ex {t : Ty} {e : TR} (hx : XR e) (he : CR false t e) (ds : List Val) (hd : ∀ d ∈ ds, HasTy t d) (r r' : Rd) (v : Val)
    (h : elemsR t.kind? e.auto r (.seq ds) = some (r', v)) (h0 : r'.err = none) :
    ∃ vs, v = .seq vs ∧ r.body = (vs.map fun v => layout t v).flatten ++ r'.body ∧ vs.length = ds.length ∧ ∀ v ∈ vs, HasTy t v := by
  simp only [elemsR] at h
  cases hk : t.kind? with
  | none =>
    simp only [hk] at h
    split at h
    · cases h
    · rename_i r1 vs e1
      cases h
      exact ⟨vs, rfl, readEach_ex hx.auto (he.auto rfl) ds hd r _ vs e1 h0⟩
  | some k =>
    simp only [hk] at h
    have := kind_hasTy t k hk
    subst this
    split at h
    · cases h
    · rename_i r1 vs e1
      cases h
      refine ⟨vs, rfl, ?_⟩
      obtain ⟨xs, q1, q2⟩ := scals_some k ds hd
      simp only [slValR, q1] at e1
      split at e1
      · rename_i hxs
        cases e1
        have : xs = [] := by simpa using hxs
        rw [this] at q2
        have : ds = [] := by simpa using q2.symm
        subst this
        simp
      · cases e1
        obtain ⟨p1, p2, p3⟩ := scalSl_bytes r k xs h0
        refine ⟨?_, by simp [p2, q2], ?_⟩
        · rw [List.map_map]
          exact p1
        · intro w hw
          rw [List.mem_map] at hw
          obtain ⟨s, hs, rfl⟩ := hw
          exact p3 s hs

theorem cr_arr (tail : Bool) (n : Nat) {t : Ty} {e : TR} (hx : XR e) (he : CR false t e) (hz : e.sz = codeR t) :
    CR tail (.arr n t) (arrR n t.kind? e) := by
  have key : ∀ r d, HasTy (.arr n t) d → Ex (.arr n t) (fun v u => u = pay (.arr n t) v) ((arrR n t.kind? e).fixed r d) r := by
    intro r d hd r' v h h0
    cases d <;> simp only [HasTy] at hd
    rename_i ds
    obtain ⟨vs, rfl, h1, h2, h3⟩ := elems_ex hx he ds hd.2 r r' v h h0
    exact ⟨_, h1, by simp [pay, layout], by simp only [HasTy]; exact ⟨by rw [h2, hd.1], h3⟩⟩
  refine cr_plain n ?_ rfl ?_ ?_ ?_ rfl rfl rfl rfl (fun _ => key) (fun _ => key) (fun _ => key)
    fun _ d => EX.stick ((xr_arr n t.kind? hx).fixed d)
  · intro v hv; rfl
  · intro h; exact h
  · intro h; exact h
  · simp only [arrR, codeR, hz]

/-- The loop of `Tail`. -/
theorem tailLoop_ex {t : Ty} {f : RdF} (hf : ∀ r d, HasTy t d → Ex t (fun v u => u = layout t v) (f r d) r)
    (n : Nat) (r r' : Rd) (vs : List Val) (h : tailLoop f (zero t) n r = some (r', vs)) (he : r'.err = none) :
    r.err = none ∧ r.body = (vs.map fun v => layout t v).flatten ++ r'.body ∧ ∀ v ∈ vs, HasTy t v := by
  induction n generalizing r vs with
  | zero => simp [tailLoop] at h
  | succ n ih =>
    simp only [tailLoop] at h
    split at h
    · cases h; exact ⟨he, by simp, by simp⟩
    · rename_i c
      split at h
      · cases h
      · rename_i r1 v e1
        split at h
        · cases h
        · split at h
          · cases h
          · rename_i r2 ws e2
            cases h
            obtain ⟨p0, p1, p2⟩ := ih r1 ws e2
            obtain ⟨u, q1, q2, q3⟩ := hf r _ (hasTy_zero t) r1 v e1 p0
            refine ⟨by grind, ?_, ?_⟩
            · rw [q1, q2, p1]; simp
            · intro w hw
              rcases List.mem_cons.mp hw with rfl | hw
              · exact q3
              · exact p2 w hw

theorem u8_pay (b : Bytes) : b = pay (.sl (.scal .u8)) (.seq (b.map fun x => .scal (.u8 x))) := by
  simp only [pay, withCnt, counted, Bool.false_eq_true, if_false, List.map_map]
  induction b with
  | nil => rfl
  | cons x xs ih =>
    have hx := x.toNat_lt
    simp only [List.map_cons, List.flatten_cons, ← ih, Function.comp, scalBytes, Scal.kind, width, pattern, pay]
    have : le 1 x.toNat = [x] := by
      simp [le, List.range_succ]
    rw [this]; rfl

theorem u8_has (b : Bytes) : HasTy (.sl (.scal .u8)) (.seq (b.map fun x => .scal (.u8 x))) := by
  simp only [HasTy]
  intro v hv
  rw [List.mem_map] at hv
  obtain ⟨x, _, rfl⟩ := hv
  rfl

/-- `Tail` of a slice. -/
theorem slTail_ex {t : Ty} {e : TR} (he : CR false t e) (r : Rd) (d : Val) (r' : Rd) (v : Val)
    (h : slTail t.kind? e.auto (zero t) r d = some (r', v)) (h0 : r'.err = none) :
    r.err = none ∧ ∃ u, r.body = u ++ r'.body ∧ u = pay (.sl t) v ∧ HasTy (.sl t) v := by
  unfold slTail at h
  split at h
  · rename_i hk
    have := kind_hasTy t .u8 hk
    subst this
    split at h
    · rename_i q; cases h; exact absurd h0 q
    · cases h
      exact ⟨tail_stick r h0, _, tail_bytes r h0, u8_pay _, u8_has _⟩
  · split at h
    · rename_i q; cases h; exact absurd h0 q
    · cases h
  · split at h
    · cases h
    · rename_i r1 vs e1
      cases h
      obtain ⟨p0, p1, p2⟩ := tailLoop_ex (he.auto rfl) _ r _ vs e1 h0
      exact ⟨p0, _, p1, by simp [pay, layout], by simp only [HasTy]; exact p2⟩

theorem makeSlice_len (t : Ty) (d d' : Val) (n : Int) (hd : HasTy (.sl t) d) (h : makeSlice (zero t) d n = some d') :
    ∃ ds, d' = .seq ds ∧ (ds.length : Int) = n ∧ ∀ v ∈ ds, HasTy t v := by
  unfold makeSlice at h
  split at h
  · rename_i e
    cases h
    cases d <;> simp only [HasTy] at hd
    exact ⟨_, rfl, by simpa [vlen] using e, hd⟩
  · split at h
    · cases h
    · cases h
      refine ⟨_, rfl, by simp; omega, ?_⟩
      intro v hv
      rw [List.eq_of_mem_replicate hv]
      exact hasTy_zero t

theorem u8Auto_ex (n : Int) (r : Rd) (d : Val) :
    Ex (.sl (.scal .u8)) (fun v u => u = pay (.sl (.scal .u8)) v ∧ (u.length : Int) = n ∧ (countOf (.sl (.scal .u8)) v : Int) = n) (u8Auto n r d) r := by
  intro r' v h he
  unfold u8Auto at h
  split at h
  · cases h
  · rename_i r1 b e
    cases h
    obtain ⟨h1, h2⟩ := slice_bytes r n _ b e he
    exact ⟨b, h1, ⟨u8_pay b, h2, by simp only [countOf, List.length_map]; exact h2⟩, u8_has b⟩

theorem cr_sl (tail : Bool) {t : Ty} {e : TR} (hx : XR e) (he : CR false t e) (hz : e.sz = codeR t) :
    CR tail (.sl t) (slR t.kind? (zero t) e) := by
  have hcount : ∀ (n : Int) r d, HasTy (.sl t) d →
      Ex (.sl t) (fun v u => u = pay (.sl t) v ∧ (countOf (.sl t) v : Int) = n) ((slR t.kind? (zero t) e).byCount n r d) r := by
    intro n r d hd r' v h h0
    by_cases hk : t.kind? = some .u8
    · have ht := kind_hasTy t .u8 hk
      subst ht
      obtain ⟨u, h1, h2, h3⟩ := u8Auto_ex n r d r' v h h0
      exact ⟨u, h1, ⟨h2.1, h2.2.2⟩, h3⟩
    · simp only [slR, TR.autoCnt, TR.byCount, hk, if_false, slSetCount] at h
      cases hm : makeSlice (zero t) d n with
      | none => simp [hm] at h
      | some d' =>
        simp only [hm] at h
        obtain ⟨ds, rfl, h1, h2⟩ := makeSlice_len t d d' n hd hm
        obtain ⟨vs, rfl, q1, q2, q3⟩ := elems_ex hx he ds h2 r r' v h h0
        exact ⟨_, q1, ⟨by simp [pay, layout], by simp only [countOf, q2]; exact h1⟩, by simp only [HasTy]; exact q3⟩
  have htl : ∀ r d, HasTy (.sl t) d → Ex (.sl t) (fun v u => u = pay (.sl t) v) ((slR t.kind? (zero t) e).tail r d) r :=
    fun r d _ r' v h h0 => (slTail_ex he r d r' v h h0).2
  have hst : ∀ d, Stick fun r => (slR t.kind? (zero t) e).tail r d := fun d r r' v h h0 => (slTail_ex he r d r' v h h0).1
  refine ⟨fun _ => ?_, fun _ => hcount, fun _ => ?_, fun _ => htl, fun _ => hst, fun _ => ?_⟩
  · intro r d hd r' v h h0
    obtain ⟨u, h1, h2, h3⟩ := withCount_ex (xr_sl t.kind? (zero t) hx) hcount .i32 rfl r d hd r' v h h0
    exact ⟨u, h1, by simpa [layout, withCnt, counted, pfxBytes] using h2, h3⟩
  · intro hB n r d hd r' v h h0
    have ht : t = .scal .u8 := by
      unfold fixedSized at hB
      split at hB
      · rename_i e; cases e
      · rename_i e; cases e; rfl
      · obtain ⟨n, h, _⟩ := hB; simp [size?] at h
    subst ht
    obtain ⟨u, h1, h2, h3⟩ := u8Auto_ex n r d r' v h h0
    exact ⟨u, h1, ⟨h2.1, h2.2.1⟩, h3⟩
  · intro hV n r d hd r' v h h0
    simp only [varSized] at hV
    have hk : ¬ t.kind? = some .u8 := by
      intro hk
      have := kind_hasTy t .u8 hk
      subst this
      simp [codeR, width] at hV
    simp only [slR, TR.autoCnt, TR.bySize, hk, if_false, slSetSize, hz] at h
    rw [if_neg (by omega), if_neg (by omega)] at h
    exact sub_ex hst htl n r d hd r' v h h0

/-- The fields of a struct. -/
structure CF (tail : Bool) (fs : Fl) (l : List (Option FR)) : Prop where
  ex : ∀ r ds r' vs, HasTyFl fs ds → readFlds tail l r ds = some (r', vs) → r'.err = none →
    r.body = payFl fs vs ++ r'.body ∧ HasTyFl fs vs
  stick : ∀ r ds r' vs, readFlds tail l r ds = some (r', vs) → r'.err = none → r.err = none

theorem cf_none {tail : Bool} {g : Tag} {t : Ty} {fs : Fl} {l : List (Option FR)} (h : CF tail fs l)
    (hp : ∀ v vs, HasTy t v → payFl (.cons g t fs) (v :: vs) = payFl fs vs) : CF tail (.cons g t fs) (none :: l) := by
  refine ⟨?_, ?_⟩
  · intro r ds r' vs hd hr h0
    cases ds with
    | nil => simp [HasTyFl] at hd
    | cons d ds =>
      simp only [HasTyFl] at hd
      simp only [readFlds] at hr
      split at hr
      · cases hr
      · rename_i r1 ws e
        cases hr
        obtain ⟨h1, h2⟩ := h.ex r ds _ ws hd.2 e h0
        exact ⟨by rw [hp d ws hd.1]; exact h1, by simp only [HasTyFl]; exact ⟨hd.1, h2⟩⟩
  · intro r ds r' vs hr h0
    cases ds with
    | nil => simp [readFlds] at hr
    | cons d ds =>
      simp only [readFlds] at hr
      split at hr
      · cases hr
      · rename_i r1 ws e
        cases hr
        exact h.stick r ds _ ws e h0

theorem cf_some {tail : Bool} {d0 : Dir} {t : Ty} {fs : Fl} {l : List (Option FR)} {x : TR} (h : CF tail fs l)
    (hs : ∀ d, Stick fun r => (FR.mk x d0).get tail r d)
    (hx : ∀ r d, HasTy t d → Ex t (fun v u => u = tagged t v d0 (pay t v)) ((FR.mk x d0).get tail r d) r) :
    CF tail (.cons (.use false d0) t fs) (some ⟨x, d0⟩ :: l) := by
  refine ⟨?_, ?_⟩
  · intro r ds r' vs hd hr h0
    cases ds with
    | nil => simp [HasTyFl] at hd
    | cons d ds =>
      simp only [HasTyFl] at hd
      simp only [readFlds] at hr
      split at hr
      · cases hr
      · rename_i r1 v e1
        split at hr
        · cases hr
        · rename_i r2 ws e2
          cases hr
          have h1 := h.stick r1 ds _ ws e2 h0
          obtain ⟨u, q1, q2, q3⟩ := hx r d hd.1 r1 v e1 h1
          obtain ⟨p1, p2⟩ := h.ex r1 ds _ ws hd.2 e2 h0
          refine ⟨?_, by simp only [HasTyFl]; exact ⟨q3, p2⟩⟩
          simp only [payFl, Bool.false_eq_true, if_false, List.append_assoc]
          rw [q1, q2, p1]
  · intro r ds r' vs hr h0
    cases ds with
    | nil => simp [readFlds] at hr
    | cons d ds =>
      simp only [readFlds] at hr
      split at hr
      · cases hr
      · rename_i r1 v e1
        split at hr
        · cases hr
        · rename_i r2 ws e2
          cases hr
          exact hs d r r1 v e1 (h.stick r1 ds _ ws e2 h0)

theorem get_stick {x : TR} {d0 : Dir} (hx : XR x) (tail : Bool) (hn : d0 ≠ .no) (d : Val) : Stick fun r => (FR.mk x d0).get tail r d := by
  have := EX.stick (get_ext (f := ⟨x, d0⟩) hx d)
  cases d0 <;> first | exact this | exact absurd rfl hn

theorem cr_struct {tail : Bool} {s : Int} {fs : Fl} {l : List (Option FR)} (h : CF tail fs l) (hs : s = codeRFl 0 fs) :
    CR tail (.struct fs) (structR s l) := by
  have inv : ∀ (b : Bool) (r : Rd) (d : Val) (r' : Rd) (v : Val), (match d with
      | .seq vs => match readFlds b l r vs with
        | none => none
        | some (r, vs) => some (r, Val.seq vs)
      | _ => none : Option (Rd × Val)) = some (r', v) → ∃ ds vs, d = .seq ds ∧ v = .seq vs ∧ readFlds b l r ds = some (r', vs) := by
    intro b r d r' v hr
    split at hr
    · split at hr
      · cases hr
      · rename_i e; cases hr; exact ⟨_, _, rfl, rfl, e⟩
    · cases hr
  have key : ∀ r d, HasTy (.struct fs) d → Ex (.struct fs) (fun v u => u = pay (.struct fs) v) (match d with
      | .seq vs => match readFlds tail l r vs with
        | none => none
        | some (r, vs) => some (r, Val.seq vs)
      | _ => none) r := by
    intro r d hd r' v hr h0
    obtain ⟨ds, vs, rfl, rfl, e⟩ := inv _ _ _ _ _ hr
    simp only [HasTy] at hd
    obtain ⟨h1, h2⟩ := h.ex r ds _ vs hd e h0
    exact ⟨_, h1, by simp [pay], by simp only [HasTy]; exact h2⟩
  refine cr_plain 1 ?_ rfl ?_ ?_ ?_ rfl rfl rfl rfl ?_ ?_ ?_ ?_
  · intro v hv; cases v <;> simp only [HasTy] at hv <;> rfl
  · intro h; exact h
  · intro h; exact h
  · simp only [structR, codeR, hs]
  · rintro rfl; exact key
  · rintro rfl; exact key
  · rintro rfl; exact key
  · rintro rfl d r r' v hr h0
    obtain ⟨ds, vs, rfl, rfl, e⟩ := inv _ _ _ _ _ hr
    exact h.stick r ds _ vs e h0

mutual
/-- Every reader of a type with one encoding only is canonical. -/
theorem tr_canon : (t : Ty) → ∀ tail x, OneWay tail t → tr t = some x → CR tail t x
  | .scal k, tail, x, _, h => by simp [tr] at h; subst h; exact cr_scal tail k
  | .str, tail, x, _, h => by simp [tr] at h; subst h; exact cr_str tail
  | .arr n t, tail, x, ho, h => by
    simp only [OneWay] at ho
    simp only [tr] at h
    cases he : tr t with
    | none => simp [he] at h
    | some e =>
      simp only [he, Option.some.injEq] at h
      subst h
      exact cr_arr tail n (tr_ext t e he) (tr_canon t false e ho he) (tr_sz t e he).1
  | .sl t, tail, x, ho, h => by
    simp only [OneWay] at ho
    simp only [tr] at h
    cases he : tr t with
    | none => simp [he] at h
    | some e =>
      simp only [he, Option.some.injEq] at h
      subst h
      exact cr_sl tail (tr_ext t e he) (tr_canon t false e ho he) (tr_sz t e he).1
  | .ptr t, tail, x, ho, _ => by simp [OneWay] at ho
  | .struct fs, tail, x, ho, h => by
    simp only [OneWay] at ho
    simp only [tr] at h
    cases he : trFl 0 false fs with
    | none => simp [he] at h
    | some q =>
      obtain ⟨s, l⟩ := q
      simp only [he, Option.some.injEq] at h
      subst h
      exact cr_struct (trFl_canon fs tail 0 false s l ho he) (trFl_sz fs 0 false s l he)
theorem trFl_canon : (fs : Fl) → ∀ tail s b s' l, OneWayFl tail fs → trFl s b fs = some (s', l) → CF tail fs l
  | .nil, tail, s, b, s', l, _, h => by
    simp only [trFl, Option.some.injEq, Prod.mk.injEq] at h
    rw [← h.2]
    refine ⟨?_, ?_⟩
    · intro r ds r' vs hd hr _
      cases ds <;> simp only [HasTyFl] at hd
      simp only [readFlds, Option.some.injEq, Prod.mk.injEq] at hr
      obtain ⟨rfl, rfl⟩ := hr
      simp [payFl, HasTyFl]
    · intro r ds r' vs hr h0
      cases ds with
      | nil =>
        simp only [readFlds, Option.some.injEq, Prod.mk.injEq] at hr
        rw [hr.1]; exact h0
      | cons d ds => simp [readFlds] at hr
  | .cons .hidden t fs, tail, s, b, s', l, ho, h => by
    simp only [OneWayFl] at ho
    simp only [trFl] at h
    split at h
    · cases h
    · rename_i s1 l1 he
      cases h
      exact cf_none (trFl_canon fs _ _ _ _ _ ho he) fun v vs _ => by simp only [payFl]
  | .cons .skip t fs, tail, s, b, s', l, ho, h => by
    simp only [OneWayFl] at ho
    simp only [trFl] at h
    split at h
    · cases h
    · split at h
      · cases h
      · rename_i s1 l1 he
        cases h
        exact cf_none (trFl_canon fs _ _ _ _ _ ho he) fun v vs _ => by simp only [payFl]
  | .cons (.use true d) t fs, tail, s, b, s', l, ho, h => by simp [OneWayFl] at ho
  | .cons (.use false .no) t fs, tail, s, b, s', l, ho, h => by
    simp only [OneWayFl] at ho
    obtain ⟨rfl, ho1, ho2, ho3⟩ := ho
    obtain ⟨_, x, hx, s1, s2, l1, h1, h2, h3⟩ := trFl_inv s s' b false .no t fs l h
    have hr := trFl_canon fs _ _ _ _ _ ho3 h1
    rcases h3 with ⟨h4, _, rfl, _⟩ | ⟨_, _, y, hy, rfl⟩
    · have hz := ho2 (by rw [← (tr_sz t x hx).1, h4])
      refine cf_none hr fun v vs hv => ?_
      have := pay_len' t 0 v hz hv
      have : pay t v = [] := List.length_eq_zero_iff.mp this
      simp only [payFl, tagged, Bool.false_eq_true, if_false, this, List.nil_append]
    · cases hy
      have hc := tr_canon t true x ho1 hx
      exact cf_some hr (hc.stick rfl) fun r d hd => hc.tl rfl r d hd
  | .cons (.use false .none) t fs, tail, s, b, s', l, ho, h => by
    simp only [OneWayFl] at ho
    obtain ⟨_, x, hx, s1, s2, l1, h1, h2, h3⟩ := trFl_inv s s' b false .none t fs l h
    have hr := trFl_canon fs _ _ _ _ _ ho.2.2 h1
    rcases h3 with ⟨h4, _, rfl, _⟩ | ⟨_, _, y, hy, rfl⟩
    · have hz := ho.2.1 (by rw [← (tr_sz t x hx).1, h4])
      refine cf_none hr fun v vs hv => ?_
      have := pay_len' t 0 v hz hv
      have : pay t v = [] := List.length_eq_zero_iff.mp this
      simp only [payFl, tagged, withCnt, not_counted hz, Bool.false_eq_true, if_false, this, List.nil_append]
    · cases hy
      exact cf_some hr (get_stick (tr_ext t x hx) tail (by simp)) fun r d hd => (tr_canon t false x ho.1 hx).auto rfl r d hd
  | .cons (.use false (.cnt p)) t fs, tail, s, b, s', l, ho, h => by
    simp only [OneWayFl] at ho
    obtain ⟨_, x, hx, s1, s2, l1, h1, h2, h3⟩ := trFl_inv s s' b false (.cnt p) t fs l h
    have hr := trFl_canon fs _ _ _ _ _ ho.2.2 h1
    rcases h3 with ⟨h4, h5, rfl, _⟩ | ⟨_, _, y, hy, rfl⟩
    · simp [Dir.bare] at h5
    · cases hy
      exact cf_some hr (get_stick (tr_ext t x hx) tail (by simp)) fun r d hd =>
        withCount_ex (tr_ext t x hx) ((tr_canon t false x ho.2.1 hx).count rfl) p ho.1 r d hd
  | .cons (.use false (.size p)) t fs, tail, s, b, s', l, ho, h => by
    simp only [OneWayFl] at ho
    obtain ⟨_, x, hx, s1, s2, l1, h1, h2, h3⟩ := trFl_inv s s' b false (.size p) t fs l h
    have hr := trFl_canon fs _ _ _ _ _ ho.2.2 h1
    rcases h3 with ⟨h4, h5, rfl, _⟩ | ⟨_, _, y, hy, rfl⟩
    · simp [Dir.bare] at h5
    · cases hy
      refine cf_some hr (get_stick (tr_ext t x hx) tail (by simp)) fun r d hd => ?_
      rcases ho.2.1 with ⟨q1, q2⟩ | ⟨q1, q2⟩
      · exact withSize_ex (tr_ext t x hx) ((tr_canon t false x q2 hx).fsize rfl q1) p ho.1 r d hd
      · exact withSize_ex (tr_ext t x hx) ((tr_canon t true x q2 hx).vsize rfl q1) p ho.1 r d hd
end

/-- `ReadTail` of a slice of scalars. -/
theorem tailScals_ex (k : Kind) (b : Bytes) (r : Rd) (v : Val) (h : tailScals k b = (r, v)) (he : r.err = none) :
    b = pay (.sl (.scal k)) v ++ r.body := by
  simp only [tailScals, Prod.mk.injEq] at h
  obtain ⟨rfl, rfl⟩ := h
  obtain ⟨p1, _, _⟩ := scalSl_bytes ⟨b, none⟩ k _ he
  simp only [pay, List.map_map]
  exact p1

end Verif.Canon
