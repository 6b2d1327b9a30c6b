import Verif.Proofs.ReflectSize

/-! Decoding arbitrary bytes returns. -/
namespace Verif.Reflect
open Verif.Marshal Verif.Spec

/-- The read returns, consumes a part of the body and keeps a pending error. -/
def Ret {α : Type} (r : Rd) (q : Option (Rd × α)) : Prop :=
  ∃ r' v, q = some (r', v) ∧ r'.body.length ≤ r.body.length ∧ (r.err ≠ none → r'.err ≠ none)

/-- The read consumes something or fails. -/
def Prog {α : Type} (r : Rd) (q : Option (Rd × α)) : Prop :=
  ∀ r' v, q = some (r', v) → r'.err ≠ none ∨ r'.body.length < r.body.length

/-- A reader after a step. -/
def After (r r' : Rd) : Prop := r'.body.length ≤ r.body.length ∧ (r.err ≠ none → r'.err ≠ none)

theorem Ret.mk' {α : Type} {r r' : Rd} {q : Option (Rd × α)} (h : After r r') (hq : Ret r' q) : Ret r q := by
  obtain ⟨s, v, h1, h2, h3⟩ := hq
  exact ⟨s, v, h1, Nat.le_trans h2 h.1, fun e => h3 (h.2 e)⟩

theorem Ret.some {α : Type} {r r' : Rd} {v : α} (h : After r r') : Ret r (some (r', v)) := ⟨r', v, rfl, h.1, h.2⟩

theorem After.refl (r : Rd) : After r r := ⟨Nat.le_refl _, id⟩

theorem scal_after (r : Rd) (k : Kind) : After r (r.scal k).1 ∧
    ((r.scal k).1.err ≠ none ∨ (r.scal k).1.body.length < r.body.length) := by
  have hw := width_pos k
  unfold Rd.scal
  split
  · rename_i h; exact ⟨After.refl r, Or.inl h⟩
  · split
    · exact ⟨⟨Nat.le_refl _, by simp⟩, Or.inl (by simp)⟩
    · rename_i h1 h2
      rw [need_eq] at h2
      refine ⟨⟨by simp, by simpa using h1⟩, Or.inr ?_⟩
      simp only [step_eq, List.length_drop]
      omega

theorem uvar_after (r : Rd) : After r r.uvar.1 ∧ (r.uvar.1.err ≠ none ∨ r.uvar.1.body.length < r.body.length) := by
  have key : ∀ b acc v rest, Rd.uvarLoop b acc = .done v rest → rest.length < b.length := by
    intro b
    induction b with
    | nil => intro acc v rest h; simp [Rd.uvarLoop] at h
    | cons x xs ih =>
      intro acc v rest h
      simp only [Rd.uvarLoop] at h
      split at h
      · simp at h; simp [h.2]
      · split at h
        · simp at h
        · have := ih _ _ _ h
          simp; omega
  unfold Rd.uvar
  split
  · rename_i h; exact ⟨After.refl r, Or.inl h⟩
  · rename_i he
    split
    · rename_i v rest h
      have := key _ _ _ _ h
      exact ⟨⟨by simp; omega, by simpa using he⟩, Or.inr this⟩
    · exact ⟨⟨Nat.le_refl _, by simp⟩, Or.inl (by simp)⟩
    · exact ⟨⟨Nat.le_refl _, by simp⟩, Or.inl (by simp)⟩

theorem slice_after (r : Rd) (n : Int) (h : 0 ≤ n) : ∃ r' b, r.slice n = some (r', b) ∧ After r r' ∧
    b.length ≤ r.body.length := by
  unfold Rd.slice
  split
  · exact ⟨r, [], rfl, After.refl r, by simp⟩
  · rename_i he
    split
    · exact ⟨_, [], rfl, ⟨Nat.le_refl _, by simp⟩, by simp⟩
    · rw [if_neg (by omega)]
      exact ⟨_, _, rfl, ⟨by simp, by simpa using he⟩, by simp; omega⟩

theorem scalSl_after (r : Rd) (k : Kind) (xs : List Scal) : After r (r.scalSl k xs).1 ∧
    (xs ≠ [] → (r.scalSl k xs).1.err ≠ none ∨ (r.scalSl k xs).1.body.length < r.body.length) := by
  have hw := width_pos k
  unfold Rd.scalSl
  split
  · rename_i h; exact ⟨After.refl r, fun _ => Or.inl h⟩
  · split
    · exact ⟨⟨Nat.le_refl _, by simp⟩, fun _ => Or.inl (by simp)⟩
    · rename_i h1 h2
      rw [slWidth_eq] at h2
      refine ⟨⟨by simp, by simpa using h1⟩, fun hx => Or.inr ?_⟩
      have : 1 ≤ xs.length := by cases xs <;> simp at hx ⊢
      have : 1 ≤ xs.length * width k := Nat.mul_pos this hw
      simp only [slWidth_eq, List.length_drop]
      omega

theorem tail_after (r : Rd) : After r r.tail.1 := by
  unfold Rd.tail
  split
  · exact After.refl r
  · rename_i h; exact ⟨by simp, by simpa using h⟩

theorem scal_kind (r : Rd) (k : Kind) : (r.scal k).2.kind = k := by
  unfold Rd.scal
  split
  · cases k <;> rfl
  · split
    · cases k <;> rfl
    · cases k <;> rfl

theorem nat_lt (s : Scal) (h : s.kind = .u8 ∨ s.kind = .u16 ∨ s.kind = .u32) : Rd.Scal.nat s < 2 ^ 32 := by
  cases s <;> simp [Scal.kind] at h
  · rename_i x; have := x.toNat_lt; simp only [Rd.Scal.nat]; omega
  · rename_i x; have := x.toNat_lt; simp only [Rd.Scal.nat]; omega
  · rename_i x; have := x.toNat_lt; simp only [Rd.Scal.nat]; omega

/-- Reading a safe prefix. -/
theorem pfx_after (p : Pfx) (hp : safePfx p = true) (r : Rd) : After r (p.read r).1 ∧
    ((p.read r).1.err ≠ none ∨ (p.read r).1.body.length < r.body.length) ∧
    0 ≤ (p.read r).2.toInt ∧ (p.read r).2.toInt < 2 ^ 32 := by
  have small : ∀ n : Nat, n < 2 ^ 32 → 0 ≤ (UInt64.ofNat n).toInt64.toInt ∧ (UInt64.ofNat n).toInt64.toInt < 2 ^ 32 := by
    intro n hn
    have : (UInt64.ofNat n).toInt64.toInt = n := toInt_ofNat n (by omega)
    omega
  cases p <;> simp [safePfx] at hp
  · exact ⟨(scal_after r .u8).1, (scal_after r .u8).2, small _ (nat_lt _ (Or.inl (scal_kind r .u8)))⟩
  · exact ⟨(scal_after r .u16).1, (scal_after r .u16).2, small _ (nat_lt _ (Or.inr (Or.inl (scal_kind r .u16))))⟩
  · exact ⟨(scal_after r .u32).1, (scal_after r .u32).2, small _ (nat_lt _ (Or.inr (Or.inr (scal_kind r .u32))))⟩

mutual
theorem hasTy_zero : (t : Ty) → HasTy t (zero t)
  | .scal k => by simp [HasTy, zero]; cases k <;> rfl
  | .str => by simp [HasTy, zero]
  | .arr n t => by
    simp only [HasTy, zero, List.length_replicate, true_and]
    intro v hv
    rw [List.eq_of_mem_replicate hv]
    exact hasTy_zero t
  | .sl t => by simp [HasTy, zero]
  | .ptr t => by simp [HasTy, zero]
  | .struct fs => by simp only [HasTy, zero]; exact hasTyFl_zeros fs
theorem hasTyFl_zeros : (fs : Fl) → HasTyFl fs (zeros fs)
  | .nil => by simp [HasTyFl, zeros]
  | .cons g t fs => by simp only [HasTyFl, zeros]; exact ⟨hasTy_zero t, hasTyFl_zeros fs⟩
end

/-- The reader `x` of type `t` returns on any bytes. -/
structure RS (tail : Bool) (t : Ty) (x : TR) : Prop where
  fx : ∀ r d, HasTy t d → Ret r (x.fixed r d)
  au : ∀ r d, HasTy t d → Ret r (x.auto r d)
  tl : ∀ r d, HasTy t d → (tail = true ∨ r.err ≠ none) → Ret r (x.tail r d)
  ss : ∀ d (n : Int), HasTy t d → 0 ≤ n → n < 2 ^ 32 → ∃ b e d', x.setSize d n = some (b, e, d') ∧ HasTy t d'
  sc : cntIn t = true → ∀ d (n : Int), HasTy t d → 0 ≤ n → n < 2 ^ 32 →
    ∃ e d', x.setCount d n = some (e, d') ∧ HasTy t d'
  bs : (tail = true ∨ sizeTail t = false) → ∀ (n : Int) r d, HasTy t d → 0 ≤ n → n < 2 ^ 32 → Ret r (x.bySize n r d)
  bc : cntable t = true → ∀ (n : Int) r d, HasTy t d → 0 ≤ n → n < 2 ^ 32 → Ret r (x.byCount n r d)
  pg : eats t = true → ∀ r d, HasTy t d → Prog r (x.auto r d)

theorem sub_ret (x : TR) (n : Int) (r : Rd) (d : Val) (hn : 0 ≤ n) (h : ∀ r', Ret r' (x.tail r' d)) : Ret r (x.sub n r d) := by
  obtain ⟨r', b, h1, h2, h3⟩ := slice_after r n hn
  obtain ⟨rr, v, h4, h5, h6⟩ := h ⟨b, r'.err⟩
  unfold TR.sub
  simp only [h1, h4]
  split
  · rename_i he
    exact Ret.some ⟨h2.1, fun _ => he⟩
  · split
    · exact Ret.some ⟨h2.1, by simp⟩
    · exact Ret.some h2

theorem bySize_ret (t : Ty) (x : TR) (ha : x.autoSize = none) (fx : ∀ r d, HasTy t d → Ret r (x.fixed r d))
    (ss : ∀ d (n : Int), HasTy t d → 0 ≤ n → n < 2 ^ 32 → ∃ b e d', x.setSize d n = some (b, e, d') ∧ HasTy t d')
    (n : Int) (r : Rd) (d : Val) (hd : HasTy t d) (h0 : 0 ≤ n) (h1 : n < 2 ^ 32)
    (tl : ∀ d', x.setSize d n = some (false, none, d') → HasTy t d' → ∀ r', Ret r' (x.tail r' d')) :
    Ret r (x.bySize n r d) := by
  obtain ⟨b, e, d', h2, h3⟩ := ss d n hd h0 h1
  unfold TR.bySize
  simp only [ha, h2]
  cases b with
  | true => exact fx r d' h3
  | false =>
    cases e with
    | some e => exact Ret.some ⟨Nat.le_refl _, by simp⟩
    | none => exact sub_ret x n r d' h0 (tl d' h2 h3)

theorem byCount_ret (t : Ty) (x : TR) (ha : x.autoCount = none) (fx : ∀ r d, HasTy t d → Ret r (x.fixed r d))
    (n : Int) (r : Rd) (d : Val)
    (sc : ∃ e d', x.setCount d n = some (e, d') ∧ HasTy t d') : Ret r (x.byCount n r d) := by
  obtain ⟨e, d', h2, h3⟩ := sc
  unfold TR.byCount
  simp only [ha, h2]
  cases e with
  | some e => exact Ret.some ⟨Nat.le_refl _, by simp⟩
  | none => exact fx r d' h3

theorem plainSetSize_ok (t : Ty) (s : Int) (d : Val) (n : Int) (hd : HasTy t d) :
    ∃ b e d', plainSetSize s d n = some (b, e, d') ∧ HasTy t d' := by
  unfold plainSetSize
  split
  · split
    · exact ⟨_, _, _, rfl, hd⟩
    · exact ⟨_, _, _, rfl, hd⟩
  · exact ⟨_, _, _, rfl, hd⟩

theorem plainSetCount_ok (t : Ty) (s : Int) (d : Val) (n : Int) (hd : HasTy t d) :
    ∃ e d', plainSetCount s d n = some (e, d') ∧ HasTy t d' := by
  unfold plainSetCount
  split
  · exact ⟨_, _, rfl, hd⟩
  · exact ⟨_, _, rfl, hd⟩

theorem rs_scal (tail : Bool) (k : Kind) : RS tail (.scal k) (scalR k) := by
  have key : ∀ r d, Ret r ((scalR k).fixed r d) := fun r d => Ret.some (scal_after r k).1
  refine ⟨fun r d _ => key r d, fun r d _ => key r d, fun r d _ _ => key r d,
    fun d n hd _ _ => plainSetSize_ok _ _ d n hd, fun _ d n hd _ _ => plainSetCount_ok _ _ d n hd, ?_, ?_, ?_⟩
  · intro _ n r d hd h0 h1
    exact bySize_ret (.scal k) _ rfl (fun r d _ => key r d) (fun d n hd _ _ => plainSetSize_ok _ _ d n hd) n r d hd h0 h1
      (fun d' _ _ r' => key r' d')
  · intro _ n r d hd h0 h1
    exact byCount_ret (.scal k) _ rfl (fun r d _ => key r d) n r d (plainSetCount_ok _ _ d n hd)
  · intro _ r d _ r' v h
    simp only [scalR, Option.some.injEq, Prod.mk.injEq] at h
    rw [← h.1]
    exact (scal_after r k).2

theorem setString_ret (n : Int) (h : 0 ≤ n) (r : Rd) (d : Val) : Ret r (setString n r d) := by
  obtain ⟨r', b, h1, h2, _⟩ := slice_after r n h
  unfold setString
  rw [h1]
  exact Ret.some h2

theorem rs_str (tail : Bool) : RS tail .str strR := by
  have key : ∀ r d, Ret r (strR.fixed r d) := by
    intro r d
    show Ret r (if r.err ≠ none then some (r, d) else setString (Pfx.i32.read r).2.toInt (Pfx.i32.read r).1 d)
    have := pfx_after .i32 rfl r
    split
    · exact Ret.some (After.refl r)
    · exact Ret.mk' this.1 (setString_ret _ this.2.2.1 _ _)
  refine ⟨fun r d _ => key r d, fun r d _ => key r d, fun r d _ _ => Ret.some (tail_after r),
    fun d n hd _ _ => by simp only [strR]; exact plainSetSize_ok _ _ d n hd, by simp [cntIn], ?_, ?_, ?_⟩
  · intro _ n r d _ h0 _
    exact setString_ret n h0 r d
  · intro _ n r d _ h0 _
    exact setString_ret n h0 r d
  · intro _ r d _ r' v h
    have h : (if r.err ≠ none then some (r, d) else setString (Pfx.i32.read r).2.toInt (Pfx.i32.read r).1 d) = some (r', v) := h
    have hp := pfx_after .i32 rfl r
    split at h
    · rename_i he
      simp only [Option.some.injEq, Prod.mk.injEq] at h
      rw [← h.1]; exact Or.inl he
    · obtain ⟨r2, v2, h1, h2, h3⟩ := setString_ret _ hp.2.2.1 (Pfx.i32.read r).1 d
      rw [h1] at h
      simp only [Option.some.injEq, Prod.mk.injEq] at h
      rw [← h.1]
      rcases hp.2.1 with hp | hp
      · exact Or.inl (h3 hp)
      · exact Or.inr (by omega)

/-! ### Arrays and slices -/

theorem readEach_ret (f : RdF) (vs : List Val) (h : ∀ v ∈ vs, ∀ r, Ret r (f r v)) (r : Rd) : Ret r (readEach f r vs) := by
  induction vs generalizing r with
  | nil => exact Ret.some (After.refl r)
  | cons v vs ih =>
    obtain ⟨r1, v1, h1, h2, h3⟩ := h v (by simp) r
    obtain ⟨r2, v2, h4, h5, h6⟩ := ih (fun x hx => h x (by simp [hx])) r1
    exact ⟨r2, v1 :: v2, by simp [readEach, h1, h4], by omega, fun e => h6 (h3 e)⟩

theorem readEach_prog (f : RdF) (v : Val) (vs : List Val) (h : ∀ x ∈ v :: vs, ∀ r, Ret r (f r x))
    (r : Rd) (hp : Prog r (f r v)) : Prog r (readEach f r (v :: vs)) := by
  intro r' w hr
  obtain ⟨r1, v1, h1, h2, h3⟩ := h v (by simp) r
  obtain ⟨r2, v2, h4, h5, h6⟩ := readEach_ret f vs (fun x hx => h x (by simp [hx])) r1
  simp only [readEach, h1, h4, Option.some.injEq, Prod.mk.injEq] at hr
  rw [← hr.1]
  rcases hp r1 v1 h1 with hp | hp
  · exact Or.inl (h6 hp)
  · exact Or.inr (by omega)

theorem scals_some (k : Kind) (vs : List Val) (h : ∀ v ∈ vs, HasTy (.scal k) v) : ∃ xs, scals k vs = some xs ∧ xs.length = vs.length := by
  obtain ⟨xs, h1, h2, _⟩ := scals_of k vs (fun v hv => by
    have := h v hv
    cases v <;> simp only [HasTy] at this
    exact ⟨_, rfl, this⟩)
  exact ⟨xs, h1, by rw [h2]; simp⟩

theorem slValR_ret (k : Kind) (vs : List Val) (h : ∀ v ∈ vs, HasTy (.scal k) v) (r : Rd) : Ret r (slValR k r vs) := by
  obtain ⟨xs, h1, _⟩ := scals_some k vs h
  simp only [slValR, h1]
  split
  · exact Ret.some (After.refl r)
  · exact Ret.some (scalSl_after r k xs).1

theorem slValR_prog (k : Kind) (vs : List Val) (h : ∀ v ∈ vs, HasTy (.scal k) v) (hn : vs ≠ []) (r : Rd) :
    Prog r (slValR k r vs) := by
  obtain ⟨xs, h1, hl⟩ := scals_some k vs h
  have hx : xs ≠ [] := by
    intro e
    rw [e] at hl
    exact hn (List.eq_nil_of_length_eq_zero (by simpa using hl.symm))
  intro r' v hr
  simp only [slValR, h1] at hr
  rw [if_neg (by cases xs <;> simp at hx ⊢)] at hr
  simp only [Option.some.injEq, Prod.mk.injEq] at hr
  rw [← hr.1]
  exact (scalSl_after r k xs).2 hx

theorem kind_hasTy (t : Ty) (k : Kind) (h : t.kind? = some k) : t = .scal k := by
  cases t <;> simp [Ty.kind?] at h; rw [h]

theorem elemsR_ret (t : Ty) (f : RdF) (vs : List Val) (h : ∀ v ∈ vs, HasTy t v)
    (hf : ∀ r d, HasTy t d → Ret r (f r d)) (r : Rd) : Ret r (elemsR t.kind? f r (.seq vs)) := by
  cases hk : t.kind? with
  | none =>
    obtain ⟨r1, v1, h1, h2⟩ := readEach_ret f vs (fun v hv r => hf r v (h v hv)) r
    exact ⟨r1, .seq v1, by simp [elemsR, h1], h2⟩
  | some k =>
    rw [kind_hasTy t k hk] at h
    obtain ⟨r1, v1, h1, h2⟩ := slValR_ret k vs h r
    exact ⟨r1, .seq v1, by simp [elemsR, h1], h2⟩

theorem elemsR_prog (t : Ty) (f : RdF) (vs : List Val) (hn : vs ≠ []) (h : ∀ v ∈ vs, HasTy t v)
    (hf : ∀ r d, HasTy t d → Ret r (f r d)) (hp : ∀ r d, HasTy t d → Prog r (f r d)) (r : Rd) :
    Prog r (elemsR t.kind? f r (.seq vs)) := by
  intro r' w hr
  cases hk : t.kind? with
  | none =>
    cases vs with
    | nil => exact absurd rfl hn
    | cons v vs =>
      have := readEach_prog f v vs (fun x hx r => hf r x (h x hx)) r (hp r v (h v (by simp)))
      rw [hk] at hr
      simp only [elemsR] at hr
      cases hq : readEach f r (v :: vs) with
      | none => simp [hq] at hr
      | some q =>
        simp only [hq, Option.some.injEq, Prod.mk.injEq] at hr
        rw [← hr.1]
        exact this _ _ hq
  | some k =>
    rw [kind_hasTy t k hk] at h
    have := slValR_prog k vs h hn r
    rw [hk] at hr
    simp only [elemsR] at hr
    cases hq : slValR k r vs with
    | none => simp [hq] at hr
    | some q =>
      simp only [hq, Option.some.injEq, Prod.mk.injEq] at hr
      rw [← hr.1]
      exact this _ _ hq

theorem rs_arr (tail : Bool) (n : Nat) (t : Ty) (e : TR) (he : RS false t e) : RS tail (.arr n t) (arrR n t.kind? e) := by
  have key : ∀ r d, HasTy (.arr n t) d → Ret r (elemsR t.kind? e.auto r d) := by
    intro r d hd
    cases d <;> simp only [HasTy] at hd
    exact elemsR_ret t e.auto _ hd.2 he.au r
  refine ⟨key, key, fun r d hd _ => key r d hd,
    fun d n hd _ _ => plainSetSize_ok _ _ d n hd, fun _ d n hd _ _ => plainSetCount_ok _ _ d n hd, ?_, ?_, ?_⟩
  · intro _ m r d hd h0 h1
    exact bySize_ret (.arr n t) _ rfl key
        (fun d n hd _ _ => by simp only [arrR]; exact plainSetSize_ok _ _ d n hd) m r d hd h0 h1
      (fun d' _ hd' r' => key r' d' hd')
  · intro _ m r d hd h0 h1
    exact byCount_ret (.arr n t) _ rfl key m r d (plainSetCount_ok _ _ d m hd)
  · intro hp r d hd
    simp [eats] at hp
    cases d <;> simp only [HasTy] at hd
    rename_i vs
    refine elemsR_prog t e.auto vs ?_ hd.2 he.au (he.pg hp.2) r
    intro e0
    rw [e0] at hd
    simp at hd
    exact hp.1 hd.symm

theorem tailLoop_ret (f : RdF) (z : Val) (hf : ∀ r, Ret r (f r z)) (hp : ∀ r, Prog r (f r z)) (n : Nat) (r : Rd)
    (h : r.body.length < n ∨ (r.err ≠ none ∧ 0 < n)) : Ret r (tailLoop f z n r) := by
  induction n generalizing r with
  | zero => omega
  | succ n ih =>
    unfold tailLoop
    split
    · exact Ret.some (After.refl r)
    · rename_i h0
      obtain ⟨r1, v1, h1, h2, h3⟩ := hf r
      have hb : 0 < r.body.length := by
        cases hb : r.body with
        | nil => simp [hb] at h0
        | cons _ _ => simp
      have he : ¬ r.err ≠ none := fun e => h0 (Or.inr e)
      have hn : r.body.length < n + 1 := h.resolve_right (fun q => he q.1)
      simp only [h1]
      have hpr := hp r r1 v1 h1
      rw [if_neg (by
        intro q
        rcases hpr with hpr | hpr
        · exact hpr q.1
        · omega)]
      have := ih r1 (by
        rcases hpr with hpr | hpr
        · exact Or.inr ⟨hpr, by omega⟩
        · exact Or.inl (by omega))
      obtain ⟨r2, v2, h4, h5, h6⟩ := this
      exact ⟨r2, v1 :: v2, by simp [h4], by omega, fun e => h6 (h3 e)⟩

theorem tailLoop_err (f : RdF) (z : Val) (n : Nat) (r : Rd) (h : r.err ≠ none) : Ret r (tailLoop f z (n + 1) r) := by
  unfold tailLoop
  rw [if_pos (Or.inr h)]
  exact Ret.some (After.refl r)

theorem makeSlice_has (t : Ty) (d : Val) (n : Int) (hd : HasTy (.sl t) d) (h0 : 0 ≤ n) (h1 : n < 2 ^ 32) :
    ∃ d', makeSlice (zero t) d n = some d' ∧ HasTy (.sl t) d' := by
  unfold makeSlice
  split
  · exact ⟨d, rfl, hd⟩
  · rw [if_neg (by omega)]
    refine ⟨_, rfl, ?_⟩
    simp only [HasTy]
    intro v hv
    rw [List.eq_of_mem_replicate hv]
    exact hasTy_zero t

theorem slSetCount_ok (t : Ty) (d : Val) (n : Int) (hd : HasTy (.sl t) d) (h0 : 0 ≤ n) (h1 : n < 2 ^ 32) :
    ∃ e d', slSetCount (zero t) d n = some (e, d') ∧ HasTy (.sl t) d' := by
  obtain ⟨d', h2, h3⟩ := makeSlice_has t d n hd h0 h1
  exact ⟨none, d', by simp only [slSetCount, h2], h3⟩

theorem slSetSize_ok (t : Ty) (s : Int) (d : Val) (n : Int) (hd : HasTy (.sl t) d) (h0 : 0 ≤ n) (h1 : n < 2 ^ 32) :
    ∃ b e d', slSetSize s (zero t) d n = some (b, e, d') ∧ HasTy (.sl t) d' := by
  unfold slSetSize
  split
  · rename_i hs
    have q0 : 0 ≤ n.tdiv s := Int.tdiv_nonneg h0 (by omega)
    have q1 : n.tdiv s ≤ n := Int.tdiv_le_self s h0
    obtain ⟨d', h2, h3⟩ := makeSlice_has t d (n.tdiv s) hd q0 (by omega)
    exact ⟨true, none, d', by simp only [h2], h3⟩
  · split
    · exact plainSetSize_ok _ _ d n hd
    · exact ⟨_, _, _, rfl, hd⟩

theorem u8Auto_ret (n : Int) (h : 0 ≤ n) (r : Rd) (d : Val) : Ret r (u8Auto n r d) := by
  obtain ⟨r', b, h1, h2, _⟩ := slice_after r n h
  unfold u8Auto
  rw [h1]
  exact Ret.some h2

theorem withCount_ret (x : TR) (p : Pfx) (hp : safePfx p = true) (r : Rd) (d : Val)
    (h : ∀ (n : Int) r, 0 ≤ n → n < 2 ^ 32 → Ret r (x.byCount n r d)) : Ret r (x.withCount p r d) ∧ Prog r (x.withCount p r d) := by
  have hp := pfx_after p hp r
  unfold TR.withCount
  split
  · rename_i he
    refine ⟨Ret.some (After.refl r), ?_⟩
    intro r' v hr
    simp only [Option.some.injEq, Prod.mk.injEq] at hr
    rw [← hr.1]; exact Or.inl he
  · have := h _ (p.read r).1 hp.2.2.1 hp.2.2.2
    refine ⟨Ret.mk' hp.1 this, ?_⟩
    intro r' v hr
    obtain ⟨r2, v2, h1, h2, h3⟩ := this
    rw [h1] at hr
    simp only [Option.some.injEq, Prod.mk.injEq] at hr
    rw [← hr.1]
    rcases hp.2.1 with hp | hp
    · exact Or.inl (h3 hp)
    · exact Or.inr (by omega)

theorem withSize_ret (x : TR) (p : Pfx) (hp : safePfx p = true) (r : Rd) (d : Val)
    (h : ∀ (n : Int) r, 0 ≤ n → n < 2 ^ 32 → Ret r (x.bySize n r d)) : Ret r (x.withSize p r d) ∧ Prog r (x.withSize p r d) := by
  have hp := pfx_after p hp r
  unfold TR.withSize
  split
  · rename_i he
    refine ⟨Ret.some (After.refl r), ?_⟩
    intro r' v hr
    simp only [Option.some.injEq, Prod.mk.injEq] at hr
    rw [← hr.1]; exact Or.inl he
  · have := h _ (p.read r).1 hp.2.2.1 hp.2.2.2
    refine ⟨Ret.mk' hp.1 this, ?_⟩
    intro r' v hr
    obtain ⟨r2, v2, h1, h2, h3⟩ := this
    rw [h1] at hr
    simp only [Option.some.injEq, Prod.mk.injEq] at hr
    rw [← hr.1]
    rcases hp.2.1 with hp | hp
    · exact Or.inl (h3 hp)
    · exact Or.inr (by omega)

/-- Slices, with the elements read by `e`; `k` is `t.kind?` or, for `ber`, `none`. -/
theorem slR_ret (t : Ty) (k : Option Kind) (e : TR) (tail : Bool)
    (fx : ∀ r d, HasTy (.sl t) d → Ret r (elemsR k e.auto r d))
    (au : ∀ r, Ret r (e.auto r (zero t)))
    (pg : tail = true → k = none → ∀ r, Prog r (e.auto r (zero t)))
    (hw : tail = true → k ≠ none → k = some .u8) :
    (∀ r d, HasTy (.sl t) d → (tail = true ∨ r.err ≠ none) → Ret r ((slR k (zero t) e).tail r d)) ∧
    ((tail = true ∨ 0 < e.sz) → ∀ (n : Int) r d, HasTy (.sl t) d → 0 ≤ n → n < 2 ^ 32 →
      Ret r ((slR k (zero t) e).bySize n r d)) ∧
    (∀ (n : Int) r d, HasTy (.sl t) d → 0 ≤ n → n < 2 ^ 32 → Ret r ((slR k (zero t) e).byCount n r d)) ∧
    (∀ r d, HasTy (.sl t) d → Ret r ((slR k (zero t) e).auto r d) ∧ Prog r ((slR k (zero t) e).auto r d)) := by
  have tl : ∀ r d, HasTy (.sl t) d → (tail = true ∨ r.err ≠ none) → Ret r ((slR k (zero t) e).tail r d) := by
    intro r d hd hc
    show Ret r (slTail k e.auto (zero t) r d)
    by_cases he : r.err ≠ none
    · cases k with
      | none =>
        obtain ⟨r1, v1, h1, h2⟩ := tailLoop_err e.auto (zero t) r.body.length r he
        exact ⟨r1, .seq v1, by simp [slTail, h1], h2⟩
      | some k =>
        have : slTail (some k) e.auto (zero t) r d = some (r, d) := by
          unfold slTail
          split
          · rw [if_pos he]
          · rw [if_pos he]
          · rename_i h; simp at h
        rw [this]; exact Ret.some (After.refl r)
    · have ht : tail = true := hc.resolve_right he
      cases k with
      | none =>
        obtain ⟨r1, v1, h1, h2⟩ := tailLoop_ret e.auto (zero t) au (pg ht rfl) (r.body.length + 1) r (Or.inl (by omega))
        exact ⟨r1, .seq v1, by simp [slTail, h1], h2⟩
      | some k =>
        have := hw ht (by simp)
        rw [this]
        simp only [slTail]
        split
        · exact Ret.some (After.refl r)
        · exact Ret.some (tail_after r)
  have bc : ∀ (n : Int) r d, HasTy (.sl t) d → 0 ≤ n → n < 2 ^ 32 → Ret r ((slR k (zero t) e).byCount n r d) := by
    intro n r d hd h0 h1
    by_cases c : k = some .u8
    · have : (slR k (zero t) e).byCount n r d = u8Auto n r d := by
        simp [TR.byCount, slR, TR.autoCnt, c]
      rw [this]; exact u8Auto_ret n h0 r d
    · exact byCount_ret (.sl t) _ (by simp [slR, TR.autoCnt, c]) fx n r d (slSetCount_ok t d n hd h0 h1)
  refine ⟨tl, ?_, bc, ?_⟩
  · intro hz n r d hd h0 h1
    by_cases c : k = some .u8
    · have : (slR k (zero t) e).bySize n r d = u8Auto n r d := by
        simp [TR.bySize, slR, TR.autoCnt, c]
      rw [this]; exact u8Auto_ret n h0 r d
    · refine bySize_ret (.sl t) _ (by simp [slR, TR.autoCnt, c]) fx (fun d n hd h0 h1 => slSetSize_ok t e.sz d n hd h0 h1)
        n r d hd h0 h1 ?_
      intro d' hs hd' r'
      cases ht : tail with
      | true => exact tl r' d' hd' (Or.inl ht)
      | false =>
        exfalso
        have hz : 0 < e.sz := hz.resolve_left (by simp [ht])
        have hs : slSetSize e.sz (zero t) d n = some (false, none, d') := hs
        unfold slSetSize at hs
        rw [if_pos hz] at hs
        split at hs <;> simp at hs
  · intro r d hd
    rw [slR_auto]
    exact withCount_ret _ .i32 rfl r d (fun n r h0 h1 => bc n r d hd h0 h1)

theorem rs_sl (tail : Bool) (t : Ty) (e : TR) (he : RS false t e) (hz : e.sz = codeR t)
    (ht : tail = true → wideScal t = false ∧ eats t = true) : RS tail (.sl t) (slR t.kind? (zero t) e) := by
  have key : ∀ r d, HasTy (.sl t) d → Ret r (elemsR t.kind? e.auto r d) := by
    intro r d hd
    cases d <;> simp only [HasTy] at hd
    exact elemsR_ret t e.auto _ hd he.au r
  obtain ⟨h1, h2, h3, h4⟩ := slR_ret t t.kind? e tail key (fun r => he.au r _ (hasTy_zero t))
    (fun h _ r => he.pg (ht h).2 r _ (hasTy_zero t))
    (fun h hk => by
      have := (ht h).1
      cases t <;> simp [Ty.kind?] at hk
      simp [wideScal] at this
      simp [Ty.kind?, this])
  refine ⟨key, fun r d hd => (h4 r d hd).1, h1, fun d n hd h0 h1 => slSetSize_ok t e.sz d n hd h0 h1,
    fun _ d n hd h0 h1 => slSetCount_ok t d n hd h0 h1, fun hc => h2 (hc.imp_right ?_), fun _ => h3,
    fun _ r d hd => (h4 r d hd).2⟩
  intro hs
  cases t <;> simp [sizeTail] at hs
  rename_i k
  have := width_pos k
  rw [hz]
  simp only [codeR]
  omega

/-- What a pointer's reader works on: the target, or a new one. -/
theorem tgt_has (t : Ty) (d : Val) (hd : HasTy (.ptr t) d) :
    ∃ u, HasTy t u ∧ (∀ e : TR, (∀ r, (ptrR (zero t) e).tail r d =
        if r.err = none then some (r, d)
        else if r.body ≠ [] then match e.tail r u with
          | none => none
          | some (r, u) => some (r, .ref u)
        else some (r, .nilp)) ∧
      (∀ n, (ptrR (zero t) e).setSize d n =
        if n = 0 then some (true, none, .nilp) else match e.setSize u n with
          | none => none
          | some (b, er, u) => some (b, er, .ref u)) ∧
      (∀ n, (ptrR (zero t) e).setCount d n =
        if n = 0 then some (none, .nilp) else match e.setCount u n with
          | none => none
          | some (er, u) => some (er, .ref u))) := by
  cases d <;> simp only [HasTy] at hd
  · exact ⟨zero t, hasTy_zero t, fun e => ⟨fun r => rfl, fun n => rfl, fun n => rfl⟩⟩
  · exact ⟨_, hd, fun e => ⟨fun r => rfl, fun n => rfl, fun n => rfl⟩⟩

theorem rs_ptr (tail : Bool) (t : Ty) (e : TR) (he : RS false t e) : RS tail (.ptr t) (ptrR (zero t) e) := by
  have key : ∀ r d, HasTy (.ptr t) d → Ret r ((ptrR (zero t) e).fixed r d) := by
    intro r d hd
    cases d <;> simp only [HasTy] at hd
    · exact Ret.some (After.refl r)
    · rename_i u
      obtain ⟨r1, v1, h1, h2⟩ := he.fx r u hd
      exact ⟨r1, .ref v1, by simp [ptrR, h1], h2⟩
  have tl : ∀ r d, HasTy (.ptr t) d → Ret r ((ptrR (zero t) e).tail r d) := by
    intro r d hd
    obtain ⟨u, hu, hq⟩ := tgt_has t d hd
    rw [(hq e).1 r]
    by_cases h0 : r.err = none
    · rw [if_pos h0]; exact Ret.some (After.refl r)
    · rw [if_neg h0]
      by_cases h1 : r.body ≠ []
      · rw [if_pos h1]
        obtain ⟨r1, v1, h1, h2⟩ := he.tl r u hu (Or.inr h0)
        exact ⟨r1, .ref v1, by simp only [h1], h2⟩
      · rw [if_neg h1]; exact Ret.some (After.refl r)
  have ss : ∀ d (n : Int), HasTy (.ptr t) d → 0 ≤ n → n < 2 ^ 32 →
      ∃ b e' d', (ptrR (zero t) e).setSize d n = some (b, e', d') ∧ HasTy (.ptr t) d' := by
    intro d n hd h0 h1
    obtain ⟨u, hu, hq⟩ := tgt_has t d hd
    rw [(hq e).2.1 n]
    by_cases hn : n = 0
    · rw [if_pos hn]; exact ⟨true, none, .nilp, rfl, by simp [HasTy]⟩
    · rw [if_neg hn]
      obtain ⟨b, e', d', h2, h3⟩ := he.ss u n hu h0 h1
      exact ⟨b, e', .ref d', by simp only [h2], by simpa [HasTy] using h3⟩
  have sc : cntIn t = true → ∀ d (n : Int), HasTy (.ptr t) d → 0 ≤ n → n < 2 ^ 32 →
      ∃ e' d', (ptrR (zero t) e).setCount d n = some (e', d') ∧ HasTy (.ptr t) d' := by
    intro hc d n hd h0 h1
    obtain ⟨u, hu, hq⟩ := tgt_has t d hd
    rw [(hq e).2.2 n]
    by_cases hn : n = 0
    · rw [if_pos hn]; exact ⟨none, .nilp, rfl, by simp [HasTy]⟩
    · rw [if_neg hn]
      obtain ⟨e', d', h2, h3⟩ := he.sc hc u n hu h0 h1
      exact ⟨e', .ref d', by simp only [h2], by simpa [HasTy] using h3⟩
  refine ⟨key, key, fun r d hd _ => tl r d hd, ss, ?_, ?_, ?_, by simp [eats]⟩
  · intro hc; exact sc (by simpa [cntIn] using hc)
  · intro _ n r d hd h0 h1
    exact bySize_ret (.ptr t) _ rfl key ss n r d hd h0 h1 (fun d' _ hd' r' => tl r' d' hd')
  · intro hc n r d hd h0 h1
    exact byCount_ret (.ptr t) _ rfl key n r d (sc (by simpa [cntable] using hc) d n hd h0 h1)

/-! ### `ber` fields -/

/-- The reader of a `ber` field returns on any bytes. -/
structure RSB (t : Ty) (x : TR) : Prop where
  fx : ∀ r d, HasTy t d → Ret r (x.fixed r d)
  au : ∀ r d, HasTy t d → Ret r (x.auto r d)
  tl : isPtr t = false → ∀ r d, HasTy t d → Ret r (x.tail r d)
  bs : isPtr t = false → ∀ (n : Int) r d, HasTy t d → 0 ≤ n → n < 2 ^ 32 → Ret r (x.bySize n r d)
  bc : isPtr t = false → ∀ (n : Int) r d, HasTy t d → 0 ≤ n → n < 2 ^ 32 → Ret r (x.byCount n r d)
  pg : isPtr t = false → isArr t = false → ∀ r d, HasTy t d → Prog r (x.auto r d)

theorem berR_ret (k : Kind) (r : Rd) (d : Val) : Ret r ((berR k).auto r d) ∧ Prog r ((berR k).auto r d) := by
  refine ⟨Ret.some (uvar_after r).1, ?_⟩
  intro r' v h
  simp only [berR, Option.some.injEq, Prod.mk.injEq] at h
  rw [← h.1]
  exact (uvar_after r).2

theorem berElems_ret (k : Kind) (vs : List Val) (r : Rd) : Ret r (elemsR none (berR k).auto r (.seq vs)) := by
  obtain ⟨r1, v1, h1, h2⟩ := readEach_ret (berR k).auto vs (fun v _ r => (berR_ret k r v).1) r
  exact ⟨r1, .seq v1, by simp [elemsR, h1], h2⟩

theorem rsb_for (t : Ty) (y : TR) (h : berForR t = some y) : RSB t y := by
  cases t with
  | scal k =>
    simp only [berForR] at h
    split at h
    case isFalse => simp at h
    simp only [Option.some.injEq] at h
    subst h
    have key : ∀ r d, Ret r ((berR k).auto r d) := fun r d => (berR_ret k r d).1
    refine ⟨fun r d _ => key r d, fun r d _ => key r d, fun _ r d _ => key r d, ?_, ?_, fun _ _ r d _ => (berR_ret k r d).2⟩
    · intro _ n r d hd h0 h1
      exact bySize_ret (.scal k) _ rfl (fun r d _ => key r d) (fun d n hd _ _ => plainSetSize_ok _ (-1) d n hd) n r d hd h0 h1
        (fun d' _ _ r' => key r' d')
    · intro _ n r d hd h0 h1
      exact byCount_ret (.scal k) _ rfl (fun r d _ => key r d) n r d (plainSetCount_ok _ 1 d n hd)
  | arr n t =>
    cases t <;> simp [berForR] at h
    rename_i k
    obtain ⟨_, rfl⟩ := h
    have key : ∀ r d, HasTy (.arr n (.scal k)) d → Ret r (elemsR none (berR k).auto r d) := by
      intro r d hd
      cases d <;> simp only [HasTy] at hd
      exact berElems_ret k _ r
    refine ⟨key, key, fun _ => key, ?_, ?_, by simp [isArr]⟩
    · intro _ m r d hd h0 h1
      exact bySize_ret (.arr n (.scal k)) _ rfl key
        (fun d n hd _ _ => by simp only [arrR]; exact plainSetSize_ok _ _ d n hd) m r d hd h0 h1
        (fun d' _ hd' r' => key r' d' hd')
    · intro _ m r d hd h0 h1
      exact byCount_ret (.arr n (.scal k)) _ rfl key m r d (plainSetCount_ok _ _ d m hd)
  | sl t =>
    cases t <;> simp [berForR] at h
    rename_i k
    obtain ⟨_, rfl⟩ := h
    have key : ∀ r d, HasTy (.sl (.scal k)) d → Ret r (elemsR none (berR k).auto r d) := by
      intro r d hd
      cases d <;> simp only [HasTy] at hd
      exact berElems_ret k _ r
    have := slR_ret (.scal k) none (berR k) true key (fun r => (berR_ret k r _).1) (fun _ _ r => (berR_ret k r _).2)
      (by simp)
    simp only [zero] at this
    obtain ⟨h1, h2, h3, h4⟩ := this
    exact ⟨key, fun r d hd => (h4 r d hd).1, fun _ r d hd => h1 r d hd (by simp), fun _ => h2 (by simp), fun _ => h3,
      fun _ _ r d hd => (h4 r d hd).2⟩
  | ptr t =>
    cases t <;> simp [berForR] at h
    rename_i k
    obtain ⟨_, rfl⟩ := h
    have key : ∀ r d, HasTy (.ptr (.scal k)) d → Ret r ((ptrR (.scal k.zero) (berR k)).fixed r d) := by
      intro r d hd
      cases d <;> simp only [HasTy] at hd
      · exact Ret.some (After.refl r)
      · rename_i u
        obtain ⟨r1, v1, h1, h2⟩ := (berR_ret k r u).1
        have h1 : (berR k).fixed r u = some (r1, v1) := h1
        exact ⟨r1, .ref v1, by simp [ptrR, h1], h2⟩
    exact ⟨key, key, by simp [isPtr], by simp [isPtr], by simp [isPtr], by simp [isPtr]⟩
  | _ => simp [berForR] at h

/-! ### Fields -/

/-- The field loop yields readers that return on any bytes. -/
structure RSF (tail : Bool) (fs : Fl) (l : List (Option FR)) : Prop where
  rd : ∀ m r vs, HasTyFl fs vs → (m = true → tail = true ∨ r.err ≠ none) → Ret r (readFlds m l r vs)
  pg : eatsFl fs = true → ∀ r vs, HasTyFl fs vs → Prog r (readFlds false l r vs)

theorem rsf_none (tail : Bool) (g : Tag) (t : Ty) (fs : Fl) (l : List (Option FR)) (h : RSF tail fs l)
    (he : eatsFl (.cons g t fs) = true → eatsFl fs = true) : RSF tail (.cons g t fs) (none :: l) := by
  refine ⟨?_, ?_⟩
  · intro m r vs hv hm
    cases vs with
    | nil => simp [HasTyFl] at hv
    | cons v vs =>
      simp only [HasTyFl] at hv
      obtain ⟨r1, v1, h1, h2⟩ := h.rd m r vs hv.2 hm
      exact ⟨r1, v :: v1, by simp [readFlds, h1], h2⟩
  · intro hp r vs hv r' w hr
    cases vs with
    | nil => simp [HasTyFl] at hv
    | cons v vs =>
      simp only [HasTyFl] at hv
      obtain ⟨r1, v1, h1, h2⟩ := h.rd false r vs hv.2 (by simp)
      simp only [readFlds, h1, Option.some.injEq, Prod.mk.injEq] at hr
      rw [← hr.1]
      exact h.pg (he hp) r vs hv.2 r1 v1 h1

theorem rsf_some (tail : Bool) (g : Tag) (t : Ty) (fs : Fl) (l : List (Option FR)) (f : FR) (h : RSF tail fs l)
    (hr : ∀ m r d, HasTy t d → (m = true → tail = true ∨ r.err ≠ none) → Ret r (f.get m r d))
    (hp : eatsFl (.cons g t fs) = true → eatsFl fs = true ∨ ∀ r d, HasTy t d → Prog r (f.get false r d)) :
    RSF tail (.cons g t fs) (some f :: l) := by
  refine ⟨?_, ?_⟩
  · intro m r vs hv hm
    cases vs with
    | nil => simp [HasTyFl] at hv
    | cons v vs =>
      simp only [HasTyFl] at hv
      obtain ⟨r1, v1, h1, h2, h3⟩ := hr m r v hv.1 hm
      obtain ⟨r2, v2, h4, h5, h6⟩ := h.rd m r1 vs hv.2 (fun e => (hm e).imp_right h3)
      exact ⟨r2, v1 :: v2, by simp [readFlds, h1, h4], by omega, fun e => h6 (h3 e)⟩
  · intro he r vs hv r' w hq
    cases vs with
    | nil => simp [HasTyFl] at hv
    | cons v vs =>
      simp only [HasTyFl] at hv
      obtain ⟨r1, v1, h1, h2, h3⟩ := hr false r v hv.1 (by simp)
      obtain ⟨r2, v2, h4, h5, h6⟩ := h.rd false r1 vs hv.2 (by simp)
      simp only [readFlds, h1, h4, Option.some.injEq, Prod.mk.injEq] at hq
      rw [← hq.1]
      rcases hp he with hp | hp
      · rcases h.pg hp r1 vs hv.2 r2 v2 h4 with q | q
        · exact Or.inl q
        · exact Or.inr (by omega)
      · rcases hp r v hv.1 r1 v1 h1 with q | q
        · exact Or.inl (h6 q)
        · exact Or.inr (by omega)

/-- One step of the field loop. -/
theorem trFl_inv (s s' : Int) (b ber : Bool) (d : Dir) (t : Ty) (fs : Fl) (l : List (Option FR))
    (h : trFl s b (.cons (.use ber d) t fs) = some (s', l)) :
    b = false ∧ ∃ x, tr t = some x ∧ ∃ s1 s2 l1,
      trFl s1 (d = .no) fs = some (s2, l1) ∧ s' = s2 ∧
      ((x.sz = 0 ∧ d.bare = true ∧ l = none :: l1 ∧ s1 = dirSize x.sz x.cnt d (if ber then -1 else s)) ∨
       (¬ (x.sz = 0 ∧ d.bare = true) ∧ (s1 = if 0 ≤ dirSize x.sz x.cnt d (if ber then -1 else s) then
            dirSize x.sz x.cnt d (if ber then -1 else s) + x.sz else dirSize x.sz x.cnt d (if ber then -1 else s)) ∧
        ∃ y, (if ber then berForR t else some x) = some y ∧ l = some ⟨y, d⟩ :: l1)) := by
  simp only [trFl] at h
  cases b with
  | true => simp at h
  | false =>
    simp only [Bool.false_eq_true, if_false] at h
    cases hx : tr t with
    | none => simp [hx] at h
    | some x =>
      simp only [hx] at h
      refine ⟨rfl, x, rfl, ?_⟩
      by_cases c : x.sz = 0 ∧ d.bare = true
      · rw [if_pos c] at h
        cases he : trFl (dirSize x.sz x.cnt d (if ber = true then -1 else s)) (decide (d = .no)) fs with
        | none => simp [he] at h
        | some q =>
          obtain ⟨s1, l1⟩ := q
          simp only [he, Option.some.injEq, Prod.mk.injEq] at h
          exact ⟨_, s1, l1, he, h.1.symm, Or.inl ⟨c.1, c.2, h.2.symm, rfl⟩⟩
      · rw [if_neg c] at h
        cases hy : (if ber = true then berForR t else some x) with
        | none => simp [hy] at h
        | some y =>
          simp only [hy] at h
          split at h
          · simp at h
          · rename_i s1 l1 he
            simp only [Option.some.injEq, Prod.mk.injEq] at h
            exact ⟨_, s1, l1, he, h.1.symm, Or.inr ⟨c, rfl, y, rfl, h.2.symm⟩⟩

mutual
/-- The reader of any type declares the size `codeR`. -/
theorem tr_sz : (t : Ty) → ∀ x, tr t = some x → x.sz = codeR t ∧ x.cnt = asSz (count? t)
  | .scal k, x, h => by
    simp [tr] at h; subst h
    exact ⟨by simp [scalR, codeR, kindSz_eq], rfl⟩
  | .str, x, h => by
    simp [tr] at h; subst h
    exact ⟨by simp [strR, codeR], rfl⟩
  | .arr n t, x, h => by
    simp only [tr] at h
    cases he : tr t with
    | none => simp [he] at h
    | some e =>
      simp only [he, Option.some.injEq] at h
      subst h
      exact ⟨by simp [arrR, codeR, (tr_sz t e he).1], rfl⟩
  | .sl t, x, h => by
    simp only [tr] at h
    cases he : tr t with
    | none => simp [he] at h
    | some e =>
      simp only [he, Option.some.injEq] at h
      subst h
      exact ⟨by simp [slR, TR.autoCnt, codeR, (tr_sz t e he).1], rfl⟩
  | .ptr t, x, h => by
    simp only [tr] at h
    cases he : tr t with
    | none => simp [he] at h
    | some e =>
      simp only [he, Option.some.injEq] at h
      subst h
      exact ⟨by simp [ptrR, codeR], rfl⟩
  | .struct fs, x, h => by
    simp only [tr] at h
    cases he : trFl 0 false fs with
    | none => simp [he] at h
    | some q =>
      obtain ⟨s, l⟩ := q
      simp only [he, Option.some.injEq] at h
      subst h
      have := trFl_sz fs 0 false s l he
      exact ⟨by simp [structR, codeR, this], rfl⟩
theorem trFl_sz : (fs : Fl) → ∀ s b s' l, trFl s b fs = some (s', l) → s' = codeRFl s fs
  | .nil, s, b, s', l, h => by simp [trFl] at h; simp [codeRFl, h.1]
  | .cons .hidden t fs, s, b, s', l, h => by
    simp only [trFl] at h
    cases he : trFl s b fs with
    | none => simp [he] at h
    | some q =>
      obtain ⟨s1, l1⟩ := q
      simp only [he, Option.some.injEq, Prod.mk.injEq] at h
      rw [← h.1, trFl_sz fs s b s1 l1 he]; simp [codeRFl]
  | .cons .skip t fs, s, b, s', l, h => by
    simp only [trFl] at h
    split at h
    · simp at h
    cases he : trFl s b fs with
    | none => simp [he] at h
    | some q =>
      obtain ⟨s1, l1⟩ := q
      simp only [he, Option.some.injEq, Prod.mk.injEq] at h
      rw [← h.1, trFl_sz fs s b s1 l1 he]; simp [codeRFl]
  | .cons (.use ber d) t fs, s, b, s', l, h => by
    obtain ⟨_, x, hx, s1, s2, l1, h1, h2, h3⟩ := trFl_inv s s' b ber d t fs l h
    have hz := tr_sz t x hx
    rw [hz.1, hz.2] at h3
    rw [h2, trFl_sz fs _ _ _ _ h1]
    simp only [codeRFl]
    rcases h3 with ⟨c0, _, _, h3⟩ | ⟨_, h3, _⟩
    · rw [h3, c0]; simp
    · rw [h3]
      by_cases c2 : 0 ≤ dirSize (codeR t) (asSz (count? t)) d (if ber = true then -1 else s)
      · rw [if_pos c2, if_pos c2]
      · rw [if_neg c2, if_neg c2]
end

mutual
/-- Every safe type with a reader can be read from any bytes. -/
theorem tr_safe : (t : Ty) → ∀ tail x, Safe tail t → tr t = some x → RS tail t x
  | .scal k, tail, x, _, h => by simp [tr] at h; subst h; exact rs_scal tail k
  | .str, tail, x, _, h => by simp [tr] at h; subst h; exact rs_str tail
  | .arr n t, tail, x, hs, h => by
    simp only [tr] at h
    cases he : tr t with
    | none => simp [he] at h
    | some e =>
      simp only [he, Option.some.injEq] at h
      subst h
      exact rs_arr tail n t e (tr_safe t false e (by simpa [Safe] using hs) he)
  | .sl t, tail, x, hs, h => by
    simp only [tr] at h
    simp only [Safe] at hs
    cases he : tr t with
    | none => simp [he] at h
    | some e =>
      simp only [he, Option.some.injEq] at h
      subst h
      exact rs_sl tail t e (tr_safe t false e hs.1 he) (tr_sz t e he).1 hs.2
  | .ptr t, tail, x, hs, h => by
    simp only [tr] at h
    cases he : tr t with
    | none => simp [he] at h
    | some e =>
      simp only [he, Option.some.injEq] at h
      subst h
      exact rs_ptr tail t e (tr_safe t false e (by simpa [Safe] using hs) he)
  | .struct fs, tail, x, hs, h => by
    simp only [tr] at h
    simp only [Safe] at hs
    cases he : trFl 0 false fs with
    | none => simp [he] at h
    | some q =>
      obtain ⟨s, l⟩ := q
      simp only [he, Option.some.injEq] at h
      subst h
      have hf := trFl_safe fs tail 0 false s l hs he
      have key : ∀ m r d, HasTy (.struct fs) d → (m = true → tail = true ∨ r.err ≠ none) →
          Ret r (match d with
            | .seq vs => match readFlds m l r vs with
              | none => none
              | some (r, vs) => some (r, Val.seq vs)
            | _ => none) := by
        intro m r d hd hm
        cases d <;> simp only [HasTy] at hd
        obtain ⟨r1, v1, h1, h2⟩ := hf.rd m r _ hd hm
        exact ⟨r1, .seq v1, by simp only [h1], h2⟩
      refine ⟨fun r d hd => key false r d hd (by simp), fun r d hd => key false r d hd (by simp),
        fun r d hd hc => key true r d hd (fun _ => hc), fun d n hd _ _ => plainSetSize_ok _ _ d n hd,
        fun _ d n hd _ _ => plainSetCount_ok _ _ d n hd, ?_, ?_, ?_⟩
      · intro hc n r d hd h0 h1
        have ht : tail = true := hc.resolve_right (by simp [sizeTail])
        exact bySize_ret (.struct fs) _ rfl (fun r d hd => key false r d hd (by simp))
          (fun d n hd _ _ => plainSetSize_ok _ _ d n hd) n r d hd h0 h1
          (fun d' _ hd' r' => key true r' d' hd' (fun _ => Or.inl ht))
      · intro _ n r d hd h0 h1
        exact byCount_ret (.struct fs) _ rfl (fun r d hd => key false r d hd (by simp)) n r d (plainSetCount_ok _ 1 d n hd)
      · intro hp r d hd r' v hr
        cases d <;> simp only [HasTy] at hd
        rename_i vs
        obtain ⟨r1, v1, h1, h2⟩ := hf.rd false r vs hd (by simp)
        simp only [structR, h1, Option.some.injEq, Prod.mk.injEq] at hr
        rw [← hr.1]
        exact hf.pg (by simpa [eats] using hp) r vs hd r1 v1 h1
theorem trFl_safe : (fs : Fl) → ∀ tail s b s' l, SafeFl tail fs → trFl s b fs = some (s', l) → RSF tail fs l
  | .nil, tail, s, b, s', l, _, h => by
    simp [trFl] at h
    rw [h.2]
    refine ⟨?_, by simp [eatsFl]⟩
    intro m r vs hv _
    cases vs <;> simp [HasTyFl] at hv
    exact Ret.some (After.refl r)
  | .cons .hidden t fs, tail, s, b, s', l, hs, h => by
    simp only [trFl] at h
    cases he : trFl s b fs with
    | none => simp [he] at h
    | some q =>
      obtain ⟨s1, l1⟩ := q
      simp only [he, Option.some.injEq, Prod.mk.injEq] at h
      rw [← h.2]
      exact rsf_none _ _ _ _ _ (trFl_safe fs tail s b s1 l1 (by simpa [SafeFl] using hs) he) (by simp [eatsFl])
  | .cons .skip t fs, tail, s, b, s', l, hs, h => by
    simp only [trFl] at h
    split at h
    · simp at h
    cases he : trFl s b fs with
    | none => simp [he] at h
    | some q =>
      obtain ⟨s1, l1⟩ := q
      simp only [he, Option.some.injEq, Prod.mk.injEq] at h
      rw [← h.2]
      exact rsf_none _ _ _ _ _ (trFl_safe fs tail s b s1 l1 (by simpa [SafeFl] using hs) he) (by simp [eatsFl])
  | .cons (.use true .none) t fs, tail, s, b, s', l, hs, h => by
    obtain ⟨_, x, hx, s1, s2, l1, h1, h2, h3⟩ := trFl_inv s s' b true .none t fs l h
    simp only [SafeFl] at hs
    have hz := tr_sz t x hx
    have hr := trFl_safe fs tail _ _ _ _ hs.2 h1
    rcases h3 with ⟨c0, _, rfl, _⟩ | ⟨_, _, y, hy, rfl⟩
    · refine rsf_none _ _ _ _ _ hr ?_
      intro he
      cases t with
      | scal k => have := width_pos k; rw [hz.1] at c0; simp [codeR] at c0; omega
      | sl t =>
        cases t with
        | scal k => have := width_pos k; rw [hz.1] at c0; simp [codeR] at c0; omega
        | _ => simpa [eatsFl] using he
      | _ => simpa [eatsFl] using he
    · have hb := rsb_for t y (by simpa using hy)
      refine rsf_some _ _ _ _ _ _ hr (fun m r d hd _ => hb.au r d hd) ?_
      intro he
      cases t with
      | scal k => exact Or.inr (hb.pg rfl rfl)
      | sl t => exact Or.inr (hb.pg rfl rfl)
      | _ => exact Or.inl (by simpa [eatsFl] using he)
  | .cons (.use true .no) t fs, tail, s, b, s', l, hs, h => by
    obtain ⟨_, x, hx, s1, s2, l1, h1, h2, h3⟩ := trFl_inv s s' b true .no t fs l h
    simp only [SafeFl] at hs
    have hr := trFl_safe fs tail _ _ _ _ hs.2.2 h1
    rcases h3 with ⟨c0, _, rfl, _⟩ | ⟨_, _, y, hy, rfl⟩
    · exact rsf_none _ _ _ _ _ hr (by simp [eatsFl])
    · have hb := rsb_for t y (by simpa using hy)
      refine rsf_some _ _ _ _ _ _ hr ?_ (fun he => Or.inl (by simpa [eatsFl] using he))
      intro m r d hd _
      cases m with
      | true => exact hb.tl hs.2.1 r d hd
      | false => exact hb.fx r d hd
  | .cons (.use true (.size p)) t fs, tail, s, b, s', l, hs, h => by
    obtain ⟨_, x, hx, s1, s2, l1, h1, h2, h3⟩ := trFl_inv s s' b true _ t fs l h
    simp only [SafeFl] at hs
    have hr := trFl_safe fs tail _ _ _ _ hs.2.2.2 h1
    rcases h3 with ⟨_, c0, _⟩ | ⟨_, _, y, hy, rfl⟩
    · simp [Dir.bare] at c0
    · have hb := rsb_for t y (by simpa using hy)
      have := fun r d hd => withSize_ret y p hs.2.1 r d (fun n r h0 h1 => hb.bs hs.2.2.1 n r d hd h0 h1)
      exact rsf_some _ _ _ _ _ _ hr (fun m r d hd _ => (this r d hd).1) (fun _ => Or.inr fun r d hd => (this r d hd).2)
  | .cons (.use true (.cnt p)) t fs, tail, s, b, s', l, hs, h => by
    obtain ⟨_, x, hx, s1, s2, l1, h1, h2, h3⟩ := trFl_inv s s' b true _ t fs l h
    simp only [SafeFl] at hs
    have hr := trFl_safe fs tail _ _ _ _ hs.2.2.2 h1
    rcases h3 with ⟨_, c0, _⟩ | ⟨_, _, y, hy, rfl⟩
    · simp [Dir.bare] at c0
    · have hb := rsb_for t y (by simpa using hy)
      have := fun r d hd => withCount_ret y p hs.2.1 r d (fun n r h0 h1 => hb.bc hs.2.2.1 n r d hd h0 h1)
      exact rsf_some _ _ _ _ _ _ hr (fun m r d hd _ => (this r d hd).1) (fun _ => Or.inr fun r d hd => (this r d hd).2)
  | .cons (.use false .none) t fs, tail, s, b, s', l, hs, h => by
    obtain ⟨_, x, hx, s1, s2, l1, h1, h2, h3⟩ := trFl_inv s s' b false .none t fs l h
    simp only [SafeFl] at hs
    have hz := tr_sz t x hx
    have hr := trFl_safe fs tail _ _ _ _ hs.2 h1
    rcases h3 with ⟨c0, _, rfl, _⟩ | ⟨_, _, y, hy, rfl⟩
    · refine rsf_none _ _ _ _ _ hr ?_
      intro he
      rw [hz.1] at c0
      simpa [eatsFl, c0] using he
    · have hb := tr_safe t false x hs.1 hx
      simp at hy
      subst hy
      refine rsf_some _ _ _ _ _ _ hr (fun m r d hd _ => hb.au r d hd) ?_
      intro he
      simp only [eatsFl, Bool.or_eq_true, Bool.and_eq_true] at he
      rcases he with he | he
      · exact Or.inr (hb.pg he.2)
      · exact Or.inl he
  | .cons (.use false .no) t fs, tail, s, b, s', l, hs, h => by
    obtain ⟨_, x, hx, s1, s2, l1, h1, h2, h3⟩ := trFl_inv s s' b false .no t fs l h
    simp only [SafeFl] at hs
    have hr := trFl_safe fs tail _ _ _ _ hs.2 h1
    rcases h3 with ⟨c0, _, rfl, _⟩ | ⟨_, _, y, hy, rfl⟩
    · exact rsf_none _ _ _ _ _ hr (by simp [eatsFl])
    · have hb := tr_safe t tail x hs.1 hx
      simp at hy
      subst hy
      refine rsf_some _ _ _ _ _ _ hr ?_ (fun he => Or.inl (by simpa [eatsFl] using he))
      intro m r d hd hm
      cases m with
      | true => exact hb.tl r d hd (hm rfl)
      | false => exact hb.fx r d hd
  | .cons (.use false (.size p)) t fs, tail, s, b, s', l, hs, h => by
    obtain ⟨_, x, hx, s1, s2, l1, h1, h2, h3⟩ := trFl_inv s s' b false _ t fs l h
    simp only [SafeFl] at hs
    have hr := trFl_safe fs tail _ _ _ _ hs.2.2 h1
    rcases h3 with ⟨_, c0, _⟩ | ⟨_, _, y, hy, rfl⟩
    · simp [Dir.bare] at c0
    · have hb := tr_safe t (sizeTail t) x hs.2.1 hx
      simp at hy
      subst hy
      have hc : sizeTail t = true ∨ sizeTail t = false := by cases sizeTail t <;> simp
      have := fun r d hd => withSize_ret x p hs.1 r d (fun n r h0 h1 => hb.bs hc n r d hd h0 h1)
      exact rsf_some _ _ _ _ _ _ hr (fun m r d hd _ => (this r d hd).1) (fun _ => Or.inr fun r d hd => (this r d hd).2)
  | .cons (.use false (.cnt p)) t fs, tail, s, b, s', l, hs, h => by
    obtain ⟨_, x, hx, s1, s2, l1, h1, h2, h3⟩ := trFl_inv s s' b false _ t fs l h
    simp only [SafeFl] at hs
    have hr := trFl_safe fs tail _ _ _ _ hs.2.2.2 h1
    rcases h3 with ⟨_, c0, _⟩ | ⟨_, _, y, hy, rfl⟩
    · simp [Dir.bare] at c0
    · have hb := tr_safe t false x hs.2.2.1 hx
      simp at hy
      subst hy
      have := fun r d hd => withCount_ret x p hs.1 r d (fun n r h0 h1 => hb.bc hs.2.1 n r d hd h0 h1)
      exact rsf_some _ _ _ _ _ _ hr (fun m r d hd _ => (this r d hd).1) (fun _ => Or.inr fun r d hd => (this r d hd).2)
end

end Verif.Reflect
