import Verif.Proofs.SboxResult

/-! Decoding arbitrary responses returns. -/
namespace Verif.Sbox
open Verif.Marshal Verif.Reflect Verif.Spec

theorem count_after (r : Rd) : After r r.intUint32.1 ∧ 0 ≤ r.intUint32.2.toInt :=
  ⟨(pfx_after .i32 rfl r).1, (pfx_after .i32 rfl r).2.2.1⟩

theorem ivar_after (r : Rd) : After r r.intvar.1 := (uvar_after r).1

theorem after_err {r r' : Rd} (e : RErr) (h : After r r') : After r { r' with err := some e } := ⟨h.1, by simp⟩

/-- Such a field returns for every length, also a negative one. -/
theorem fixed_any (t : Ty) (x : TR) (hx : tr t = some x) (h : fixedField t) (n : Int) (r : Rd) (d : Val) (hd : HasTy t d) :
    Ret r (x.bySize n r d) := by
  have go : ∀ (fx : ∀ r d, HasTy t d → Ret r (x.fixed r d)), x.autoSize = none → 0 ≤ x.sz →
      x.setSize = plainSetSize x.sz → Ret r (x.bySize n r d) := by
    intro fx ha hs hz
    unfold TR.bySize
    simp only [ha, hz, plainSetSize, hs, if_true]
    by_cases c : n = x.sz
    · rw [if_neg (by simp [c])]; exact fx r d hd
    · rw [if_pos c]; exact Ret.some ⟨Nat.le_refl _, by simp⟩
  have hz := (tr_sz t x hx).1
  cases t with
  | scal k =>
    simp only [fixedField] at h
    have hr := tr_safe (.scal k) false x (by simp [Safe]) hx
    simp [tr] at hx; subst hx
    exact go hr.fx rfl (by rw [hz]; exact h) rfl
  | arr m u =>
    simp only [fixedField] at h
    have hr := tr_safe (.arr m u) false x h.2 hx
    refine go hr.fx ?_ (by rw [hz]; exact h.1) ?_
    · simp only [tr] at hx
      cases hu : tr u <;> simp [hu] at hx
      subst hx; rfl
    · simp only [tr] at hx
      cases hu : tr u <;> simp [hu] at hx
      subst hx; rfl
  | struct fs =>
    simp only [fixedField] at h
    have hr := tr_safe (.struct fs) false x h.2 hx
    refine go hr.fx ?_ (by rw [hz]; exact h.1) ?_
    · simp only [tr] at hx
      cases hu : trFl 0 false fs <;> simp [hu] at hx
      subst hx; rfl
    · simp only [tr] at hx
      cases hu : trFl 0 false fs <;> simp [hu] at hx
      subst hx; rfl
  | str => simp [fixedField] at h
  | sl u => simp [fixedField] at h
  | ptr u => simp [fixedField] at h

theorem field_any (t : Ty) (x : TR) (hx : tr t = some x) (h : fixedField t) (r : Rd) (d : Val) (hd : HasTy t d) :
    Ret r (x.withSize .ber r d) := by
  unfold TR.withSize
  split
  · exact Ret.some (After.refl r)
  · exact Ret.mk' (ivar_after r) (fixed_any t x hx h _ _ d hd)

theorem each_any (t : Ty) (x : TR) (hx : tr t = some x) (h : fixedField t) : (vs : List Val) → (∀ v ∈ vs, HasTy t v) →
    ∀ r, Ret r (sizedEachR x r vs)
  | [], _, r => by rw [sizedEachR]; exact Ret.some (After.refl r)
  | v :: vs, hv, r => by
    obtain ⟨r1, v1, h1, h2, h3⟩ := field_any t x hx h r v (hv v (by simp))
    obtain ⟨r2, v2, h4, h5, h6⟩ := each_any t x hx h vs (fun u hu => hv u (by simp [hu])) r1
    exact ⟨r2, v1 :: v2, by simp only [sizedEachR, h1, h4], by omega, fun e => h6 (h3 e)⟩

theorem flds_any : (fs : Fl) → fixedFields fs → ∀ s b s' l, trFl s b fs = some (s', l) → ∀ k r vs, HasTyFl fs vs →
    Ret r (structReadFlds k l r vs)
  | .nil, _, s, b, s', l, h, k, r, vs, hv => by
    simp [trFl] at h; rw [h.2]
    cases vs <;> simp only [HasTyFl] at hv
    rw [structReadFlds]; exact Ret.some (After.refl r)
  | .cons .hidden t fs, hf, s, b, s', l, h, k, r, vs, hv => by
    simp only [trFl] at h
    simp only [fixedFields] at hf
    cases hm : trFl s b fs with
    | none => simp [hm] at h
    | some p =>
      simp only [hm, Option.some.injEq, Prod.mk.injEq] at h
      rw [← h.2]
      cases vs <;> simp only [HasTyFl] at hv
      obtain ⟨r1, v1, h1, h2⟩ := flds_any fs hf _ _ _ _ hm k r _ hv.2
      exact ⟨r1, _, by simp only [structReadFlds, h1]; rfl, h2⟩
  | .cons .skip t fs, hf, s, b, s', l, h, k, r, vs, hv => by
    simp only [trFl] at h
    simp only [fixedFields] at hf
    cases b with
    | true => simp at h
    | false =>
      simp only [Bool.false_eq_true, if_false] at h
      cases hm : trFl s false fs with
      | none => simp [hm] at h
      | some p =>
        simp only [hm, Option.some.injEq, Prod.mk.injEq] at h
        rw [← h.2]
        cases vs <;> simp only [HasTyFl] at hv
        obtain ⟨r1, v1, h1, h2⟩ := flds_any fs hf _ _ _ _ hm k r _ hv.2
        exact ⟨r1, _, by simp only [structReadFlds, h1]; rfl, h2⟩
  | .cons (.use true _) _ _, hf, _, _, _, _, _, _, _, _, _ => by simp [fixedFields] at hf
  | .cons (.use false d) t fs, hf, s, b, s', l, h, k, r, vs, hv => by
    simp only [fixedFields] at hf
    obtain ⟨_, x, hx, s1, s2, l1, h1, _, h2⟩ := trFl_inv s s' b false d t fs l h
    cases vs <;> simp only [HasTyFl] at hv
    rename_i v vs
    rcases h2 with ⟨_, _, rfl, _⟩ | ⟨_, _, y, hy, rfl⟩
    · obtain ⟨r1, v1, h3, h4⟩ := flds_any fs hf.2 _ _ _ _ h1 k r vs hv.2
      exact ⟨r1, _, by simp only [structReadFlds, h3]; rfl, h4⟩
    · simp at hy; subst hy
      cases k with
      | zero => rw [structReadFlds]; exact Ret.some (After.refl r)
      | succ k =>
        obtain ⟨r1, v1, h3, h4, h5⟩ := field_any t x hx hf.1 r v hv.1
        obtain ⟨r2, v2, h6, h7, h8⟩ := flds_any fs hf.2 _ _ _ _ h1 k r1 vs hv.2
        exact ⟨r2, v1 :: v2, by simp only [structReadFlds, h3, h6], by omega, fun e => h8 (h5 e)⟩

theorem oneField_after (r : Rd) (n : Int) : After r (oneField r n).1 := by
  have h1 := (count_after r).1
  have h2 := ivar_after r.intUint32.1
  have h3 : After r r.intUint32.1.intvar.1 := ⟨Nat.le_trans h2.1 h1.1, fun e => h2.2 (h1.2 e)⟩
  unfold oneField
  split
  · by_cases c : r.intUint32.1.intvar.2.toInt = n
    · simp only [c, if_true]; exact h3
    · simp only [c, if_false]; exact after_err _ h3
  · exact after_err _ h1

theorem one_any (x : TR) (t : Ty) (h : RS false t x) (r : Rd) (d : Val) (hd : HasTy t d) : Ret r (fixedR x r d) := by
  unfold fixedR
  split
  · exact Ret.mk' (oneField_after r _) (h.fx _ d hd)
  · exact Ret.some (oneField_after r _)

/-- The tuple reader of a safe type returns on any bytes. -/
theorem tupR_safe : (t : Ty) → SafeTup t → ∀ f, tupR t = some f → ∀ r d, HasTy t d → Ret r (f r d)
  | .scal k, _, f, h, r, d, hd => by
    simp [tupR] at h; subst h
    exact one_any _ (.scal k) (rs_scal false k) r d hd
  | .str, hs, _, _, _, _, _ => by simp [SafeTup] at hs
  | .arr n t, hs, f, h, r, d, hd => by
    simp only [SafeTup] at hs; subst hs
    simp only [tupR] at h
    cases hx : tr (.arr n (.scal .u8)) with
    | none => simp [hx] at h
    | some x =>
      have he : tr (.scal .u8) = some (scalR .u8) := by simp [tr]
      simp only [hx, he, Ty.kind?, if_true, Option.some.injEq] at h; subst h
      exact one_any x _ (tr_safe _ false x (by simp [Safe]) hx) r d hd
  | .sl t, hs, f, h, r, d, hd => by
    simp only [SafeTup] at hs
    simp only [tupR] at h
    cases hx : tr (.sl t) with
    | none => simp [hx] at h
    | some x =>
      cases he : tr t with
      | none => simp [hx, he] at h
      | some e =>
        have hk : ¬ t.kind? = some .u8 := fun c => hs.1 (u8_field t c)
        simp [hx, he, hk] at h; subst h
        obtain ⟨r1, v1, h1, h2, h3⟩ := each_any t e he hs.2 (List.replicate r.intUint32.2.toInt.toNat (zero t))
          (fun u hu => by rw [List.eq_of_mem_replicate hu]; exact hasTy_zero t) r.intUint32.1
        have ha := (count_after r).1
        refine ⟨r1, .seq v1, by simp only [sliceR, h1], by have := ha.1; omega, fun e => h3 (ha.2 e)⟩
  | .struct fs, hs, f, h, r, d, hd => by
    simp only [SafeTup] at hs
    simp only [tupR] at h
    cases hl : trFl 0 false fs with
    | none => simp [hl] at h
    | some p =>
      obtain ⟨s, l⟩ := p
      simp only [hl, Option.some.injEq] at h; subst h
      cases d <;> simp only [HasTy] at hd
      obtain ⟨r1, v1, h1, h2, h3⟩ := flds_any fs hs _ _ _ _ hl r.intUint32.2.toInt.toNat r.intUint32.1 _ hd
      have ha := (count_after r).1
      refine ⟨r1, .seq v1, by simp only [structRd, h1], by have := ha.1; omega, fun e => h3 (ha.2 e)⟩
  | .ptr t, hs, f, h, r, d, hd => by
    simp only [SafeTup] at hs
    simp only [tupR] at h
    cases h1 : tr (.ptr t) with
    | none => simp [h1] at h
    | some x =>
      cases h2 : tupR t with
      | none => simp [h1, h2] at h
      | some g =>
        simp only [h1, h2, Option.some.injEq] at h; subst h
        cases d <;> simp only [HasTy] at hd
        · obtain ⟨r1, v1, h3, h4⟩ := tupR_safe t hs g h2 r _ (hasTy_zero t)
          exact ⟨r1, .ref v1, by simp only [h3], h4⟩
        · obtain ⟨r1, v1, h3, h4⟩ := tupR_safe t hs g h2 r _ hd
          exact ⟨r1, .ref v1, by simp only [h3], h4⟩

theorem oneTuple_any (f : RdF) (z : Val) (hf : ∀ r, Ret r (f r z)) (r : Rd) (e : Option RErr) :
    ∃ q, oneTuple f r e z = some q := by
  unfold oneTuple
  by_cases c : r.err = none
  · rw [if_neg (by simpa using c)]
    obtain ⟨r1, b, h1, _⟩ := slice_after r.intUint32.1 (r.intUint32.2.toInt + 4) (by have := (count_after r).2; omega)
    simp only [h1]
    by_cases c1 : r1.err = none
    · rw [if_neg (by simpa using c1)]
      obtain ⟨r2, v, h2, _⟩ := hf ⟨b, e⟩
      exact ⟨(r1, r2.err, v, false), by simp only [h2]⟩
    · rw [if_pos c1]; exact ⟨_, rfl⟩
  · rw [if_pos c]; exact ⟨_, rfl⟩

theorem many_any (f : RdF) (z : Val) (hf : ∀ r, Ret r (f r z)) : (m : Nat) → ∀ r e,
    ∃ n r' vs, manyLoop f r e (List.replicate m z) = some (n, r', vs) ∧ vs.length = m
  | 0, r, e => ⟨0, r, [], by simp [manyLoop], rfl⟩
  | m + 1, r, e => by
    obtain ⟨⟨r1, e1, v1, b⟩, h1⟩ := oneTuple_any f z hf r e
    obtain ⟨n, r', vs, h2, h3⟩ := many_any f z hf m r1 e1
    cases b with
    | true => exact ⟨0, r1, v1 :: List.replicate m z, by simp only [List.replicate_succ, manyLoop, h1], by simp⟩
    | false => exact ⟨n + 1, r', v1 :: vs, by simp only [List.replicate_succ, manyLoop, h1, h2], by simp [h3]⟩

end Verif.Sbox
