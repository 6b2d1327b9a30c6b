import Verif.Proofs.SboxSafe

/-! Flat tuples. -/
namespace Verif.Sbox
open Verif.Marshal Verif.Reflect Verif.Spec

theorem flat_field (t : Ty) (h : flatField t = true) : FieldTy t ∧ codeSz t ≠ 0 := by
  unfold flatField at h
  split at h
  · rename_i k
    refine ⟨⟨by simp [Sound], by cases k <;> simp [SizeOk, exact, codeSz, size?, asSz, width]⟩, by cases k <;> simp [codeSz, width]⟩
  · exact ⟨⟨by simp [Sound], by simp [SizeOk, exact, codeSz, size?, asSz]⟩, by simp [codeSz]⟩
  · exact ⟨⟨by simp [Sound, bulky, codeSz, width, wideScal], by right; simp [exact, codeSz, size?, asSz]⟩, by simp [codeSz, width]⟩
  · refine ⟨⟨by simp [Sound], by simp [SizeOk, exact, codeSz, size?, asSz, width]⟩, by simp [codeSz, width]; omega⟩
  · simp at h

theorem pay_bytes : (vs : List Val) → (∀ v ∈ vs, HasTy (.scal .u8) v) →
    (pay (.sl (.scal .u8)) (.seq vs)).length = vs.length
  | [], _ => by simp [pay]
  | v :: vs, h => by
    have ih := pay_bytes vs fun u hu => h u (by simp [hu])
    have hv := h v (by simp)
    cases v <;> simp only [HasTy] at hv
    rename_i s
    have : (scalBytes s).length = 1 := by simp [scalBytes, hv, width, le]
    simp only [pay, withCnt, counted, Bool.false_eq_true, if_false, List.map_cons, List.flatten_cons, List.length_append,
      List.length_cons, this] at ih ⊢
    omega

theorem flat_val (addr : Bool) (t : Ty) (h : flatField t = true) (v : Val) (hv : HasTy t v) (hs : (pay t v).length < 2 ^ 32) :
    FieldVal addr t v := by
  refine ⟨?_, by omega⟩
  unfold flatField at h
  split at h
  · cases v <;> simp only [HasTy] at hv; simpa [Fits] using hv
  · cases v <;> simp only [HasTy] at hv; simp [Fits]
  · cases v <;> simp only [HasTy] at hv
    rename_i vs
    have := pay_bytes vs hv
    simp only [Fits]
    refine ⟨by omega, by simp [Ty.kind?], fun v hm => ?_⟩
    have := hv v hm
    cases v <;> simp only [HasTy] at this
    simpa [Fits, counted] using this
  · cases v <;> simp only [HasTy] at hv
    simp only [Fits]
    refine ⟨hv.1, by simp [Ty.kind?], fun v hm => ?_⟩
    have := hv.2 v hm
    cases v <;> simp only [HasTy] at this
    simpa [Fits, counted] using this
  · simp at h

theorem flat_fl : (fs : Fl) → flatStruct fs = true → TupFl fs
  | .nil, _ => by simp [TupFl]
  | .cons (.use false .none) t fs, h => by
    simp only [flatStruct, Bool.and_eq_true] at h
    obtain ⟨h1, h2⟩ := flat_field t h.1
    simp only [TupFl, Bool.false_eq_true, if_false]
    exact ⟨h1, fun _ => h2, by simp, flat_fl fs h.2⟩
  | .cons .hidden _ _, h => by simp [flatStruct] at h
  | .cons .skip _ _, h => by simp [flatStruct] at h
  | .cons (.use true _) _ _, h => by simp [flatStruct] at h
  | .cons (.use false .no) _ _, h => by simp [flatStruct] at h
  | .cons (.use false (.size _)) _ _, h => by simp [flatStruct] at h
  | .cons (.use false (.cnt _)) _ _, h => by simp [flatStruct] at h

theorem flat_vals : (fs : Fl) → flatStruct fs = true → (vs : List Val) → HasTyFl fs vs →
    (∀ f ∈ structFields fs vs, f.length < 2 ^ 32) → TupVals false fs vs ∧ (structFields fs vs).length = numFields fs
  | .nil, _, vs, hv, _ => by cases vs <;> simp only [HasTyFl] at hv; simp [TupVals, structFields, numFields]
  | .cons (.use false .none) t fs, h, vs, hv, hs => by
    simp only [flatStruct, Bool.and_eq_true] at h
    cases vs <;> simp only [HasTyFl] at hv
    rename_i v vs
    simp only [structFields, Bool.false_eq_true, if_false, List.mem_cons, forall_eq_or_imp] at hs
    obtain ⟨h1, h2⟩ := flat_vals fs h.2 vs hv.2 hs.2
    simp only [TupVals, structFields, numFields, Bool.false_eq_true, if_false, List.length_cons, h2, and_true]
    exact ⟨flat_val false t h.1 v hv.1 hs.1, h1⟩
  | .cons .hidden _ _, h, _, _, _ => by simp [flatStruct] at h
  | .cons .skip _ _, h, _, _, _ => by simp [flatStruct] at h
  | .cons (.use true _) _ _, h, _, _, _ => by simp [flatStruct] at h
  | .cons (.use false .no) _ _, h, _, _, _ => by simp [flatStruct] at h
  | .cons (.use false (.size _)) _ _, h, _, _, _ => by simp [flatStruct] at h
  | .cons (.use false (.cnt _)) _ _, h, _, _, _ => by simp [flatStruct] at h

/-- Flat types and their values can be tuples. -/
theorem flat_tup (t : Ty) (h : flat t = true) (v : Val) (hv : HasTy t v) (hs : Small t v) : TupTy t ∧ TupVal false t v := by
  cases t with
  | scal k =>
    exact ⟨by simp [TupTy], by simpa [TupVal] using flat_val false _ rfl v hv (hs.2 _ (by simp [fields]))⟩
  | str => exact ⟨by simp [TupTy], by simpa [TupVal] using flat_val false _ rfl v hv (hs.2 _ (by simp [fields]))⟩
  | arr n t =>
    simp only [flat] at h
    have : t.kind? = some .u8 := by
      unfold flatField at h
      split at h <;> simp_all [Ty.kind?]
    exact ⟨by simp [TupTy, this], by
      simp only [TupVal, this, if_true]
      exact flat_val false _ h v hv (hs.2 _ (by simp [fields, this]))⟩
  | sl t =>
    by_cases c : t.kind? = some .u8
    · refine ⟨by simp [TupTy, c], ?_⟩
      simp only [TupVal, c, if_true]
      obtain rfl := u8_field t c
      exact flat_val false _ rfl v hv (hs.2 _ (by simp [fields, c]))
    · simp only [flat] at h
      refine ⟨by simp only [TupTy, c, if_false]; exact (flat_field t h).1, ?_⟩
      simp only [TupVal, c, if_false]
      cases v <;> simp only [HasTy] at hv
      rename_i vs
      simp only [Small, fields, c, if_false, elems, List.length_map] at hs
      exact ⟨vs, rfl, hs.1, fun u hu => flat_val true t h u (hv u hu) (hs.2 _ (List.mem_map_of_mem hu))⟩
  | struct fs =>
    simp only [flat] at h
    cases v <;> simp only [HasTy] at hv
    rename_i vs
    simp only [Small, fields, elems] at hs
    obtain ⟨h1, h2⟩ := flat_vals fs h vs hv hs.2
    simp only [TupTy, TupVal]
    exact ⟨⟨flat_fl fs h, h2 ▸ hs.1⟩, vs, rfl, h1⟩
  | ptr t => simp [flat, flatField] at h

end Verif.Sbox
