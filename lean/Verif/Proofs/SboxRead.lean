import Verif.Proofs.SboxWrite
import Verif.Proofs.ReflectReader

/-! The tuple reader reads tuples back. -/
namespace Verif.Sbox
open Verif.Marshal Verif.Reflect Verif.Spec

theorem count_read (n : Nat) (h : n < 2 ^ 32) (rest : Bytes) :
    (Rd.intUint32 ⟨le 4 n ++ rest, none⟩).1 = ⟨rest, none⟩ ∧
      (Rd.intUint32 ⟨le 4 n ++ rest, none⟩).2.toInt = n := pfx_read .i32 (by simp) n h rest

theorem len_read (n : Nat) (h : n < 2 ^ 63) (rest : Bytes) :
    (Rd.intvar ⟨ber n ++ rest, none⟩).1 = ⟨rest, none⟩ ∧
      (Rd.intvar ⟨ber n ++ rest, none⟩).2.toInt = n := pfx_read .ber (by simp) n h rest

/-- The reader `x` reads the field `b` as `v`. -/
def Gets (x : TR) (z : Val) (b : Bytes) (v : Val) : Prop :=
  ∀ rest, x.withSize .ber ⟨fieldBytes b ++ rest, none⟩ z = some (⟨rest, none⟩, v)

theorem field_gets (t : Ty) (x : TR) (hx : RG (isStruct t) t x) (h : FieldTy t) (addr : Bool) (v : Val)
    (hv : FieldVal addr t v) : Gets x (zero t) (pay t v) v := fun rest =>
  withSize_ok x .ber (by simp) _ hv.2 _ v rest (hx.bs rfl h.2 addr v rest hv.1)

theorem ber_gets (t : Ty) (x : TR) (hx : RB t x) (v : Val)
    (hv : FitsBer t (.size .ber) v ∧ (berPay v).length < 2 ^ 63) : Gets x (zero t) (berPay v) v := fun rest =>
  withSize_ok x .ber (by simp) _ hv.2 _ v rest (hx.bs _ v rest hv.1)

theorem each_gets (e : TR) (t : Ty) (he : RG (isStruct t) t e) (h : FieldTy t) (addr : Bool) (rest : Bytes) :
    ∀ vs : List Val, (∀ u ∈ vs, FieldVal addr t u) →
      sizedEachR e ⟨((vs.map (pay t)).map fieldBytes).flatten ++ rest, none⟩ (List.replicate vs.length (zero t)) =
        some (⟨rest, none⟩, vs)
  | [], _ => by simp [sizedEachR]
  | v :: vs, hv => by
    have h1 := field_gets t e he h addr v (hv v (by simp)) (((vs.map (pay t)).map fieldBytes).flatten ++ rest)
    have h2 := each_gets e t he h addr rest vs fun u hu => hv u (by simp [hu])
    simp only [List.map_cons, List.flatten_cons, List.append_assoc, List.length_cons, List.replicate_succ, sizedEachR, h1, h2]

theorem one_ok (x : TR) (v z : Val) (b rest : Bytes) (hn : b.length < 2 ^ 63) (hs : x.sz = b.length)
    (h : x.fixed ⟨b ++ rest, none⟩ z = some (⟨rest, none⟩, v)) :
    fixedR x ⟨tupleBytes [b] ++ rest, none⟩ z = some (⟨rest, none⟩, v) := by
  have e : tupleBytes [b] ++ rest = le 4 1 ++ (ber b.length ++ (b ++ rest)) := by
    simp [tupleBytes, fieldBytes]
  have h1 := count_read 1 (by decide) (ber b.length ++ (b ++ rest))
  have h2 := len_read b.length hn (b ++ rest)
  have ho : oneField ⟨tupleBytes [b] ++ rest, none⟩ x.sz = (⟨b ++ rest, none⟩, true) := by
    rw [e, hs]
    unfold oneField
    rw [h1.1, h1.2, if_pos (by decide)]
    simp only [h2.1, h2.2, if_true]
  simp only [fixedR, ho, if_true, h]

/-- What the fields' readers of a struct do with the first `k` fields. -/
def GoodR (fs : Fl) (l : List (Option FR)) : Prop :=
  ∀ addr vs rest k, TupVals addr fs vs →
    structReadFlds k l ⟨(((structFields fs vs).take k).map fieldBytes).flatten ++ rest, none⟩ (zeros fs) =
      some (⟨rest, none⟩, upTo k fs vs)

theorem upTo_zero (addr : Bool) : (fs : Fl) → (vs : List Val) → TupVals addr fs vs → upTo 0 fs vs = zeros fs
  | .nil, vs, h => by simp [upTo, zeros]
  | .cons .hidden t fs, v :: vs, h => by
    simp only [TupVals] at h; simp [upTo, zeros, upTo_zero addr fs vs h.2]
  | .cons .skip t fs, v :: vs, h => by
    simp only [TupVals] at h; simp [upTo, zeros, upTo_zero addr fs vs h.2]
  | .cons (.use ber d) t fs, v :: vs, h => by
    simp only [TupVals] at h; simp [upTo, zeros, upTo_zero addr fs vs h.2]
  | .cons .hidden _ _, [], h => by simp [TupVals] at h
  | .cons .skip _ _, [], h => by simp [TupVals] at h
  | .cons (.use _ _) _ _, [], h => by simp [TupVals] at h

theorem upTo_all (addr : Bool) : (fs : Fl) → (vs : List Val) → TupVals addr fs vs → ∀ k, numFields fs ≤ k →
    upTo k fs vs = vs
  | .nil, vs, h, k, _ => by cases vs <;> simp [TupVals] at h; simp [upTo]
  | .cons .hidden t fs, v :: vs, h, k, hk => by
    simp only [TupVals] at h; simp only [numFields] at hk; simp [upTo, upTo_all addr fs vs h.2 k hk, h.1]
  | .cons .skip t fs, v :: vs, h, k, hk => by
    simp only [TupVals] at h; simp only [numFields] at hk; simp [upTo, upTo_all addr fs vs h.2 k hk, h.1]
  | .cons (.use ber d) t fs, v :: vs, h, k, hk => by
    simp only [TupVals] at h; simp only [numFields] at hk
    obtain ⟨j, rfl⟩ : ∃ j, k = j + 1 := ⟨k - 1, by omega⟩
    simp [upTo, upTo_all addr fs vs h.2 j (by omega)]
  | .cons .hidden _ _, [], h, _, _ => by simp [TupVals] at h
  | .cons .skip _ _, [], h, _, _ => by simp [TupVals] at h
  | .cons (.use _ _) _ _, [], h, _, _ => by simp [TupVals] at h

theorem goodR_none (g : Tag) (hg : g = .hidden ∨ g = .skip) (t : Ty) (fs : Fl) (l : List (Option FR)) (h : GoodR fs l) :
    GoodR (.cons g t fs) (none :: l) := by
  intro addr vs rest k hv
  rcases hg with rfl | rfl
  · cases vs <;> simp only [TupVals] at hv
    rename_i v vs
    have := h addr vs rest k hv.2
    simp only [structFields, zeros, structReadFlds, this, upTo]
  · cases vs <;> simp only [TupVals] at hv
    rename_i v vs
    have := h addr vs rest k hv.2
    simp only [structFields, zeros, structReadFlds, this, upTo]

theorem goodR_use (ber : Bool) (d d' : Dir) (t : Ty) (y : TR) (fs : Fl) (l : List (Option FR)) (h : GoodR fs l)
    (hy : ∀ addr v, (if ber then FitsBer t (.size .ber) v ∧ (berPay v).length < 2 ^ 63 else FieldVal addr t v) →
      Gets y (zero t) (if ber then berPay v else pay t v) v) :
    GoodR (.cons (.use ber d) t fs) (some ⟨y, d'⟩ :: l) := by
  intro addr vs rest k hv
  cases vs <;> simp only [TupVals] at hv
  rename_i v vs
  cases k with
  | zero => simp [zeros, structReadFlds, upTo, upTo_zero addr fs vs hv.2]
  | succ k =>
    have h1 := hy addr v hv.1 ((((structFields fs vs).take k).map fieldBytes).flatten ++ rest)
    have h2 := h addr vs rest k hv.2
    simp only [structFields, List.take_succ_cons, List.map_cons, List.flatten_cons, List.append_assoc, zeros,
      structReadFlds, h1, h2, upTo]

theorem field_rg (t : Ty) (h : FieldTy t) : ∃ x, tr t = some x ∧ RG (isStruct t) t x := tr_ok t _ h.1

theorem hidden_goodR : (fs : Fl) → onlyHidden fs = true → ∀ s b, ∃ s' l, trFl s b fs = some (s', l) ∧ GoodR fs l
  | .nil, _, s, b => ⟨s, [], by simp [trFl], by
      intro addr vs rest k hv; cases vs <;> simp [TupVals] at hv; simp [structFields, zeros, structReadFlds, upTo]⟩
  | .cons .hidden t fs, h, s, b => by
    obtain ⟨s', l, h1, h2⟩ := hidden_goodR fs (by simpa [onlyHidden] using h) s b
    exact ⟨s', none :: l, by simp [trFl, h1], goodR_none _ (.inl rfl) t fs l h2⟩
  | .cons .skip _ _, h, _, _ => by simp [onlyHidden] at h
  | .cons (.use _ _) _ _, h, _, _ => by simp [onlyHidden] at h

theorem trFl_good : (fs : Fl) → TupFl fs → ∀ s, ∃ s' l, trFl s false fs = some (s', l) ∧ GoodR fs l
  | .nil, _, s => hidden_goodR .nil rfl s false
  | .cons .hidden t fs, h, s => by
    simp only [TupFl] at h
    obtain ⟨s', l, h1, h2⟩ := trFl_good fs h s
    exact ⟨s', none :: l, by simp [trFl, h1], goodR_none _ (.inl rfl) t fs l h2⟩
  | .cons .skip t fs, h, s => by
    simp only [TupFl] at h
    obtain ⟨s', l, h1, h2⟩ := trFl_good fs h s
    exact ⟨s', none :: l, by simp [trFl, h1], goodR_none _ (.inr rfl) t fs l h2⟩
  | .cons (.use ber d) t fs, h, s => by
    simp only [TupFl] at h
    obtain ⟨ht, hz, hn, hr⟩ := h
    have rest : ∀ s, ∃ s' l, trFl s (decide (d = .no)) fs = some (s', l) ∧ GoodR fs l := by
      intro s
      by_cases c : d = .no
      · exact hidden_goodR fs (hn c) s _
      · simp only [c, decide_false]; exact trFl_good fs hr s
    have key : ∃ x y, tr t = some x ∧ x.sz = codeSz t ∧ (if ber then berForR t else some x) = some y ∧
        ∀ addr v, (if ber then FitsBer t (.size .ber) v ∧ (berPay v).length < 2 ^ 63 else FieldVal addr t v) →
          Gets y (zero t) (if ber then berPay v else pay t v) v := by
      cases ber
      · simp only [Bool.false_eq_true, if_false] at ht ⊢
        obtain ⟨x, h1, h2⟩ := field_rg t ht
        exact ⟨x, x, h1, h2.sz, rfl, fun addr v hv => field_gets t x h2 ht addr v hv⟩
      · simp only [if_true] at ht ⊢
        obtain ⟨x, h1, h2⟩ := tr_ok t false (berable_wg t ht)
        obtain ⟨y, h3, h4⟩ := rb_for t ht
        exact ⟨x, y, h1, h2.sz, h3, fun addr v hv => ber_gets t y h4 v hv⟩
    obtain ⟨x, y, hx, hsz, hy, hadd⟩ := key
    have h0 : ¬ (x.sz = 0 ∧ d.bare = true) := fun ⟨a, b⟩ => hz b (hsz ▸ a)
    simp only [trFl, Bool.false_eq_true, if_false, hx, hy]
    rw [if_neg h0]
    obtain ⟨s', l, h1, h2⟩ := rest (if 0 ≤ dirSize x.sz x.cnt d (if ber = true then -1 else s) then
      dirSize x.sz x.cnt d (if ber = true then -1 else s) + x.sz else dirSize x.sz x.cnt d (if ber = true then -1 else s))
    exact ⟨s', some ⟨y, d⟩ :: l, by rw [h1], goodR_use ber d d t y fs l h2 hadd⟩

theorem tr_ptr (t : Ty) (x : TR) (h : tr t = some x) : ∃ y, tr (.ptr t) = some y := ⟨_, by simp only [tr, h]; rfl⟩

theorem tr_some : (t : Ty) → TupTy t → ∃ x, tr t = some x
  | .scal k, _ => ⟨_, by simp only [tr]; rfl⟩
  | .str, _ => ⟨_, by simp only [tr]; rfl⟩
  | .arr n t, h => by
    simp only [TupTy] at h
    by_cases c : t.kind? = some .u8
    · rw [u8_field t c]; exact ⟨_, by simp only [tr]; rfl⟩
    · rw [if_neg c] at h
      obtain ⟨x, h1, _⟩ := field_rg t h
      exact ⟨_, by simp only [tr, h1]; rfl⟩
  | .sl t, h => by
    simp only [TupTy] at h
    by_cases c : t.kind? = some .u8
    · rw [u8_field t c]; exact ⟨_, by simp only [tr]; rfl⟩
    · rw [if_neg c] at h
      obtain ⟨x, h1, _⟩ := field_rg t h
      exact ⟨_, by simp only [tr, h1]; rfl⟩
  | .struct fs, h => by
    simp only [TupTy] at h
    obtain ⟨s, l, h1, _⟩ := trFl_good fs h.1 0
    exact ⟨_, by simp only [tr, h1]; rfl⟩
  | .ptr t, h => by
    simp only [TupTy] at h
    obtain ⟨x, h1⟩ := tr_some t h
    exact tr_ptr t x h1

/-- A struct is read from a tuple of `k` of its fields; of a longer tuple the surplus is left. -/
theorem struct_gets (fs : Fl) (h : TupFl fs) : ∃ l, tupR (.struct fs) = some (structRd l) ∧
    ∀ addr vs k, TupVals addr fs vs → k < 2 ^ 32 → ∀ rest,
      structRd l ⟨le 4 k ++ ((((structFields fs vs).take k).map fieldBytes).flatten ++ rest), none⟩ (zero (.struct fs)) =
        some (⟨rest, none⟩, .seq (upTo k fs vs)) := by
  obtain ⟨s, l, h1, h2⟩ := trFl_good fs h 0
  refine ⟨l, by simp only [tupR, h1], ?_⟩
  intro addr vs k hv hk rest
  have hc := count_read k hk ((((structFields fs vs).take k).map fieldBytes).flatten ++ rest)
  simp only [structRd, zero, hc.1, hc.2, Int.toNat_natCast, h2 addr vs rest k hv]

theorem str_gets (b rest : Bytes) (hb : b.length < 2 ^ 63) (z : Val) :
    stringR ⟨tupleBytes [b] ++ rest, none⟩ z = some (⟨rest, none⟩, .str b) := by
  have e : tupleBytes [b] ++ rest = le 4 1 ++ (ber b.length ++ (b ++ rest)) := by
    simp [tupleBytes, fieldBytes]
  have h1 := count_read 1 (by decide) (ber b.length ++ (b ++ rest))
  have h2 := len_read b.length hb (b ++ rest)
  rw [e]
  unfold stringR
  rw [h1.1, h1.2, if_pos (by decide)]
  simp only [h2.1, h2.2, setString, slice_ok]

/-- The reader of a tuple type reads the tuple. -/
theorem tupR_ok : (t : Ty) → TupTy t → ∃ f, tupR t = some f ∧
    ∀ addr v rest, TupVal addr t v → f ⟨tupleBytes (fields t v) ++ rest, none⟩ (zero t) = some (⟨rest, none⟩, v)
  | .scal k, _ => by
    refine ⟨fixedR (scalR k), by simp [tupR], ?_⟩
    intro addr v rest hv
    simp only [TupVal] at hv
    have hx := rg_scal false k
    have hl := pay_len (.scal k) (width k) v addr (by simp [size?]) hv.1
    exact one_ok (scalR k) v _ _ rest hv.2 (by rw [hl]; simpa [codeSz] using hx.sz)
      (hx.fx (.inl rfl) (by simp) addr v rest hv.1)
  | .str, _ => by
    refine ⟨stringR, by simp [tupR], ?_⟩
    intro addr v rest hv
    simp only [TupVal, FieldVal] at hv
    cases v <;> simp only [Fits, false_and] at hv
    rename_i b
    simp only [fields, pay] at hv ⊢
    exact str_gets b rest hv.2 _
  | .arr n t, h => by
    simp only [TupTy] at h
    by_cases c : t.kind? = some .u8
    · obtain rfl := u8_field t c
      obtain ⟨x, h1, h2⟩ := tr_ok (.arr n (.scal .u8)) false (by simp [Sound])
      obtain ⟨e, h3, _⟩ := tr_ok (.scal .u8) false (by simp [Sound])
      refine ⟨fixedR x, by simp only [tupR, h1, h3, c, if_true], ?_⟩
      intro addr v rest hv
      simp only [TupVal, c, if_true] at hv
      simp only [fields, c, if_true]
      have hl := pay_len (.arr n (.scal .u8)) (n * 1) v addr (by simp [size?, width]) hv.1
      exact one_ok x v _ _ rest hv.2 (by rw [hl, h2.sz]; simp [codeSz, width])
        (h2.fx (.inl rfl) (by simp) addr v rest hv.1)
    · rw [if_neg c] at h
      obtain ⟨e, h3, h4⟩ := field_rg t h
      obtain ⟨x, h1⟩ : ∃ x, tr (.arr n t) = some x := ⟨_, by simp only [tr, h3]; rfl⟩
      refine ⟨arrayR e, by simp only [tupR, h1, h3, c, if_false], ?_⟩
      intro addr v rest hv
      simp only [TupVal, c, if_false] at hv
      obtain ⟨vs, rfl, hl, hn, hv⟩ := hv
      simp only [fields, c, if_false, elems, zero, arrayR, tupleBytes, List.length_map, List.append_assoc,
        List.length_replicate]
      have hc := count_read vs.length (hl ▸ hn) (((vs.map (pay t)).map fieldBytes).flatten ++ rest)
      have he := each_gets e t h4 h addr rest vs hv
      rw [hl] at he hc
      rw [hl, hc.1, hc.2, if_neg (by omega), if_pos rfl, he]
  | .sl t, h => by
    simp only [TupTy] at h
    by_cases c : t.kind? = some .u8
    · obtain rfl := u8_field t c
      have hft : FieldTy (.sl (.scal .u8)) :=
        ⟨by simp [Sound, bulky, codeSz, width, wideScal], by right; simp [exact, codeSz, size?, asSz]⟩
      obtain ⟨x, h1, h2⟩ := field_rg _ hft
      obtain ⟨e, h3, _⟩ := tr_ok (.scal .u8) false (by simp [Sound])
      refine ⟨bytesR x, by simp only [tupR, h1, h3, c, if_true], ?_⟩
      intro addr v rest hv
      simp only [TupVal, c, if_true] at hv
      have hg := field_gets _ x h2 hft addr v hv rest
      have e : tupleBytes (fields (.sl (.scal .u8)) v) ++ rest =
          le 4 1 ++ (fieldBytes (pay (.sl (.scal .u8)) v) ++ rest) := by
        simp [fields, c, tupleBytes]
      have hc := count_read 1 (by decide) (fieldBytes (pay (.sl (.scal .u8)) v) ++ rest)
      rw [e]
      unfold bytesR
      rw [hc.1, hc.2, if_pos (by decide)]
      exact hg
    · rw [if_neg c] at h
      obtain ⟨e, h3, h4⟩ := field_rg t h
      obtain ⟨x, h1⟩ : ∃ x, tr (.sl t) = some x := ⟨_, by simp only [tr, h3]; rfl⟩
      refine ⟨sliceR e (zero t), by simp only [tupR, h1, h3, c, if_false], ?_⟩
      intro addr v rest hv
      simp only [TupVal, c, if_false] at hv
      obtain ⟨vs, rfl, hn, hv⟩ := hv
      have hc := count_read vs.length hn (((vs.map (pay t)).map fieldBytes).flatten ++ rest)
      have he := each_gets e t h4 h true rest vs hv
      simp only [fields, c, if_false, elems, tupleBytes, List.length_map, List.append_assoc, sliceR, hc.1, hc.2,
        Int.toNat_natCast, he]
  | .struct fs, h => by
    simp only [TupTy] at h
    obtain ⟨l, h1, h2⟩ := struct_gets fs h.1
    refine ⟨_, h1, ?_⟩
    intro addr v rest hv
    simp only [TupVal] at hv
    obtain ⟨vs, rfl, hv⟩ := hv
    have hl := fields_count addr fs vs hv
    have := h2 addr vs (numFields fs) hv h.2 rest
    rw [upTo_all addr fs vs hv _ (Nat.le_refl _), ← hl, List.take_length] at this
    simpa [fields, elems, tupleBytes] using this
  | .ptr t, h => by
    simp only [TupTy] at h
    obtain ⟨f, h1, h2⟩ := tupR_ok t h
    obtain ⟨x, h3⟩ := tr_some t h
    obtain ⟨y, h4⟩ := tr_ptr t x h3
    refine ⟨_, by simp only [tupR, h1, h4]; rfl, ?_⟩
    intro addr v rest hv
    cases v <;> simp only [TupVal] at hv
    rename_i u
    have := h2 true u rest hv
    simp only [fields, zero, this]

end Verif.Sbox
