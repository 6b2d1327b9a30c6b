import Verif.Spec.Sbox
import Verif.Proofs.ReflectWriter

/-! The tuple writer keeps to the layout of tuples. -/
namespace Verif.Sbox
open Verif.Marshal Verif.Reflect Verif.Spec

/-- The function `f` appends `b`. -/
def Adds (f : Wr → Option Wr) (b : Bytes) : Prop := ∀ w, Wr.Ok w → ∃ w', f w = some w' ∧ Wr.Ext w w' b

/-- The writer `x` writes values of `t` as fields. -/
theorem field_adds (t : Ty) (x : TW) (hx : WG t x) (h : FieldTy t) (addr : Bool) (v : Val) (hv : FieldVal addr t v) :
    Adds (x.withSize .ber addr v) (fieldBytes (pay t v)) := fun w hw =>
  withSize_ext x .ber (by simp) addr v w _ hw (hx.size h.2 addr v hv.1) hv.2 fun w hw => hx.wr addr v w hw hv.1

theorem ber_adds (t : Ty) (x : TW) (hx : WB t x) (addr : Bool) (v : Val)
    (hv : FitsBer t (.size .ber) v ∧ (berPay v).length < 2 ^ 63) :
    Adds (x.withSize .ber addr v) (fieldBytes (berPay v)) := fun w hw =>
  withSize_ext x .ber (by simp) addr v w _ hw (fun _ => hx.size .ber v hv.1) hv.2 fun w hw => hx.wr addr _ v w hw hv.1

theorem count_adds (n : Nat) (h : n < 2 ^ 32) : Adds (fun w => Pfx.i32.write w (Int64.ofNat n)) (le 4 n) :=
  fun w hw => pfx_write w hw .i32 (by simp) n h

theorem adds_bind {k f g : Wr → Option Wr} {a b : Bytes} (hf : Adds f a) (hg : Adds g b)
    (hk : ∀ w, k w = (f w).bind g) : Adds k (a ++ b) := by
  intro w hw
  obtain ⟨w1, h1, e1⟩ := hf w hw
  obtain ⟨w2, h2, e2⟩ := hg w1 e1.ok
  exact ⟨w2, by simp [hk, h1, h2], ext_trans e1 e2⟩

theorem adds_nil : Adds some [] := fun w hw => ⟨w, rfl, ext_refl hw⟩

theorem one_adds (x : TW) (addr : Bool) (v : Val) (b : Bytes) (h : Adds (x.withSize .ber addr v) (fieldBytes b)) :
    Adds (oneW x addr v) (tupleBytes [b]) := by
  have := adds_bind (k := oneW x addr v) (count_adds 1 (by decide)) h
    (fun w => by show oneW x addr v w = (Pfx.i32.write w 1).bind _; unfold oneW; cases Pfx.i32.write w 1 <;> rfl)
  simpa [tupleBytes] using this

theorem each_adds (e : TW) (addr : Bool) (t : Ty) (he : WG t e) (h : FieldTy t) :
    ∀ vs : List Val, (∀ u ∈ vs, FieldVal addr t u) →
      Adds (sizedEach e addr vs) ((vs.map (pay t)).map fieldBytes).flatten
  | [], _ => adds_nil
  | v :: vs, hv => by
    have := adds_bind (k := sizedEach e addr (v :: vs)) (field_adds t e he h addr v (hv v (by simp)))
      (each_adds e addr t he h vs fun u hu => hv u (by simp [hu]))
      (fun w => by unfold sizedEach; cases e.withSize .ber addr v w <;> rfl)
    simpa using this

theorem eachW_adds (e : TW) (addr : Bool) (t : Ty) (he : WG t e) (h : FieldTy t) (vs : List Val)
    (hn : vs.length < 2 ^ 32) (hv : ∀ u ∈ vs, FieldVal addr t u) :
    Adds (eachW e addr (.seq vs)) (tupleBytes (vs.map (pay t))) := by
  have := adds_bind (k := eachW e addr (.seq vs)) (count_adds vs.length hn) (each_adds e addr t he h vs hv)
    (fun w => by simp only [eachW]; cases Pfx.i32.write w (Int64.ofNat vs.length) <;> rfl)
  simpa [tupleBytes] using this

/-- What the fields' writers of a struct do. -/
structure GoodW (fs : Fl) (l : List (Option FW)) : Prop where
  count : fldCount l = numFields fs
  adds : ∀ addr vs, TupVals addr fs vs → Adds (sizedFlds addr l vs) ((structFields fs vs).map fieldBytes).flatten

theorem goodW_none (g : Tag) (hg : g = .hidden ∨ g = .skip) (t : Ty) (fs : Fl) (l : List (Option FW)) (h : GoodW fs l) :
    GoodW (.cons g t fs) (none :: l) := by
  obtain ⟨hc, ha⟩ := h
  refine ⟨?_, ?_⟩
  · rcases hg with rfl | rfl <;> simpa [fldCount, numFields] using hc
  · intro addr vs hv
    rcases hg with rfl | rfl
    · cases vs <;> simp only [TupVals] at hv
      simpa [sizedFlds, structFields] using ha addr _ hv.2
    · cases vs <;> simp only [TupVals] at hv
      simpa [sizedFlds, structFields] using ha addr _ hv.2

theorem goodW_use (ber : Bool) (d d' : Dir) (t : Ty) (y : TW) (fs : Fl) (l : List (Option FW)) (h : GoodW fs l)
    (hy : ∀ addr v, (if ber then FitsBer t (.size .ber) v ∧ (berPay v).length < 2 ^ 63 else FieldVal addr t v) →
      Adds (y.withSize .ber addr v) (fieldBytes (if ber then berPay v else pay t v))) :
    GoodW (.cons (.use ber d) t fs) (some ⟨y, d'⟩ :: l) := by
  obtain ⟨hc, ha⟩ := h
  refine ⟨by simpa [fldCount, numFields] using hc, ?_⟩
  intro addr vs hv
  cases vs <;> simp only [TupVals] at hv
  rename_i v vs
  have := adds_bind (k := sizedFlds addr (some ⟨y, d'⟩ :: l) (v :: vs)) (hy addr v hv.1) (ha addr vs hv.2)
    (fun w => by simp only [sizedFlds]; cases y.withSize .ber addr v w <;> rfl)
  simpa [structFields] using this

theorem field_wg (t : Ty) (h : FieldTy t) : ∃ x, tw t = some x ∧ WG t x := tw_ok t _ h.1

theorem hidden_goodW : (fs : Fl) → onlyHidden fs = true → ∀ s b, ∃ s' l, twFl s b fs = some (s', l) ∧ GoodW fs l
  | .nil, _, s, b => ⟨s, [], by simp [twFl], by simp [fldCount, numFields], by
      intro addr vs hv; cases vs <;> simp only [TupVals] at hv; exact adds_nil⟩
  | .cons .hidden t fs, h, s, b => by
    obtain ⟨s', l, h1, h2⟩ := hidden_goodW fs (by simpa [onlyHidden] using h) s b
    exact ⟨s', none :: l, by simp [twFl, h1], goodW_none _ (.inl rfl) t fs l h2⟩
  | .cons .skip _ _, h, _, _ => by simp [onlyHidden] at h
  | .cons (.use _ _) _ _, h, _, _ => by simp [onlyHidden] at h

theorem twFl_good : (fs : Fl) → TupFl fs → ∀ s, ∃ s' l, twFl s false fs = some (s', l) ∧ GoodW fs l
  | .nil, _, s => hidden_goodW .nil rfl s false
  | .cons .hidden t fs, h, s => by
    simp only [TupFl] at h
    obtain ⟨s', l, h1, h2⟩ := twFl_good fs h s
    exact ⟨s', none :: l, by simp [twFl, h1], goodW_none _ (.inl rfl) t fs l h2⟩
  | .cons .skip t fs, h, s => by
    simp only [TupFl] at h
    obtain ⟨s', l, h1, h2⟩ := twFl_good fs h s
    exact ⟨s', none :: l, by simp [twFl, h1], goodW_none _ (.inr rfl) t fs l h2⟩
  | .cons (.use ber d) t fs, h, s => by
    simp only [TupFl] at h
    obtain ⟨ht, hz, hn, hr⟩ := h
    have rest : ∀ s, ∃ s' l, twFl s (decide (d = .no)) fs = some (s', l) ∧ GoodW fs l := by
      intro s
      by_cases c : d = .no
      · exact hidden_goodW fs (hn c) s _
      · simp only [c, decide_false]; exact twFl_good fs hr s
    have key : ∃ x y, tw t = some x ∧ x.sz = codeSz t ∧ (if ber then berFor t else some x) = some y ∧
        ∀ addr v, (if ber then FitsBer t (.size .ber) v ∧ (berPay v).length < 2 ^ 63 else FieldVal addr t v) →
          Adds (y.withSize .ber addr v) (fieldBytes (if ber then berPay v else pay t v)) := by
      cases ber
      · simp only [Bool.false_eq_true, if_false] at ht ⊢
        obtain ⟨x, h1, h2⟩ := field_wg t ht
        exact ⟨x, x, h1, h2.sz, rfl, fun addr v hv => field_adds t x h2 ht addr v hv⟩
      · simp only [if_true] at ht ⊢
        obtain ⟨x, h1, h2⟩ := tw_ok t false (berable_wg t ht)
        obtain ⟨y, h3, h4⟩ := wb_for t ht
        exact ⟨x, y, h1, h2.sz, h3, fun addr v hv => ber_adds t y h4 addr v hv⟩
    obtain ⟨x, y, hx, hsz, hy, hadd⟩ := key
    have h0 : ¬ (x.sz = 0 ∧ d.bare = true) := fun ⟨a, b⟩ => hz b (hsz ▸ a)
    simp only [twFl, Bool.false_eq_true, if_false, hx, hy]
    rw [if_neg h0]
    obtain ⟨s', l, h1, h2⟩ := rest (if 0 ≤ dirSize x.sz x.cnt d (if ber = true then -1 else s) then
      dirSize x.sz x.cnt d (if ber = true then -1 else s) + x.sz else dirSize x.sz x.cnt d (if ber = true then -1 else s))
    exact ⟨s', some ⟨y, d⟩ :: l, by rw [h1], goodW_use ber d d t y fs l h2 hadd⟩

theorem fields_count (addr : Bool) : (fs : Fl) → (vs : List Val) → TupVals addr fs vs →
    (structFields fs vs).length = numFields fs
  | .nil, vs, h => by simp [structFields, numFields]
  | .cons .hidden t fs, v :: vs, h => by
    simp only [TupVals] at h; simpa [structFields, numFields] using fields_count addr fs vs h.2
  | .cons .skip t fs, v :: vs, h => by
    simp only [TupVals] at h; simpa [structFields, numFields] using fields_count addr fs vs h.2
  | .cons (.use ber d) t fs, v :: vs, h => by
    simp only [TupVals] at h; simpa [structFields, numFields] using fields_count addr fs vs h.2
  | .cons .hidden _ _, [], h => by simp [TupVals] at h
  | .cons .skip _ _, [], h => by simp [TupVals] at h
  | .cons (.use _ _) _ _, [], h => by simp [TupVals] at h

theorem u8_field (t : Ty) (h : t.kind? = some .u8) : t = .scal .u8 := by
  cases t <;> simp_all [Ty.kind?]

theorem tw_ptr (t : Ty) (x : TW) (h : tw t = some x) : ∃ y, tw (.ptr t) = some y := ⟨_, by simp only [tw, h]; rfl⟩

/-- Every tuple type has a codec. -/
theorem tw_some : (t : Ty) → TupTy t → ∃ x, tw t = some x
  | .scal k, _ => ⟨_, by simp only [tw]; rfl⟩
  | .str, _ => ⟨_, by simp only [tw]; rfl⟩
  | .arr n t, h => by
    simp only [TupTy] at h
    by_cases c : t.kind? = some .u8
    · rw [u8_field t c]; exact ⟨_, by simp only [tw]; rfl⟩
    · rw [if_neg c] at h
      obtain ⟨x, h1, _⟩ := field_wg t h
      exact ⟨_, by simp only [tw, h1]; rfl⟩
  | .sl t, h => by
    simp only [TupTy] at h
    by_cases c : t.kind? = some .u8
    · rw [u8_field t c]; exact ⟨_, by simp only [tw]; rfl⟩
    · rw [if_neg c] at h
      obtain ⟨x, h1, _⟩ := field_wg t h
      exact ⟨_, by simp only [tw, h1]; rfl⟩
  | .struct fs, h => by
    simp only [TupTy] at h
    obtain ⟨s, l, h1, _⟩ := twFl_good fs h.1 0
    exact ⟨_, by simp only [tw, h1]; rfl⟩
  | .ptr t, h => by
    simp only [TupTy] at h
    obtain ⟨x, h1⟩ := tw_some t h
    exact tw_ptr t x h1

/-- The writer of a tuple type writes the tuple. -/
theorem tupW_ok : (t : Ty) → TupTy t → ∃ f, tupW t = some f ∧
    ∀ addr v, TupVal addr t v → Adds (f addr v) (tupleBytes (fields t v))
  | .scal k, _ => ⟨oneW (scalW k), by simp [tupW], fun addr v hv => one_adds _ addr v _
      (field_adds (.scal k) (scalW k) (wg_scal k) ⟨by simp [Sound], by right; simp [exact, codeSz, size?, asSz]⟩ addr v hv)⟩
  | .str, _ => ⟨oneW strW, by simp [tupW], fun addr v hv => one_adds _ addr v _
      (field_adds .str strW wg_str ⟨by simp [Sound], by left; simp [codeSz]⟩ addr v hv)⟩
  | .arr n t, h => by
    simp only [TupTy] at h
    by_cases c : t.kind? = some .u8
    · obtain rfl := u8_field t c
      have hft : FieldTy (.arr n (.scal .u8)) := ⟨by simp [Sound], by right; simp [exact, codeSz, size?, asSz]⟩
      obtain ⟨x, h1, h2⟩ := field_wg _ hft
      obtain ⟨e, h3, _⟩ := tw_ok (.scal .u8) false (by simp [Sound])
      refine ⟨oneW x, by simp only [tupW, h1, h3, c, if_true], ?_⟩
      intro addr v hv
      simp only [TupVal, c, if_true] at hv
      simp only [fields, c, if_true]
      exact one_adds x addr v _ (field_adds _ x h2 hft addr v hv)
    · rw [if_neg c] at h
      obtain ⟨e, h3, h4⟩ := field_wg t h
      obtain ⟨x, h1⟩ : ∃ x, tw (.arr n t) = some x := ⟨_, by simp only [tw, h3]; rfl⟩
      refine ⟨eachW e, by simp only [tupW, h1, h3, c, if_false], ?_⟩
      intro addr v hv
      simp only [TupVal, c, if_false] at hv
      obtain ⟨vs, rfl, hl, hn, hv⟩ := hv
      simp only [fields, c, if_false, elems]
      exact eachW_adds e addr t h4 h vs (hl ▸ hn) hv
  | .sl t, h => by
    simp only [TupTy] at h
    by_cases c : t.kind? = some .u8
    · obtain rfl := u8_field t c
      have hft : FieldTy (.sl (.scal .u8)) :=
        ⟨by simp [Sound, bulky, codeSz, width, wideScal], by right; simp [exact, codeSz, size?, asSz]⟩
      obtain ⟨x, h1, h2⟩ := field_wg _ hft
      obtain ⟨e, h3, _⟩ := tw_ok (.scal .u8) false (by simp [Sound])
      refine ⟨oneW x, by simp only [tupW, h1, h3, c, if_true], ?_⟩
      intro addr v hv
      simp only [TupVal, c, if_true] at hv
      simp only [fields, c, if_true]
      exact one_adds x addr v _ (field_adds _ x h2 hft addr v hv)
    · rw [if_neg c] at h
      obtain ⟨e, h3, h4⟩ := field_wg t h
      obtain ⟨x, h1⟩ : ∃ x, tw (.sl t) = some x := ⟨_, by simp only [tw, h3]; rfl⟩
      refine ⟨fun _ => eachW e true, by simp only [tupW, h1, h3, c, if_false], ?_⟩
      intro addr v hv
      simp only [TupVal, c, if_false] at hv
      obtain ⟨vs, rfl, hn, hv⟩ := hv
      simp only [fields, c, if_false, elems]
      exact eachW_adds e true t h4 h vs hn hv
  | .struct fs, h => by
    simp only [TupTy] at h
    obtain ⟨s, l, h1, h2⟩ := twFl_good fs h.1 0
    refine ⟨structWr l, by simp only [tupW, h1], ?_⟩
    intro addr v hv
    simp only [TupVal] at hv
    obtain ⟨vs, rfl, hv⟩ := hv
    have hl := fields_count addr fs vs hv
    have := adds_bind (k := structWr l addr (.seq vs)) (count_adds (fldCount l) (by rw [h2.count]; exact h.2))
      (h2.adds addr vs hv)
      (fun w => by simp only [structWr]; cases Pfx.i32.write w (Int64.ofNat (fldCount l)) <;> rfl)
    simpa [fields, elems, tupleBytes, hl, h2.count] using this
  | .ptr t, h => by
    simp only [TupTy] at h
    obtain ⟨f, h1, h2⟩ := tupW_ok t h
    obtain ⟨x, h3⟩ := tw_some t h
    obtain ⟨y, h4⟩ := tw_ptr t x h3
    refine ⟨_, by simp only [tupW, h1, h4]; rfl, ?_⟩
    intro addr v hv
    cases v <;> simp only [TupVal] at hv
    rename_i u
    exact h2 true u hv

/-! ### Interfaces -/

theorem fldW_adds : (f : Fld) → FldOk f → Adds (fldW f) (fieldBytes (fldBytes f))
  | none, h => by simp [FldOk] at h
  | some (t, v), h => by
    simp only [FldOk] at h
    obtain ⟨x, h1, h2⟩ := field_wg t h.1
    have e : fldW (some (t, v)) = x.withSize .ber false v := by funext w; simp only [fldW, h1]
    rw [e]
    exact field_adds t x h2 h.1 false v h.2

theorem fldsW_adds : (fs : List Fld) → (∀ f ∈ fs, FldOk f) →
    Adds (fldsW fs) ((fs.map fldBytes).map fieldBytes).flatten
  | [], _ => adds_nil
  | f :: fs, h => by
    have := adds_bind (k := fldsW (f :: fs)) (fldW_adds f (h f (by simp)))
      (fldsW_adds fs fun u hu => h u (by simp [hu]))
      (fun w => by simp only [fldsW]; cases fldW f w <;> rfl)
    simpa using this

theorem tuple_adds : (t : Tup) → TupOk t → Adds (tuple t) (tupleBytes (tupFields t))
  | .nil, h => by simp [TupOk] at h
  | .val t v, h => by
    simp only [TupOk] at h
    obtain ⟨f, h1, h2⟩ := tupW_ok t h.1
    have e : tuple (.val t v) = f false v := by funext w; simp only [tuple, h1]
    rw [e]
    exact h2 false v h.2
  | .list fs, h => by
    simp only [TupOk] at h
    have := adds_bind (k := tuple (.list fs)) (count_adds fs.length h.1) (fldsW_adds fs h.2)
      (fun w => by simp only [tuple]; cases Pfx.i32.write w (Int64.ofNat fs.length) <;> rfl)
    simpa [tupFields, tupleBytes] using this

theorem tuplesW_adds : (ts : List Tup) → (∀ t ∈ ts, TupOk t) →
    Adds (tuplesW ts) ((ts.map tupFields).map tupleBytes).flatten
  | [], _ => adds_nil
  | t :: ts, h => by
    have := adds_bind (k := tuplesW (t :: ts)) (tuple_adds t (h t (by simp)))
      (tuplesW_adds ts fun u hu => h u (by simp [hu]))
      (fun w => by simp only [tuplesW]; cases tuple t w <;> rfl)
    simpa using this

/-! ### Keys -/

theorem keysEach_adds (f : Val → Wr → Option Wr) (t : Ty) :
    (vs : List Val) → (∀ u ∈ vs, Adds (f u) (tupleBytes (fields t u))) →
    Adds (keysEach f vs) ((vs.map (fields t)).map tupleBytes).flatten
  | [], _ => adds_nil
  | v :: vs, h => by
    have := adds_bind (k := keysEach f (v :: vs)) (h v (by simp))
      (keysEach_adds f t vs fun u hu => h u (by simp [hu]))
      (fun w => by simp only [keysEach]; cases f v w <;> rfl)
    simpa using this

/-- Keys of a type other than `[]byte`. -/
theorem keysVal_adds (addr : Bool) (t : Ty) (v : Val) (h : KeyVal false addr t v) :
    Adds (keysVal addr t v) ((keyTuples false t v).map tupleBytes).flatten ∧
      countKeysVal t v = some (keyTuples false t v).length := by
  have single : ∀ t : Ty, TupTy t → TupVal addr t v →
      (∀ w, keysVal addr t v w = match tupW t with | none => none | some f => f addr v w) →
      Adds (keysVal addr t v) (tupleBytes (fields t v)) := by
    intro t h1 h2 h3
    obtain ⟨f, hf, ha⟩ := tupW_ok t h1
    have e : keysVal addr t v = f addr v := by funext w; rw [h3]; simp only [hf]
    rw [e]
    exact ha addr v h2
  cases t with
  | scal k =>
    simp only [KeyVal] at h
    exact ⟨by simpa [keyTuples] using single _ h.1 h.2 (fun w => rfl), rfl⟩
  | str =>
    simp only [KeyVal] at h
    exact ⟨by simpa [keyTuples] using single _ h.1 h.2 (fun w => rfl), rfl⟩
  | struct fs =>
    simp only [KeyVal] at h
    exact ⟨by simpa [keyTuples] using single _ h.1 h.2 (fun w => rfl), rfl⟩
  | arr n e =>
    simp only [KeyVal] at h
    obtain ⟨vs, rfl, hn, h1, h2⟩ := h
    obtain ⟨f, hf, ha⟩ := tupW_ok e h1
    have eq : keysVal addr (.arr n e) (.seq vs) = keysEach (f addr) vs := by funext w; simp only [keysVal, hf]
    rw [eq]
    exact ⟨by simpa [keyTuples, elems] using keysEach_adds (f addr) e vs fun u hu => ha addr u (h2 u hu),
      by simp [countKeysVal, keyTuples, elems, hn]⟩
  | sl e =>
    simp only [KeyVal, Bool.false_and, Bool.false_eq_true, if_false] at h
    obtain ⟨vs, rfl, h1, h2⟩ := h
    obtain ⟨f, hf, ha⟩ := tupW_ok e h1
    have eq : keysVal addr (.sl e) (.seq vs) = keysEach (f true) vs := by funext w; simp only [keysVal, hf]
    rw [eq]
    exact ⟨by simpa [keyTuples, elems] using keysEach_adds (f true) e vs fun u hu => ha true u (h2 u hu),
      by simp [countKeysVal, keyTuples, elems, vlen]⟩
  | ptr t => simp [KeyVal] at h

theorem keysTy_plain (t : Ty) (h : ∀ u, t ≠ .ptr u) (h8 : t ≠ .sl (.scal .u8)) (v : Val) :
    keysTy t v = keysVal false t v ∧ countKeysTy t v = countKeysVal t v := by
  constructor
  · funext w
    unfold keysTy
    split
    · simp at h8
    · exact absurd rfl (h _)
    · exact absurd rfl (h _)
    · rfl
  · unfold countKeysTy
    split
    · simp at h8
    · exact absurd rfl (h _)
    · exact absurd rfl (h _)
    · rfl

theorem keyVal_one (t : Ty) (h8 : t ≠ .sl (.scal .u8)) (addr : Bool) (v : Val) :
    (KeyVal true addr t v → KeyVal false addr t v) ∧ keyTuples true t v = keyTuples false t v := by
  cases t with
  | sl e =>
    have c : ¬ e.kind? = some .u8 := fun c => h8 (by rw [u8_field e c])
    simp [KeyVal, keyTuples, c]
  | _ => simp [KeyVal, keyTuples]

theorem keysTy_adds (t : Ty) (v : Val) (h : KeysOk (.val t v)) :
    Adds (keysTy t v) ((keysOf (.val t v)).map tupleBytes).flatten ∧
      countKeysTy t v = some (keysOf (.val t v)).length := by
  by_cases h8 : t = .sl (.scal .u8)
  · subst h8
    simp only [KeysOk, KeyVal, Ty.kind?, decide_true, Bool.and_self, if_true] at h
    obtain ⟨f, hf, ha⟩ := tupW_ok (.sl (.scal .u8)) (by simp [TupTy, Ty.kind?])
    have e : keysTy (.sl (.scal .u8)) v = f false v := by funext w; simp only [keysTy, hf]
    rw [e]
    exact ⟨by simpa [keysOf, keyTuples, Ty.kind?] using ha false v h, by simp [countKeysTy, keysOf, keyTuples, Ty.kind?]⟩
  · by_cases hp : ∃ u, t = .ptr u
    · obtain ⟨u, rfl⟩ := hp
      cases v with
      | ref x =>
        simp only [KeysOk] at h
        have := keysVal_adds true u x h
        exact ⟨this.1, this.2⟩
      | _ => simp [KeysOk, KeyVal] at h
    · have hp' : ∀ u, t ≠ .ptr u := fun u c => hp ⟨u, c⟩
      have hk : KeyVal true false t v := by
        cases t <;> simp only [KeysOk] at h <;> first | exact h | exact absurd rfl (hp' _)
      have ho : keysOf (.val t v) = keyTuples true t v := by
        cases t <;> first | rfl | exact absurd rfl (hp' _)
      have := keysVal_adds false t v ((keyVal_one t h8 false v).1 hk)
      rw [(keysTy_plain t hp' h8 v).1, (keysTy_plain t hp' h8 v).2, ho, (keyVal_one t h8 false v).2]
      exact this

theorem oneKey_count (t : Tup) (h : oneKey t = true) (hk : TupOk t) : countTup t = some 1 := by
  cases t with
  | nil => simp [oneKey] at h
  | list fs => simp [oneKey] at h
  | val t v =>
    simp only [countTup]
    cases t with
    | scal k => rfl
    | str => rfl
    | struct fs => rfl
    | arr n e => simp [oneKey] at h
    | sl e =>
      simp only [oneKey, decide_eq_true_eq] at h
      rw [u8_field e h]; rfl
    | ptr t =>
      simp only [TupOk] at hk
      cases v <;> simp only [TupVal, and_false] at hk
      cases t <;> simp [oneKey] at h <;> rfl

theorem countTups_eq : (ts : List Tup) → (∀ t ∈ ts, TupOk t ∧ oneKey t = true) → countTups ts = some ts.length
  | [], _ => rfl
  | t :: ts, h => by
    have h1 := oneKey_count t (h t (by simp)).2 (h t (by simp)).1
    have h2 := countTups_eq ts fun u hu => h u (by simp [hu])
    simp [countTups, h1, h2, Nat.add_comm]

/-- The keys of a request: what is written, and how many are announced. -/
theorem keys_adds : (k : Keys) → KeysOk k → Adds (writeKeys k) ((keysOf k).map tupleBytes).flatten ∧
    countKeys k = some (keysOf k).length
  | .nil, h => by simp [KeysOk] at h
  | .val t v, h => keysTy_adds t v h
  | .list ts, h => by
    simp only [KeysOk] at h
    exact ⟨tuplesW_adds ts fun t ht => (h t ht).1, by simpa [countKeys, keysOf] using countTups_eq ts h⟩

end Verif.Sbox
