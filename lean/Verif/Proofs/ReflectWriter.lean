import Verif.Proofs.ReflectSpec

/-! The reflective writer produces the layout. -/
namespace Verif.Reflect
open Verif.Marshal Verif.Spec

theorem ext_refl {w : Wr} (h : Wr.Ok w) : Wr.Ext w w [] := ⟨h, by simp, Wr.Frame.refl w⟩

theorem ext_trans {a b c : Wr} {x y : Bytes} (h1 : Wr.Ext a b x) (h2 : Wr.Ext b c y) : Wr.Ext a c (x ++ y) :=
  ⟨h2.ok, by rw [h2.data, h1.data, List.append_assoc], h1.frame.trans h2.frame⟩

theorem ofInt_nat (n : Nat) : Int64.ofInt (n : Int) = Int64.ofNat n := by
  apply Int64.toBitVec_inj.1
  simp

theorem pfx_write (w : Wr) (hw : Wr.Ok w) (p : Pfx) (hp : p ≠ .i64) (n : Nat) (hn : fits p n) :
    ∃ w', p.write w (Int64.ofNat n) = some w' ∧ Wr.Ext w w' (pfxBytes p n) := by
  cases p with
  | ber =>
    have hn' : n < 2 ^ 63 := hn
    have := Wr.uvar_spec w (Int64.ofNat n).toUInt64 hw
    have e : (Int64.ofNat n).toUInt64.toNat = n := by
      show (UInt64.ofNat n).toNat = n
      simp; omega
    rw [e] at this
    exact this
  | i8 =>
    have hn' : n < 2 ^ 8 := hn
    have := Wr.scal_spec w (.u8 (Int64.ofNat n).toUInt64.toUInt8) hw
    have e : (Int64.ofNat n).toUInt64.toUInt8.toNat = n := by
      show (UInt64.ofNat n).toUInt8.toNat = n
      simp; omega
    simp only [scalBytes, pattern, e, Scal.kind, width] at this
    exact this
  | i16 =>
    have hn' : n < 2 ^ 16 := hn
    have := Wr.scal_spec w (.u16 (Int64.ofNat n).toUInt64.toUInt16) hw
    have e : (Int64.ofNat n).toUInt64.toUInt16.toNat = n := by
      show (UInt64.ofNat n).toUInt16.toNat = n
      simp; omega
    simp only [scalBytes, pattern, e, Scal.kind, width] at this
    exact this
  | i32 =>
    have hn' : n < 2 ^ 32 := hn
    have := Wr.scal_spec w (.u32 (Int64.ofNat n).toUInt64.toUInt32) hw
    have e : (Int64.ofNat n).toUInt64.toUInt32.toNat = n := by
      show (UInt64.ofNat n).toUInt32.toNat = n
      simp; omega
    simp only [scalBytes, pattern, e, Scal.kind, width] at this
    exact this
  | i64 => exact absurd rfl hp

theorem berSize (x : UInt64) (h : ¬ Bad128 x.toNat) : varu64size x = berLen x.toNat :=
  (varSizeLoop_spec 10 x.toNat (by have := x.toNat_lt; omega)).2 h

theorem varsize_eq (n : Nat) (h : BerSafe n) : varsize (Int64.ofInt n) = berLen n := by
  have e : (Int64.ofInt (n : Int)).toInt.toNat = n := by
    have := h.2
    rw [Int64.toInt_ofInt]
    simp [Int.bmod]; omega
  unfold varsize
  rw [e]
  exact (varSizeLoop_spec 10 n (by have := h.2; omega)).2 h.1

/-- The codec `x` writes what the layout says about type `t`. -/
structure WG (t : Ty) (x : TW) : Prop where
  wr : ∀ addr v w, Wr.Ok w → Fits addr t v → ∃ w', x.write addr v w = some w' ∧ Wr.Ext w w' (pay t v)
  au : ∀ addr v w, Wr.Ok w → Fits addr t v → (counted t = true → countOf t v < 2 ^ 32) →
    ∃ w', x.auto addr v w = some w' ∧ Wr.Ext w w' (layout t v)
  sz : x.sz = codeSz t
  cn : x.cnt = asSz (count? t)
  size : SizeOk t → ∀ addr v, Fits addr t v → 0 ≤ x.size v → x.size v = (pay t v).length
  count : ∀ addr v, Fits addr t v → x.count v = some (countOf t v : Int)

/-- A prefix followed by a payload. -/
theorem withCount_ext (x : TW) (p : Pfx) (hp : p ≠ .i64) (addr : Bool) (v : Val) (w : Wr) (c : Nat) (b : Bytes)
    (hw : Wr.Ok w) (hc : x.count v = some (c : Int)) (hf : fits p c)
    (h : ∀ w, Wr.Ok w → ∃ w', x.write addr v w = some w' ∧ Wr.Ext w w' b) :
    ∃ w', x.withCount p addr v w = some w' ∧ Wr.Ext w w' (pfxBytes p c ++ b) := by
  obtain ⟨w1, h1, e1⟩ := pfx_write w hw p hp c hf
  obtain ⟨w2, h2, e2⟩ := h w1 e1.ok
  refine ⟨w2, ?_, ext_trans e1 e2⟩
  simp only [TW.withCount, hc, ofInt_nat, h1, h2]

theorem pending_new (d : Int) : (Wr.new d).pending = [] := by
  simp [Wr.pending, Wr.new, Mem.view, Slc.nil]

theorem withSize_ext (x : TW) (p : Pfx) (hp : p ≠ .i64) (addr : Bool) (v : Val) (w : Wr) (b : Bytes)
    (hw : Wr.Ok w) (hs : 0 ≤ x.size v → x.size v = b.length) (hf : fits p b.length)
    (h : ∀ w, Wr.Ok w → ∃ w', x.write addr v w = some w' ∧ Wr.Ext w w' b) :
    ∃ w', x.withSize p addr v w = some w' ∧ Wr.Ext w w' (pfxBytes p b.length ++ b) := by
  obtain ⟨w1, h1, e1⟩ := pfx_write w hw p hp b.length hf
  unfold TW.withSize
  by_cases c : 0 ≤ x.size v
  · obtain ⟨w2, h2, e2⟩ := h w1 e1.ok
    refine ⟨w2, ?_, ext_trans e1 e2⟩
    rw [if_pos c, hs c]
    simp only [ofInt_nat, h1, h2]
  · obtain ⟨tw, h2, e2⟩ := h (Wr.new 128) (Wr.ok_new 128)
    have hb : tw.written.1.mem.view tw.written.2 = b := by
      rw [(Wr.written_spec tw e2.ok).2.2.1, e2.data, pending_new]; rfl
    obtain ⟨w3, h3, e3⟩ := Wr.bytes_spec w1 b e1.ok
    refine ⟨w3, ?_, ext_trans e1 e3⟩
    simp only [c, if_false, h2, hb, h1, h3]

theorem fillauto_write (x : TW) : x.fillauto.write = x.write := by unfold TW.fillauto; split <;> rfl
theorem fillauto_sz (x : TW) : x.fillauto.sz = x.sz := by unfold TW.fillauto; split <;> rfl
theorem fillauto_cnt (x : TW) : x.fillauto.cnt = x.cnt := by unfold TW.fillauto; split <;> rfl
theorem fillauto_size (x : TW) : x.fillauto.size = x.size := by
  funext v; unfold TW.fillauto; split <;> rfl
theorem fillauto_count (x : TW) : x.fillauto.count = x.count := by
  funext v; unfold TW.fillauto; split <;> rfl

/-- `fillauto` on a codec whose `Write` is right. -/
theorem wg_fillauto (t : Ty) (x : TW) (hcg : x.cntGet.isSome = counted t)
    (wr : ∀ addr v w, Wr.Ok w → Fits addr t v → ∃ w', x.write addr v w = some w' ∧ Wr.Ext w w' (pay t v))
    (sz : x.sz = codeSz t) (cn : x.cnt = asSz (count? t))
    (size : SizeOk t → ∀ addr v, Fits addr t v → 0 ≤ x.size v → x.size v = (pay t v).length)
    (count : ∀ addr v, Fits addr t v → x.count v = some (countOf t v : Int)) : WG t x.fillauto := by
  refine ⟨?_, ?_, ?_, ?_, ?_, ?_⟩
  · rw [fillauto_write]; exact wr
  · intro addr v w hw hf hc
    unfold TW.fillauto layout withCnt
    rw [hcg]
    by_cases c : counted t = true
    · rw [if_pos c, if_pos c]
      exact withCount_ext x .i32 (by decide) addr v w _ _ hw (count addr v hf) (hc c) (fun w hw => wr addr v w hw hf)
    · rw [if_neg c, if_neg c]
      exact wr addr v w hw hf
  · rw [fillauto_sz]; exact sz
  · rw [fillauto_cnt]; exact cn
  · rw [fillauto_size]; exact size
  · rw [fillauto_count]; exact count

theorem kindSz_eq (k : Kind) : kindSz k = width k := by cases k <;> rfl

theorem wg_scal (k : Kind) : WG (.scal k) (scalW k) := by
  have wr : ∀ addr v w, Wr.Ok w → Fits addr (.scal k) v →
      ∃ w', (scalW k).write addr v w = some w' ∧ Wr.Ext w w' (pay (.scal k) v) := by
    intro addr v w hw hf
    cases v <;> simp only [Fits] at hf
    simp only [scalW, hf, if_true, pay]
    exact Wr.scal_spec w _ hw
  refine ⟨wr, ?_, ?_, rfl, ?_, ?_⟩
  · intro addr v w hw hf _
    have e : layout (.scal k) v = pay (.scal k) v := by simp [layout, withCnt, counted]
    rw [e]
    exact wr addr v w hw hf
  · simp [scalW, codeSz, kindSz_eq]
  · intro _ addr v hf _
    have := pay_len (.scal k) _ v addr rfl hf
    have hk := kindSz_eq k
    rw [this]
    simp [TW.size, TW.baseSize, scalW, hk]
  · intro addr v hf
    simp [TW.count, TW.baseCount, scalW, countOf]

theorem wg_str : WG .str strW := by
  apply wg_fillauto
  · rfl
  · intro addr v w hw hf
    cases v <;> simp only [Fits] at hf
    exact Wr.bytes_spec w _ hw
  · simp [codeSz]
  · rfl
  · intro _ addr v hf _
    cases v <;> simp only [Fits] at hf
    simp [TW.size, TW.baseSize, vlen, pay]
  · intro addr v hf
    cases v <;> simp only [Fits] at hf
    simp [TW.count, TW.baseCount, vlen, countOf]

theorem scals_of (k : Kind) (vs : List Val) (h : ∀ v ∈ vs, ∃ s, v = .scal s ∧ s.kind = k) :
    ∃ xs : List Scal, scals k vs = some xs ∧ vs = xs.map .scal ∧ ∀ x ∈ xs, x.kind = k := by
  induction vs with
  | nil => exact ⟨[], rfl, rfl, by simp⟩
  | cons v vs ih =>
    obtain ⟨s, rfl, hs⟩ := h v (by simp)
    obtain ⟨xs, h1, h2, h3⟩ := ih (fun y hy => h y (by simp [hy]))
    refine ⟨s :: xs, by simp [scals, hs, h1], by simp [← h2], ?_⟩
    intro x hx
    rcases List.mem_cons.1 hx with rfl | hx
    · exact hs
    · exact h3 x hx

theorem scalEach_spec (xs : List Scal) (w : Wr) (hw : Wr.Ok w) :
    ∃ w', scalEach xs w = some w' ∧ Wr.Ext w w' (xs.map scalBytes).flatten := by
  induction xs generalizing w with
  | nil => exact ⟨w, rfl, ext_refl hw⟩
  | cons x xs ih =>
    obtain ⟨w1, h1, e1⟩ := Wr.scal_spec w x hw
    obtain ⟨w2, h2, e2⟩ := ih w1 e1.ok
    exact ⟨w2, by simp [scalEach, h1, h2], by simpa using ext_trans e1 e2⟩

theorem slVal_spec (k : Kind) (addr : Bool) (vs : List Val) (w : Wr) (hw : Wr.Ok w)
    (h : ∀ v ∈ vs, ∃ s, v = .scal s ∧ s.kind = k) (hf : k = .f64 → addr = true → vs.length ≤ 1) :
    ∃ w', slVal k addr vs w = some w' ∧ Wr.Ext w w' (vs.map fun v => pay (.scal k) v).flatten := by
  obtain ⟨xs, h1, rfl, h3⟩ := scals_of k vs h
  have e : ((xs.map Val.scal).map fun v => pay (.scal k) v) = xs.map scalBytes := by
    simp only [List.map_map]
    apply List.map_congr_left
    intro x _
    simp [pay]
  rw [e]
  simp only [slVal, h1]
  cases xs with
  | nil => exact ⟨w, rfl, ext_refl hw⟩
  | cons x xs =>
    simp only [List.isEmpty_cons, Bool.false_eq_true, if_false]
    cases addr with
    | true => exact Wr.scalSl_spec w k _ hw h3 (fun hk => by simpa using hf hk rfl)
    | false => exact scalEach_spec _ w hw

theorem writeEach_spec (f : Val → Wr → Option Wr) (g : Val → Bytes) (vs : List Val) (w : Wr) (hw : Wr.Ok w)
    (h : ∀ v ∈ vs, ∀ w, Wr.Ok w → ∃ w', f v w = some w' ∧ Wr.Ext w w' (g v)) :
    ∃ w', writeEach f vs w = some w' ∧ Wr.Ext w w' (vs.map g).flatten := by
  induction vs generalizing w with
  | nil => exact ⟨w, rfl, ext_refl hw⟩
  | cons x xs ih =>
    obtain ⟨w1, h1, e1⟩ := h x (by simp) w hw
    obtain ⟨w2, h2, e2⟩ := ih w1 e1.ok (fun y hy => h y (by simp [hy]))
    exact ⟨w2, by simp [writeEach, h1, h2], by simpa using ext_trans e1 e2⟩

/-- The elements of an array or slice. -/
theorem elems_spec (t : Ty) (e : TW) (he : WG t e) (addr : Bool) (vs : List Val) (w : Wr) (hw : Wr.Ok w)
    (h64 : t.kind? = some .f64 → addr = true → vs.length ≤ 1)
    (h : ∀ v ∈ vs, Fits addr t v ∧ (counted t = true → countOf t v < 2 ^ 32)) :
    ∃ w', elemsW t.kind? e addr (.seq vs) w = some w' ∧
      Wr.Ext w w' (vs.map fun v => withCnt t v (pay t v)).flatten := by
  cases hk : t.kind? with
  | none =>
    simp only [elemsW]
    exact writeEach_spec _ (fun v => withCnt t v (pay t v)) vs w hw
      (fun v hv w hw => he.au addr v w hw (h v hv).1 (h v hv).2)
  | some k =>
    cases t <;> simp [Ty.kind?] at hk
    rename_i k'
    subst hk
    simp only [elemsW]
    have := slVal_spec k' addr vs w hw (fun v hv => by
      have := (h v hv).1
      cases v <;> simp only [Fits] at this
      exact ⟨_, rfl, this⟩) (by simpa [Ty.kind?] using h64)
    simpa [withCnt, counted] using this

theorem exact_size {t : Ty} (h0 : 0 ≤ codeSz t) (h : codeSz t < 0 ∨ exact t) : ∃ n : Nat, size? t = some n ∧ codeSz t = n := by
  rcases h with h | h
  · omega
  · unfold exact at h
    cases hs : size? t with
    | none => rw [hs] at h; simp [asSz] at h; omega
    | some n => exact ⟨n, rfl, by rw [h, hs]; rfl⟩

theorem wg_arr (n : Nat) (t : Ty) (e : TW) (he : WG t e) : WG (.arr n t) (arrW n t.kind? e) := by
  have hz : (if 0 ≤ e.sz then (n : Int) * e.sz else -1) = codeSz (.arr n t) := by
    rw [he.sz]; simp [codeSz]
  apply wg_fillauto
  · rfl
  · intro addr v w hw hf
    cases v <;> simp only [Fits] at hf
    obtain ⟨hl, h64, hv⟩ := hf
    simp only [pay]
    exact elems_spec t e he addr _ w hw (fun a b => by rw [hl]; exact h64 a b) hv
  · exact hz
  · rfl
  · intro hs addr v hf h0
    simp only [TW.size, TW.baseSize, hz, codeSz] at h0 ⊢
    simp only [SizeOk] at hs
    by_cases c : 0 ≤ codeSz t
    · obtain ⟨m, h1, h2⟩ := exact_size c hs
      rw [pay_len (.arr n t) (n * m) v addr (by simp [size?, h1]) hf]
      rw [if_pos c, h2, if_pos (by rw [← Int.natCast_mul]; omega)]; simp
    · rw [if_neg c] at h0; simp at h0
  · intro addr v hf
    simp [TW.count, TW.baseCount, countOf]

theorem wg_sl (t : Ty) (e : TW) (he : WG t e) : WG (.sl t) (slW t.kind? e) := by
  apply wg_fillauto
  · rfl
  · intro addr v w hw hf
    cases v <;> simp only [Fits] at hf
    obtain ⟨_, h64, hv⟩ := hf
    simp only [pay]
    exact elems_spec t e he true _ w hw (fun a _ => h64 a) hv
  · simp [codeSz]
  · rfl
  · intro hok addr v hf h0
    cases v <;> simp only [Fits] at hf
    rename_i vs
    obtain ⟨_, _, hv⟩ := hf
    simp only [SizeOk] at hok
    simp only [TW.size, TW.baseSize, he.sz] at h0 ⊢
    by_cases c : 0 ≤ codeSz t
    · obtain ⟨m, hs, h2⟩ := exact_size c hok
      have : ((vs.map fun v => withCnt t v (pay t v)).flatten).length = vs.length * m := by
        apply flatten_const
        intro x hx
        simp only [withCnt, not_counted hs]
        exact pay_len t m x true hs (hv x hx).1
      simp [pay, this, vlen, h2]
    · simp [c] at h0
  · intro addr v hf
    cases v <;> simp only [Fits] at hf
    simp [TW.count, TW.baseCount, countOf, vlen]

/-! ### `ber` fields -/

theorem uint_of (k : Kind) (hk : unsignedK k = true) (s : Scal) (hs : s.kind = k) :
    ∃ x, uint (.scal s) = some x ∧ x.toNat = natOf (.scal s) := by
  subst hs
  cases s <;> simp [unsignedK, Scal.kind] at hk <;> simp [uint, natOf]

theorem varVal_spec (k : Kind) (hk : unsignedK k = true) (s : Scal) (hs : s.kind = k) (w : Wr) (hw : Wr.Ok w) :
    ∃ w', varVal (.scal s) w = some w' ∧ Wr.Ext w w' (ber (natOf (.scal s))) := by
  obtain ⟨x, h1, h2⟩ := uint_of k hk s hs
  have := Wr.uvar_spec w x hw
  simpa [varVal, h1, h2] using this

theorem berSum_spec (k : Kind) (hk : unsignedK k = true) (vs : List Val)
    (h : ∀ v ∈ vs, ∃ s, v = .scal s ∧ s.kind = k ∧ ¬ Bad128 (natOf v)) :
    berSum vs = ((vs.map fun v => ber (natOf v)).flatten).length := by
  induction vs with
  | nil => rfl
  | cons v vs ih =>
    obtain ⟨s, rfl, h1, h2⟩ := h v (by simp)
    obtain ⟨x, h3, h4⟩ := uint_of k hk s h1
    rw [← h4] at h2
    simp [berSum, h3, berSize x h2, h4, ih (fun y hy => h y (by simp [hy])), ber_length]

/-- The codec `x` writes what the layout says about a `ber` field of type `t`. -/
structure WB (t : Ty) (x : TW) : Prop where
  wr : ∀ addr d v w, Wr.Ok w → FitsBer t d v → ∃ w', x.write addr v w = some w' ∧ Wr.Ext w w' (berPay v)
  au : ∀ addr d v w, Wr.Ok w → FitsBer t d v → isArr t = false → (counted t = true → countOf t v < 2 ^ 32) →
    ∃ w', x.auto addr v w = some w' ∧ Wr.Ext w w' (withCnt t v (berPay v))
  size : ∀ p v, FitsBer t (.size p) v → x.size v = (berPay v).length
  count : ∀ d v, FitsBer t d v → x.count v = some (countOf t v : Int)

theorem wb_scal (k : Kind) (hk : unsignedK k = true) : WB (.scal k) berW := by
  have wr : ∀ (addr : Bool) d v w, Wr.Ok w → FitsBer (.scal k) d v →
      ∃ w', varVal v w = some w' ∧ Wr.Ext w w' (berPay v) := by
    intro addr d v w hw hf
    cases v <;> simp only [FitsBer] at hf
    exact varVal_spec k hk _ hf.1 w hw
  refine ⟨wr, ?_, ?_, ?_⟩
  · intro addr d v w hw hf _ _
    have e : withCnt (.scal k) v (berPay v) = berPay v := by simp [withCnt, counted]
    rw [e]
    exact wr addr d v w hw hf
  · intro p v hf
    cases v <;> simp only [FitsBer] at hf
    rename_i s
    obtain ⟨x, h1, h2⟩ := uint_of k hk s hf.1
    have := hf.2 p rfl
    rw [← h2] at this
    simp [TW.size, TW.baseSize, berW, h1, berPay, ← h2, berSize x this, ber_length]
  · intro d v hf
    simp [TW.count, TW.baseCount, berW, countOf]

theorem berSl_write (k : Kind) (hk : unsignedK k = true) (vs : List Val) (w : Wr) (hw : Wr.Ok w)
    (h : ∀ v ∈ vs, ∃ s, v = .scal s ∧ s.kind = k) :
    ∃ w', writeEach varVal vs w = some w' ∧ Wr.Ext w w' (berPay (.seq vs)) := by
  simp only [berPay]
  apply writeEach_spec _ _ vs w hw
  intro v hv w hw
  obtain ⟨s, rfl, hs⟩ := h v hv
  exact varVal_spec k hk s hs w hw

theorem berSlW_write : berSlW.write = fun _ v w => match v with | .seq vs => writeEach varVal vs w | _ => none := by
  unfold berSlW; rw [fillauto_write]; rfl

theorem berSlW_count (v : Val) : berSlW.count v = some (vlen v : Int) := by
  unfold berSlW; rw [fillauto_count]; simp [TW.count, TW.baseCount]

theorem berSlW_size (v : Val) : berSlW.size v = match v with | .seq vs => (berSum vs : Int) | _ => 0 := by
  unfold berSlW; rw [fillauto_size]; simp only [TW.size, TW.baseSize]; cases v <;> rfl

theorem wb_arr (n : Nat) (k : Kind) (hk : unsignedK k = true) : WB (.arr n (.scal k)) berSlW := by
  refine ⟨?_, ?_, ?_, ?_⟩
  · intro addr d v w hw hf
    cases v <;> simp only [FitsBer] at hf
    rw [berSlW_write]
    exact berSl_write k hk _ w hw (fun v hv => by obtain ⟨s, h1, h2, _⟩ := hf.2 v hv; exact ⟨s, h1, h2⟩)
  · intro addr d v w hw hf ha
    simp [isArr] at ha
  · intro p v hf
    cases v <;> simp only [FitsBer] at hf
    rw [berSlW_size]
    simp only [berPay]
    rw [berSum_spec k hk _ (fun v hv => by obtain ⟨s, h1, h2, h3⟩ := hf.2 v hv; exact ⟨s, h1, h2, h3 p rfl⟩)]
  · intro d v hf
    cases v <;> simp only [FitsBer] at hf
    rw [berSlW_count]
    simp [vlen, countOf, hf.1]

theorem wb_sl (k : Kind) (hk : unsignedK k = true) : WB (.sl (.scal k)) berSlW := by
  have wr : ∀ addr d v w, Wr.Ok w → FitsBer (.sl (.scal k)) d v →
      ∃ w', berSlW.write addr v w = some w' ∧ Wr.Ext w w' (berPay v) := by
    intro addr d v w hw hf
    cases v <;> simp only [FitsBer] at hf
    rw [berSlW_write]
    exact berSl_write k hk _ w hw (fun v hv => by obtain ⟨s, h1, h2, _⟩ := hf.2 v hv; exact ⟨s, h1, h2⟩)
  have count : ∀ d v, FitsBer (.sl (.scal k)) d v → berSlW.count v = some (countOf (.sl (.scal k)) v : Int) := by
    intro d v hf
    cases v <;> simp only [FitsBer] at hf
    rw [berSlW_count]
    simp [vlen, countOf]
  refine ⟨wr, ?_, ?_, count⟩
  · intro addr d v w hw hf _ hc
    have := withCount_ext berSlW .i32 (by decide) addr v w _ _ hw (count d v hf) (hc rfl) (fun w hw => wr addr d v w hw hf)
    exact this
  · intro p v hf
    cases v <;> simp only [FitsBer] at hf
    rw [berSlW_size]
    simp only [berPay]
    rw [berSum_spec k hk _ (fun v hv => by obtain ⟨s, h1, h2, h3⟩ := hf.2 v hv; exact ⟨s, h1, h2, h3 p rfl⟩)]

theorem wb_for (t : Ty) (h : berable t = true) : ∃ x, berFor t = some x ∧ WB t x := by
  cases t with
  | scal k => exact ⟨_, by simp_all [berFor, berable], wb_scal k h⟩
  | arr n t => cases t <;> simp [berable] at h; exact ⟨_, by simp [berFor, h], wb_arr n _ h⟩
  | sl t => cases t <;> simp [berable] at h; exact ⟨_, by simp [berFor, h], wb_sl _ h⟩
  | _ => simp [berable] at h

/-! ### Fields -/

/-- One field, given what its codec does. -/
theorem put_ext (t : Ty) (x : TW) (d : Dir) (hd : ∀ p, d = .size p ∨ d = .cnt p → p ≠ .i64)
    (addr : Bool) (v : Val) (w : Wr) (b : Bytes)
    (hw : Wr.Ok w) (hf : FitsDir t v d b)
    (wr : ∀ w, Wr.Ok w → ∃ w', x.write addr v w = some w' ∧ Wr.Ext w w' b)
    (au : d = .none → ∀ w, Wr.Ok w → ∃ w', x.auto addr v w = some w' ∧ Wr.Ext w w' (withCnt t v b))
    (size : ∀ p, d = .size p → 0 ≤ x.size v → x.size v = b.length)
    (count : ∀ p, d = .cnt p → x.count v = some (countOf t v : Int)) :
    ∃ w', FW.put ⟨x, d⟩ addr v w = some w' ∧ Wr.Ext w w' (tagged t v d b) := by
  cases d with
  | none => exact au rfl w hw
  | no => exact wr w hw
  | size p => exact withSize_ext x p (hd p (Or.inl rfl)) addr v w b hw (size p rfl) hf wr
  | cnt p => exact withCount_ext x p (hd p (Or.inr rfl)) addr v w _ b hw (count p rfl) hf wr

/-- What the field loop yields. -/
structure WF (fs : Fl) (l : List (Option FW)) : Prop where
  wr : ∀ addr vs w, Wr.Ok w → FitsFl addr fs vs → ∃ w', writeFlds addr l vs w = some w' ∧ Wr.Ext w w' (payFl fs vs)

theorem hidden_flds (b : Bool) (s : Int) : (fs : Fl) → onlyHidden fs = true →
    ∃ l, twFl s b fs = some (s, l) ∧ WF fs l
  | .nil, _ => ⟨[], by simp [twFl], ⟨by
      intro addr vs w hw hf
      cases vs <;> simp [FitsFl] at hf
      exact ⟨w, by simp [writeFlds], by simpa [payFl] using ext_refl hw⟩⟩⟩
  | .cons .hidden t fs, h => by
    simp only [onlyHidden] at h
    obtain ⟨l, h1, h2⟩ := hidden_flds b s fs h
    refine ⟨none :: l, by simp [twFl, h1], ⟨?_⟩⟩
    intro addr vs w hw hf
    cases vs <;> simp only [FitsFl] at hf
    obtain ⟨w', h3, h4⟩ := h2.wr addr _ w hw hf.2
    exact ⟨w', by simp [writeFlds, h3], by simpa [payFl] using h4⟩
  | .cons .skip t fs, h => by simp [onlyHidden] at h
  | .cons (.use _ _) t fs, h => by simp [onlyHidden] at h

/-- A field that is left out. -/
theorem wf_none (g : Tag) (t : Ty) (fs : Fl) (l : List (Option FW)) (h : WF fs l)
    (hp : ∀ addr v vs, FitsFl addr (.cons g t fs) (v :: vs) → FitsFl addr fs vs ∧ payFl (.cons g t fs) (v :: vs) = payFl fs vs) :
    WF (.cons g t fs) (none :: l) := by
  refine ⟨?_⟩
  intro addr vs w hw hf
  cases vs with
  | nil => cases g <;> (try rename_i b d; cases b) <;> simp [FitsFl] at hf
  | cons v vs =>
    obtain ⟨h1, h2⟩ := hp addr v vs hf
    obtain ⟨w', h3, h4⟩ := h.wr addr vs w hw h1
    exact ⟨w', by simp [writeFlds, h3], by rw [h2]; exact h4⟩

theorem wf_false (t : Ty) (x : TW) (hx : WG t x) (d : Dir) (hs : ∀ p, d = .size p → SizeOk t) (hd : ∀ p, d = .size p ∨ d = .cnt p → p ≠ .i64)
    (fs : Fl) (l : List (Option FW)) (h : WF fs l) :
    WF (.cons (.use false d) t fs) (some ⟨x, d⟩ :: l) := by
  refine ⟨?_⟩
  intro addr vs w hw hf
  cases vs <;> simp only [FitsFl] at hf
  rename_i v vs
  obtain ⟨w1, h1, e1⟩ := put_ext t x d hd addr v w (pay t v) hw hf.2.1
    (fun w hw => hx.wr addr v w hw hf.1)
    (fun e w hw => by subst e; exact hx.au addr v w hw hf.1 hf.2.1)
    (fun p e => hx.size (hs p e) addr v hf.1) (fun _ _ => hx.count addr v hf.1)
  obtain ⟨w2, h2, e2⟩ := h.wr addr vs w1 e1.ok hf.2.2
  exact ⟨w2, by simp [writeFlds, h1, h2], by simpa [payFl] using ext_trans e1 e2⟩

theorem wf_true (t : Ty) (x : TW) (hx : WB t x) (d : Dir) (hd : ∀ p, d = .size p ∨ d = .cnt p → p ≠ .i64)
    (ha : d = .none → isArr t = false)
    (fs : Fl) (l : List (Option FW)) (h : WF fs l) :
    WF (.cons (.use true d) t fs) (some ⟨x, d⟩ :: l) := by
  refine ⟨?_⟩
  intro addr vs w hw hf
  cases vs <;> simp only [FitsFl] at hf
  rename_i v vs
  obtain ⟨w1, h1, e1⟩ := put_ext t x d hd addr v w (berPay v) hw hf.2.1
    (fun w hw => hx.wr addr d v w hw hf.1)
    (fun e w hw => by subst e; exact hx.au addr .none v w hw hf.1 (ha rfl) hf.2.1)
    (fun p e _ => by subst e; exact hx.size p v hf.1) (fun _ _ => hx.count d v hf.1)
  obtain ⟨w2, h2, e2⟩ := h.wr addr vs w1 e1.ok hf.2.2
  exact ⟨w2, by simp [writeFlds, h1, h2], by simpa [payFl] using ext_trans e1 e2⟩

theorem dirSize_neg (sz cnt : Int) (d : Dir) : dirSize sz cnt d (-1) = -1 := by
  cases d <;> (try rename_i p; cases p) <;> simp [dirSize]

theorem berPay_arr0 (k : Kind) (d : Dir) (v : Val) (h : FitsBer (.arr 0 (.scal k)) d v) : berPay v = [] := by
  cases v <;> simp only [FitsBer] at h
  rename_i vs
  have : vs = [] := List.eq_nil_of_length_eq_zero h.1
  simp [this, berPay]

/-- One step of the field loop. -/
theorem twFl_use (s : Int) (ber : Bool) (d : Dir) (t : Ty) (fs : Fl) (x y : TW) (hx : tw t = some x)
    (hz : x.sz = codeSz t) (hc : x.cnt = asSz (count? t)) (hy : (if ber then berFor t else some x) = some y)
    (h0 : ¬ (codeSz t = 0 ∧ d.bare = true))
    (h : ∀ s, ∃ l, twFl s (d = .no) fs = some (codeFl s fs, l) ∧ WF fs l)
    (hw : ∀ l, WF fs l → WF (.cons (.use ber d) t fs) (some ⟨y, d⟩ :: l)) :
    ∃ l, twFl s false (.cons (.use ber d) t fs) = some (codeFl s (.cons (.use ber d) t fs), l) ∧
      WF (.cons (.use ber d) t fs) l := by
  simp only [twFl, Bool.false_eq_true, if_false, hx, hz, hc, hy, codeFl, h0]
  by_cases c : 0 ≤ dirSize (codeSz t) (asSz (count? t)) d (if ber = true then -1 else s)
  · obtain ⟨l, h1, h2⟩ := h (dirSize (codeSz t) (asSz (count? t)) d (if ber = true then -1 else s) + codeSz t)
    exact ⟨some ⟨y, d⟩ :: l, by simp only [if_pos c, h1], hw l h2⟩
  · obtain ⟨l, h1, h2⟩ := h (dirSize (codeSz t) (asSz (count? t)) d (if ber = true then -1 else s))
    exact ⟨some ⟨y, d⟩ :: l, by simp only [if_neg c, h1], hw l h2⟩

/-- One step of the field loop: the field is left out. -/
theorem twFl_drop (s : Int) (ber : Bool) (d : Dir) (t : Ty) (fs : Fl) (x : TW) (hx : tw t = some x)
    (hz : x.sz = codeSz t) (hc : x.cnt = asSz (count? t)) (h0 : codeSz t = 0 ∧ d.bare = true)
    (h : ∀ s, ∃ l, twFl s (d = .no) fs = some (codeFl s fs, l) ∧ WF fs l)
    (hw : ∀ l, WF fs l → WF (.cons (.use ber d) t fs) (none :: l)) :
    ∃ l, twFl s false (.cons (.use ber d) t fs) = some (codeFl s (.cons (.use ber d) t fs), l) ∧
      WF (.cons (.use ber d) t fs) l := by
  obtain ⟨l, h1, h2⟩ := h (dirSize (codeSz t) (asSz (count? t)) d (if ber = true then -1 else s))
  refine ⟨none :: l, ?_, hw l h2⟩
  simp only [twFl, Bool.false_eq_true, if_false, hx, hz, hc, codeFl, h0, and_self, if_true] at h1 ⊢
  rw [h1]
  simp

theorem codeFl_hidden : (fs : Fl) → onlyHidden fs = true → ∀ s, codeFl s fs = s
  | .nil, _, s => by simp [codeFl]
  | .cons .hidden t fs, h, s => by
    simp only [codeFl]
    exact codeFl_hidden fs (by simpa [onlyHidden] using h) s
  | .cons .skip t fs, h, _ => by simp [onlyHidden] at h
  | .cons (.use _ _) t fs, h, _ => by simp [onlyHidden] at h

theorem berable_wg (t : Ty) (h : berable t = true) : Sound false t := by
  cases t with
  | scal k => simp [Sound]
  | arr n t => cases t <;> simp [berable] at h; simp [Sound]
  | sl t =>
    cases t <;> simp [berable] at h
    rename_i k
    have := width_pos k
    simp [Sound, bulky, codeSz]; omega
  | _ => simp [berable] at h

theorem berable_zero (t : Ty) (h : berable t = true) (hz : codeSz t = 0) : ∃ k, t = .arr 0 (.scal k) := by
  cases t with
  | scal k => have := width_pos k; simp [codeSz] at hz; omega
  | arr n t =>
    cases t <;> simp [berable] at h
    rename_i k
    refine ⟨k, ?_⟩
    have hw := width_pos k
    have e : codeSz (.arr n (.scal k)) = n * width k := by simp [codeSz]
    rw [e] at hz
    have : n = 0 := by
      rcases Int.mul_eq_zero.1 hz with h | h <;> omega
    rw [this]
  | sl t => simp [codeSz] at hz
  | _ => simp [berable] at h

theorem exact_zero {t : Ty} (hz : codeSz t = 0) (h : codeSz t = 0 → exact t) : size? t = some 0 := by
  have := h hz
  unfold exact at this
  rw [hz] at this
  cases hs : size? t with
  | none => rw [hs] at this; simp [asSz] at this
  | some n => rw [hs] at this; simp [asSz] at this; rw [show n = 0 by omega]

mutual
/-- Every sound type has a codec, and it writes the layout. -/
theorem tw_ok : (t : Ty) → ∀ tail, Sound tail t → ∃ x, tw t = some x ∧ WG t x
  | .scal k, _, _ => ⟨_, by simp [tw], wg_scal k⟩
  | .str, _, _ => ⟨_, by simp [tw], wg_str⟩
  | .arr n t, _, h => by
    simp only [Sound] at h
    obtain ⟨x, h1, h2⟩ := tw_ok t false h
    exact ⟨_, by simp only [tw, h1], wg_arr n t x h2⟩
  | .sl t, _, h => by
    simp only [Sound] at h
    obtain ⟨x, h1, h2⟩ := tw_ok t false h.1
    exact ⟨_, by simp only [tw, h1], wg_sl t x h2⟩
  | .ptr t, _, h => by simp [Sound] at h
  | .struct fs, tail, h => by
    simp only [Sound] at h
    obtain ⟨l, h1, h2⟩ := twFl_ok fs tail h 0
    refine ⟨structW (codeFl 0 fs) l, by simp only [tw, h1], ?_⟩
    apply wg_fillauto
    · rfl
    · intro addr v w hw hf
      cases v <;> simp only [Fits] at hf
      simp only [pay]
      exact h2.wr addr _ w hw hf
    · simp [codeSz]
    · rfl
    · intro hok addr v hf h0
      have e : codeFl 0 fs = codeSz (.struct fs) := by simp [codeSz]
      simp only [TW.size, TW.baseSize, e] at h0 ⊢
      simp only [SizeOk] at hok
      by_cases c : 0 ≤ codeSz (.struct fs)
      case neg => rw [if_neg c] at h0; simp at h0
      obtain ⟨m, h3, h4⟩ := exact_size c hok
      rw [if_pos c]
      rw [pay_len _ m v addr h3 hf]
      exact h4
    · intro addr v hf
      simp [TW.count, TW.baseCount, countOf]
theorem twFl_ok : (fs : Fl) → ∀ tail, SoundFl tail fs →
    ∀ s, ∃ l, twFl s false fs = some (codeFl s fs, l) ∧ WF fs l
  | .nil, _, _, s => ⟨[], by simp [twFl, codeFl], ⟨by
      intro addr vs w hw hf
      cases vs <;> simp [FitsFl] at hf
      exact ⟨w, by simp [writeFlds], by simpa [payFl] using ext_refl hw⟩⟩⟩
  | .cons .hidden t fs, tail, h, s => by
    simp only [SoundFl] at h
    obtain ⟨l, h1, h2⟩ := twFl_ok fs tail h s
    refine ⟨none :: l, by simp [twFl, h1, codeFl], wf_none _ _ _ _ h2 ?_⟩
    intro addr v vs hf
    simp only [FitsFl] at hf
    exact ⟨hf.2, by simp [payFl]⟩
  | .cons .skip t fs, tail, h, s => by
    simp only [SoundFl] at h
    obtain ⟨l, h1, h2⟩ := twFl_ok fs tail h s
    refine ⟨none :: l, by simp [twFl, h1, codeFl], wf_none _ _ _ _ h2 ?_⟩
    intro addr v vs hf
    simp only [FitsFl] at hf
    exact ⟨hf.2, by simp [payFl]⟩
  | .cons (.use true .none) t fs, tail, h, s => by
    simp only [SoundFl] at h
    obtain ⟨x, h1, hx⟩ := tw_ok t false (berable_wg t h.1)
    obtain ⟨y, h2, h3⟩ := wb_for t h.1
    refine twFl_use s true .none t fs x y h1 hx.sz hx.cn (by simpa using h2) ?_ (twFl_ok fs tail h.2.2)
      (fun l hl => wf_true t y h3 _ (by simp) (fun _ => h.2.1) fs l hl)
    intro hz
    obtain ⟨k, rfl⟩ := berable_zero t h.1 hz.1
    simp [isArr] at h
  | .cons (.use true .no) t fs, tail, h, s => by
    simp only [SoundFl] at h
    obtain ⟨x, h1, hx⟩ := tw_ok t false (berable_wg t h.1)
    obtain ⟨y, h2, h3⟩ := wb_for t h.1
    have hh : ∀ s, ∃ l, twFl s (decide (Dir.no = .no)) fs = some (codeFl s fs, l) ∧ WF fs l := fun s => by
      rw [codeFl_hidden fs h.2.2]; exact hidden_flds _ s fs h.2.2
    by_cases c : codeSz t = 0
    · refine twFl_drop s true .no t fs x h1 hx.sz hx.cn ⟨c, rfl⟩ hh (fun l hl => wf_none _ _ _ _ hl ?_)
      intro addr v vs hf
      simp only [FitsFl] at hf
      obtain ⟨k, rfl⟩ := berable_zero t h.1 c
      refine ⟨hf.2.2, ?_⟩
      simp [payFl, tagged, berPay_arr0 k _ v hf.1]
    · exact twFl_use s true .no t fs x y h1 hx.sz hx.cn (by simpa using h2) (by simp [c]) hh
        (fun l hl => wf_true t y h3 _ (by simp) (by simp) fs l hl)
  | .cons (.use true (.size p)) t fs, tail, h, s => by
    simp only [SoundFl] at h
    obtain ⟨x, h1, hx⟩ := tw_ok t false (berable_wg t h.1)
    obtain ⟨y, h2, h3⟩ := wb_for t h.1
    refine twFl_use s true _ t fs x y h1 hx.sz hx.cn (by simpa using h2) (by simp [Dir.bare]) (twFl_ok fs tail h.2.2)
      (fun l hl => wf_true t y h3 _ ?_ (by simp) fs l hl)
    intro q hq
    simp at hq
    subst hq
    exact h.2.1
  | .cons (.use true (.cnt p)) t fs, tail, h, s => by
    simp only [SoundFl] at h
    obtain ⟨x, h1, hx⟩ := tw_ok t false (berable_wg t h.1)
    obtain ⟨y, h2, h3⟩ := wb_for t h.1
    refine twFl_use s true _ t fs x y h1 hx.sz hx.cn (by simpa using h2) (by simp [Dir.bare]) (twFl_ok fs tail h.2.2)
      (fun l hl => wf_true t y h3 _ ?_ (by simp) fs l hl)
    intro q hq
    simp at hq
    subst hq
    exact h.2.1
  | .cons (.use false .none) t fs, tail, h, s => by
    simp only [SoundFl] at h
    obtain ⟨x, h1, hx⟩ := tw_ok t false h.1
    by_cases c : codeSz t = 0
    · refine twFl_drop s false .none t fs x h1 hx.sz hx.cn ⟨c, rfl⟩ (twFl_ok fs tail h.2.2)
        (fun l hl => wf_none _ _ _ _ hl ?_)
      intro addr v vs hf
      simp only [FitsFl] at hf
      refine ⟨hf.2.2, ?_⟩
      have hn := exact_zero c h.2.1
      have := List.eq_nil_of_length_eq_zero (pay_len t 0 v addr hn hf.1)
      simp [payFl, tagged, withCnt, not_counted hn, this]
    · exact twFl_use s false .none t fs x x h1 hx.sz hx.cn (by simp) (by simp [c]) (twFl_ok fs tail h.2.2)
        (fun l hl => wf_false t x hx _ (by simp) (by simp) fs l hl)
  | .cons (.use false .no) t fs, tail, h, s => by
    simp only [SoundFl] at h
    obtain ⟨x, h1, hx⟩ := tw_ok t true h.2.1
    have hh : ∀ s, ∃ l, twFl s (decide (Dir.no = .no)) fs = some (codeFl s fs, l) ∧ WF fs l := fun s => by
      rw [codeFl_hidden fs h.2.2.2]; exact hidden_flds _ s fs h.2.2.2
    by_cases c : codeSz t = 0
    · refine twFl_drop s false .no t fs x h1 hx.sz hx.cn ⟨c, rfl⟩ hh (fun l hl => wf_none _ _ _ _ hl ?_)
      intro addr v vs hf
      simp only [FitsFl] at hf
      refine ⟨hf.2.2, ?_⟩
      have hn := exact_zero c h.2.2.1
      have := List.eq_nil_of_length_eq_zero (pay_len t 0 v addr hn hf.1)
      simp [payFl, tagged, this]
    · exact twFl_use s false .no t fs x x h1 hx.sz hx.cn (by simp) (by simp [c]) hh
        (fun l hl => wf_false t x hx _ (by simp) (by simp) fs l hl)
  | .cons (.use false (.size p)) t fs, tail, h, s => by
    simp only [SoundFl] at h
    obtain ⟨x, h1, hx⟩ := tw_ok t (isStruct t) h.2.1
    refine twFl_use s false _ t fs x x h1 hx.sz hx.cn (by simp) (by simp [Dir.bare]) (twFl_ok fs tail h.2.2.2)
      (fun l hl => wf_false t x hx _ (fun _ _ => h.2.2.1) ?_ fs l hl)
    intro q hq
    simp at hq
    subst hq
    exact h.1
  | .cons (.use false (.cnt p)) t fs, tail, h, s => by
    simp only [SoundFl] at h
    obtain ⟨x, h1, hx⟩ := tw_ok t false h.2.1
    refine twFl_use s false _ t fs x x h1 hx.sz hx.cn (by simp) (by simp [Dir.bare]) (twFl_ok fs tail h.2.2)
      (fun l hl => wf_false t x hx _ (by simp) ?_ fs l hl)
    intro q hq
    simp at hq
    subst hq
    exact h.1
end

end Verif.Reflect
