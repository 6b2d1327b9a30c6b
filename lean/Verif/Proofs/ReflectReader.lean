import Verif.Proofs.ReflectWriter
import Verif.Proofs.Reader

/-! The reflective reader reads the layout back. -/
namespace Verif.Reflect
open Verif.Marshal Verif.Spec

/-- The reader at the beginning of `b`. -/
abbrev at' (b : Bytes) : Rd := ⟨b, none⟩

theorem toInt_ofNat (n : Nat) (h : n < 2 ^ 63) : (Int64.ofNat n).toInt = n := by
  rw [Int64.toInt_ofNat']
  simp [Int.bmod]; omega

theorem pfx_read (p : Pfx) (hp : p ≠ .i64) (n : Nat) (hn : fits p n) (rest : Bytes) :
    (p.read ⟨pfxBytes p n ++ rest, none⟩).1 = ⟨rest, none⟩ ∧
      (p.read ⟨pfxBytes p n ++ rest, none⟩).2.toInt = n := by
  cases p with
  | ber =>
    have hn' : n < 2 ^ 63 := hn
    have := Rd.uvar_ber (UInt64.ofNat n) rest
    have e : (UInt64.ofNat n).toNat = n := by simp; omega
    rw [e] at this
    refine ⟨by simp [Pfx.read, pfxBytes, Rd.intvar, this], ?_⟩
    simp only [Pfx.read, pfxBytes, Rd.intvar, this]
    exact toInt_ofNat n hn'
  | i8 =>
    have hn' : n < 2 ^ 8 := hn
    have := Rd.scal_bytes (.u8 (UInt8.ofNat n)) rest
    have e : (UInt8.ofNat n).toNat = n := by simp; omega
    simp only [scalBytes, pattern, e, Scal.kind, width] at this
    refine ⟨by simp [Pfx.read, pfxBytes, Rd.intUint8, this], ?_⟩
    simp only [Pfx.read, pfxBytes, Rd.intUint8, this, Rd.Scal.nat, e]
    exact toInt_ofNat n (by omega)
  | i16 =>
    have hn' : n < 2 ^ 16 := hn
    have := Rd.scal_bytes (.u16 (UInt16.ofNat n)) rest
    have e : (UInt16.ofNat n).toNat = n := by simp; omega
    simp only [scalBytes, pattern, e, Scal.kind, width] at this
    refine ⟨by simp [Pfx.read, pfxBytes, Rd.intUint16, this], ?_⟩
    simp only [Pfx.read, pfxBytes, Rd.intUint16, this, Rd.Scal.nat, e]
    exact toInt_ofNat n (by omega)
  | i32 =>
    have hn' : n < 2 ^ 32 := hn
    have := Rd.scal_bytes (.u32 (UInt32.ofNat n)) rest
    have e : (UInt32.ofNat n).toNat = n := by simp; omega
    simp only [scalBytes, pattern, e, Scal.kind, width] at this
    refine ⟨by simp [Pfx.read, pfxBytes, Rd.intUint32, this], ?_⟩
    simp only [Pfx.read, pfxBytes, Rd.intUint32, this, Rd.Scal.nat, e]
    exact toInt_ofNat n (by omega)
  | i64 => exact absurd rfl hp

theorem slice_ok (b rest : Bytes) : Rd.slice ⟨b ++ rest, none⟩ (b.length : Int) = some (⟨rest, none⟩, b) := by
  unfold Rd.slice
  rw [if_neg (by simp), if_neg (by simp only [List.length_append]; omega), if_neg (by omega)]
  simp

theorem zero_noerr (r : Rd) (h : r.err = none) : ¬ r.err ≠ none := by simp [h]

/-- A destination made ready by `SetCount`. -/
def prep (t : Ty) (v : Val) : Val :=
  match t with
  | .sl e => .seq (List.replicate (vlen v) (zero e))
  | t => zero t

/-- The reader `x` reads what the layout says about type `t`. -/
structure RG (tail : Bool) (t : Ty) (x : TR) : Prop where
  sz : x.sz = codeSz t
  cn : x.cnt = asSz (count? t)
  fx : (tail = false ∨ (size? t).isSome) → t ≠ .str → ∀ addr v rest, Fits addr t v →
    x.fixed ⟨pay t v ++ rest, none⟩ (prep t v) = some (⟨rest, none⟩, v)
  au : tail = false → ∀ addr v rest, Fits addr t v → (counted t = true → countOf t v < 2 ^ 32) →
    x.auto ⟨layout t v ++ rest, none⟩ (zero t) = some (⟨rest, none⟩, v)
  tl : tail = true → ∀ addr v, Fits addr t v →
    x.tail ⟨pay t v, none⟩ (zero t) = some (⟨[], none⟩, v)
  bs : tail = isStruct t → SizeOk t → ∀ addr v rest, Fits addr t v →
    x.bySize (pay t v).length ⟨pay t v ++ rest, none⟩ (zero t) = some (⟨rest, none⟩, v)
  bc : tail = false → ∀ addr v rest, Fits addr t v →
    x.byCount (countOf t v) ⟨pay t v ++ rest, none⟩ (zero t) = some (⟨rest, none⟩, v)

theorem withCount_ok (x : TR) (p : Pfx) (hp : p ≠ .i64) (n : Nat) (hn : fits p n) (b : Bytes) (z v : Val) (rest : Bytes)
    (h : x.byCount n ⟨b ++ rest, none⟩ z = some (⟨rest, none⟩, v)) :
    x.withCount p ⟨(pfxBytes p n ++ b) ++ rest, none⟩ z = some (⟨rest, none⟩, v) := by
  have := pfx_read p hp n hn (b ++ rest)
  rw [List.append_assoc]
  simp only [TR.withCount, ne_eq, not_true_eq_false, if_false, this]
  exact h

theorem withSize_ok (x : TR) (p : Pfx) (hp : p ≠ .i64) (b : Bytes) (hn : fits p b.length) (z v : Val) (rest : Bytes)
    (h : x.bySize b.length ⟨b ++ rest, none⟩ z = some (⟨rest, none⟩, v)) :
    x.withSize p ⟨(pfxBytes p b.length ++ b) ++ rest, none⟩ z = some (⟨rest, none⟩, v) := by
  have := pfx_read p hp b.length hn (b ++ rest)
  rw [List.append_assoc]
  simp only [TR.withSize, ne_eq, not_true_eq_false, if_false, this]
  exact h

theorem sub_ok (x : TR) (b rest : Bytes) (z v : Val) (h : x.tail ⟨b, none⟩ z = some (⟨[], none⟩, v)) :
    x.sub b.length ⟨b ++ rest, none⟩ z = some (⟨rest, none⟩, v) := by
  simp [TR.sub, slice_ok, h]

/-- Size prefix where the size is known. -/
theorem bySize_fixed (x : TR) (n : Nat) (b rest : Bytes) (z v : Val) (ha : x.autoSize = none)
    (hs : x.setSize = plainSetSize (asSz (some n))) (hb : b.length = n)
    (h : x.fixed ⟨b ++ rest, none⟩ z = some (⟨rest, none⟩, v)) :
    x.bySize b.length ⟨b ++ rest, none⟩ z = some (⟨rest, none⟩, v) := by
  simp [TR.bySize, ha, hs, plainSetSize, asSz, hb, h]

/-- Size prefix where the size is not known. -/
theorem bySize_sub (x : TR) (b rest : Bytes) (z v : Val) (ha : x.autoSize = none)
    (hs : x.setSize = plainSetSize (asSz none))
    (h : x.tail ⟨b, none⟩ z = some (⟨[], none⟩, v)) :
    x.bySize b.length ⟨b ++ rest, none⟩ z = some (⟨rest, none⟩, v) := by
  simp [TR.bySize, ha, hs, plainSetSize, asSz, sub_ok x b rest z v h]

theorem byCount_fixed (x : TR) (n : Nat) (r : Rd) (z : Val) (q : Option (Rd × Val)) (ha : x.autoCount = none)
    (hs : x.setCount = plainSetCount n) (h : x.fixed r z = q) : x.byCount n r z = q := by
  simp [TR.byCount, ha, hs, plainSetCount, h]

theorem rg_scal (tail : Bool) (k : Kind) : RG tail (.scal k) (scalR k) := by
  have key : ∀ addr v rest d, Fits addr (.scal k) v →
      (scalR k).fixed ⟨pay (.scal k) v ++ rest, none⟩ d = some (⟨rest, none⟩, v) := by
    intro addr v rest d hf
    cases v <;> simp only [Fits] at hf
    rename_i s
    subst hf
    simp [scalR, pay, Rd.scal_bytes]
  refine ⟨by simp [scalR, codeSz, kindSz_eq], rfl, ?_, ?_, ?_, ?_, ?_⟩
  · intro _ _ addr v rest hf; exact key addr v rest _ hf
  · intro _ addr v rest hf _
    have e : layout (.scal k) v = pay (.scal k) v := by simp [layout, withCnt, counted]
    rw [e]; exact key addr v rest (zero (.scal k)) hf
  · intro _ addr v hf
    have := key addr v [] (zero (.scal k)) hf
    rw [List.append_nil] at this; exact this
  · intro _ _ addr v rest hf
    apply bySize_fixed _ (width k) _ _ _ _ rfl
    · simp [scalR, asSz, kindSz_eq]
    · exact pay_len (.scal k) _ v addr rfl hf
    · exact key addr v rest _ hf
  · intro _ addr v rest hf
    exact byCount_fixed _ 1 _ _ _ rfl rfl (key addr v rest _ hf)

theorem setString_ok (b rest : Bytes) (d : Val) : setString b.length ⟨b ++ rest, none⟩ d = some (⟨rest, none⟩, .str b) := by
  simp [setString, slice_ok]

theorem rg_str (tail : Bool) : RG tail .str strR := by
  refine ⟨by simp [strR, codeSz], rfl, by simp, ?_, ?_, ?_, ?_⟩
  · intro _ addr v rest hf hc
    cases v <;> simp only [Fits] at hf
    rename_i b
    have h4 := pfx_read .i32 (by decide) b.length (hc rfl) (b ++ rest)
    have e : layout .str (.str b) ++ rest = pfxBytes .i32 b.length ++ (b ++ rest) := by
      simp [layout, withCnt, counted, countOf, pay, pfxBytes]
    rw [e]
    simp only [strR, ne_eq, not_true_eq_false, if_false, h4]
    exact setString_ok b rest _
  · intro _ addr v hf
    cases v <;> simp only [Fits] at hf
    simp [strR, pay, Rd.tail]
  · intro _ _ addr v rest hf
    cases v <;> simp only [Fits] at hf
    exact setString_ok _ rest (.str [])
  · intro _ addr v rest hf
    cases v <;> simp only [Fits] at hf
    exact setString_ok _ rest (.str [])

/-! ### Arrays and slices -/

theorem scals_zero (k : Kind) (n : Nat) : scals k (List.replicate n (.scal k.zero)) = some (List.replicate n k.zero) := by
  induction n with
  | zero => rfl
  | succ n ih =>
    have : k.zero.kind = k := by cases k <;> rfl
    simp [List.replicate_succ, scals, ih, this]

theorem slValR_ok (k : Kind) (vs : List Val) (rest : Bytes) (h : ∀ v ∈ vs, ∃ s, v = .scal s ∧ s.kind = k) :
    slValR k ⟨(vs.map fun v => pay (.scal k) v).flatten ++ rest, none⟩ (List.replicate vs.length (.scal k.zero)) =
      some (⟨rest, none⟩, vs) := by
  obtain ⟨xs, h1, rfl, h3⟩ := scals_of k vs h
  have e : ((xs.map Val.scal).map fun v => pay (.scal k) v) = xs.map scalBytes := by
    simp only [List.map_map]
    apply List.map_congr_left
    intro x _
    simp [pay]
  rw [e, List.length_map]
  simp only [slValR, scals_zero]
  cases xs with
  | nil => simp
  | cons x xs =>
    rw [if_neg (by simp)]
    rw [Rd.scalSl_bytes k (x :: xs) _ rest h3 (by simp)]

theorem readEach_ok (f : RdF) (z : Val) (g : Val → Bytes) (vs : List Val) (rest : Bytes)
    (h : ∀ v ∈ vs, ∀ rest, f ⟨g v ++ rest, none⟩ z = some (⟨rest, none⟩, v)) :
    readEach f ⟨(vs.map g).flatten ++ rest, none⟩ (List.replicate vs.length z) = some (⟨rest, none⟩, vs) := by
  induction vs with
  | nil => simp [readEach]
  | cons v vs ih =>
    have h1 := h v (by simp) ((vs.map g).flatten ++ rest)
    simp only [List.map_cons, List.flatten_cons, List.append_assoc, List.length_cons, List.replicate_succ, readEach, h1,
      ih (fun x hx => h x (by simp [hx]))]

theorem elemsR_ok (t : Ty) (e : TR) (he : RG false t e) (addr : Bool) (vs : List Val) (rest : Bytes)
    (h : ∀ v ∈ vs, Fits addr t v ∧ (counted t = true → countOf t v < 2 ^ 32)) :
    elemsR t.kind? e.auto ⟨(vs.map fun v => withCnt t v (pay t v)).flatten ++ rest, none⟩
      (.seq (List.replicate vs.length (zero t))) = some (⟨rest, none⟩, .seq vs) := by
  cases hk : t.kind? with
  | none =>
    have := readEach_ok e.auto (zero t) (fun v => withCnt t v (pay t v)) vs rest
      (fun v hv rest => he.au rfl addr v rest (h v hv).1 (h v hv).2)
    simp only [elemsR, this]
  | some k =>
    cases t <;> simp [Ty.kind?] at hk
    rename_i k'
    subst hk
    have := slValR_ok k' vs rest (fun v hv => by
      have := (h v hv).1
      cases v <;> simp only [Fits] at this
      exact ⟨_, rfl, this⟩)
    simp [elemsR, withCnt, counted, zero, this]

theorem rg_arr (tail : Bool) (n : Nat) (t : Ty) (e : TR) (he : RG false t e) : RG tail (.arr n t) (arrR n t.kind? e) := by
  have key : ∀ addr v rest, Fits addr (.arr n t) v →
      elemsR t.kind? e.auto ⟨pay (.arr n t) v ++ rest, none⟩ (zero (.arr n t)) = some (⟨rest, none⟩, v) := by
    intro addr v rest hf
    cases v <;> simp only [Fits] at hf
    simp only [pay, zero]
    rw [← hf.1]
    exact elemsR_ok t e he addr _ rest hf.2.2
  have hz : (if 0 ≤ e.sz then e.sz * (n : Int) else -1) = codeSz (.arr n t) := by
    rw [he.sz]; simp [codeSz, Int.mul_comm]
  refine ⟨hz, rfl, ?_, ?_, ?_, ?_, ?_⟩
  · intro _ _ addr v rest hf; exact key addr v rest hf
  · intro _ addr v rest hf _
    have e : layout (.arr n t) v = pay (.arr n t) v := by simp [layout, withCnt, counted]
    rw [e]; exact key addr v rest hf
  · intro _ addr v hf
    have := key addr v [] hf
    rw [List.append_nil] at this; exact this
  · intro _ hok addr v rest hf
    simp only [SizeOk] at hok
    by_cases c : 0 ≤ codeSz t
    · obtain ⟨m, h1, h2⟩ := exact_size c hok
      apply bySize_fixed _ (n * m) _ _ _ _ rfl
      · have e1 : codeSz (.arr n t) = asSz (some (n * m)) := by simp [codeSz, c, h2, asSz]
        rw [← e1, ← hz]; rfl
      · exact pay_len _ _ v addr (by simp [size?, h1]) hf
      · exact key addr v rest hf
    · apply bySize_sub _ _ _ _ _ rfl
      · have e1 : codeSz (.arr n t) = asSz none := by simp [codeSz, c, asSz]
        rw [← e1, ← hz]; rfl
      · have := key addr v [] hf
        rw [List.append_nil] at this; exact this
  · intro _ addr v rest hf
    exact byCount_fixed _ n _ _ _ rfl rfl (key addr v rest hf)

theorem tailLoop_ok (f : RdF) (z : Val) (g : Val → Bytes) (vs : List Val) (n : Nat)
    (hn : ((vs.map g).flatten).length < n)
    (hp : ∀ v ∈ vs, 0 < (g v).length)
    (h : ∀ v ∈ vs, ∀ rest, f ⟨g v ++ rest, none⟩ z = some (⟨rest, none⟩, v)) :
    tailLoop f z n ⟨(vs.map g).flatten, none⟩ = some (⟨[], none⟩, vs) := by
  induction vs generalizing n with
  | nil =>
    cases n with
    | zero => simp at hn
    | succ n => simp [tailLoop]
  | cons v vs ih =>
    cases n with
    | zero => simp at hn
    | succ n =>
      have h0 := hp v (by simp)
      have h1 := h v (by simp) (vs.map g).flatten
      have hne : g v ≠ [] := by intro e; simp [e] at h0
      simp only [List.map_cons, List.flatten_cons, List.length_append] at hn
      simp only [List.map_cons, List.flatten_cons, tailLoop, h1]
      rw [if_neg (by simp [hne]), if_neg (by simp; omega),
        ih n (by omega) (fun x hx => hp x (by simp [hx])) (fun x hx => h x (by simp [hx]))]

theorem makeSlice_ok (z : Val) (n : Nat) (h : n < 2 ^ 48) :
    makeSlice z (.seq []) (n : Int) = some (.seq (List.replicate n z)) := by
  cases n with
  | zero => simp [makeSlice, vlen]
  | succ n =>
    unfold makeSlice
    rw [if_neg (by simp [vlen]; omega), if_neg (by omega)]
    simp

theorem u8_back (vs : List Val) (h : ∀ v ∈ vs, ∃ s, v = .scal s ∧ s.kind = .u8) :
    ((vs.map fun v => pay (.scal .u8) v).flatten).map (fun b => Val.scal (.u8 b)) = vs ∧
      ((vs.map fun v => pay (.scal .u8) v).flatten).length = vs.length := by
  induction vs with
  | nil => simp
  | cons v vs ih =>
    obtain ⟨s, rfl, hs⟩ := h v (by simp)
    have ih := ih (fun y hy => h y (by simp [hy]))
    cases s <;> simp [Scal.kind] at hs
    simp [pay, scalBytes, pattern, le, Scal.kind, width] at ih ⊢
    exact ⟨ih.1, by omega⟩

theorem slR_byCount (k : Option Kind) (z : Val) (e : TR) (n : Nat) (b : Bytes) (v : Val) (hk : k ≠ some .u8) (hn : n < 2 ^ 48)
    (fx : ∀ rest, elemsR k e.auto ⟨b ++ rest, none⟩ (.seq (List.replicate n z)) = some (⟨rest, none⟩, v)) (rest : Bytes) :
    (slR k z e).byCount n ⟨b ++ rest, none⟩ (.seq []) = some (⟨rest, none⟩, v) := by
  simp [TR.byCount, slR, TR.autoCnt, hk, slSetCount, makeSlice_ok z n hn, fx]

theorem slR_byCount8 (z : Val) (e : TR) (b : Bytes) (d : Val) (rest : Bytes) :
    (slR (some .u8) z e).byCount b.length ⟨b ++ rest, none⟩ d =
      some (⟨rest, none⟩, .seq (b.map fun x => .scal (.u8 x))) := by
  simp [TR.byCount, slR, TR.autoCnt, u8Auto, slice_ok]

theorem slR_bySize8 (z : Val) (e : TR) (b : Bytes) (d : Val) (rest : Bytes) :
    (slR (some .u8) z e).bySize b.length ⟨b ++ rest, none⟩ d =
      some (⟨rest, none⟩, .seq (b.map fun x => .scal (.u8 x))) := by
  simp [TR.bySize, slR, TR.autoCnt, u8Auto, slice_ok]

theorem byCount_autoCnt (x : TR) : x.autoCnt.byCount = x.byCount := rfl

theorem slR_auto (k : Option Kind) (z : Val) (e : TR) : (slR k z e).auto = (slR k z e).withCount .i32 := rfl

theorem rg_sl (tail : Bool) (t : Ty) (e : TR) (he : RG false t e) (hb : bulky t = true)
    (h0 : codeSz t ≠ 0) (ht : tail = true → wideScal t = false) : RG tail (.sl t) (slR t.kind? (zero t) e) := by
  have key : ∀ addr v rest, Fits addr (.sl t) v →
      elemsR t.kind? e.auto ⟨pay (.sl t) v ++ rest, none⟩ (prep (.sl t) v) = some (⟨rest, none⟩, v) := by
    intro addr v rest hf
    cases v <;> simp only [Fits] at hf
    simp only [pay, prep, vlen]
    exact elemsR_ok t e he true _ rest hf.2.2
  have bc : ∀ addr v rest, Fits addr (.sl t) v →
      (slR t.kind? (zero t) e).byCount (countOf (.sl t) v) ⟨pay (.sl t) v ++ rest, none⟩ (zero (.sl t)) =
        some (⟨rest, none⟩, v) := by
    intro addr v rest hf
    have hk := key addr v
    cases v <;> simp only [Fits] at hf
    rename_i vs
    simp only [countOf, zero]
    by_cases c : t.kind? = some .u8
    · cases t <;> simp [Ty.kind?] at c
      subst c
      have := u8_back vs (fun v hv => by
        have := (hf.2.2 v hv).1
        cases v <;> simp only [Fits] at this
        exact ⟨_, rfl, this⟩)
      have e' : pay (.sl (.scal .u8)) (.seq vs) = (vs.map fun v => pay (.scal .u8) v).flatten := by
        simp [pay, withCnt, counted]
      have h := slR_byCount8 (.scal (Kind.zero .u8)) e (pay (.sl (.scal .u8)) (.seq vs)) (.seq []) rest
      rw [e', this.1, this.2] at h
      rw [e']
      exact h
    · apply slR_byCount _ _ _ _ _ _ c hf.1
      intro rest
      exact hk rest (by simp only [Fits]; exact hf) 
  have tl : wideScal t = false → ∀ addr v, Fits addr (.sl t) v →
      (slR t.kind? (zero t) e).tail ⟨pay (.sl t) v, none⟩ (zero (.sl t)) = some (⟨[], none⟩, v) := by
    intro hw addr v hf
    cases v <;> simp only [Fits] at hf
    rename_i vs
    cases hk : t.kind? with
    | some k =>
      cases t <;> simp [Ty.kind?] at hk
      subst hk
      simp [wideScal] at hw
      subst hw
      have := u8_back vs (fun v hv => by
        have := (hf.2.2 v hv).1
        cases v <;> simp only [Fits] at this
        exact ⟨_, rfl, this⟩)
      have e' : pay (.sl (.scal .u8)) (.seq vs) = (vs.map fun v => pay (.scal .u8) v).flatten := by
        simp [pay, withCnt, counted]
      rw [e']
      simp only [slR, TR.autoCnt, slTail, Rd.tail, ne_eq, not_true_eq_false, if_false, this.1]
    | none =>
      have := tailLoop_ok e.auto (zero t) (fun v => withCnt t v (pay t v)) vs
        (((vs.map fun v => withCnt t v (pay t v)).flatten).length + 1) (by omega)
        (fun v hv => bulky_len t v true hb (hf.2.2 v hv).1)
        (fun v hv rest => he.au rfl true v rest (hf.2.2 v hv).1 (hf.2.2 v hv).2)
      simp only [slR, TR.autoCnt, slTail, pay, this]
  have hz : e.sz ≠ 0 := by rw [he.sz]; exact h0
  refine ⟨by simp [slR, TR.autoCnt, hz, codeSz], rfl, ?_, ?_, ?_, ?_, ?_⟩
  · intro _ _ addr v rest hf; exact key addr v rest hf
  · intro _ addr v rest hf hc
    rw [slR_auto]
    have e : layout (.sl t) v = pfxBytes .i32 (countOf (.sl t) v) ++ pay (.sl t) v := by
      simp [layout, withCnt, counted, pfxBytes]
    rw [e]
    exact withCount_ok _ .i32 (by decide) _ (hc rfl) _ _ _ _ (bc addr v rest hf)
  · intro h addr v hf; exact tl (ht h) addr v hf
  · intro _ hok addr v rest hf
    simp only [SizeOk] at hok
    by_cases c : t.kind? = some .u8
    · cases t <;> simp [Ty.kind?] at c
      subst c
      cases v <;> simp only [Fits] at hf
      rename_i vs
      have := u8_back vs (fun v hv => by
        have := (hf.2.2 v hv).1
        cases v <;> simp only [Fits] at this
        exact ⟨_, rfl, this⟩)
      have e' : pay (.sl (.scal .u8)) (.seq vs) = (vs.map fun v => pay (.scal .u8) v).flatten := by
        simp [pay, withCnt, counted]
      have h := slR_bySize8 (.scal (Kind.zero .u8)) e (pay (.sl (.scal .u8)) (.seq vs)) (.seq []) rest
      rw [e', this.1] at h
      rw [e']
      exact h
    · have hsz := he.sz
      by_cases cz : 0 ≤ codeSz t
      · obtain ⟨m, hs, h2⟩ := exact_size cz hok
        rw [h2] at hsz
        have hk := key addr v rest hf
        cases v <;> simp only [Fits] at hf
        rename_i vs
        have hl : (pay (.sl t) (.seq vs)).length = vs.length * m := by
          simp only [pay]
          apply flatten_const
          intro x hx
          simp only [withCnt, not_counted hs]
          exact pay_len t m x true hs (hf.2.2 x hx).1
        have hm : 0 < m := by omega
        have hd : ((pay (.sl t) (.seq vs)).length : Int).tdiv e.sz = vs.length := by
          rw [hl, hsz, Int.natCast_mul, Int.mul_tdiv_cancel _ (by omega)]
        have h2 : slSetSize e.sz (zero t) (zero (.sl t)) (pay (.sl t) (.seq vs)).length =
            some (true, none, .seq (List.replicate vs.length (zero t))) := by
          unfold slSetSize
          rw [if_pos (by omega), hd]
          simp only [zero, makeSlice_ok _ _ hf.1]
        unfold TR.bySize
        simp only [slR, TR.autoCnt, c, if_false, h2]
        exact hk
      · have hw : wideScal t = false := by
          cases t <;> simp [codeSz] at cz <;> rfl
        have h2 : slSetSize e.sz (zero t) (zero (.sl t)) (pay (.sl t) v).length = some (false, none, zero (.sl t)) := by
          unfold slSetSize
          rw [hsz, if_neg (by omega), if_neg (by omega)]
        have h3 := sub_ok _ (pay (.sl t) v) rest _ v (tl hw addr v hf)
        have h4 : (slR t.kind? (zero t) e).autoSize = none := by simp [slR, TR.autoCnt, c]
        have h5 : (slR t.kind? (zero t) e).setSize = slSetSize e.sz (zero t) := rfl
        unfold TR.bySize
        simp only [h4, h5, h2]
        exact h3
  · intro _ addr v rest hf; exact bc addr v rest hf

/-! ### `ber` fields -/

/-- The reader `x` reads what the layout says about a `ber` field of type `t`. -/
structure RB (t : Ty) (x : TR) : Prop where
  au : isArr t = false → ∀ d v rest, FitsBer t d v → (counted t = true → countOf t v < 2 ^ 32) →
    x.auto ⟨withCnt t v (berPay v) ++ rest, none⟩ (zero t) = some (⟨rest, none⟩, v)
  tl : ∀ d v, FitsBer t d v → x.tail ⟨berPay v, none⟩ (zero t) = some (⟨[], none⟩, v)
  bs : ∀ d v rest, FitsBer t d v →
    x.bySize (berPay v).length ⟨berPay v ++ rest, none⟩ (zero t) = some (⟨rest, none⟩, v)
  bc : ∀ d v rest, FitsBer t d v →
    x.byCount (countOf t v) ⟨berPay v ++ rest, none⟩ (zero t) = some (⟨rest, none⟩, v)

theorem berR_ok (k : Kind) (hk : unsignedK k = true) (s : Scal) (hs : s.kind = k) (z : Val) (rest : Bytes) :
    (berR k).auto ⟨ber (natOf (.scal s)) ++ rest, none⟩ z = some (⟨rest, none⟩, .scal s) := by
  obtain ⟨x, h1, h2⟩ := uint_of k hk s hs
  rw [← h2]
  simp only [berR, Rd.uvar_ber]
  subst hs
  cases s <;> simp [unsignedK, Scal.kind] at hk <;> simp [uint] at h1 <;> subst h1 <;> simp [ofUint, Scal.kind]

theorem rb_scal (k : Kind) (hk : unsignedK k = true) : RB (.scal k) (berR k) := by
  have key : ∀ d v rest z, FitsBer (.scal k) d v → (berR k).auto ⟨berPay v ++ rest, none⟩ z = some (⟨rest, none⟩, v) := by
    intro d v rest z hf
    cases v <;> simp only [FitsBer] at hf
    exact berR_ok k hk _ hf.1 z rest
  refine ⟨?_, ?_, ?_, ?_⟩
  · intro _ d v rest hf _
    have e : withCnt (.scal k) v (berPay v) = berPay v := by simp [withCnt, counted]
    rw [e]; exact key d v rest _ hf
  · intro d v hf
    have := key d v [] (zero (.scal k)) hf
    rw [List.append_nil] at this; exact this
  · intro d v rest hf
    apply bySize_sub _ _ _ _ _ rfl rfl
    have := key d v [] (zero (.scal k)) hf
    rw [List.append_nil] at this; exact this
  · intro d v rest hf
    exact byCount_fixed _ 1 _ _ _ rfl rfl (key d v rest (zero (.scal k)) hf)

theorem berElems (k : Kind) (hk : unsignedK k = true) (vs : List Val) (h : ∀ v ∈ vs, ∃ s, v = .scal s ∧ s.kind = k) (rest : Bytes) :
    elemsR none (berR k).auto ⟨berPay (.seq vs) ++ rest, none⟩ (.seq (List.replicate vs.length (.scal k.zero))) =
      some (⟨rest, none⟩, .seq vs) := by
  have := readEach_ok (berR k).auto (.scal k.zero) (fun v => ber (natOf v)) vs rest (fun v hv rest => by
    obtain ⟨s, rfl, hs⟩ := h v hv
    exact berR_ok k hk s hs _ rest)
  simp only [elemsR, berPay, this]

theorem rb_arr (n : Nat) (k : Kind) (hk : unsignedK k = true) : RB (.arr n (.scal k)) (arrR n none (berR k)) := by
  have key : ∀ d v rest, FitsBer (.arr n (.scal k)) d v →
      elemsR none (berR k).auto ⟨berPay v ++ rest, none⟩ (zero (.arr n (.scal k))) = some (⟨rest, none⟩, v) := by
    intro d v rest hf
    cases v <;> simp only [FitsBer] at hf
    simp only [zero]
    rw [← hf.1]
    exact berElems k hk _ (fun v hv => by obtain ⟨s, h1, h2, _⟩ := hf.2 v hv; exact ⟨s, h1, h2⟩) rest
  refine ⟨?_, ?_, ?_, ?_⟩
  · intro h; simp [isArr] at h
  · intro d v hf
    have := key d v [] hf
    rw [List.append_nil] at this; exact this
  · intro d v rest hf
    apply bySize_sub _ _ _ _ _ rfl rfl
    have := key d v [] hf
    rw [List.append_nil] at this; exact this
  · intro d v rest hf
    exact byCount_fixed _ n _ _ _ rfl rfl (key d v rest hf)

theorem rb_sl (k : Kind) (hk : unsignedK k = true) : RB (.sl (.scal k)) (slR none (.scal k.zero) (berR k)) := by
  have bc : ∀ d v rest, FitsBer (.sl (.scal k)) d v →
      (slR none (.scal k.zero) (berR k)).byCount (countOf (.sl (.scal k)) v) ⟨berPay v ++ rest, none⟩
        (zero (.sl (.scal k))) = some (⟨rest, none⟩, v) := by
    intro d v rest hf
    cases v <;> simp only [FitsBer] at hf
    simp only [countOf, zero]
    apply slR_byCount _ _ _ _ _ _ (by simp) hf.1
    intro rest
    exact berElems k hk _ (fun v hv => by obtain ⟨s, h1, h2, _⟩ := hf.2 v hv; exact ⟨s, h1, h2⟩) rest
  have tl : ∀ d v, FitsBer (.sl (.scal k)) d v →
      (slR none (.scal k.zero) (berR k)).tail ⟨berPay v, none⟩ (zero (.sl (.scal k))) = some (⟨[], none⟩, v) := by
    intro d v hf
    cases v <;> simp only [FitsBer] at hf
    rename_i vs
    have := tailLoop_ok (berR k).auto (.scal k.zero) (fun v => ber (natOf v)) vs
        (((vs.map fun v => ber (natOf v)).flatten).length + 1) (by omega)
        (fun v _ => ber_pos _)
        (fun v hv rest => by
          obtain ⟨s, rfl, hs, _⟩ := hf.2 v hv
          exact berR_ok k hk s hs _ rest)
    simp only [slR, TR.autoCnt, slTail, berPay, this]
  refine ⟨?_, tl, ?_, bc⟩
  · intro _ d v rest hf hc
    rw [slR_auto]
    have e : withCnt (.sl (.scal k)) v (berPay v) = pfxBytes .i32 (countOf (.sl (.scal k)) v) ++ berPay v := by
      simp [withCnt, counted, pfxBytes]
    rw [e]
    exact withCount_ok _ .i32 (by decide) _ (hc rfl) _ _ _ _ (bc d v rest hf)
  · intro d v rest hf
    have h3 := sub_ok _ (berPay v) rest _ v (tl d v hf)
    have h2 : (slR none (.scal k.zero) (berR k)).setSize = slSetSize (-1) (.scal k.zero) := rfl
    have h4 : (slR none (.scal k.zero) (berR k)).autoSize = none := rfl
    unfold TR.bySize
    simp only [h4, h2, slSetSize]
    simp only [show ¬ (0 : Int) < -1 by decide, if_false, show ¬ (-1 : Int) = 0 by decide]
    exact h3

theorem rb_for (t : Ty) (h : berable t = true) : ∃ x, berForR t = some x ∧ RB t x := by
  cases t with
  | scal k => exact ⟨_, by simp_all [berForR, berable], rb_scal k h⟩
  | arr n t => cases t <;> simp [berable] at h; exact ⟨_, by simp [berForR, h], rb_arr n _ h⟩
  | sl t => cases t <;> simp [berable] at h; exact ⟨_, by simp [berForR, h], rb_sl _ h⟩
  | _ => simp [berable] at h

/-! ### Fields -/

/-- One field, given what its reader does. -/
theorem get_ok (t : Ty) (x : TR) (d : Dir) (hd : ∀ p, d = .size p ∨ d = .cnt p → p ≠ .i64) (m : Bool)
    (v : Val) (b rest : Bytes) (hf : FitsDir t v d b)
    (au : d = .none → x.auto ⟨withCnt t v b ++ rest, none⟩ (zero t) = some (⟨rest, none⟩, v))
    (tl : d = .no → m = true ∧ rest = [] ∧ x.tail ⟨b, none⟩ (zero t) = some (⟨[], none⟩, v))
    (bs : ∀ p, d = .size p → x.bySize b.length ⟨b ++ rest, none⟩ (zero t) = some (⟨rest, none⟩, v))
    (bc : ∀ p, d = .cnt p → x.byCount (countOf t v) ⟨b ++ rest, none⟩ (zero t) = some (⟨rest, none⟩, v)) :
    FR.get ⟨x, d⟩ m ⟨tagged t v d b ++ rest, none⟩ (zero t) = some (⟨rest, none⟩, v) := by
  cases d with
  | none => exact au rfl
  | no =>
    obtain ⟨rfl, rfl, h⟩ := tl rfl
    simpa [FR.get, tagged] using h
  | size p => exact withSize_ok x p (hd p (Or.inl rfl)) b hf _ v rest (bs p rfl)
  | cnt p => exact withCount_ok x p (hd p (Or.inr rfl)) _ hf b _ v rest (bc p rfl)

/-- When the fields can be read by `structFixed` (`m = false`) or `structTail`. -/
def Mode (tail m : Bool) (fs : Fl) (rest : Bytes) : Prop :=
  (m = false ∧ (tail = false ∨ (sizeFl? fs).isSome)) ∨ (m = true ∧ tail = true ∧ rest = [])

theorem Mode.next {tail m : Bool} {g : Tag} {t : Ty} {fs : Fl} {rest : Bytes} (h : Mode tail m (.cons g t fs) rest) :
    Mode tail m fs rest := by
  rcases h with ⟨h1, h2⟩ | h
  · refine Or.inl ⟨h1, h2.imp_right ?_⟩
    intro h
    cases hs : sizeFl? fs with
    | some n => rfl
    | none =>
      cases g with
      | hidden => simp [sizeFl?, hs] at h
      | skip => simp [sizeFl?, hs] at h
      | use b d =>
        cases b with
        | true => simp [sizeFl?] at h
        | false => cases d <;> simp [sizeFl?, hs] at h
  · exact Or.inr h

/-- What the field loop yields. -/
structure RF (tail : Bool) (fs : Fl) (l : List (Option FR)) : Prop where
  rd : ∀ m addr vs rest, Mode tail m fs rest → FitsFl addr fs vs →
    readFlds m l ⟨payFl fs vs ++ rest, none⟩ (zeros fs) = some (⟨rest, none⟩, vs)

theorem rf_none (tail : Bool) (g : Tag) (t : Ty) (fs : Fl) (l : List (Option FR)) (h : RF tail fs l)
    (hp : ∀ addr v vs, FitsFl addr (.cons g t fs) (v :: vs) → FitsFl addr fs vs ∧ v = zero t ∧
      payFl (.cons g t fs) (v :: vs) = payFl fs vs) :
    RF tail (.cons g t fs) (none :: l) := by
  refine ⟨?_⟩
  intro m addr vs rest hm hf
  cases vs with
  | nil => cases g <;> (try rename_i b d; cases b) <;> simp [FitsFl] at hf
  | cons v vs =>
    obtain ⟨h1, h2, h3⟩ := hp addr v vs hf
    have := h.rd m addr vs rest hm.next h1
    rw [h3]
    simp only [zeros, readFlds, this, h2]

theorem rf_some (tail : Bool) (g : Tag) (t : Ty) (fs : Fl) (l : List (Option FR)) (f : FR) (h : RF tail fs l)
    (hp : ∀ m addr v vs rest, Mode tail m (.cons g t fs) rest → FitsFl addr (.cons g t fs) (v :: vs) →
      FitsFl addr fs vs ∧ ∃ b, payFl (.cons g t fs) (v :: vs) = b ++ payFl fs vs ∧
        f.get m ⟨b ++ (payFl fs vs ++ rest), none⟩ (zero t) = some (⟨payFl fs vs ++ rest, none⟩, v)) :
    RF tail (.cons g t fs) (some f :: l) := by
  refine ⟨?_⟩
  intro m addr vs rest hm hf
  cases vs with
  | nil => cases g <;> (try rename_i b d; cases b) <;> simp [FitsFl] at hf
  | cons v vs =>
    obtain ⟨h1, b, h2, h3⟩ := hp m addr v vs rest hm hf
    have := h.rd m addr vs rest hm.next h1
    rw [h2, List.append_assoc]
    simp only [zeros, readFlds, h3, this]

theorem payFl_hidden : (fs : Fl) → onlyHidden fs = true → ∀ vs, payFl fs vs = []
  | .nil, _, vs => by simp [payFl]
  | .cons .hidden t fs, h, vs => by
    cases vs <;> simp [payFl]
    exact payFl_hidden fs (by simpa [onlyHidden] using h) _
  | .cons .skip t fs, h, _ => by simp [onlyHidden] at h
  | .cons (.use _ _) t fs, h, _ => by simp [onlyHidden] at h

theorem hidden_fldsR (b tail : Bool) (s : Int) : (fs : Fl) → onlyHidden fs = true →
    ∃ l, trFl s b fs = some (s, l) ∧ RF tail fs l
  | .nil, _ => ⟨[], by simp [trFl], ⟨by
      intro m addr vs rest hm hf
      cases vs <;> simp [FitsFl] at hf
      simp [readFlds, payFl, zeros]⟩⟩
  | .cons .hidden t fs, h => by
    simp only [onlyHidden] at h
    obtain ⟨l, h1, h2⟩ := hidden_fldsR b tail s fs h
    refine ⟨none :: l, by simp [trFl, h1], rf_none _ _ _ _ _ h2 ?_⟩
    intro addr v vs hf
    simp only [FitsFl] at hf
    exact ⟨hf.2, hf.1, by simp [payFl]⟩
  | .cons .skip t fs, h => by simp [onlyHidden] at h
  | .cons (.use _ _) t fs, h => by simp [onlyHidden] at h

theorem rf_false (tail tt : Bool) (t : Ty) (x : TR) (hx : RG tt t x) (d : Dir)
    (hd : ∀ p, d = .size p ∨ d = .cnt p → p ≠ .i64)
    (fs : Fl) (l : List (Option FR)) (h : RF tail fs l)
    (hn : d = .none → tt = false) (hs : ∀ p, d = .size p → tt = isStruct t ∧ SizeOk t) (hc : ∀ p, d = .cnt p → tt = false)
    (ho : d = .no → tt = true ∧ tail = true ∧ onlyHidden fs = true) :
    RF tail (.cons (.use false d) t fs) (some ⟨x, d⟩ :: l) := by
  apply rf_some _ _ _ _ _ _ h
  intro m addr v vs rest hm hf
  simp only [FitsFl] at hf
  refine ⟨hf.2.2, tagged t v d (pay t v), by simp only [payFl, Bool.false_eq_true, if_false], ?_⟩
  apply get_ok t x d hd m v _ _ hf.2.1
  · intro e
    subst e
    exact hx.au (hn rfl) addr v _ hf.1 hf.2.1
  · intro e
    subst e
    obtain ⟨h1, h2, h3⟩ := ho rfl
    rcases hm with ⟨_, h4⟩ | ⟨h4, _, h5⟩
    · rcases h4 with h4 | h4
      · rw [h2] at h4; simp at h4
      · simp [sizeFl?] at h4
    · refine ⟨h4, by simp [h5, payFl_hidden fs h3], hx.tl h1 addr v hf.1⟩
  · intro p e
    subst e
    exact hx.bs (hs p rfl).1 (hs p rfl).2 addr v _ hf.1
  · intro p e
    subst e
    exact hx.bc (hc p rfl) addr v _ hf.1

theorem rf_true (tail : Bool) (t : Ty) (x : TR) (hx : RB t x) (d : Dir)
    (hd : ∀ p, d = .size p ∨ d = .cnt p → p ≠ .i64) (ha : d = .none → isArr t = false)
    (fs : Fl) (l : List (Option FR)) (h : RF tail fs l)
    (ho : d = .no → tail = true ∧ onlyHidden fs = true) :
    RF tail (.cons (.use true d) t fs) (some ⟨x, d⟩ :: l) := by
  apply rf_some _ _ _ _ _ _ h
  intro m addr v vs rest hm hf
  simp only [FitsFl] at hf
  refine ⟨hf.2.2, tagged t v d (berPay v), by simp only [payFl, if_true], ?_⟩
  apply get_ok t x d hd m v _ _ hf.2.1
  · intro e
    subst e
    exact hx.au (ha rfl) _ v _ hf.1 hf.2.1
  · intro e
    subst e
    obtain ⟨h2, h3⟩ := ho rfl
    rcases hm with ⟨_, h4⟩ | ⟨h4, _, h5⟩
    · rcases h4 with h4 | h4
      · rw [h2] at h4; simp at h4
      · simp [sizeFl?] at h4
    · refine ⟨h4, by simp [h5, payFl_hidden fs h3], hx.tl _ v hf.1⟩
  · intro p e
    exact hx.bs _ v _ hf.1
  · intro p e
    exact hx.bc _ v _ hf.1

theorem berZero_arr0 (k : Kind) (d : Dir) (v : Val) (h : FitsBer (.arr 0 (.scal k)) d v) : v = zero (.arr 0 (.scal k)) := by
  cases v <;> simp only [FitsBer] at h
  rename_i vs
  have : vs = [] := List.eq_nil_of_length_eq_zero h.1
  simp [this, zero]

/-- One step of the field loop. -/
theorem trFl_use (tail : Bool) (s : Int) (ber : Bool) (d : Dir) (t : Ty) (fs : Fl) (x y : TR) (hx : tr t = some x)
    (hz : x.sz = codeSz t) (hc : x.cnt = asSz (count? t)) (hy : (if ber then berForR t else some x) = some y)
    (h0 : ¬ (codeSz t = 0 ∧ d.bare = true))
    (h : ∀ s, ∃ l, trFl s (d = .no) fs = some (codeFl s fs, l) ∧ RF tail fs l)
    (hw : ∀ l, RF tail fs l → RF tail (.cons (.use ber d) t fs) (some ⟨y, d⟩ :: l)) :
    ∃ l, trFl s false (.cons (.use ber d) t fs) = some (codeFl s (.cons (.use ber d) t fs), l) ∧
      RF tail (.cons (.use ber d) t fs) l := by
  simp only [trFl, Bool.false_eq_true, if_false, hx, hz, hc, hy, codeFl, h0]
  by_cases c : 0 ≤ dirSize (codeSz t) (asSz (count? t)) d (if ber = true then -1 else s)
  · obtain ⟨l, h1, h2⟩ := h (dirSize (codeSz t) (asSz (count? t)) d (if ber = true then -1 else s) + codeSz t)
    exact ⟨some ⟨y, d⟩ :: l, by simp only [if_pos c, h1], hw l h2⟩
  · obtain ⟨l, h1, h2⟩ := h (dirSize (codeSz t) (asSz (count? t)) d (if ber = true then -1 else s))
    exact ⟨some ⟨y, d⟩ :: l, by simp only [if_neg c, h1], hw l h2⟩

/-- One step of the field loop: the field is left out. -/
theorem trFl_drop (tail : Bool) (s : Int) (ber : Bool) (d : Dir) (t : Ty) (fs : Fl) (x : TR) (hx : tr t = some x)
    (hz : x.sz = codeSz t) (hc : x.cnt = asSz (count? t)) (h0 : codeSz t = 0 ∧ d.bare = true)
    (h : ∀ s, ∃ l, trFl s (d = .no) fs = some (codeFl s fs, l) ∧ RF tail fs l)
    (hw : ∀ l, RF tail fs l → RF tail (.cons (.use ber d) t fs) (none :: l)) :
    ∃ l, trFl s false (.cons (.use ber d) t fs) = some (codeFl s (.cons (.use ber d) t fs), l) ∧
      RF tail (.cons (.use ber d) t fs) l := by
  obtain ⟨l, h1, h2⟩ := h (dirSize (codeSz t) (asSz (count? t)) d (if ber = true then -1 else s))
  refine ⟨none :: l, ?_, hw l h2⟩
  simp only [trFl, Bool.false_eq_true, if_false, hx, hz, hc, codeFl, h0, and_self, if_true] at h1 ⊢
  rw [h1]
  simp

mutual
/-- Every sound type has a reader, and it reads the layout. -/
theorem tr_ok : (t : Ty) → ∀ tail, Sound tail t → ∃ x, tr t = some x ∧ RG tail t x
  | .scal k, _, _ => ⟨_, by simp [tr], rg_scal _ k⟩
  | .str, _, _ => ⟨_, by simp [tr], rg_str _⟩
  | .arr n t, _, h => by
    simp only [Sound] at h
    obtain ⟨x, h1, h2⟩ := tr_ok t false h
    exact ⟨_, by simp only [tr, h1], rg_arr _ n t x h2⟩
  | .sl t, _, h => by
    simp only [Sound] at h
    obtain ⟨x, h1, h2⟩ := tr_ok t false h.1
    exact ⟨_, by simp only [tr, h1], rg_sl _ t x h2 h.2.1 h.2.2.1 h.2.2.2⟩
  | .ptr t, _, h => by simp [Sound] at h
  | .struct fs, tail, h => by
    simp only [Sound] at h
    obtain ⟨l, h1, h2⟩ := trFl_ok fs tail h 0
    refine ⟨structR (codeFl 0 fs) l, by simp only [tr, h1], ?_⟩
    have hz : codeFl 0 fs = codeSz (.struct fs) := by simp [codeSz]
    have fx : (tail = false ∨ (size? (.struct fs)).isSome) → ∀ addr v rest, Fits addr (.struct fs) v →
        (structR (codeFl 0 fs) l).fixed ⟨pay (.struct fs) v ++ rest, none⟩ (zero (.struct fs)) =
          some (⟨rest, none⟩, v) := by
      intro hm addr v rest hf
      cases v <;> simp only [Fits] at hf
      have := h2.rd false addr _ rest (Or.inl ⟨rfl, by simpa [size?] using hm⟩) hf
      simp only [structR, pay, zero, this]
    have tl : tail = true → ∀ addr v, Fits addr (.struct fs) v →
        (structR (codeFl 0 fs) l).tail ⟨pay (.struct fs) v, none⟩ (zero (.struct fs)) =
          some (⟨[], none⟩, v) := by
      intro hm addr v hf
      cases v <;> simp only [Fits] at hf
      have := h2.rd true addr _ [] (Or.inr ⟨rfl, hm, rfl⟩) hf
      rw [List.append_nil] at this
      simp only [structR, pay, zero, this]
    refine ⟨hz, rfl, fun h _ => fx h, ?_, tl, ?_, ?_⟩
    · intro ht addr v rest hf _
      have e : layout (.struct fs) v = pay (.struct fs) v := by simp [layout, withCnt, counted]
      rw [e]
      exact fx (Or.inl ht) addr v rest hf
    · intro ht hok addr v rest hf
      have ht : tail = true := ht
      simp only [SizeOk] at hok
      by_cases c : 0 ≤ codeSz (.struct fs)
      · obtain ⟨m, h3, h4⟩ := exact_size c hok
        apply bySize_fixed _ m _ _ _ _ rfl
        · show plainSetSize (codeFl 0 fs) = _
          rw [hz, h4]; rfl
        · exact pay_len _ _ v addr h3 hf
        · exact fx (Or.inr (by rw [h3]; rfl)) addr v rest hf
      · have h3 := sub_ok _ (pay (.struct fs) v) rest _ v (tl ht addr v hf)
        have h5 : ∀ d n, (structR (codeFl 0 fs) l).setSize d n = some (false, none, d) := by
          intro d n
          show plainSetSize (codeFl 0 fs) d n = _
          simp [plainSetSize, hz, c]
        have h6 : (structR (codeFl 0 fs) l).autoSize = none := rfl
        unfold TR.bySize
        simp only [h6, h5]
        exact h3
    · intro ht addr v rest hf
      exact byCount_fixed _ 1 _ _ _ rfl rfl (fx (Or.inl ht) addr v rest hf)
theorem trFl_ok : (fs : Fl) → ∀ tail, SoundFl tail fs →
    ∀ s, ∃ l, trFl s false fs = some (codeFl s fs, l) ∧ RF tail fs l
  | .nil, _, _, s => ⟨[], by simp [trFl, codeFl], ⟨by
      intro m addr vs rest hm hf
      cases vs <;> simp [FitsFl] at hf
      simp [readFlds, payFl, zeros]⟩⟩
  | .cons .hidden t fs, tail, h, s => by
    simp only [SoundFl] at h
    obtain ⟨l, h1, h2⟩ := trFl_ok fs tail h s
    refine ⟨none :: l, by simp [trFl, h1, codeFl], rf_none _ _ _ _ _ h2 ?_⟩
    intro addr v vs hf
    simp only [FitsFl] at hf
    exact ⟨hf.2, hf.1, by simp [payFl]⟩
  | .cons .skip t fs, tail, h, s => by
    simp only [SoundFl] at h
    obtain ⟨l, h1, h2⟩ := trFl_ok fs tail h s
    refine ⟨none :: l, by simp [trFl, h1, codeFl], rf_none _ _ _ _ _ h2 ?_⟩
    intro addr v vs hf
    simp only [FitsFl] at hf
    exact ⟨hf.2, hf.1, by simp [payFl]⟩
  | .cons (.use true .none) t fs, tail, h, s => by
    simp only [SoundFl] at h
    obtain ⟨x, h1, hx⟩ := tr_ok t false (berable_wg t h.1)
    obtain ⟨y, h2, h3⟩ := rb_for t h.1
    refine trFl_use tail s true .none t fs x y h1 hx.sz hx.cn (by simpa using h2) ?_ (trFl_ok fs tail h.2.2)
      (fun l hl => rf_true tail t y h3 _ (by simp) (fun _ => h.2.1) fs l hl (by simp))
    intro hz
    obtain ⟨k, rfl⟩ := berable_zero t h.1 hz.1
    simp [isArr] at h
  | .cons (.use true .no) t fs, tail, h, s => by
    simp only [SoundFl] at h
    obtain ⟨x, h1, hx⟩ := tr_ok t false (berable_wg t h.1)
    obtain ⟨y, h2, h3⟩ := rb_for t h.1
    have hh : ∀ s, ∃ l, trFl s (decide (Dir.no = .no)) fs = some (codeFl s fs, l) ∧ RF tail fs l := fun s => by
      rw [codeFl_hidden fs h.2.2]; exact hidden_fldsR _ tail s fs h.2.2
    by_cases c : codeSz t = 0
    · refine trFl_drop tail s true .no t fs x h1 hx.sz hx.cn ⟨c, rfl⟩ hh (fun l hl => rf_none _ _ _ _ _ hl ?_)
      intro addr v vs hf
      simp only [FitsFl] at hf
      obtain ⟨k, rfl⟩ := berable_zero t h.1 c
      refine ⟨hf.2.2, berZero_arr0 k _ v hf.1, ?_⟩
      simp [payFl, tagged, berPay_arr0 k _ v hf.1]
    · exact trFl_use tail s true .no t fs x y h1 hx.sz hx.cn (by simpa using h2) (by simp [c]) hh
        (fun l hl => rf_true tail t y h3 _ (by simp) (by simp) fs l hl (fun _ => h.2))
  | .cons (.use true (.size p)) t fs, tail, h, s => by
    simp only [SoundFl] at h
    obtain ⟨x, h1, hx⟩ := tr_ok t false (berable_wg t h.1)
    obtain ⟨y, h2, h3⟩ := rb_for t h.1
    refine trFl_use tail s true _ t fs x y h1 hx.sz hx.cn (by simpa using h2) (by simp [Dir.bare]) (trFl_ok fs tail h.2.2)
      (fun l hl => rf_true tail t y h3 _ ?_ (by simp) fs l hl (by simp))
    intro q hq
    simp at hq
    subst hq
    exact h.2.1
  | .cons (.use true (.cnt p)) t fs, tail, h, s => by
    simp only [SoundFl] at h
    obtain ⟨x, h1, hx⟩ := tr_ok t false (berable_wg t h.1)
    obtain ⟨y, h2, h3⟩ := rb_for t h.1
    refine trFl_use tail s true _ t fs x y h1 hx.sz hx.cn (by simpa using h2) (by simp [Dir.bare]) (trFl_ok fs tail h.2.2)
      (fun l hl => rf_true tail t y h3 _ ?_ (by simp) fs l hl (by simp))
    intro q hq
    simp at hq
    subst hq
    exact h.2.1
  | .cons (.use false .none) t fs, tail, h, s => by
    simp only [SoundFl] at h
    obtain ⟨x, h1, hx⟩ := tr_ok t false h.1
    by_cases c : codeSz t = 0
    · refine trFl_drop tail s false .none t fs x h1 hx.sz hx.cn ⟨c, rfl⟩ (trFl_ok fs tail h.2.2)
        (fun l hl => rf_none _ _ _ _ _ hl ?_)
      intro addr v vs hf
      simp only [FitsFl] at hf
      have hn := exact_zero c h.2.1
      refine ⟨hf.2.2, zero_of_size t v addr hn hf.1, ?_⟩
      have := List.eq_nil_of_length_eq_zero (pay_len t 0 v addr hn hf.1)
      simp [payFl, tagged, withCnt, not_counted hn, this]
    · exact trFl_use tail s false .none t fs x x h1 hx.sz hx.cn (by simp) (by simp [c]) (trFl_ok fs tail h.2.2)
        (fun l hl => rf_false tail false t x hx _ (by simp) fs l hl (fun _ => rfl) (by simp) (by simp) (by simp))
  | .cons (.use false .no) t fs, tail, h, s => by
    simp only [SoundFl] at h
    obtain ⟨x, h1, hx⟩ := tr_ok t true h.2.1
    have hh : ∀ s, ∃ l, trFl s (decide (Dir.no = .no)) fs = some (codeFl s fs, l) ∧ RF tail fs l := fun s => by
      rw [codeFl_hidden fs h.2.2.2]; exact hidden_fldsR _ tail s fs h.2.2.2
    by_cases c : codeSz t = 0
    · refine trFl_drop tail s false .no t fs x h1 hx.sz hx.cn ⟨c, rfl⟩ hh (fun l hl => rf_none _ _ _ _ _ hl ?_)
      intro addr v vs hf
      simp only [FitsFl] at hf
      have hn := exact_zero c h.2.2.1
      refine ⟨hf.2.2, zero_of_size t v addr hn hf.1, ?_⟩
      have := List.eq_nil_of_length_eq_zero (pay_len t 0 v addr hn hf.1)
      simp [payFl, tagged, this]
    · exact trFl_use tail s false .no t fs x x h1 hx.sz hx.cn (by simp) (by simp [c]) hh
        (fun l hl => rf_false tail true t x hx _ (by simp) fs l hl (by simp) (by simp) (by simp) (fun _ => ⟨rfl, h.1, h.2.2.2⟩))
  | .cons (.use false (.size p)) t fs, tail, h, s => by
    simp only [SoundFl] at h
    obtain ⟨x, h1, hx⟩ := tr_ok t (isStruct t) h.2.1
    refine trFl_use tail s false _ t fs x x h1 hx.sz hx.cn (by simp) (by simp [Dir.bare]) (trFl_ok fs tail h.2.2.2)
      (fun l hl => rf_false tail (isStruct t) t x hx _ ?_ fs l hl (by simp) (fun _ _ => ⟨rfl, h.2.2.1⟩) (by simp) (by simp))
    intro q hq
    simp at hq
    subst hq
    exact h.1
  | .cons (.use false (.cnt p)) t fs, tail, h, s => by
    simp only [SoundFl] at h
    obtain ⟨x, h1, hx⟩ := tr_ok t false h.2.1
    refine trFl_use tail s false _ t fs x x h1 hx.sz hx.cn (by simp) (by simp [Dir.bare]) (trFl_ok fs tail h.2.2)
      (fun l hl => rf_false tail false t x hx _ ?_ fs l hl (by simp) (by simp) (fun _ _ => rfl) (by simp))
    intro q hq
    simp at hq
    subst hq
    exact h.1
end

end Verif.Reflect
