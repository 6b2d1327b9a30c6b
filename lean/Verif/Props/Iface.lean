import Verif.Spec.Iface
import Verif.Props.Reflect

/-! C99-C102: `interface{}` arguments. -/
namespace Verif.Iface
open Verif.Marshal Verif.Reflect Verif.Spec
open Verif.Props (out)

/-! ### C99: the cases of the type switches agree with the reflective codec -/

theorem put_zero (w : Wr) (hw : w.Ok) : w.put 0 [] = some w := by
  have h := hw.1
  have e : w.buf.upto w.buf.len = w.buf := by simp [Slc.upto]
  simp only [Wr.put, Wr.ensure, Wr.grow, Nat.not_lt_zero, if_false, Nat.add_zero, h, if_true, e, Wr.stores]

theorem scals_len {k : Kind} {vs : List Val} {xs : List Scal} (h : scals k vs = some xs) : xs.length = vs.length := by
  induction vs generalizing xs with
  | nil => simp [scals] at h; simp [← h]
  | cons v vs ih =>
    cases v <;> simp only [scals] at h <;> try (cases h)
    split at h
    · cases hs : scals k vs <;> simp [hs] at h
      subst h; simp [ih hs]
    · cases h

theorem pfx_keeps {p : Pfx} {w w' : Wr} {n : Int64} (hw : w.Ok) (h : p.write w n = some w') : w'.Ok := by
  cases p <;> simp only [Pfx.write, Wr.intvar, Wr.intUint8, Wr.intUint16, Wr.intUint32, Wr.intUint64] at h
  case ber =>
    obtain ⟨w1, h1, e⟩ := Wr.uvar_spec w n.toUInt64 hw
    rw [h1] at h; cases h; exact e.ok
  all_goals
    first
    | (obtain ⟨w1, h1, e⟩ := Wr.scal_spec w (.u32 n.toUInt64.toUInt32) hw
       rw [h1] at h; cases h; exact e.ok)
    | (obtain ⟨w1, h1, e⟩ := Wr.scal_spec w (.u16 n.toUInt64.toUInt16) hw
       rw [h1] at h; cases h; exact e.ok)
    | (obtain ⟨w1, h1, e⟩ := Wr.scal_spec w (.u8 n.toUInt64.toUInt8) hw
       rw [h1] at h; cases h; exact e.ok)

theorem slVal_eq {k : Kind} {vs : List Val} {xs : List Scal} (h : scals k vs = some xs) (w : Wr) (hw : w.Ok) :
    slVal k true vs w = w.scalSl k xs := by
  simp only [slVal, h, if_true]
  cases xs with
  | nil => simp [Wr.scalSl, Wr.slStores, put_zero w hw]
  | cons x xs => simp

theorem ofInt_nat (n : Nat) : Int64.ofInt (n : Int) = Int64.ofNat n := rfl

/-- C99. `Write` of a value does what the reflective writer does for its type, whether or not the type switch has a case for it. -/
theorem C99_write (t : Ty) (v : Val) (w : Wr) (hw : w.Ok) : writeAny (.val t v) w = Reflect.write t v w := by
  simp only [writeAny, Reflect.write]
  cases hf : fastW t v with
  | none => rfl
  | some f =>
    simp only [fastW.eq_def] at hf
    split at hf
    · split at hf <;> cases hf
      rename_i h
      simp [tw, scalW, h]
    · cases hf
      simp [tw, strW, TW.fillauto, TW.withCount, TW.count, TW.baseCount, vlen, Pfx.write, ofInt_nat]
      rfl
    · rename_i k vs
      cases hs : scals k vs <;> simp only [hs] at hf <;> cases hf
      rename_i xs
      simp only [tw, slW, TW.fillauto, TW.withCount, TW.count, TW.baseCount, vlen, Pfx.write, ofInt_nat, elemsW, Ty.kind?,
        Option.isSome_some, if_true, scals_len hs, show ¬ (0 : Int) ≤ -1 by decide, if_false]
      cases hc : w.intUint32 (Int64.ofNat vs.length) with
      | none => rfl
      | some w' => simp only [slVal_eq hs w' (pfx_keeps (p := .i32) hw hc)]
    · cases hf

/-- The same for `WriteTail`. -/
theorem C99_writeTail (t : Ty) (v : Val) (w : Wr) (hw : w.Ok) : writeTailAny (.val t v) w = Reflect.writeTail t v w := by
  simp only [writeTailAny, Reflect.writeTail]
  cases hf : fastTailW t v with
  | none => rfl
  | some f =>
    simp only [fastTailW.eq_def] at hf
    split at hf
    · split at hf <;> cases hf
      rename_i h
      simp [tw, scalW, h]
    · rename_i k vs
      cases hs : scals k vs <;> simp only [hs] at hf <;> cases hf
      simp [tw, slW, TW.fillauto, elemsW, Ty.kind?, slVal_eq hs w hw]
    · cases hf

/-- Types with code of their own: `Write` and `WriteTail` call it and do nothing else, for a list of them (`[]IWriter`) one after the
other; `Write` puts their number in front. -/
theorem C100_hooks (f : Wr → Option Wr) (fs : List (Wr → Option Wr)) (w : Wr) :
    writeAny (.hook f) w = f w ∧ writeTailAny (.hook f) w = f w ∧
    writeTailAny (.hooks fs) w = fs.foldl (fun o f => o.bind f) (some w) ∧
    writeAny (.hooks fs) w = fs.foldl (fun o f => o.bind f) (w.intUint32 (Int64.ofNat fs.length)) := by
  have h0 : ∀ fs : List (Wr → Option Wr), fs.foldl (fun o f => o.bind f) none = none := by
    intro fs
    induction fs with
    | nil => rfl
    | cons f fs ih => exact ih
  have h : ∀ (fs : List (Wr → Option Wr)) w, runHooks fs w = fs.foldl (fun o f => o.bind f) (some w) := by
    intro fs
    induction fs with
    | nil => intro w; rfl
    | cons f fs ih =>
      intro w
      simp only [runHooks, List.foldl_cons, Option.bind_some]
      cases f w with
      | none => exact (h0 fs).symm
      | some w => exact ih w
  refine ⟨by simp [writeAny], rfl, h fs w, ?_⟩
  simp only [writeAny]
  cases w.intUint32 (Int64.ofNat fs.length) with
  | none => exact (h0 fs).symm
  | some w => exact h fs w

/-- The same for `WriteWithSize`. -/
theorem C99_writeSized (p : Pfx) (t : Ty) (v : Val) (w : Wr) (hw : w.Ok) :
    writeSized p t v w = match tw t with
      | none => none
      | some x => x.withSize p false v w := by
  simp only [writeSized]
  cases hf : fastSizedW p t v with
  | none => rfl
  | some f =>
    simp only [fastSizedW.eq_def] at hf
    split at hf
    · split at hf <;> cases hf
      rename_i k s h
      have : 0 ≤ kindSz k := by cases k <;> decide
      simp [tw, scalW, h, TW.withSize, TW.size, TW.baseSize, this]
      rfl
    · cases hf
      simp [tw, strW, TW.fillauto, TW.withSize, TW.size, TW.baseSize, vlen, ofInt_nat]
      rfl
    · rename_i vs
      cases hs : scals .u8 vs <;> simp only [hs] at hf <;> cases hf
      have hn : ((vs.length * (1 : Int).toNat : Nat) : Int) = vs.length := by simp
      simp only [tw, slW, TW.fillauto, TW.withSize, TW.size, TW.baseSize, vlen, Ty.kind?, scalW, kindSz, scals_len hs,
        Option.isSome_some, if_true, show ¬ (0 : Int) ≤ -1 by decide, if_false, show (0 : Int) ≤ 1 by decide, hn, ofInt_nat,
        show ∀ n : Nat, (0 : Int) ≤ (n : Int) by simp]
      cases hc : p.write w (Int64.ofNat vs.length) with
      | none => rfl
      | some w' => simp only [elemsW, slVal_eq hs w' (pfx_keeps hw hc)]
    · cases hf

theorem count_eq (r : Rd) : Pfx.i32.read r = ((count r).1, Int64.ofNat (count r).2) ∧ (count r).2 < 2 ^ 32 := by
  refine ⟨by simp [Pfx.read, Rd.intUint32, count], ?_⟩
  simp only [count]
  simp only [Rd.scal, Rd.decode]
  split
  · simp [Kind.zero, Rd.Scal.nat]
  · split
    · simp [Kind.zero, Rd.Scal.nat]
    · simpa [Rd.Scal.nat] using UInt32.toNat_lt _

theorem count_len (r : Rd) : (Pfx.i32.read r).2.toInt = (count r).2 := by
  rw [(count_eq r).1]
  exact toInt_ofNat _ (Nat.lt_trans (count_eq r).2 (by decide))

theorem count_fail (r : Rd) (h : (count r).1.err ≠ none) : (count r).2 = 0 := by
  simp only [count, Rd.scal] at h ⊢
  split
  · rfl
  · rename_i h1
    rw [if_neg h1] at h
    split
    · rfl
    · rename_i h2
      rw [if_neg h2] at h
      exact absurd (by simpa using h1) h

theorem agree_refl (a : Option (Rd × Val)) : Agree a a := by
  cases a <;> simp [Agree]

theorem slice_fail (r : Rd) (h : r.err ≠ none) (n : Int) : r.slice n = some (r, []) := by
  simp [Rd.slice, h]

theorem scalSl_empty (r : Rd) (k : Kind) : r.scalSl k [] = (r, []) := by
  simp only [Rd.scalSl]
  split
  · rfl
  · simp [Rd.slElems]

theorem scalSl_like (r : Rd) (k : Kind) (xs ys : List Scal) (h : xs.length = ys.length) :
    (r.scalSl k xs).1 = (r.scalSl k ys).1 ∧ ((r.scalSl k xs).1.err = none → (r.scalSl k xs).2 = (r.scalSl k ys).2) := by
  simp only [Rd.scalSl, h]
  split
  · rename_i h; simp [h]
  · split <;> simp

theorem sl_fixed (k : Kind) (f : RdF) (r : Rd) (vs : List Val) (xs : List Scal) (h : scals k vs = some xs) (h2 : vs = xs.map .scal) :
    elemsR (some k) f r (.seq vs) = some ((r.scalSl k xs).1, .seq ((r.scalSl k xs).2.map .scal)) := by
  simp only [elemsR, slValR, h]
  cases xs with
  | nil => simp [scalSl_empty, h2]
  | cons x xs => simp

/-- C99. `Read` into a variable of any type ends, without an error, with the value the reflective reader finds. With or without
an error it leaves the reader in the same state. -/
theorem C99_read (t : Ty) (v : Val) (hv : HasTy t v) (r : Rd) : Agree (readPtr t r v) (if r.err ≠ none then some (r, v) else slowR t r v) := by
  simp only [readPtr]
  split
  · exact agree_refl _
  rename_i hr
  simp only [ne_eq, Decidable.not_not] at hr
  cases hf : fastR t with
  | none => exact agree_refl _
  | some f =>
    simp only [fastR.eq_def] at hf
    split at hf
    · cases hf
      simp only [slowR, tr, scalR]; exact agree_refl _
    · cases hf
      simp only [slowR, tr, strR, hr, ne_eq, not_true_eq_false, if_false, setString, count_len, (count_eq r).1]
      split
      · exact agree_refl _
      · rename_i h
        simp [slice_fail _ h, Agree, h]
    · cases hf
      simp only [slowR, tr, slR, TR.autoCnt, TR.withCount, TR.byCount, Ty.kind?, hr, ne_eq, not_true_eq_false, if_false, if_true,
        u8Auto, (count_eq r).1, toInt_ofNat _ (Nat.lt_trans (count_eq r).2 (by decide : 2 ^ 32 < 2 ^ 63))]
      split
      · exact agree_refl _
      · rename_i h
        simp [slice_fail _ h, Agree, h]
    · rename_i k hk
      cases hf
      have hk' : ¬ (some k = some Kind.u8) := by simpa using hk
      simp only [slowR, tr, slR, TR.autoCnt, TR.withCount, TR.byCount, Ty.kind?, hr, ne_eq, not_true_eq_false, if_false, hk',
        slSetCount, makeSlice, count_len]
      have hn := (count_eq r).2
      cases v <;> simp only [HasTy] at hv
      rename_i vs
      obtain ⟨xs, h1, h2, h3⟩ := scals_of k vs (fun v hm => by
        have := hv v hm
        cases v <;> simp only [HasTy] at this
        exact ⟨_, rfl, this⟩)
      have hl := scals_len h1
      have mk : (if (vlen (.seq vs) : Int) = ((count r).2 : Int) then some (Val.seq vs)
          else if ((count r).2 : Int) < 0 ∨ 2 ^ 48 ≤ ((count r).2 : Int) then none
          else some (.seq (List.replicate ((count r).2 : Int).toNat (zero (.scal k))))) =
          some (if vs.length = (count r).2 then .seq vs else .seq (List.replicate (count r).2 (.scal k.zero))) := by
        have e : vlen (.seq vs) = vs.length := rfl
        by_cases hc : vs.length = (count r).2
        · rw [if_pos (by omega), if_pos hc]
        · rw [if_neg (by omega), if_neg (by omega), if_neg hc]
          simp [zero]
      rw [mk, (count_eq r).1]
      simp only
      split
      · rename_i he
        split
        · rename_i hc
          rw [sl_fixed k _ _ vs xs h1 h2]
          have := scalSl_like (count r).1 k (List.replicate (count r).2 k.zero) xs (by simp; omega)
          exact ⟨this.1, fun h => by rw [this.2 h]⟩
        · rw [sl_fixed k _ _ _ _ (scals_zero k _) (by simp)]
          exact agree_refl _
      · rename_i he
        have h0 := count_fail r he
        rw [h0]
        split
        · rename_i hc
          have : xs = [] := List.length_eq_zero_iff.mp (by omega)
          rw [sl_fixed k _ _ vs xs h1 h2, this, scalSl_empty]
          exact ⟨rfl, fun h => absurd h he⟩
        · rw [List.replicate_zero, sl_fixed k _ _ [] [] rfl rfl, scalSl_empty]
          exact ⟨rfl, fun h => absurd h he⟩
    · cases hf

/-- Into a new variable the two readings are the same in every respect. -/
theorem C99_read_new (t : Ty) (r : Rd) (hr : r.err = none) : readPtr t r (zero t) = slowR t r (zero t) := by
  simp only [readPtr, hr, ne_eq, not_true_eq_false, if_false]
  cases hf : fastR t with
  | none => rfl
  | some f =>
    simp only [fastR.eq_def] at hf
    split at hf
    · cases hf
      simp only [slowR, tr, scalR]
    · cases hf
      simp only [slowR, tr, strR, hr, ne_eq, not_true_eq_false, if_false, setString, count_len, (count_eq r).1]
      split
      · rfl
      · rename_i h
        simp [slice_fail _ h, zero]
    · cases hf
      simp only [slowR, tr, slR, TR.autoCnt, TR.withCount, TR.byCount, Ty.kind?, hr, ne_eq, not_true_eq_false, if_false, if_true,
        u8Auto, (count_eq r).1, toInt_ofNat _ (Nat.lt_trans (count_eq r).2 (by decide : 2 ^ 32 < 2 ^ 63))]
      split
      · rfl
      · rename_i h
        simp [slice_fail _ h, zero]
    · rename_i k hk
      cases hf
      have hk' : ¬ (some k = some Kind.u8) := by simpa using hk
      simp only [slowR, tr, slR, TR.autoCnt, TR.withCount, TR.byCount, Ty.kind?, hr, ne_eq, not_true_eq_false, if_false, hk',
        slSetCount, makeSlice, count_len, zero]
      have hn := (count_eq r).2
      have mk : (if (vlen (.seq []) : Int) = ((count r).2 : Int) then some (Val.seq [])
          else if ((count r).2 : Int) < 0 ∨ 2 ^ 48 ≤ ((count r).2 : Int) then none
          else some (.seq (List.replicate ((count r).2 : Int).toNat (.scal k.zero)))) =
          some (.seq (List.replicate (count r).2 (.scal k.zero))) := by
        have e : vlen (.seq []) = 0 := rfl
        by_cases hc : (count r).2 = 0
        · rw [if_pos (by omega), hc]; rfl
        · rw [if_neg (by omega), if_neg (by omega)]
          simp
      rw [mk, (count_eq r).1]
      simp only
      rw [sl_fixed k _ _ _ _ (scals_zero k _) (by simp)]
      split
      · rfl
      · rename_i he
        rw [count_fail r he]
        simp [scalSl_empty]
    · cases hf

/-- `[]uint16` with two elements: a case of its own in both directions. -/
example : HasTy (.sl (.scal .u16)) (.seq [.scal (.u16 5), .scal (.u16 6)]) ∧
    readPtr (.sl (.scal .u16)) ⟨[2, 0, 0, 0, 7, 0, 8, 0, 9], none⟩ (.seq [.scal (.u16 5), .scal (.u16 6)]) =
      some (⟨[9], none⟩, .seq [.scal (.u16 7), .scal (.u16 8)]) ∧
    out (writeAny (.val (.sl (.scal .u16)) (.seq [.scal (.u16 7), .scal (.u16 8)]))) = some [2, 0, 0, 0, 7, 0, 8, 0] := by
  refine ⟨by simp [HasTy, Scal.kind], by decide +kernel, by decide +kernel⟩

/-! ### C100: lists -/

mutual
theorem layout_any (nils : Bool) (a : Any) (ha : FitsAny nils a) (w : Wr) (hw : w.Ok) :
    ∃ w', writeAny a w = some w' ∧ Wr.Ext w w' (layoutAny a) := by
  cases a with
  | nil => exact ⟨w, by simp [writeAny], by simp only [layoutAny]; exact ext_refl hw⟩
  | val t v =>
    simp only [FitsAny] at ha
    rw [C99_write t v w hw]
    obtain ⟨x, hx, g⟩ := tw_ok t false ha.1
    obtain ⟨w', h, e⟩ := g.au false v w hw ha.2.1 ha.2.2
    exact ⟨w', by simp only [write, hx, h], e⟩
  | list l =>
    simp only [FitsAny] at ha
    obtain ⟨w1, h1, e1⟩ := pfx_write w hw .i32 (by decide) l.length ha.1
    obtain ⟨w2, h2, e2⟩ := layout_all nils l ha.2 w1 e1.ok
    refine ⟨w2, ?_, ?_⟩
    · simp only [Pfx.write] at h1
      simp only [writeAny, h1, h2]
    · simp only [layoutAny]
      exact ext_trans e1 e2
  | hook f => simp [FitsAny] at ha
  | hooks f => simp [FitsAny] at ha
theorem layout_all (nils : Bool) (l : List Any) (ha : FitsAll nils l) (w : Wr) (hw : w.Ok) :
    ∃ w', writeAll l w = some w' ∧ Wr.Ext w w' (layoutAll l) := by
  cases l with
  | nil => exact ⟨w, by simp [writeAll], by simp only [layoutAll]; exact ext_refl hw⟩
  | cons a l =>
    simp only [FitsAll] at ha
    obtain ⟨w1, h1, e1⟩ := layout_any nils a ha.1 w hw
    obtain ⟨w2, h2, e2⟩ := layout_all nils l ha.2 w1 e1.ok
    exact ⟨w2, by simp only [writeAll, h1, h2], by simp only [layoutAll]; exact ext_trans e1 e2⟩
end

theorem count_read' (n : Nat) (hn : n < 2 ^ 32) (rest : Bytes) : count ⟨le 4 n ++ rest, none⟩ = (⟨rest, none⟩, n) := by
  have h := pfx_read .i32 (by decide) n hn rest
  have c := count_eq ⟨le 4 n ++ rest, none⟩
  have cl := count_len ⟨le 4 n ++ rest, none⟩
  simp only [pfxBytes] at h
  rw [h.2] at cl
  rw [c.1] at h
  exact Prod.ext h.1 (by omega)

mutual
theorem read_any (a : Any) (ha : FitsAny false a) (rest : Bytes) :
    readAny ⟨layoutAny a ++ rest, none⟩ (freshDst a) = some (⟨rest, none⟩, gotDst a) := by
  cases a with
  | nil => simp [FitsAny] at ha
  | val t v =>
    simp only [FitsAny] at ha
    obtain ⟨x, hx, g⟩ := tr_ok t false ha.1
    simp only [layoutAny, freshDst, gotDst, readAny]
    rw [C99_read_new t _ rfl, slowR, hx]
    simp only [g.au rfl false v rest ha.2.1 ha.2.2, Option.map]
  | list l =>
    simp only [FitsAny] at ha
    have h := read_all l ha.2 rest
    have hl : (freshAll l).length = l.length := by
      clear ha h
      induction l with
      | nil => rfl
      | cons a l ih => simp [freshAll, ih]
    simp only [layoutAny, freshDst, gotDst, readAny, List.append_assoc, count_read' _ ha.1, hl, h]
    simp
  | hook f => simp [FitsAny] at ha
  | hooks f => simp [FitsAny] at ha
theorem read_all (l : List Any) (ha : FitsAll false l) (rest : Bytes) :
    readAll ⟨layoutAll l ++ rest, none⟩ (freshAll l) = some (⟨rest, none⟩, gotAll l) := by
  cases l with
  | nil => simp [layoutAll, freshAll, gotAll, readAll]
  | cons a l =>
    simp only [FitsAll] at ha
    have h1 := read_any a ha.1 (layoutAll l ++ rest)
    have h2 := read_all l ha.2 rest
    simp only [layoutAll, freshAll, gotAll, readAll, List.append_assoc, h1, h2]
end

/-- C100 (partial: nothing in the list is nil or user code, and the values are ones the reflective codec can handle). What `Write`
makes of a list, nested to any depth, is read back by `Read` into a list of pointers to new variables of the same types: the
variables get the values, and exactly the encoding is consumed. -/
theorem C100_roundtrip_partial (a : Any) (ha : FitsAny false a) (w : Wr) (hw : w.Ok) :
    ∃ w' d, writeAny a w = some w' ∧ w'.Ok ∧ w'.pending = w.pending ++ d ∧
      ∀ rest, readAny ⟨d ++ rest, none⟩ (freshDst a) = some (⟨rest, none⟩, gotDst a) := by
  obtain ⟨w', h, e⟩ := layout_any false a ha w hw
  exact ⟨w', _, h, e.ok, e.data, read_any a ha⟩

/-- C100 (partial: no user code). `Write` of a list writes the number of its elements, nil ones included, and then the elements, a nil one
being written as nothing. -/
theorem C100_layout_partial (a : Any) (ha : FitsAny true a) (w : Wr) (hw : w.Ok) :
    ∃ w', writeAny a w = some w' ∧ w'.Ok ∧ w'.pending = w.pending ++ layoutAny a := by
  obtain ⟨w', h, e⟩ := layout_any true a ha w hw
  exact ⟨w', h, e.ok, e.data⟩

/-- Another count than the length of the list is an error, and nothing more is read. -/
theorem C100_mismatch (n : Nat) (hn : n < 2 ^ 32) (ds : List Dst) (h : n ≠ ds.length) (rest : Bytes) :
    readAny ⟨le 4 n ++ rest, none⟩ (.plist ds) = some (⟨rest, some .other⟩, .plist ds) := by
  simp only [readAny, count_read' n hn]
  simp [h]

/-- After an error nothing more is read into. -/
theorem C100_stop (r : Rd) (hr : r.err ≠ none) (d : Dst) : readAny r d = some (r, d) := by
  cases d <;> simp [readAny, readPtr, hr]

theorem stop_all (r : Rd) (hr : r.err ≠ none) (ds : List Dst) : readAll r ds = some (r, ds) := by
  induction ds with
  | nil => rfl
  | cons d ds ih => simp [readAll, C100_stop r hr, ih]

/-- The variables behind a failing one keep their values. -/
theorem C100_rest_untouched (r r' : Rd) (ds es ds' : List Dst) (h : readAll r ds = some (r', ds')) (hr : r'.err ≠ none) :
    readAll r (ds ++ es) = some (r', ds' ++ es) := by
  induction ds generalizing r ds' with
  | nil => simp [readAll] at h; obtain ⟨rfl, rfl⟩ := h; exact stop_all _ hr es
  | cons d ds ih =>
    simp only [List.cons_append, readAll] at h ⊢
    split at h
    · cases h
    · rename_i r1 d1 h1
      split at h
      · cases h
      · rename_i r2 ds2 h2
        cases h
        simp only [ih _ _ h2, List.cons_append]

/-- A list with a string, a number and a list with a slice. -/
def exList : Any :=
  .list [.val .str (.str [65, 66]), .val (.scal .u16) (.scal (.u16 258)),
    .list [.val (.sl (.scal .i8)) (.seq [.scal (.i8 7), .scal (.i8 (-1))])]]

example : FitsAny false exList ∧
    out (writeAny exList) = some [3, 0, 0, 0, 2, 0, 0, 0, 65, 66, 2, 1, 1, 0, 0, 0, 2, 0, 0, 0, 7, 255] := by
  refine ⟨?_, by decide +kernel⟩
  simp [exList, FitsAny, FitsAll, Sound, Fits, counted, countOf, Scal.kind, Ty.kind?, bulky, codeSz]
  decide

/-- `C100_mismatch`, `C100_rest_untouched`: the first of three variables cannot be read. -/
example : readAll ⟨[1], none⟩ [.ptr (.scal .u16) (.scal (.u16 3))] = some (⟨[1], some .short⟩, [.ptr (.scal .u16) (.scal (.u16 0))]) := by
  rfl

/-- C100. `Write` of a `[]IWriter` or `[]IShortWriter` whose elements append some bytes each: their number, and then these bytes.
`Read` into a `*[]IReader` or `*[]IShortReader` of as many elements which take these bytes takes exactly that. -/
theorem C100_user_code (l : List ((Wr → Option Wr) × (Rd → Option Rd) × Bytes)) (hn : l.length < 2 ^ 32)
    (hw : ∀ i ∈ l, ∀ w : Wr, w.Ok → ∃ w', i.1 w = some w' ∧ Wr.Ext w w' i.2.2)
    (hr : ∀ i ∈ l, ∀ rest, i.2.1 ⟨i.2.2 ++ rest, none⟩ = some ⟨rest, none⟩) (w : Wr) (ok : w.Ok) :
    ∃ w' d, writeAny (.hooks (l.map (·.1))) w = some w' ∧ w'.Ok ∧ w'.pending = w.pending ++ d ∧
      d = le 4 l.length ++ (l.map (·.2.2)).flatten ∧
      ∀ rest, readAny ⟨d ++ rest, none⟩ (.phooks (l.map (·.2.1))) = some (⟨rest, none⟩, .phooks (l.map (·.2.1))) := by
  obtain ⟨w1, h1, e1⟩ := pfx_write w ok .i32 (by decide) l.length hn
  have key : ∀ (l : List ((Wr → Option Wr) × (Rd → Option Rd) × Bytes)) (w : Wr), w.Ok →
      (∀ i ∈ l, ∀ w : Wr, w.Ok → ∃ w', i.1 w = some w' ∧ Wr.Ext w w' i.2.2) →
      ∃ w', runHooks (l.map (·.1)) w = some w' ∧ Wr.Ext w w' (l.map (·.2.2)).flatten := by
    intro l
    induction l with
    | nil => intro w ok _; exact ⟨w, rfl, ext_refl ok⟩
    | cons i l ih =>
      intro w ok hw
      obtain ⟨w1, h1, e1⟩ := hw i (by simp) w ok
      obtain ⟨w2, h2, e2⟩ := ih w1 e1.ok (fun i hi => hw i (by simp [hi]))
      exact ⟨w2, by simp only [List.map_cons, runHooks, h1, h2], by simpa using ext_trans e1 e2⟩
  have kr : ∀ (l : List ((Wr → Option Wr) × (Rd → Option Rd) × Bytes)) (rest : Bytes),
      (∀ i ∈ l, ∀ rest, i.2.1 ⟨i.2.2 ++ rest, none⟩ = some ⟨rest, none⟩) →
      runHooksR (l.map (·.2.1)) ⟨(l.map (·.2.2)).flatten ++ rest, none⟩ = some ⟨rest, none⟩ := by
    intro l
    induction l with
    | nil => intro rest _; simp [runHooksR]
    | cons i l ih =>
      intro rest hr
      simp only [List.map_cons, List.flatten_cons, List.append_assoc, runHooksR, hr i (by simp),
        ih rest (fun i hi => hr i (by simp [hi]))]
  obtain ⟨w2, h2, e2⟩ := key l w1 e1.ok hw
  refine ⟨w2, _, ?_, e2.ok, (ext_trans e1 e2).data, rfl, fun rest => ?_⟩
  · simp only [Pfx.write] at h1
    simp only [writeAny, List.length_map, h1, h2]
  · simp only [pfxBytes, List.append_assoc, readAny, count_read' _ hn, List.length_map, kr l rest hr]
    simp

/-- Two elements which write one byte each. -/
example : (∀ w : Wr, w.Ok → ∃ w', w.scal (.u8 7) = some w' ∧ Wr.Ext w w' [7]) ∧
    (fun r : Rd => some (r.scal .u8).1) ⟨[7, 9], none⟩ = some ⟨[9], none⟩ := by
  exact ⟨fun w h => Wr.scal_spec w (.u8 7) h, rfl⟩

/-- A nil in a list is counted, but takes no room: `[]interface{}{nil, uint8(5)}` cannot be read into two variables, nor into one. -/
theorem C100_nil_violated :
    out (writeAny (.list [.nil, .val (.scal .u8) (.scal (.u8 5))])) = some [2, 0, 0, 0, 5] ∧
    (∀ v u, (readAny ⟨[2, 0, 0, 0, 5], none⟩ (.plist [.ptr (.scal .u8) v, .ptr (.scal .u8) u])).map (·.1) =
      some ⟨[], some .short⟩) ∧
    (∀ v, (readAny ⟨[2, 0, 0, 0, 5], none⟩ (.plist [.ptr (.scal .u8) v])).map (·.1) = some ⟨[5], some .other⟩) ∧
    ∀ d, readAny ⟨[2, 0, 0, 0, 5], none⟩ (.plist [.nil, d]) = none := by
  refine ⟨by decide +kernel, fun v u => rfl, fun v => rfl, fun d => ?_⟩
  have : count ⟨[2, 0, 0, 0, 5], none⟩ = (⟨[5], none⟩, 2) := by rfl
  simp [readAny, readAll, this]

/-! ### C101: `WriteWithSize` and `ReadWithSize` -/

/-- C101 (partial: for types whose size is computed rightly, a prefix which is not `IntUint64` and which can hold the size).
`WriteWithSize` writes the number of bytes of the value, and then the value. -/
theorem C101_layout_partial (p : Pfx) (hp : p ≠ .i64) (t : Ty) (ht : Sound false t) (hs : SizeOk t) (v : Val) (hv : Fits false t v)
    (hf : fits p (pay t v).length) (w : Wr) (hw : w.Ok) :
    ∃ w', writeSized p t v w = some w' ∧ w'.Ok ∧ w'.pending = w.pending ++ (pfxBytes p (pay t v).length ++ pay t v) := by
  rw [C99_writeSized p t v w hw]
  obtain ⟨x, hx, g⟩ := tw_ok t false ht
  obtain ⟨w', h, e⟩ := withSize_ext x p hp false v w (pay t v) hw (g.size hs false v hv) hf (fun w hw => g.wr false v w hw hv)
  exact ⟨w', by simp only [hx, h], e.ok, e.data⟩

theorem plain_cases {t : Ty} (ht : Plain t) : (∃ k, t = .scal k) ∨ t = .str ∨ t = .sl (.scal .u8) := by
  cases t <;> simp only [Plain] at ht
  · exact Or.inl ⟨_, rfl⟩
  · exact Or.inr (Or.inl rfl)
  · rename_i e
    cases e <;> simp only at ht
    subst ht
    exact Or.inr (Or.inr rfl)

theorem plain_sound {t : Ty} (ht : Plain t) : Sound false t ∧ SizeOk t := by
  rcases plain_cases ht with ⟨k, rfl⟩ | rfl | rfl
  · simp [Sound, SizeOk, exact, codeSz, size?, asSz]
  · simp [Sound, SizeOk, codeSz]
  · simp [Sound, SizeOk, exact, bulky, codeSz, size?, asSz, width]

/-- C101 (partial: for scalars, strings and bytes, a prefix which is not `IntUint64` and which can hold the size).
`ReadWithSize` reads back what `WriteWithSize` wrote with the corresponding size function. -/
theorem C101_roundtrip_partial (p : Pfx) (hp : p ≠ .i64) (t : Ty) (ht : Plain t) (v : Val) (hv : Fits false t v)
    (hf : fits p (pay t v).length) (w : Wr) (hw : w.Ok) :
    ∃ w' d, writeSized p t v w = some w' ∧ w'.Ok ∧ w'.pending = w.pending ++ d ∧
      ∀ old rest, readSized p t ⟨d ++ rest, none⟩ old = some (⟨rest, none⟩, v) := by
  obtain ⟨w', h, ok, e⟩ := C101_layout_partial p hp t (plain_sound ht).1 (plain_sound ht).2 v hv hf w hw
  refine ⟨w', _, h, ok, e, fun old rest => ?_⟩
  rw [List.append_assoc]
  have hr := pfx_read p hp _ hf (pay t v ++ rest)
  simp only [readSized, ne_eq, not_true_eq_false, if_false, hr]
  split
  · rename_i k
    cases v <;> simp only [Fits] at hv
    subst hv
    simp [pay, kindSz_eq, Rd.scal_bytes]
  · cases v <;> simp only [Fits] at hv
    simp [pay, slice_ok]
  · cases v <;> simp only [Fits] at hv
    rename_i vs
    simp only [slice_ok]
    have : ∀ vs : List Val, (∀ v ∈ vs, Fits true (.scal .u8) v) → (pay (.sl (.scal .u8)) (.seq vs)).map (fun x => Val.scal (.u8 x)) = vs := by
      intro vs
      induction vs with
      | nil => intro _; simp [pay]
      | cons v vs ih =>
        intro h
        have h1 := h v (by simp)
        cases v <;> simp only [Fits] at h1
        rename_i s
        cases s <;> simp [Scal.kind] at h1
        have := ih (fun v hv => h v (by simp [hv]))
        simp only [pay] at this
        have e : scalBytes (.u8 ‹UInt8›) = [‹UInt8›] := (elemBytes_eq (.u8 _)).symm
        simp only [withCnt, counted, Bool.false_eq_true, if_false, pay, List.map_cons, List.flatten_cons, List.map_append] at this ⊢
        rw [e, this]
        rfl
    rw [this vs (fun v hm => (hv.2.2 v hm).1)]
  · rename_i h1 h2 h3
    rcases plain_cases ht with ⟨k, h⟩ | h | h
    · exact absurd h (h1 _)
    · exact absurd h h2
    · exact absurd h h3

/-- A string behind a size of one byte. -/
example : Plain .str ∧ Fits false .str (.str [65, 66]) ∧ fits .i8 (pay .str (.str [65, 66])).length ∧
    out (writeSized .i8 .str (.str [65, 66])) = some [2, 65, 66] ∧
    readSized .i8 .str ⟨[2, 65, 66, 9], none⟩ (.str [1]) = some (⟨[9], none⟩, .str [65, 66]) := by
  refine ⟨by simp [Plain], by simp [Fits], by simp [fits, pay], by decide +kernel, by decide +kernel⟩

/-- Any other size than that of the scalar is passed over: no error, and the variable keeps its value. -/
theorem C101_wrong_size_violated (p : Pfx) (hp : p ≠ .i64) (k : Kind) (n : Nat) (hf : fits p n) (h : n ≠ width k) (b : Bytes) (v : Val) :
    readSized p (.scal k) ⟨pfxBytes p n ++ b, none⟩ v = some (⟨b, none⟩, v) := by
  have := pfx_read p hp n hf b
  simp only [readSized, ne_eq, not_true_eq_false, if_false, this, kindSz_eq]
  rw [if_neg (by omega)]

/-- All other types are read as if there were no size. -/
theorem C101_size_ignored_violated (p : Pfx) (t : Ty) (ht : ¬ Plain t) (b : Bytes) :
    readSized p t ⟨b, none⟩ (zero t) = Reflect.read t b := by
  simp only [readSized, ne_eq, not_true_eq_false, if_false]
  split
  · simp [Plain] at ht
  · simp [Plain] at ht
  · simp [Plain] at ht
  · rfl

/-- `struct { A uint8 }` holding 5 is read back as 1, and the 5 is left over. -/
example :
    let t := Ty.struct (.cons (.use false .none) (.scal .u8) .nil)
    out (writeSized .ber t (.seq [.scal (.u8 5)])) = some [1, 5] ∧
    readSized .ber t ⟨[1, 5], none⟩ (zero t) = some (⟨[5], none⟩, .seq [.scal (.u8 1)]) := by
  decide +kernel

/-! ### C102: `ReadTail` into a list -/

theorem ptr_fixed {t : Ty} (hs : Sound false t) (hc : counted t = false) {v : Val} (hv : Fits false t v) (rest : Bytes) :
    ∃ x, tr (.ptr t) = some x ∧ x.auto ⟨pay t v ++ rest, none⟩ (.ref (zero t)) = some (⟨rest, none⟩, .ref v) := by
  obtain ⟨y, hy, g⟩ := tr_ok t false hs
  refine ⟨ptrR (zero t) y, by simp only [tr, hy], ?_⟩
  have ht : t ≠ .str := by rintro rfl; simp [counted] at hc
  have hp : prep t v = zero t := by
    cases t <;> first | rfl | (simp [counted] at hc)
  have := g.fx (Or.inl rfl) ht false v rest hv
  rw [hp] at this
  simp only [ptrR, this]

theorem tail_items (l : List (Ty × Val)) (hl : ∀ i ∈ l, Sound false i.1 ∧ counted i.1 = false ∧ Fits false i.1 i.2) (rest : Bytes)
    (hr : rest ≠ []) : tailList ⟨(l.map fun i => pay i.1 i.2).flatten ++ rest, none⟩ (l.map fun i => (i.1, zero i.1)) = none := by
  induction l with
  | nil => simp [tailList, hr]
  | cons i l ih =>
    obtain ⟨hs, hc, hv⟩ := hl i (by simp)
    obtain ⟨x, hx, h⟩ := ptr_fixed hs hc hv ((l.map fun i => pay i.1 i.2).flatten ++ rest)
    simp only [List.map_cons, List.flatten_cons, List.append_assoc, tailList, hx, h, ih (fun i hi => hl i (by simp [hi])), Option.map]
    simp [hr]

theorem tail_exact (l : List (Ty × Val)) (hl : ∀ i ∈ l, Sound false i.1 ∧ counted i.1 = false ∧ Fits false i.1 i.2 ∧ pay i.1 i.2 ≠ []) :
    tailList ⟨(l.map fun i => pay i.1 i.2).flatten, none⟩ (l.map fun i => (i.1, zero i.1)) = some (⟨[], none⟩, l) := by
  induction l with
  | nil => simp [tailList]
  | cons i l ih =>
    obtain ⟨hs, hc, hv, hn⟩ := hl i (by simp)
    obtain ⟨x, hx, h⟩ := ptr_fixed hs hc hv (l.map fun i => pay i.1 i.2).flatten
    simp only [List.map_cons, List.flatten_cons, tailList, hx, h, ih (fun i hi => hl i (by simp [hi])), Option.map]
    simp [hn]

/-- C102 (partial: every element of the list takes some room and has no count, and the body is exactly as long as the list). `ReadTail(&list)`
reads the elements one after the other. -/
theorem C102_exact_partial (l : List (Ty × Val))
    (hl : ∀ i ∈ l, Sound false i.1 ∧ counted i.1 = false ∧ Fits false i.1 i.2 ∧ pay i.1 i.2 ≠ []) :
    readTailList (l.map fun i => pay i.1 i.2).flatten (l.map fun i => (i.1, zero i.1)) = some (⟨[], none⟩, l) := by
  simp [readTailList, tail_exact l hl]

/-- If the body is longer than the list then `ReadTail(&list)`, which reports what is left over for all other types, does not return: it
goes on to append nil elements. -/
theorem C102_longer_violated (l : List (Ty × Val))
    (hl : ∀ i ∈ l, Sound false i.1 ∧ counted i.1 = false ∧ Fits false i.1 i.2) (rest : Bytes) (hr : rest ≠ []) :
    readTailList ((l.map fun i => pay i.1 i.2).flatten ++ rest) (l.map fun i => (i.1, zero i.1)) = none := by
  simp [readTailList, tail_items l hl rest hr]

/-- Strings and slices in the list are read without their count: `[]interface{}{&s}` for a `[]uint16` `s` reads nothing at all, so that
every body but the empty one is too long. -/
theorem C102_counted_violated (k : Kind) (b : Bytes) (hb : b ≠ []) : readTailList b [(.sl (.scal k), .seq [])] = none := by
  simp [readTailList, tailList, tr, ptrR, slR, TR.autoCnt, elemsR, slValR, scals, Ty.kind?, hb]

example : (∀ i ∈ [(Ty.scal .u16, Val.scal (.u16 5)), (.scal .u8, .scal (.u8 6))],
      Sound false i.1 ∧ counted i.1 = false ∧ Fits false i.1 i.2 ∧ pay i.1 i.2 ≠ []) ∧
    readTailList [5, 0, 6] [(.scal .u16, .scal (.u16 0)), (.scal .u8, .scal (.u8 0))] =
      some (⟨[], none⟩, [(.scal .u16, .scal (.u16 5)), (.scal .u8, .scal (.u8 6))]) ∧
    readTailList [5, 0, 6, 7] [(.scal .u16, .scal (.u16 0)), (.scal .u8, .scal (.u8 0))] = none := by
  refine ⟨?_, by rfl, by rfl⟩
  simp [Sound, counted, Fits, Scal.kind, pay, scalBytes, le, width]

end Verif.Iface
