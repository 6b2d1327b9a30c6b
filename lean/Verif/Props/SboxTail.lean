import Verif.Model.SboxTail
import Verif.Spec.SboxTail
import Verif.Proofs.SboxRead

/-!
C97: a struct with `sbox:"tail"` is written as its fields and one more for each element of the tail, and read back.
C98: a struct with `sbox:"tailsplit"` is written as its fields and those of each element of the tail, and read back.

Both are violated by every tail with content.
-/
namespace Verif.SboxTail
open Verif.Marshal Verif.Reflect Verif.Spec Verif.Sbox

/-! ### Writing a tail -/

theorem each_none (f : Val → Wr → Option Wr) : (vs : List Val) → (∃ v ∈ vs, ∀ w, f v w = none) → ∀ w, writeEach f vs w = none
  | [], h, _ => by simp at h
  | v :: vs, h, w => by
    obtain ⟨u, hu, hn⟩ := h
    simp only [writeEach]
    cases hv : f v w with
    | none => rfl
    | some w1 =>
      rcases List.mem_cons.1 hu with rfl | hu
      · rw [hn] at hv; cases hv
      · exact each_none f vs ⟨u, hu, hn⟩ w1

theorem each_adds (f : Val → Wr → Option Wr) (g : Val → Bytes) : (vs : List Val) → (∀ v ∈ vs, Adds (f v) (g v)) →
    Adds (writeEach f vs) (vs.map g).flatten
  | [], _ => adds_nil
  | v :: vs, h => by
    have := adds_bind (k := writeEach f (v :: vs)) (h v (by simp)) (each_adds f g vs fun u hu => h u (by simp [hu]))
      (fun w => by simp only [writeEach]; cases f v w <;> rfl)
    simpa using this

theorem shift_none : (t : Ty) → (v : Val) → ¬ Hollow t v → ∀ w, shiftW t v w = none
  | .str, .str [], h, _ => absurd rfl h
  | .str, .str (_ :: _), _, _ => rfl
  | .sl t, .seq vs, h, w => by
    simp only [Hollow, Classical.not_forall] at h
    obtain ⟨v, hv, hn⟩ := h
    simp only [shiftW]
    refine each_none _ vs ⟨v, hv, fun w => ?_⟩ w
    have ih := shift_none t v hn
    grind
  | .scal _, v, _, _ => by simp [shiftW]
  | .arr _ _, v, _, _ => by simp [shiftW]
  | .ptr _, v, _, _ => by simp [shiftW]
  | .struct _, v, _, _ => by simp [shiftW]
  | .str, .scal _, _, _ => rfl
  | .str, .seq _, _, _ => rfl
  | .str, .nilp, _, _ => rfl
  | .str, .ref _, _, _ => rfl
  | .sl _, .scal _, _, _ => rfl
  | .sl _, .str _, _, _ => rfl
  | .sl _, .nilp, _, _ => rfl
  | .sl _, .ref _, _, _ => rfl

theorem shift_adds : (t : Ty) → (v : Val) → Hollow t v → Fits true t v → Adds (shiftW t v) (pay t v)
  | .str, .str b, h, _ => by cases h; exact adds_nil
  | .sl t, .seq vs, h, hf => by
    simp only [Hollow] at h
    simp only [Fits] at hf
    have key : ∀ v ∈ vs, Adds (fun w => match vLen t v with
        | none => none
        | some n => match Pfx.i32.write w (Int64.ofNat n) with
          | none => none
          | some w => shiftW t v w) (withCnt t v (pay t v)) := by
      intro v hv
      have ih := shift_adds t v (h v hv) (hf.2.2 v hv).1
      have hh := h v hv
      have hc := (hf.2.2 v hv).2
      have : ∃ n, vLen t v = some n ∧ countOf t v = n ∧ counted t = true := by
        cases t <;> cases v <;> simp_all [Hollow, vLen, countOf, counted]
      obtain ⟨n, h1, h2, h3⟩ := this
      have := adds_bind (k := fun w => match vLen t v with
        | none => none
        | some n => match Pfx.i32.write w (Int64.ofNat n) with
          | none => none
          | some w => shiftW t v w) (count_adds n (h2 ▸ hc h3)) ih
        (fun w => by simp only [h1]; cases Pfx.i32.write w (Int64.ofNat n) <;> rfl)
      simpa [withCnt, h3, h2] using this
    have := each_adds _ _ vs key
    simp only [pay]
    exact this
  | .scal _, _, h, _ => by simp [Hollow] at h
  | .arr _ _, _, h, _ => by simp [Hollow] at h
  | .ptr _, _, h, _ => by simp [Hollow] at h
  | .struct _, _, h, _ => by simp [Hollow] at h
  | .str, .scal _, h, _ => by simp [Hollow] at h
  | .str, .seq _, h, _ => by simp [Hollow] at h
  | .str, .nilp, h, _ => by simp [Hollow] at h
  | .str, .ref _, h, _ => by simp [Hollow] at h
  | .sl _, .scal _, h, _ => by simp [Hollow] at h
  | .sl _, .str _, h, _ => by simp [Hollow] at h
  | .sl _, .nilp, h, _ => by simp [Hollow] at h
  | .sl _, .ref _, h, _ => by simp [Hollow] at h

theorem elem_none (e : Ty) (x : TW) (v : Val) (h : ¬ Hollow e v) (w : Wr) : elemW e x v w = none := by
  have := shift_none e v h
  unfold elemW
  simp only [this]
  grind

theorem elem_adds (e : Ty) (x : TW) (hx : x.sz < 0) (v : Val) (h : Hollow e v) (hv : FieldVal true e v) :
    Adds (elemW e x v) (fieldBytes (pay e v)) := by
  intro w hw
  obtain ⟨w1, h1, e1⟩ := pfx_write w hw .ber (by simp) (pay e v).length hv.2
  obtain ⟨tw, h2, e2⟩ := shift_adds e v h hv.1 (Wr.new 128) (Wr.ok_new 128)
  have hb : tw.written.1.mem.view tw.written.2 = pay e v := by
    rw [(Wr.written_spec tw e2.ok).2.2.1, e2.data, pending_new]; rfl
  obtain ⟨w3, h3, e3⟩ := Wr.bytes_spec w1 (pay e v) e1.ok
  refine ⟨w3, ?_, ext_trans e1 e3⟩
  simp only [elemW, if_neg (Int.not_le.2 hx), h2, hb, h1, h3]

theorem hollow_sz (e : Ty) (v : Val) (h : Hollow e v) : codeSz e < 0 := by
  cases e <;> simp_all [Hollow, codeSz]

/-- C97 (partial: tails of empty strings and the like). A struct is written as its fields and one for each element. -/
theorem C97_write_partial (fs : Fl) (e : Ty) (hfs : TupFl fs) (_ : Front fs) (he : FieldTy e) (_ : Spine e) (addr : Bool)
    (vs ts : List Val) (hv : TupVals addr fs vs) (ht : ∀ v ∈ ts, Hollow e v ∧ FieldVal true e v)
    (hn : (tailFields fs e vs ts).length < 2 ^ 32) :
    Adds (tailWr fs e addr vs ts) (tupleBytes (tailFields fs e vs ts)) := by
  obtain ⟨s, l, h1, h2⟩ := twFl_good fs hfs 0
  obtain ⟨x, h3, h4⟩ := field_wg e he
  have hl := fields_count addr fs vs hv
  have hc : fldCount l + ts.length = (tailFields fs e vs ts).length := by simp [tailFields, hl, h2.count]
  have a1 := count_adds _ (hc ▸ hn : fldCount l + ts.length < 2 ^ 32)
  have a2 := h2.adds addr vs hv
  have a3 := each_adds (elemW e x) (fun v => fieldBytes (pay e v)) ts fun v hm =>
    elem_adds e x (h4.sz ▸ hollow_sz e v (ht v hm).1) v (ht v hm).1 (ht v hm).2
  have a4 := adds_bind (k := fun w => match sizedFlds addr l vs w with
    | none => none
    | some w => writeEach (elemW e x) ts w) a2 a3 (fun w => by cases sizedFlds addr l vs w <;> rfl)
  have a5 := adds_bind (k := tailWr fs e addr vs ts) a1 a4 (fun w => by
    simp only [tailWr, codecW, h1, h3]
    cases Pfx.i32.write w (Int64.ofNat (fldCount l + ts.length)) <;> rfl)
  rw [hc] at a5
  have : ts.map (fun v => fieldBytes (pay e v)) = (ts.map (pay e)).map fieldBytes := by simp
  rw [this] at a5
  simpa [tupleBytes, tailFields] using a5

/-- C97 is violated: writing panics as soon as an element of the tail has any content. -/
theorem C97_write_violated (fs : Fl) (e : Ty) (_ : Front fs) (_ : Spine e) (addr : Bool) (vs ts : List Val)
    (v : Val) (hm : v ∈ ts) (h : ¬ Hollow e v) (w : Wr) : tailWr fs e addr vs ts w = none := by
  unfold tailWr
  split
  · rfl
  · split
    · rfl
    · split
      · rfl
      · exact each_none _ ts ⟨v, hm, elem_none e _ v h⟩ _

/-! ### Reading a tail -/

theorem snoc_tupFl (t : Ty) (ht : FieldTy t) (hz : codeSz t ≠ 0) : (fs : Fl) → Front fs → TupFl fs → TupFl (snoc fs t)
  | .nil, _, _ => by simp [snoc, TupFl, ht, hz]
  | .cons .hidden _ _, h, _ => by simp [Front] at h
  | .cons .skip _ _, h, _ => by simp [Front] at h
  | .cons (.use ber d) u fs, h, hf => by
    simp only [Front] at h
    simp only [TupFl] at hf
    simp only [snoc, TupFl]
    exact ⟨hf.1, hf.2.1, fun e => absurd e h.1, snoc_tupFl t ht hz fs h.2 hf.2.2.2⟩

theorem snoc_vals (addr : Bool) (t : Ty) (v : Val) (hv : FieldVal addr t v) : (fs : Fl) → (vs : List Val) → TupVals addr fs vs →
    TupVals addr (snoc fs t) (vs ++ [v])
  | .nil, [], _ => by simp [snoc, TupVals, hv]
  | .nil, _ :: _, h => by simp [TupVals] at h
  | .cons .hidden u fs, x :: vs, h => by
    simp only [TupVals] at h; exact ⟨h.1, snoc_vals addr t v hv fs vs h.2⟩
  | .cons .skip u fs, x :: vs, h => by
    simp only [TupVals] at h; exact ⟨h.1, snoc_vals addr t v hv fs vs h.2⟩
  | .cons (.use ber d) u fs, x :: vs, h => by
    simp only [TupVals] at h
    simp only [snoc, List.cons_append, TupVals]
    exact ⟨h.1, snoc_vals addr t v hv fs vs h.2⟩
  | .cons .hidden _ _, [], h => by simp [TupVals] at h
  | .cons .skip _ _, [], h => by simp [TupVals] at h
  | .cons (.use _ _) _ _, [], h => by simp [TupVals] at h

theorem snoc_fields (addr : Bool) (t : Ty) (v : Val) : (fs : Fl) → (vs : List Val) → TupVals addr fs vs →
    structFields (snoc fs t) (vs ++ [v]) = structFields fs vs ++ [pay t v]
  | .nil, [], _ => by simp [snoc, structFields]
  | .nil, _ :: _, h => by simp [TupVals] at h
  | .cons .hidden u fs, x :: vs, h => by
    simp only [TupVals] at h; simpa [snoc, structFields] using snoc_fields addr t v fs vs h.2
  | .cons .skip u fs, x :: vs, h => by
    simp only [TupVals] at h; simpa [snoc, structFields] using snoc_fields addr t v fs vs h.2
  | .cons (.use ber d) u fs, x :: vs, h => by
    simp only [TupVals] at h
    simpa [snoc, structFields] using snoc_fields addr t v fs vs h.2
  | .cons .hidden _ _, [], h => by simp [TupVals] at h
  | .cons .skip _ _, [], h => by simp [TupVals] at h
  | .cons (.use _ _) _ _, [], h => by simp [TupVals] at h

theorem snoc_num (t : Ty) : (fs : Fl) → numFields (snoc fs t) = numFields fs + 1
  | .nil => rfl
  | .cons .hidden _ fs => by simpa [snoc, numFields] using snoc_num t fs
  | .cons .skip _ fs => by simpa [snoc, numFields] using snoc_num t fs
  | .cons (.use _ _) _ fs => by simpa [snoc, numFields] using snoc_num t fs

theorem snoc_zeros (t : Ty) : (fs : Fl) → zeros (snoc fs t) = zeros fs ++ [zero t]
  | .nil => rfl
  | .cons _ _ fs => by simpa [snoc, zeros] using snoc_zeros t fs

theorem snoc_upTo (addr : Bool) (t : Ty) (v : Val) : (fs : Fl) → (vs : List Val) → TupVals addr fs vs → (k : Nat) →
    k ≤ numFields fs → upTo k (snoc fs t) (vs ++ [v]) = upTo k fs vs ++ [zero t]
  | .nil, [], _, k, hk => by simp [numFields] at hk; subst hk; simp [snoc, upTo]
  | .nil, _ :: _, h, _, _ => by simp [TupVals] at h
  | .cons .hidden u fs, x :: vs, h, k, hk => by
    simp only [TupVals] at h; simpa [snoc, upTo] using snoc_upTo addr t v fs vs h.2 k (by simpa [numFields] using hk)
  | .cons .skip u fs, x :: vs, h, k, hk => by
    simp only [TupVals] at h; simpa [snoc, upTo] using snoc_upTo addr t v fs vs h.2 k (by simpa [numFields] using hk)
  | .cons (.use ber d) u fs, x :: vs, h, 0, hk => by
    simp only [TupVals] at h
    simpa [snoc, upTo] using snoc_upTo addr t v fs vs h.2 0 (by omega)
  | .cons (.use ber d) u fs, x :: vs, h, k + 1, hk => by
    simp only [TupVals] at h
    simpa [snoc, upTo] using snoc_upTo addr t v fs vs h.2 k (by simp [numFields] at hk; omega)
  | .cons .hidden _ _, [], h, _, _ => by simp [TupVals] at h
  | .cons .skip _ _, [], h, _, _ => by simp [TupVals] at h
  | .cons (.use _ _) _ _, [], h, _, _ => by simp [TupVals] at h

theorem read_struct (fs : Fl) (h : TupFl fs) (addr : Bool) (vs : List Val) (hv : TupVals addr fs vs) (k : Nat) (hk : k < 2 ^ 32)
    (rest : Bytes) :
    readRaw (.struct fs) ⟨le 4 k ++ ((((structFields fs vs).take k).map fieldBytes).flatten ++ rest), none⟩ =
      some (⟨rest, none⟩, .seq (upTo k fs vs)) := by
  obtain ⟨l, h1, h2⟩ := struct_gets fs h
  simp only [readRaw, h1, h2 addr vs k hv hk rest]

theorem empty_val (addr : Bool) (e : Ty) : FieldVal addr (.sl e) (.seq []) := by simp [FieldVal, Fits, pay]

/-- C97 (partial: no tail). A tuple with no more fields than the front of the struct has is read with an empty tail. -/
theorem C97_short_partial (fs : Fl) (e : Ty) (hfs : TupFl fs) (hf : Front fs) (he : FieldTy (.sl e)) (addr : Bool) (vs : List Val)
    (hv : TupVals addr fs vs) (k : Nat) (hk : k ≤ numFields fs) (hk2 : k < 2 ^ 32) (rest : Bytes) :
    tailRd fs e ⟨tupleBytes ((structFields fs vs).take k) ++ rest, none⟩ =
      some (⟨rest, none⟩, .seq (upTo k fs vs ++ [.seq []])) := by
  have hl := fields_count addr fs vs hv
  have := read_struct _ (snoc_tupFl (.sl e) he (by simp [codeSz]) fs hf hfs) addr _ (snoc_vals addr _ _ (empty_val addr e) fs vs hv)
    k hk2 rest
  rw [snoc_fields addr _ _ fs vs hv, snoc_upTo addr _ _ fs vs hv k hk, List.take_append_of_le_length (hl ▸ hk)] at this
  have hlen : ((structFields fs vs).take k).length = k := by simp [hl, Nat.min_eq_left hk]
  simp only [tailRd, tupleBytes, hlen, List.append_assoc]
  exact this

/-- C97: of a tail, the first element is read, if the elements are not strings or slices. -/
theorem read_first (fs : Fl) (e : Ty) (hfs : TupFl fs) (hf : Front fs) (he : FieldTy (.sl e)) (hc : counted e = false) (addr : Bool)
    (vs : List Val) (hv : TupVals addr fs vs) (v : Val) (hv1 : FieldVal addr (.sl e) (.seq [v])) (more : List Bytes)
    (hn : numFields fs + 1 + more.length < 2 ^ 32) (rest : Bytes) :
    tailRd fs e ⟨tupleBytes (structFields fs vs ++ pay e v :: more) ++ rest, none⟩ =
      some (⟨(more.map fieldBytes).flatten ++ rest, none⟩, .seq (vs ++ [.seq [v]])) := by
  have hl := fields_count addr fs vs hv
  have hvs := snoc_vals addr _ _ hv1 fs vs hv
  have := read_struct _ (snoc_tupFl (.sl e) he (by simp [codeSz]) fs hf hfs) addr _ hvs
    (numFields fs + 1 + more.length) hn ((more.map fieldBytes).flatten ++ rest)
  rw [upTo_all addr _ _ hvs _ (by rw [snoc_num]; omega), snoc_fields addr _ _ fs vs hv, List.take_of_length_le (by simp [hl])] at this
  have hp : pay (.sl e) (.seq [v]) = pay e v := by simp [pay, withCnt, hc]
  rw [hp] at this
  have hlen : (structFields fs vs ++ pay e v :: more).length = numFields fs + 1 + more.length := by simp [hl]; omega
  simp only [tailRd, tupleBytes, hlen, List.map_append, List.map_cons, List.flatten_append, List.flatten_cons, List.append_assoc]
  simpa using this

/-- C97 (partial: one element, neither string nor slice). The tail is read back. -/
theorem C97_read_partial (fs : Fl) (e : Ty) (hfs : TupFl fs) (hf : Front fs) (he : FieldTy (.sl e)) (hc : counted e = false)
    (addr : Bool) (vs : List Val) (hv : TupVals addr fs vs) (v : Val) (hv1 : FieldVal addr (.sl e) (.seq [v]))
    (hn : numFields fs + 1 < 2 ^ 32) (rest : Bytes) :
    tailRd fs e ⟨tupleBytes (tailFields fs e vs [v]) ++ rest, none⟩ = some (⟨rest, none⟩, .seq (vs ++ [.seq [v]])) := by
  have := read_first fs e hfs hf he hc addr vs hv v hv1 [] (by simpa using hn) rest
  simpa [tailFields] using this

/-- C97 is violated: of a tail of two and more elements, the first one only is read; the others are left over, without
an error. -/
theorem C97_read_violated (fs : Fl) (e : Ty) (hfs : TupFl fs) (hf : Front fs) (he : FieldTy (.sl e)) (hc : counted e = false)
    (addr : Bool) (vs : List Val) (hv : TupVals addr fs vs) (v : Val) (hv1 : FieldVal addr (.sl e) (.seq [v])) (ts : List Val)
    (hn : (tailFields fs e vs (v :: ts)).length < 2 ^ 32) (rest : Bytes) :
    tailRd fs e ⟨tupleBytes (tailFields fs e vs (v :: ts)) ++ rest, none⟩ =
      some (⟨((ts.map (pay e)).map fieldBytes).flatten ++ rest, none⟩, .seq (vs ++ [.seq [v]])) := by
  have hl := fields_count addr fs vs hv
  have := read_first fs e hfs hf he hc addr vs hv v hv1 (ts.map (pay e))
    (by simp [tailFields, hl] at hn; simp; omega) rest
  simpa [tailFields] using this

/-! ### Splitting a tail -/

theorem splitEach_nil (i : Nat) : (ts : List Val) → (w : Wr) → splitEach [] i ts w = some w
  | [], _ => rfl
  | _ :: ts, w => by simpa [splitEach, splitOne] using splitEach_nil (i + 1) ts w

/-- C98 (partial: no tail). A struct with an empty tail is written as its other fields. -/
theorem C98_write_partial (fs gs : Fl) (hfs : TupFl fs) (_ : Front fs) (he : FieldTy (.struct gs)) (addr : Bool) (vs : List Val)
    (hv : TupVals addr fs vs) (hn : numFields fs < 2 ^ 32) :
    Adds (splitWr fs (.struct gs) addr vs []) (tupleBytes (splitFields fs gs vs [])) := by
  obtain ⟨s, l, h1, h2⟩ := twFl_good fs hfs 0
  obtain ⟨x, h3, h4⟩ := field_wg _ he
  have hl := fields_count addr fs vs hv
  have a5 := adds_bind (k := splitWr fs (.struct gs) addr vs []) (count_adds (fldCount l) (h2.count ▸ hn)) (h2.adds addr vs hv)
    (fun w => by
      simp only [splitWr, codecW, h1, h3, List.length_nil, Nat.zero_mul, Nat.add_zero]
      cases hp : Pfx.i32.write w (Int64.ofNat (fldCount l)) with
      | none => rfl
      | some w => simp only [Option.bind_some]; cases sizedFlds addr l vs w <;> rfl)
  simpa [tupleBytes, splitFields, hl, h2.count] using a5

/-- C98 is violated: nothing of the tail is written. -/
theorem C98_write_violated (fs gs : Fl) (addr : Bool) (vs ts : List Val) (w : Wr) :
    splitWr fs (.struct gs) addr vs ts w = splitWr fs (.struct gs) addr vs [] w := by
  simp [splitWr, sliceFlds, splitEach_nil]

/-- C98 (partial: no tail). A tuple with no more fields than the front of the struct has is read with an empty tail. -/
theorem C98_short_partial (fs gs : Fl) (hfs : TupFl fs) (hf : Front fs) (he : FieldTy (.sl (.struct gs))) (addr : Bool)
    (vs : List Val) (hv : TupVals addr fs vs) (k : Nat) (hk : k ≤ numFields fs) (hk2 : k < 2 ^ 32) (rest : Bytes) :
    tailRd fs (.struct gs) ⟨tupleBytes ((structFields fs vs).take k) ++ rest, none⟩ =
      some (⟨rest, none⟩, .seq (upTo k fs vs ++ [.seq []])) :=
  C97_short_partial fs (.struct gs) hfs hf he addr vs hv k hk hk2 rest

/-! ### The position of the tail -/

theorem front_length (addr : Bool) : (fs : Fl) → Front fs → (vs : List Val) → TupVals addr fs vs → vs.length = numFields fs
  | .nil, _, [], _ => rfl
  | .nil, _, _ :: _, h => by simp [TupVals] at h
  | .cons (.use _ _) _ fs, hf, v :: vs, h => by
    simp only [Front] at hf
    simp only [TupVals] at h
    simp [numFields, front_length addr fs hf.2 vs h.2]
  | .cons (.use _ _) _ _, _, [], h => by simp [TupVals] at h
  | .cons .hidden _ _, hf, _, _ => by simp [Front] at hf
  | .cons .skip _ _, hf, _, _ => by simp [Front] at hf

/-- C97 (partial: no field in front is unexported or skipped). The tail is taken for the tail. -/
theorem C97_position_partial (fs : Fl) (e : Ty) (hfs : TupFl fs) (hf : Front fs) (addr : Bool) (vs ts : List Val)
    (hv : TupVals addr fs vs) (w : Wr) : tailWrAt fs e addr vs ts w = tailWr fs e addr vs ts w := by
  obtain ⟨s, l, h1, h2⟩ := twFl_good fs hfs 0
  unfold tailWrAt tailWr codecW
  rw [h1]
  cases tw e with
  | none => rfl
  | some x =>
    have : (vs ++ [Val.seq ts])[fldCount l]? = some (.seq ts) := by
      rw [h2.count, ← front_length addr fs hf vs hv]
      simp
    simp only [this]

/-! ### Examples -/

/-- `struct { A uint32 }`, to be followed by a tail. -/
def aFl : Fl := .cons (.use false .none) (.scal .u32) .nil

/-- `struct { X, Y uint16 }`. -/
def xyFl : Fl := .cons (.use false .none) (.scal .u16) (.cons (.use false .none) (.scal .u16) .nil)

/-- C97 is violated for strings: the field is read as a sequence of counted strings. -/
theorem C97_string_violated :
    tailFields aFl .str [.scal (.u32 7)] [.str [1, 0, 0, 0, 65]] = [[7, 0, 0, 0], [1, 0, 0, 0, 65]] ∧
    tailRd aFl .str ⟨tupleBytes [[7, 0, 0, 0], [1, 0, 0, 0, 65]], none⟩ =
      some (⟨[], none⟩, .seq [.scal (.u32 7), .seq [.str [65]]]) ∧
    (tailRd aFl .str ⟨tupleBytes [[7, 0, 0, 0], [65]], none⟩).map (fun q => q.1.err) = some (some .short) := by
  decide +kernel

/-- `struct { h uint32; A uint32 }`, to be followed by a tail. -/
def hFl : Fl := .cons .hidden (.scal .u32) aFl

/-- `struct { h uint32; A []string }`, to be followed by a tail. -/
def hsFl : Fl := .cons .hidden (.scal .u32) (.cons (.use false .none) (.sl .str) .nil)

/-- C97 is violated behind an unexported field: the field in front of the tail is taken for the tail. If that is a number the
writer panics, whatever the tail is. If it is a slice its elements are written as the tail: here two empty fields follow a
tuple that announces one field, as the tail is empty. -/
theorem C97_hidden_violated : (∀ ts w, tailWrAt hFl .str true [.scal (.u32 0), .scal (.u32 7)] ts w = none) ∧
    ((tailWrAt hsFl .str true [.scal (.u32 0), .seq [.str [], .str []]] [] (Wr.new 64)).map fun w => w.mem.view w.buf) =
      some ([1, 0, 0, 0] ++ ([8] ++ [0, 0, 0, 0] ++ [0, 0, 0, 0]) ++ [0] ++ [0]) ∧
    tailFields hsFl .str [.scal (.u32 0), .seq [.str [], .str []]] [] = [[0, 0, 0, 0, 0, 0, 0, 0]] := by
  refine ⟨?_, by decide +kernel⟩
  intro ts w
  unfold tailWrAt
  split
  · rfl
  · rename_i l x hc
    have hl : fldCount l = 1 := by
      have : (codecW hFl .str).map (fun p => fldCount p.1) = some 1 := by decide +kernel
      rw [hc] at this
      simpa using this
    rw [hl]
    split
    · rfl
    · split <;> rfl

/-- C98 is violated: the fields of the first element are taken for elements. Here a tail of one element is read as an empty
one, without an error, and the reader stops in the middle of the tuple. -/
theorem C98_read_violated :
    splitFields aFl xyFl [.scal (.u32 7)] [.seq [.scal (.u16 1), .scal (.u16 2)]] = [[7, 0, 0, 0], [1, 0], [2, 0]] ∧
    tailRd aFl (.struct xyFl) ⟨tupleBytes [[7, 0, 0, 0], [1, 0], [2, 0]], none⟩ =
      some (⟨[1, 0, 2, 2, 0], none⟩, .seq [.scal (.u32 7), .seq []]) := by
  decide +kernel

/-- The codecs of the fields of `struct { X, Y uint16 }`. -/
def xyFlds : List FW := ((twFl 0 false xyFl).map fun p => p.2.filterMap id).getD []

/-- C98 would be violated if the fields of the elements were found, too: the inner loop takes the number of the element for
that of the field (writer.go:212). Of the first element the first field is written twice, of the second the second; a third
element makes it panic. -/
theorem C98_index_violated : xyFlds.length = 2 ∧
    ((splitEach xyFlds 0 [.seq [.scal (.u16 1), .scal (.u16 2)], .seq [.scal (.u16 3), .scal (.u16 4)]] (Wr.new 64)).map
      fun w => w.mem.view w.buf) = some [2, 1, 0, 2, 1, 0, 2, 4, 0, 2, 4, 0] ∧
    splitEach xyFlds 0 [.seq [.scal (.u16 1), .scal (.u16 2)], .seq [.scal (.u16 3), .scal (.u16 4)],
      .seq [.scal (.u16 5), .scal (.u16 6)]] (Wr.new 64) = none := by
  decide +kernel

example : TupFl aFl ∧ Front aFl ∧ FieldTy .str ∧ Spine .str ∧ FieldTy (.sl (.scal .u32)) ∧ TupVals true aFl [.scal (.u32 7)] ∧
    (∀ v ∈ [Val.str []], Hollow .str v ∧ FieldVal true .str v) ∧ ¬ Hollow .str (.str [65]) ∧
    FieldVal true (.sl (.scal .u32)) (.seq [.scal (.u32 1)]) ∧ FieldTy (.struct xyFl) ∧ FieldTy (.sl (.struct xyFl)) := by
  simp [aFl, xyFl, TupFl, Front, FieldTy, Spine, TupVals, Hollow, FieldVal, Fits, Sound, SoundFl, SizeOk, codeSz, exact, size?, asSz,
    pay, scalBytes, Scal.kind, onlyHidden, Dir.bare, width, bulky, wideScal, Ty.kind?, isStruct, codeFl, dirSize, sizeFl?, bulkyFl,
    withCnt, counted]
  decide

/-- An empty string in the tail is written, one with a letter is not; of two numbers in the tail, one is read. -/
example : ((tailWr aFl .str true [.scal (.u32 7)] [.str []] (Wr.new 64)).map fun w => w.mem.view w.buf) =
      some [2, 0, 0, 0, 4, 7, 0, 0, 0, 0] ∧
    tailWr aFl .str true [.scal (.u32 7)] [.str [65]] (Wr.new 64) = none ∧
    tailRd aFl (.scal .u32) ⟨[3, 0, 0, 0, 4, 7, 0, 0, 0, 4, 1, 0, 0, 0, 4, 2, 0, 0, 0], none⟩ =
      some (⟨[4, 2, 0, 0, 0], none⟩, .seq [.scal (.u32 7), .seq [.scal (.u32 1)]]) := by
  decide +kernel

end Verif.SboxTail
