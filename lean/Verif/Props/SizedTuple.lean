import Verif.Proofs.SboxExt
import Verif.Props.Sbox

/-! C124: `ReadRawTuple` and `ReadSizedTuple` on bodies that hold more than one tuple, or less. -/
namespace Verif.SizedTuple
open Verif.Marshal Verif.Reflect Verif.Spec Verif.Sbox

/-- C124. `ReadRawTuple` into a new variable of any type takes, if it succeeds, a prefix of the body which alone decides the value: with
any other bytes behind it, it gives the same and leaves exactly these bytes. -/
theorem C124_raw (t : Ty) : Delimited fun r => readRaw t r := readRaw_ext t

/-- A read that knows where its data ends does not succeed on a part of its data. -/
theorem short_of {α : Type} {f : Rd → Option (Rd × α)} (hf : Delimited f) (u rest : Bytes) (w : α)
    (h : f ⟨u ++ rest, none⟩ = some (⟨rest, none⟩, w)) (p : Bytes) (hp : CutShort p u) (r : Rd) (w' : α)
    (h' : f ⟨p, none⟩ = some (r, w')) : r.err ≠ none := by
  intro he
  obtain ⟨s, hs, rfl⟩ := hp
  obtain ⟨-, q, hq, g⟩ := hf _ _ _ h' he
  have hq : p = q ++ r.body := hq
  have g := g (r.body ++ s ++ rest)
  rw [show q ++ (r.body ++ s ++ rest) = p ++ s ++ rest by rw [hq]; simp only [List.append_assoc], h] at g
  simp only [Option.some.injEq, Prod.mk.injEq, Rd.mk.injEq, and_true] at g
  have := congrArg List.length g.1
  simp only [List.length_append] at this
  have : s.length ≠ 0 := by simpa using hs
  omega

/-- C124: a tuple cut short is not read. If `ReadRawTuple` succeeds and takes the bytes `u`, it does not succeed on a proper prefix of
them. -/
theorem C124_short (t : Ty) (u rest : Bytes) (v : Val) (h : readRaw t ⟨u ++ rest, none⟩ = some (⟨rest, none⟩, v)) (p : Bytes)
    (hp : CutShort p u) (r : Rd) (w : Val) (h' : readRaw t ⟨p, none⟩ = some (r, w)) : r.err ≠ none :=
  short_of (C124_raw t) u rest v h p hp r w h'

/-- C124 for what `WriteTuple` wrote (partial: for the values of C22). Cut short anywhere, it is not read without an error. -/
theorem C124_written_partial (t : Ty) (ht : TupTy t) (v : Val) (hv : TupVal false t v) (w w' : Wr) (hw : w.Ok) (d : Bytes)
    (h : tuple (.val t v) w = some w') (hd : w'.pending = w.pending ++ d) (p : Bytes) (hp : CutShort p d) (x : Val) : ¬ Reads t p x := by
  obtain ⟨w1, d1, h1, -, h3, h4⟩ := Props.C22_roundtrip_partial t ht v hv w hw
  rw [h] at h1
  cases h1
  rw [hd] at h3
  have := List.append_cancel_left h3
  subst this
  rintro ⟨r, h5, h6⟩
  exact C124_short t d [] v (h4 []) p hp r x h5 h6

/-- C124: `ReadSizedTuple` on a complete tuple behind its size takes the size and the tuple, whatever is in the tuple and behind it, and
returns what `ReadRawTuple` returns for the tuple. -/
theorem C124_sized (t : Ty) (u rest : Bytes) (hu : Framed u) : readSizedTuple t ⟨framed u ++ rest, none⟩ =
    (readRaw t ⟨u, none⟩).map fun q => (⟨rest, q.1.err⟩, q.2) := by
  obtain ⟨h1, h2⟩ := frame_read u rest hu
  simp only [readSizedTuple, h1, h2, if_true]
  cases readRaw t ⟨u, none⟩ <;> rfl

/-- C124: after an error `ReadSizedTuple` does nothing and returns the error. -/
theorem C124_sticky (t : Ty) (r : Rd) (h : r.err ≠ none) : readSizedTuple t r = some (r, zero t) := by
  have : r.intUint32.1 = r := by
    simp [Rd.intUint32, Rd.scal, h]
  simp only [readSizedTuple, this, h, if_false]

/-- C124: `ReadSizedTuple`, too, takes, if it succeeds, what it takes, whatever follows. -/
theorem C124_sized_raw (t : Ty) : Delimited fun r => readSizedTuple t r := by
  intro r r' w h he
  simp only [readSizedTuple] at h
  split at h
  · rename_i h1
    split at h
    · cases h
    · rename_i r1 body h2
      split at h
      · cases h
      · rename_i r2 v h3
        cases h
        have he : r2.err = none := he
        have h4 : r1.err = none := by
          cases e : r1.err with
          | none => rfl
          | some x =>
            exfalso
            have hb : body = [] := by
              simp only [Rd.slice] at h2
              split at h2
              · cases h2; rfl
              · split at h2
                · cases h2; rfl
                · split at h2
                  · cases h2
                  · cases h2; rw [h1] at e; cases e
            subst hb
            simp only [readRaw] at h3
            cases ht : tupR t with
            | none => simp [ht] at h3
            | some f =>
              simp only [ht] at h3
              obtain ⟨q, x, h5, h6⟩ := tupR_empty t f ht
              rw [h5] at h3
              cases h3
              exact h6 he
        obtain ⟨g1, u1, g2, g3⟩ := cnt_ext r r.intUint32.1 r.intUint32.2 rfl h1
        obtain ⟨-, u2, g4, g5⟩ := slice_ext _ _ _ _ h2 h4
        refine ⟨g1, u1 ++ u2, by rw [g2, g4]; exact (List.append_assoc ..).symm, fun c => ?_⟩
        have g3 := g3 (u2 ++ c)
        have g5 := g5 c
        simp only [Option.some.injEq] at g3 g5
        simp only [readSizedTuple, List.append_assoc, g3, if_true, g5, h3, he]
  · rename_i h1
    cases h
    exact absurd he h1

/-- C124: `ReadSizedTuple` reports a body that is too short (partial: for types without a tag that panics). -/
theorem C124_truncated_partial (t : Ty) (ht : Tagged t) (b : Bytes)
    (hb : b.length < 4 ∨ ∃ m part, m < 2 ^ 32 ∧ b = le 4 m ++ part ∧ part.length < m + 4) :
    ∃ r v, readSizedTuple t ⟨b, none⟩ = some (r, v) ∧ r.err ≠ none := by
  rcases hb with hb | ⟨m, part, hm, rfl, hl⟩
  · refine ⟨⟨b, some .short⟩, zero t, ?_, by simp⟩
    simp [readSizedTuple, short_read b hb]
  · have h1 := count_read m hm part
    simp only [readSizedTuple, h1.1, h1.2, if_true, slice_short part ((m : Int) + 4) (by omega)]
    cases hf : tupR t with
    | none => exact absurd hf (tupR_ne t ht)
    | some f =>
      obtain ⟨r, v, h2, h3⟩ := tupR_empty t f hf
      simp only [readRaw, hf, h2]
      exact ⟨_, _, rfl, h3⟩

/-- C124: tuples that were written one after the other, each behind its size, are read one after the other, into variables of their
types (partial: for the values of C22). -/
theorem C124_sequence_partial (l : List (Ty × Val)) (h : ∀ q ∈ l, TupTy q.1 ∧ TupVal false q.1 q.2 ∧
    (tupleBytes (fields q.1 q.2)).length < 2 ^ 32) (rest : Bytes) :
    readSizedSeq (l.map (·.1)) ⟨(l.map fun q => framed (tupleBytes (fields q.1 q.2))).flatten ++ rest, none⟩ =
      some (⟨rest, none⟩, l.map (·.2)) := by
  induction l with
  | nil => rfl
  | cons q l ih =>
    obtain ⟨h1, h2, h3⟩ := h q (List.mem_cons_self ..)
    obtain ⟨f, h4, h5⟩ := tupR_ok q.1 h1
    have hf : Framed (tupleBytes (fields q.1 q.2)) := ⟨by simp [tupleBytes], by omega⟩
    have h6 : readRaw q.1 ⟨tupleBytes (fields q.1 q.2), none⟩ = some (⟨[], none⟩, q.2) := by
      have := h5 false q.2 [] h2
      simpa only [readRaw, h4, List.append_nil] using this
    simp only [List.map_cons, List.flatten_cons, List.append_assoc, readSizedSeq, C124_sized _ _ _ hf, h6, Option.map_some,
      ih fun q hq => h q (List.mem_cons_of_mem _ hq)]

/-- C124 is violated for `nil` as destination, with which a tuple can be skipped: if the tuple is cut short then the error which `Slice`
set is erased. -/
theorem C124_nil_violated (m : Nat) (part : Bytes) (hm : m < 2 ^ 32) (hl : part.length < m + 4) :
    readSizedNil ⟨le 4 m ++ part, none⟩ = some ⟨part, none⟩ := by
  have h1 := count_read m hm part
  simp only [readSizedNil, h1.1, h1.2, if_true, slice_short part ((m : Int) + 4) (by omega)]

/-- C124 (partial): a complete tuple is skipped. -/
theorem C124_skip_partial (u rest : Bytes) (hu : Framed u) : readSizedNil ⟨framed u ++ rest, none⟩ = some ⟨rest, none⟩ := by
  obtain ⟨h1, h2⟩ := frame_read u rest hu
  simp only [readSizedNil, h1, h2, if_true]

/-! Examples. -/

-- C124_raw, C124_short, C124_written_partial: the row of C22 with a byte behind it; cut in its last field it is an error.
example : readRaw Props.rowTy ⟨[3, 0, 0, 0, 4, 7, 0, 0, 0, 2, 65, 66, 1, 9] ++ [5], none⟩ = some (⟨[5], none⟩, Props.rowVal) ∧
    CutShort [3, 0, 0, 0, 4, 7, 0, 0, 0, 2, 65] [3, 0, 0, 0, 4, 7, 0, 0, 0, 2, 65, 66, 1, 9] ∧
    (readRaw Props.rowTy ⟨[3, 0, 0, 0, 4, 7, 0, 0, 0, 2, 65], none⟩).map (·.1.err) = some (some .short) :=
  ⟨by decide +kernel, ⟨[66, 1, 9], by decide, rfl⟩, by decide +kernel⟩

-- C124_sized, C124_sized_raw, C124_sequence_partial, C124_skip_partial: a number and a row, one after the other.
def exBody : Bytes := [2, 0, 0, 0, 1, 0, 0, 0, 1, 7] ++ [10, 0, 0, 0, 3, 0, 0, 0, 4, 7, 0, 0, 0, 2, 65, 66, 1, 9]
example : readSizedSeq [.scal .u8, Props.rowTy] ⟨exBody ++ [5], none⟩ = some (⟨[5], none⟩, [.scal (.u8 7), Props.rowVal]) ∧
    (readSizedNil ⟨exBody, none⟩).bind (readSizedTuple Props.rowTy) = some (⟨[], none⟩, Props.rowVal) := by decide +kernel
example : Framed (tupleBytes [[7]]) ∧ (TupTy (.scal .u8) ∧ TupVal false (.scal .u8) (.scal (.u8 7)) ∧
    (tupleBytes (fields (.scal .u8) (.scal (.u8 7)))).length < 2 ^ 32) ∧ (TupTy Props.rowTy ∧ TupVal false Props.rowTy Props.rowVal ∧
    (tupleBytes (fields Props.rowTy Props.rowVal)).length < 2 ^ 32) := by
  refine ⟨⟨by decide +kernel, by decide +kernel⟩, ⟨trivial, ?_, by decide +kernel⟩, (flat_tup _ Props.rowTy_flat _ Props.rowVal_has Props.rowVal_small).1,
    (flat_tup _ Props.rowTy_flat _ Props.rowVal_has Props.rowVal_small).2, by decide +kernel⟩
  simp [TupVal, FieldVal, Fits, Scal.kind, pay, scalBytes, le, width]

-- C124_sized: a tuple that does not fit is an error, and the next one can still be found.
example : readSizedTuple (.scal .u16) ⟨exBody, none⟩ = some (⟨exBody.drop 10, some .other⟩, .scal (.u16 0)) := by decide +kernel

-- C124_truncated_partial, C124_nil_violated: the number is cut short.
example : readSizedTuple (.scal .u8) ⟨[2, 0, 0, 0, 1, 0, 0, 0, 1], none⟩ = some (⟨[1, 0, 0, 0, 1], some .other⟩, .scal (.u8 0)) ∧
    readSizedNil ⟨[2, 0, 0, 0, 1, 0, 0, 0, 1], none⟩ = some ⟨[1, 0, 0, 0, 1], none⟩ ∧ Tagged (.scal .u8) :=
  ⟨by decide +kernel, by decide +kernel, by simp [Tagged]⟩

-- C124_sticky
example : readSizedTuple (.scal .u8) ⟨exBody, some .short⟩ = some (⟨exBody, some .short⟩, .scal (.u8 0)) := by decide +kernel

end Verif.SizedTuple
