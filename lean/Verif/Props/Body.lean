import Verif.Model.Body
import Verif.Props.Iface

/-! C158: bodies, and slices of defined types. -/
namespace Verif.Body
open Verif.Marshal Verif.Reflect Verif.Iface Verif.Sbox Verif.Spec Verif.Props

/-- A `Body` is written as it is, without a count. -/
theorem C158_written (b : Bytes) (w : Wr) (hw : w.Ok) :
    (∃ w', writeAny (iwrite b) w = some w' ∧ w'.Ok ∧ w'.pending = w.pending ++ b) ∧
      ∃ w', writeTailAny (iwrite b) w = some w' ∧ w'.Ok ∧ w'.pending = w.pending ++ b := by
  obtain ⟨w', h, e⟩ := Wr.bytes_spec w b hw
  exact ⟨⟨w', by simp [iwrite, writeAny, h], e.ok, e.data⟩, ⟨w', by simp [iwrite, writeTailAny, h], e.ok, e.data⟩⟩

/-- C158 (partial: the values are ones the codec can handle, and no user code). What was written by several calls of `Write` is got back by as
many calls of `Read` with the one reader that `Reader` returns, and nothing is left. -/
theorem C158_reader_partial (l : List Any) (ha : FitsAll false l) (w : Wr) (hw : w.Ok) :
    ∃ w' b, writeAll l w = some w' ∧ w'.Ok ∧ w'.pending = w.pending ++ b ∧
      readAll (reader b) (freshAll l) = some (⟨[], none⟩, gotAll l) := by
  obtain ⟨w', h, e⟩ := layout_all false l ha w hw
  refine ⟨w', _, h, e.ok, e.data, ?_⟩
  have := read_all l ha []
  rwa [List.append_nil] at this

theorem bytes_flat (b : Bytes) : ((b.map Scal.u8).map scalBytes).flatten = b := by
  induction b with
  | nil => rfl
  | cons x b ih =>
    have h : scalBytes (.u8 x) = [x] := (elemBytes_eq _).symm
    rw [List.map_cons, List.map_cons, List.flatten_cons, ih, h]
    rfl

theorem self (b rest : Bytes) (d : List Scal) (hd : d.length = b.length) :
    Rd.scalSl ⟨b ++ rest, none⟩ .u8 d = (⟨rest, none⟩, b.map Scal.u8) := by
  have h := Rd.scalSl_bytes .u8 (b.map Scal.u8) d rest (by simp [Scal.kind]) (by simp [hd])
  rwa [bytes_flat] at h

/-- C158 (partial: not into a `Body`). `ReadTail` into a `[]byte` gets what was written for a `Body`. -/
theorem C158_bytes_partial (b : Bytes) : readTail (.sl (.scal .u8)) b = some (⟨[], none⟩, var b) := by
  have h := self b [] (List.replicate (b.length / Rd.slWidth .u8) Kind.u8.zero) (by simp [Rd.slWidth])
  rw [List.append_nil] at h
  simp [readTail, tr, scalR, tailScals, h, var]

theorem self_read (b : Bytes) : readSelf (reader b) b = some (⟨[], none⟩, var b) := by
  have hs : scals .u8 (var b |> fun | .seq vs => vs | _ => []) = some (b.map Scal.u8) := by
    simp only [var]
    induction b with
    | nil => rfl
    | cons x b ih => simp [scals, Scal.kind] at ih ⊢; simp [ih]
  have h := self b [] (b.map Scal.u8) (by simp)
  rw [List.append_nil] at h
  simp only [readSelf, reader, ne_eq, not_true_eq_false, if_false, tr, scalR, slR, TR.autoCnt, Ty.kind?, var] at hs ⊢
  simp only [elemsR, slValR, hs]
  cases b with
  | nil => rfl
  | cons x b => simp at h ⊢; simp [h]

/-- C158, violated: the readers that `Read2` and `ReadTail2` return have nothing left to read, whatever the body is, and no error is reported. -/
theorem C158_read2_violated (b : Bytes) : read2 b = some ⟨[], none⟩ ∧ readTail2 b = some ⟨[], none⟩ := by
  simp [read2, readTail2, self_read]

/-- C158, violated: what is written for a `Body` is never read back into one by `Read`, whatever was in the variable: there is an error, or
another value, or something left to read. -/
theorem C158_read_violated (b : Bytes) (v : Val) : readDefined .u8 b v ≠ some (⟨[], none⟩, var b) := by
  intro h
  have e : slowR (.sl (.scal .u8)) ⟨b, none⟩ v = (match (count ⟨b, none⟩).1.slice (count ⟨b, none⟩).2 with
      | none => none
      | some (r, c) => some (r, var c)) := by
    simp only [slowR, tr, scalR, slR, TR.autoCnt, TR.withCount, TR.byCount, Ty.kind?, ne_eq, not_true_eq_false, if_false, if_true, u8Auto, var,
      (count_eq _).1, toInt_ofNat _ (Nat.lt_trans (count_eq _).2 (by decide : 2 ^ 32 < 2 ^ 63))]
    rfl
  rw [readDefined, e] at h
  by_cases hb : b.length < 4
  · have : (count ⟨b, none⟩).1.err ≠ none := by simp [count, Rd.scal, Rd.need, hb]
    rw [slice_fail _ this] at h
    simp at h
    exact this (by rw [h.1])
  · have hc : (count ⟨b, none⟩).1 = ⟨b.drop 4, none⟩ := by simp [count, Rd.scal, Rd.need, Rd.step, hb]
    rw [hc, Rd.slice] at h
    simp only [ne_eq, not_true_eq_false, if_false] at h
    split at h
    · cases h
    · rename_i q hq
      split at hq
      · cases hq; simp at h
      · split at hq
        · cases hq
        · cases hq
          simp only [Option.some.injEq, Prod.mk.injEq, var, Val.seq.injEq] at h
          have := congrArg List.length h.2
          simp at this
          omega

/-- C158, violated: a slice of scalars is written by `WriteTail` and got back by `ReadTail`, but if its type is a defined one, `ReadTail` panics. -/
theorem C158_tail_violated (k : Kind) (v u : Val) (hv : Fits false (.sl (.scal k)) v) (w : Wr) (hw : w.Ok) :
    ∃ w' b, writeTail (.sl (.scal k)) v w = some w' ∧ w'.pending = w.pending ++ b ∧
      readTail (.sl (.scal k)) b = some (⟨[], none⟩, v) ∧ readTailDefined b u = none := by
  obtain ⟨w', h, _, hp, hr⟩ := C18_tail_roundtrip_partial _ (Or.inl ⟨k, rfl⟩) v hv w hw
  exact ⟨w', _, h, hp, hr, by simp [readTailDefined, tailDefined]⟩

/-- C158, violated: a `[]byte` is one key of a selection, but of a slice of bytes of a defined type each byte is a key: `{7, 9}` is sent as the two keys
7 and 9. -/
theorem C158_keys_violated :
    (∀ b : Bytes, countKeys (.val (.sl (.scal .u8)) (var b)) = some 1 ∧ countDefined b = some b.length) ∧
      out (writeKeys (.val (.sl (.scal .u8)) (var [7, 9]))) = some [1, 0, 0, 0, 2, 7, 9] ∧
      out (writeKeysDefined [7, 9]) = some [1, 0, 0, 0, 1, 7, 1, 0, 0, 0, 1, 9] := by
  refine ⟨fun b => ⟨by simp [countKeys, countKeysTy], by simp [countDefined, countKeysVal, var, vlen]⟩, by decide +kernel, by decide +kernel⟩

/-- Two numbers and a string from one reader; a body that cannot be read as what it is. -/
example : FitsAll false [.val (.scal .u16) (.scal (.u16 258)), .val .str (.str [65, 66])] ∧
    readAll (reader [2, 1, 2, 0, 0, 0, 65, 66]) (freshAll [.val (.scal .u16) (.scal (.u16 258)), .val .str (.str [65, 66])]) =
      some (⟨[], none⟩, gotAll [.val (.scal .u16) (.scal (.u16 258)), .val .str (.str [65, 66])]) ∧
    readDefined .u8 [1, 0, 0, 0, 7, 9] (var []) = some (⟨[9], none⟩, var [7]) ∧
    readDefined .u8 [1, 2, 3] (var []) = some (⟨[1, 2, 3], some .short⟩, var []) := by
  refine ⟨by simp [FitsAll, FitsAny, Sound, Fits, counted, countOf, Scal.kind], ?_, ?_, ?_⟩
  · rfl
  · decide +kernel
  · decide +kernel

end Verif.Body
