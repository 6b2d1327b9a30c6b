import Verif.Proofs.Canon
import Verif.Props.Reflect
import Verif.Props.Iface

/-! C144: what `Read` accepts is what `Write` writes. -/
namespace Verif.Props
open Verif.Marshal Verif.Reflect Verif.Spec Verif.Iface

/-- C144 (partial: for `OneWay` types, see the counterexamples below for what they leave out). Whatever the destination held before: if
`Read` into a pointer succeeds, then the bytes it took are exactly the layout of the value it stored. -/
theorem C144_canonical_partial (t : Ty) (ht : OneWay false t) (d : Val) (hd : HasTy t d) (r r' : Rd) (v : Val)
    (h : readPtr t r d = some (r', v)) (he : r'.err = none) : r.body = layout t v ++ r'.body ∧ HasTy t v := by
  have ha := C99_read t d hd r
  rw [h] at ha
  by_cases hr : r.err = none
  · simp only [hr, ne_eq, not_true_eq_false, if_false, slowR] at ha
    cases hx : tr t with
    | none => simp [hx, Agree] at ha
    | some x =>
      simp only [hx] at ha
      cases hq : x.auto r d with
      | none => simp [hq, Agree] at ha
      | some q =>
        simp only [hq, Agree] at ha
        obtain ⟨h1, h2⟩ := ha
        have h2 := h2 he
        obtain ⟨u, q1, q2, q3⟩ := (Canon.tr_canon t false x ht hx).auto rfl r d hd q.1 q.2 hq (by rw [← h1]; exact he)
        rw [← h1] at q1
        rw [← h2] at q2 q3
        exact ⟨by rw [q1, q2], q3⟩
  · simp only [readPtr, ne_eq, hr, not_false_eq_true, if_true, Option.some.injEq, Prod.mk.injEq] at h
    rw [h.1] at hr
    exact absurd he hr

/-- C144 (partial, as before), into a fresh destination. -/
theorem C144_read_partial (t : Ty) (ht : OneWay false t) (b rest : Bytes) (v : Val) (h : Reflect.read t b = some (⟨rest, none⟩, v)) :
    b = layout t v ++ rest := by
  have e : readPtr t ⟨b, none⟩ (zero t) = some (⟨rest, none⟩, v) := by
    rw [C99_read_new t ⟨b, none⟩ rfl]
    exact h
  exact (C144_canonical_partial t ht _ (hasTy_zero t) _ _ v e rfl).1

/-- C144 (partial, as before). Two messages that are read to the same value, with the same bytes left, are the same message. -/
theorem C144_injective_partial (t : Ty) (ht : OneWay false t) (b c rest : Bytes) (v : Val)
    (hb : Reflect.read t b = some (⟨rest, none⟩, v)) (hc : Reflect.read t c = some (⟨rest, none⟩, v)) : b = c := by
  rw [C144_read_partial t ht b rest v hb, C144_read_partial t ht c rest v hc]

/-- C144 (partial: `OneWay` and `Sound` types, values that fit). Writing what was read appends exactly the bytes it was read from. -/
theorem C144_back_partial (t : Ty) (ht : OneWay false t) (hs : Sound false t) (b rest : Bytes) (v : Val)
    (h : Reflect.read t b = some (⟨rest, none⟩, v)) (hv : Fits false t v) (hc : counted t = true → countOf t v < 2 ^ 32) (w : Wr) (hw : w.Ok) :
    ∃ w' u, write t v w = some w' ∧ w'.pending = w.pending ++ u ∧ b = u ++ rest := by
  obtain ⟨w', h1, _, h2⟩ := C18_layout_partial t hs v hv hc w hw
  exact ⟨w', _, h1, h2, C144_read_partial t ht b rest v h⟩

/-- C144 for `ReadTail` (partial, as before): what it accepts is the payload of the value, to the last byte. -/
theorem C144_tail_partial (t : Ty) (ht : OneWay true t) (b : Bytes) (r : Rd) (v : Val) (h : readTail t b = some (r, v)) (he : r.err = none) :
    b = pay t v := by
  have key : ∀ q : Option (Rd × Val), (∀ r' v', q = some (r', v') → r'.err = none → b = pay t v' ++ r'.body) →
      (match q with
        | none => none
        | some (r, v) => if r.body ≠ [] then some ({ r with err := some .other }, v) else some (r, v)) = some (r, v) → b = pay t v := by
    intro q hq h
    split at h
    · cases h
    · split at h
      · cases h; cases he
      · rename_i c
        cases h
        have := hq _ _ rfl he
        have c : r.body = [] := by simpa using c
        rwa [c, List.append_nil] at this
  cases hx : tr t with
  | none => simp [readTail, hx] at h
  | some x =>
    simp only [readTail, hx] at h
    refine key _ ?_ h
    intro r' v' hq h0
    split at hq
    · rename_i k
      exact Canon.tailScals_ex k b r' v' (by simpa using hq) h0
    · obtain ⟨u, q1, q2, _⟩ := (Canon.tr_canon t true x ht hx).tl rfl ⟨b, none⟩ (zero t) (hasTy_zero t) r' v' hq h0
      rw [← q2]; exact q1

/-! ### Examples -/

/-- `struct { A uint16; B []struct { X string; Y []uint8 "size(i8)" } "size(i16)"; C []int32 "cnt(i16)"; D [2]uint8 "size(i32)" }`. -/
def oneTy : Ty :=
  .struct (.cons plain (.scal .u16)
    (.cons (.use false (.size .i16)) (.sl (.struct (.cons plain .str (.cons (.use false (.size .i8)) (.sl (.scal .u8)) .nil))))
    (.cons (.use false (.cnt .i16)) (.sl (.scal .i32))
    (.cons (.use false (.size .i32)) (.arr 2 (.scal .u8)) .nil))))

theorem oneTy_one : OneWay false oneTy := by
  simp [oneTy, plain, OneWay, OneWayFl, rigid, fixedSized, varSized, codeR, codeRFl, dirSize, asSz, count?, size?, width]

theorem oneTy_sound : Sound false oneTy := by
  simp [oneTy, plain, Sound, SoundFl, bulky, bulkyFl, codeSz, codeFl, dirSize, asSz, count?,
    SizeOk, exact, size?, width, isStruct, wideScal]

/-- A message and what it is read to. -/
def oneMsg : Bytes := [2, 1, 8, 0, 1, 0, 0, 0, 65, 2, 7, 8, 1, 0, 255, 255, 255, 255, 2, 0, 0, 0, 5, 6]
def oneVal : Val := .seq [.scal (.u16 258), .seq [.seq [.str [65], .seq [.scal (.u8 7), .scal (.u8 8)]]], .seq [.scal (.i32 (-1))],
  .seq [.scal (.u8 5), .scal (.u8 6)]]

example : Reflect.read oneTy (oneMsg ++ [9]) = some (⟨[9], none⟩, oneVal) := by decide +kernel

example : oneMsg ++ [9] = layout oneTy oneVal ++ [9] :=
  C144_read_partial oneTy oneTy_one _ _ _ (by decide +kernel)

/-- `struct { A uint16; B []string "size(no)" }`. -/
def tailTy : Ty := .struct (.cons plain (.scal .u16) (.cons (.use false .no) (.sl .str) .nil))

example : OneWay true tailTy ∧
    readTail tailTy [2, 1, 1, 0, 0, 0, 65, 0, 0, 0, 0] = some (⟨[], none⟩, .seq [.scal (.u16 258), .seq [.str [65], .str []]]) := by
  refine ⟨by simp [tailTy, plain, OneWay, OneWayFl, codeR, width], by decide +kernel⟩

theorem oneVal_fits : Fits false oneTy oneVal := by
  simp [oneTy, oneVal, plain, Fits, FitsFl, FitsDir, fits, counted, countOf, pay, Ty.kind?, Scal.kind, withCnt, scalBytes, le_length, width, payFl, tagged, pfxBytes]

example : ∃ w' u, write oneTy oneVal (Wr.new 16) = some w' ∧ w'.pending = (Wr.new 16).pending ++ u ∧ oneMsg ++ [9] = u ++ [9] :=
  C144_back_partial oneTy oneTy_one oneTy_sound _ [9] oneVal (by decide +kernel) oneVal_fits (by simp [oneTy, counted]) _ (Wr.ok_new 16)

/-! ### What is left out -/

/-- C144 fails for `ber` fields: leading zero digits are accepted, and a number too large for the field is cut down to it. -/
theorem C144_ber_violated :
    Reflect.read (.struct (.cons (.use true .none) (.scal .u8) .nil)) [44] = some (⟨[], none⟩, .seq [.scal (.u8 44)]) ∧
    Reflect.read (.struct (.cons (.use true .none) (.scal .u8) .nil)) [0x80, 44] = some (⟨[], none⟩, .seq [.scal (.u8 44)]) ∧
    Reflect.read (.struct (.cons (.use true .none) (.scal .u8) .nil)) [0x82, 44] = some (⟨[], none⟩, .seq [.scal (.u8 44)]) := by
  decide +kernel

/-- C144 fails for `ber` prefixes. -/
theorem C144_ber_prefix_violated :
    Reflect.read (.struct (.cons (.use false (.size .ber)) .str .nil)) [1, 65] = some (⟨[], none⟩, .seq [.str [65]]) ∧
    Reflect.read (.struct (.cons (.use false (.size .ber)) .str .nil)) [0x80, 1, 65] = some (⟨[], none⟩, .seq [.str [65]]) := by
  decide +kernel

/-- C144 fails for a size in front of a slice of larger elements: a size that is not a multiple of theirs is rounded down. -/
theorem C144_size_violated :
    Reflect.read (.struct (.cons (.use false (.size .i8)) (.sl (.scal .u16)) .nil)) [2, 1, 0] = some (⟨[], none⟩, .seq [.seq [.scal (.u16 1)]]) ∧
    Reflect.read (.struct (.cons (.use false (.size .i8)) (.sl (.scal .u16)) .nil)) [3, 1, 0] = some (⟨[], none⟩, .seq [.seq [.scal (.u16 1)]]) := by
  decide +kernel

/-- C144 fails for a slice of empty structs as a field: the reader takes the field to be empty and does not read the count. -/
theorem C144_empty_violated :
    Reflect.read (.struct (.cons plain (.sl (.struct .nil)) .nil)) [] = some (⟨[], none⟩, .seq [.seq []]) ∧
    layout (.struct (.cons plain (.sl (.struct .nil)) .nil)) (.seq [.seq []]) = [0, 0, 0, 0] := by
  refine ⟨by decide +kernel, by decide +kernel⟩

end Verif.Props
