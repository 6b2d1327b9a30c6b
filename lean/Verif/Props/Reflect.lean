import Verif.Proofs.ReflectSize
import Verif.Proofs.ReflectReader
import Verif.Proofs.ReflectSafe
import Verif.Proofs.ReflectTagged

/-! C18, C19, C20: the reflective codec (`marshal.Write`, `Read`, `WriteTail`, `ReadTail`). -/
namespace Verif.Props
open Verif.Marshal Verif.Reflect Verif.Spec

/-! ### Types and values for the examples -/

/-- No tag. -/
abbrev plain : Tag := .use false .none

/-- `struct { A uint16; B []struct { X string; Y []uint8 "size(i8)" }; C []uint32 "ber,cnt(i16)" }`. -/
def exTy : Ty :=
  .struct (.cons plain (.scal .u16)
    (.cons plain (.sl (.struct (.cons plain .str (.cons (.use false (.size .i8)) (.sl (.scal .u8)) .nil))))
    (.cons (.use true (.cnt .i16)) (.sl (.scal .u32)) .nil)))

/-- A value of the type. -/
def exVal : Val :=
  .seq [.scal (.u16 258), .seq [.seq [.str [7, 8], .seq [.scal (.u8 9)]], .seq [.str [], .seq []]],
    .seq [.scal (.u32 300), .scal (.u32 5)]]

theorem exTy_sound : Sound false exTy := by
  simp [exTy, plain, Sound, SoundFl, bulky, bulkyFl, codeSz, codeFl, dirSize, asSz, count?, berable, unsignedK,
    SizeOk, exact, size?, sizeFl?, width, isArr, isStruct, wideScal]

theorem exVal_fits : Fits false exTy exVal := by
  simp [exTy, exVal, plain, Fits, FitsFl, FitsBer, FitsDir, counted, countOf, Scal.kind, fits, berPay, pay, natOf, Ty.kind?,
    withCnt, scalBytes, le, width]

/-- What a writer has appended when `f` is applied to an empty one. -/
def out (f : Wr → Option Wr) : Option Bytes := (f (Wr.new 0)).map (·.pending)

/-! ### C18 -/

/-- C18, the format (partial: for `Sound` types and values that fit). `Write` appends the bytes the layout
prescribes and disturbs nothing else. -/
theorem C18_layout_partial (t : Ty) (ht : Sound false t) (v : Val) (hv : Fits false t v)
    (hc : counted t = true → countOf t v < 2 ^ 32) (w : Wr) (hw : w.Ok) :
    ∃ w', write t v w = some w' ∧ w'.Ok ∧ w'.pending = w.pending ++ layout t v := by
  obtain ⟨x, hx, g⟩ := tw_ok t false ht
  obtain ⟨w', h, e⟩ := g.au false v w hw hv hc
  exact ⟨w', by simp only [write, hx, h], e.ok, e.data⟩

/-- C18 (partial: for `Sound` types and values that fit; what they exclude is shown to fail below). Reading
back what `Write` appended, in front of any other data, yields the value and consumes exactly the encoding. -/
theorem C18_roundtrip_partial (t : Ty) (ht : Sound false t) (v : Val) (hv : Fits false t v)
    (hc : counted t = true → countOf t v < 2 ^ 32) (w : Wr) (hw : w.Ok) :
    ∃ w' d, write t v w = some w' ∧ w'.Ok ∧ w'.pending = w.pending ++ d ∧
      ∀ rest, Reflect.read t (d ++ rest) = some (⟨rest, none⟩, v) := by
  obtain ⟨w', h, ok, e⟩ := C18_layout_partial t ht v hv hc w hw
  obtain ⟨x, hx, g⟩ := tr_ok t false ht
  refine ⟨w', _, h, ok, e, fun rest => ?_⟩
  simp only [Reflect.read, hx]
  exact g.au rfl false v rest hv hc

/-- Two values that fit have the same encoding only if they are equal. -/
theorem C18_injective_partial (t : Ty) (ht : Sound false t) (v u : Val) (hv : Fits false t v) (hu : Fits false t u)
    (cv : counted t = true → countOf t v < 2 ^ 32) (cu : counted t = true → countOf t u < 2 ^ 32)
    (h : layout t v = layout t u) : v = u := by
  obtain ⟨x, hx, g⟩ := tr_ok t false ht
  have h1 := g.au rfl false v [] hv cv
  have h2 := g.au rfl false u [] hu cu
  rw [h, h2] at h1
  simpa using h1.symm

example : Sound false exTy ∧ Fits false exTy exVal ∧
    out (write exTy exVal) = some [2, 1, 2, 0, 0, 0, 2, 0, 0, 0, 7, 8, 1, 9, 0, 0, 0, 0, 0, 2, 0, 130, 44, 5] ∧
    Reflect.read exTy [2, 1, 2, 0, 0, 0, 2, 0, 0, 0, 7, 8, 1, 9, 0, 0, 0, 0, 0, 2, 0, 130, 44, 5, 77] =
      some (⟨[77], none⟩, exVal) :=
  ⟨exTy_sound, exVal_fits, by decide +kernel, by decide +kernel⟩

/-- Types for which `WriteTail` and `ReadTail` fit together. `ReadTail` treats slices of scalars itself. -/
def SoundTail (t : Ty) : Prop := (∃ k, t = .sl (.scal k)) ∨ Sound true t

theorem tailScals_ok (k : Kind) (v : Val) (hv : Fits false (.sl (.scal k)) v) :
    tailScals k (pay (.sl (.scal k)) v) = (⟨[], none⟩, v) := by
  cases v <;> simp only [Fits] at hv
  rename_i vs
  obtain ⟨_, _, hv⟩ := hv
  have : ∃ xs : List Scal, vs = xs.map Val.scal ∧ ∀ x ∈ xs, x.kind = k := by
    rename_i h1 h2
    clear h1 h2
    induction vs with
    | nil => exact ⟨[], rfl, by simp⟩
    | cons v vs ih =>
      obtain ⟨xs, h1, h2⟩ := ih (fun u hu => hv u (by simp [hu]))
      have h3 := (hv v (by simp)).1
      cases v <;> simp only [Fits] at h3
      rename_i s
      exact ⟨s :: xs, by simp [h1], by simpa using ⟨h3, h2⟩⟩
  obtain ⟨xs, rfl, hk⟩ := this
  have hp : pay (.sl (.scal k)) (.seq (xs.map Val.scal)) = (xs.map scalBytes).flatten := by
    simp only [pay, List.map_map]
    congr 2
  have hl : ((xs.map scalBytes).flatten).length = xs.length * width k :=
    flatten_const xs scalBytes (width k) (fun x hx => by rw [scalBytes_length, hk x hx])
  rw [hp]
  simp only [tailScals, slWidth_eq, hl]
  have hw := width_pos k
  rw [Nat.mul_div_cancel _ hw]
  have := Rd.scalSl_bytes k xs (List.replicate xs.length k.zero) [] hk (by simp)
  rw [List.append_nil] at this
  rw [this]

/-- C18 for `WriteTail`/`ReadTail` (partial in the same way). -/
theorem C18_tail_roundtrip_partial (t : Ty) (ht : SoundTail t) (v : Val) (hv : Fits false t v) (w : Wr) (hw : w.Ok) :
    ∃ w', writeTail t v w = some w' ∧ w'.Ok ∧ w'.pending = w.pending ++ pay t v ∧
      readTail t (pay t v) = some (⟨[], none⟩, v) := by
  have hs : ∃ tail, Sound tail t ∧ (tail = true ∨ ∃ k, t = .sl (.scal k)) := by
    rcases ht with ⟨k, rfl⟩ | ht
    · have := width_pos k
      exact ⟨false, by simp [Sound, bulky, codeSz]; omega, Or.inr ⟨k, rfl⟩⟩
    · exact ⟨true, ht, Or.inl rfl⟩
  obtain ⟨tail, hs, hk⟩ := hs
  obtain ⟨x, hx, g⟩ := tw_ok t tail hs
  obtain ⟨w', h, e⟩ := g.wr false v w hw hv
  refine ⟨w', by simp only [writeTail, hx, h], e.ok, e.data, ?_⟩
  obtain ⟨y, hy, q⟩ := tr_ok t tail hs
  by_cases c : ∃ k, t = .sl (.scal k)
  · obtain ⟨k, rfl⟩ := c
    simp only [readTail, hy, tailScals_ok k v hv]
    simp
  · have ht : tail = true := hk.resolve_right c
    have := q.tl ht false v hv
    unfold readTail
    rw [hy]
    simp only
    split
    · rename_i r
      split at r
      · exact absurd ⟨_, rfl⟩ c
      · rw [this] at r; simp at r
    · rename_i r v' r'
      split at r'
      · exact absurd ⟨_, rfl⟩ c
      · rw [this] at r'
        simp only [Option.some.injEq, Prod.mk.injEq] at r'
        rw [← r'.1, ← r'.2]
        simp

example : SoundTail (.sl (.scal .u16)) ∧ out (writeTail (.sl (.scal .u16)) (.seq [.scal (.u16 1), .scal (.u16 515)])) = some [1, 0, 3, 2] ∧
    readTail (.sl (.scal .u16)) [1, 0, 3, 2] = some (⟨[], none⟩, .seq [.scal (.u16 1), .scal (.u16 515)]) :=
  ⟨Or.inl ⟨_, rfl⟩, by decide +kernel, by decide +kernel⟩

example : SoundTail (.sl .str) ∧ out (writeTail (.sl .str) (.seq [.str [1], .str []])) = some [1, 0, 0, 0, 1, 0, 0, 0, 0] ∧
    readTail (.sl .str) [1, 0, 0, 0, 1, 0, 0, 0, 0] = some (⟨[], none⟩, .seq [.str [1], .str []]) :=
  ⟨Or.inr (by simp [Sound, bulky, codeSz, wideScal]), by decide +kernel, by decide +kernel⟩

/-- `struct { int8; string }`: the code takes its size to be 0. -/
def zeroTy : Ty := .struct (.cons plain (.scal .i8) (.cons plain .str .nil))

/-- `struct { A int8; B struct { X int8; Y string } }`: field `B` is not written at all. -/
theorem C18_nested_violated :
    let t := Ty.struct (.cons plain (.scal .i8) (.cons plain zeroTy .nil))
    let v := Val.seq [.scal (.i8 1), .seq [.scal (.i8 2), .str [3]]]
    out (write t v) = some [1] ∧ Reflect.read t [1] = some (⟨[], none⟩, .seq [.scal (.i8 1), .seq [.scal (.i8 0), .str []]]) := by
  decide +kernel

/-- `struct { A []struct { X int8; Y string } }`: the reader passes over the field the writer has written. -/
theorem C18_slice_violated :
    let t := Ty.struct (.cons plain (.sl zeroTy) .nil)
    let v := Val.seq [.seq [.seq [.scal (.i8 2), .str [3]]]]
    out (write t v) = some [1, 0, 0, 0, 2, 1, 0, 0, 0, 3] ∧
    Reflect.read t [1, 0, 0, 0, 2, 1, 0, 0, 0, 3] = some (⟨[1, 0, 0, 0, 2, 1, 0, 0, 0, 3], none⟩, .seq [.seq []]) := by
  decide +kernel

/-- `struct { A *uint16 }`: written, but not read. -/
theorem C18_pointer_violated :
    let t := Ty.struct (.cons plain (.ptr (.scal .u16)) .nil)
    out (write t (.seq [.ref (.scal (.u16 5))])) = some [5, 0] ∧
    Reflect.read t [5, 0] = some (⟨[5, 0], none⟩, .seq [.nilp]) := by
  decide +kernel

/-- `struct { A [2]uint8 "ber" }`: the writer writes a count, the reader expects none. -/
theorem C18_ber_array_violated :
    let t := Ty.struct (.cons (.use true .none) (.arr 2 (.scal .u8)) .nil)
    out (write t (.seq [.seq [.scal (.u8 7), .scal (.u8 9)]])) = some [2, 0, 0, 0, 7, 9] ∧
    Reflect.read t [2, 0, 0, 0, 7, 9] = some (⟨[0, 0, 7, 9], none⟩, .seq [.seq [.scal (.u8 2), .scal (.u8 0)]]) := by
  decide +kernel

/-- `struct { A string "size(i64)" }`: see C21. -/
theorem C18_i64_violated :
    let t := Ty.struct (.cons (.use false (.size .i64)) .str .nil)
    out (write t (.seq [.str [7]])) = some [1, 0, 0, 0, 7] ∧
    (Reflect.read t [1, 0, 0, 0, 7]).map (·.2) = some (.seq [.str []]) := by
  decide +kernel

/-- `struct { A string "size(no)" }`: `Write` writes no length, `Read` expects one. -/
theorem C18_size_no_violated :
    let t := Ty.struct (.cons (.use false .no) .str .nil)
    out (write t (.seq [.str [1, 0, 0, 0, 9]])) = some [1, 0, 0, 0, 9] ∧
    Reflect.read t [1, 0, 0, 0, 9] = some (⟨[], none⟩, .seq [.str [9]]) := by
  decide +kernel

/-- `[]struct { X int8; Y string } "size(i8)"` inside a struct: a wrong size in front of the elements. -/
theorem C18_size_violated :
    let t := Ty.struct (.cons (.use false (.size .i8)) zeroTy .nil)
    out (write t (.seq [.seq [.scal (.i8 2), .str [3]]])) = some [0, 2, 1, 0, 0, 0, 3] ∧
    (Reflect.read t [0, 2, 1, 0, 0, 0, 3]).map (·.1) = some ⟨[], none⟩ := by
  decide +kernel

/-! ### C19 -/

/-- C19 (partial: for types whose size is computed rightly, see `Sized`). If the codec declares a size for a
type then every value takes exactly that many bytes. Writer and reader declare the same size. -/
theorem C19_declared_size_partial (tail : Bool) (t : Ty) (ht : Sound tail t) (hs : Sized t) :
    ∃ x y, tw t = some x ∧ tr t = some y ∧ y.sz = x.sz ∧
      (0 ≤ x.sz → ∀ addr v w, Wr.Ok w → Fits addr t v →
        ∃ w' d, x.write addr v w = some w' ∧ w'.pending = w.pending ++ d ∧ (d.length : Int) = x.sz) := by
  obtain ⟨x, hx, g⟩ := tw_ok t tail ht
  obtain ⟨y, hy, q⟩ := tr_ok t tail ht
  refine ⟨x, y, hx, hy, by rw [q.sz, g.sz], fun h0 addr v w hw hv => ?_⟩
  obtain ⟨w', h, e⟩ := g.wr addr v w hw hv
  refine ⟨w', _, h, e.data, ?_⟩
  have h1 := sized_exact t hs
  rw [g.sz, h1] at h0
  rw [g.sz, h1]
  cases hn : size? t with
  | none => simp [hn, asSz] at h0
  | some n => simp [asSz, pay_len t n v addr hn hv]

/-- C19, fields (partial in the same way). A field is left out of the encoding only if the layout of every value
of its type is empty. -/
theorem C19_no_field_dropped_partial (t : Ty) (hs : Sized t) (x : TW) (hx : tw t = some x) (h0 : x.sz = 0)
    (addr : Bool) (v : Val) (hv : Fits addr t v) : layout t v = [] := by
  have h1 := sized_exact t hs
  rw [← (tw_sz t x hx).1, h0] at h1
  cases hn : size? t with
  | none => simp [hn, asSz] at h1
  | some n =>
    simp only [hn, asSz] at h1
    have : n = 0 := by omega
    subst this
    have := pay_len t 0 v addr hn hv
    simp only [layout, withCnt, not_counted hn]
    exact List.length_eq_zero_iff.1 (by simpa using this)

/-- A struct of a `uint16`, a `[3]int32` and a counted array has size 2 + 12 + 2 + 4. -/
def sizedTy : Ty :=
  .struct (.cons plain (.scal .u16) (.cons plain (.arr 3 (.scal .i32)) (.cons (.use false (.cnt .i16)) (.arr 4 (.scal .u8)) .nil)))

example : Sound false sizedTy ∧ Sized sizedTy ∧ (tw sizedTy).map (·.sz) = some 20 ∧
    Fits false sizedTy (zero sizedTy) ∧ (out (write sizedTy (zero sizedTy))).map (·.length) = some 20 :=
  ⟨by simp [sizedTy, plain, Sound, SoundFl, codeSz, width],
   by simp [sizedTy, plain, Sized, SizedFl, size?, count?],
   by decide +kernel,
   by simp [sizedTy, zero, zeros, plain, Fits, FitsFl, FitsDir, counted, countOf, fits, Ty.kind?, Kind.zero, Scal.kind,
     List.replicate],
   by decide +kernel⟩

/-- C19 is violated: `struct { int8; string }` is declared to have size 0, but takes 6 bytes or more. -/
theorem C19_zero_size_violated :
    (tw zeroTy).map (·.sz) = some 0 ∧ (tr zeroTy).map (·.sz) = some 0 ∧
    out (write zeroTy (.seq [.scal (.i8 2), .str [3]])) = some [2, 1, 0, 0, 0, 3] := by
  decide +kernel

/-- C19 is violated: `struct { int32; string }` is declared to have size 3. -/
theorem C19_wrong_size_violated :
    let t := Ty.struct (.cons plain (.scal .i32) (.cons plain .str .nil))
    (tw t).map (·.sz) = some 3 ∧ out (write t (.seq [.scal (.i32 2), .str [3]])) = some [2, 0, 0, 0, 1, 0, 0, 0, 3] := by
  decide +kernel

/-- C19 is violated: `cnt(i8)` is reckoned with two bytes. -/
theorem C19_cnt_i8_violated :
    let t := Ty.struct (.cons (.use false (.cnt .i8)) (.arr 2 (.scal .u8)) .nil)
    (tw t).map (·.sz) = some 4 ∧ out (write t (.seq [.seq [.scal (.u8 5), .scal (.u8 6)]])) = some [2, 5, 6] := by
  decide +kernel

/-- C19 is violated: the BER length of 128 takes two bytes and is reckoned with one (see C12). -/
theorem C19_ber_violated :
    let t := Ty.struct (.cons (.use false (.size .ber)) (.arr 128 (.scal .u8)) .nil)
    (tw t).map (·.sz) = some 129 ∧ (out (write t (zero t))).map (·.length) = some 130 := by
  decide +kernel

/-! ### C20 -/

/-- C20 (partial: for `Safe` types; the failing cases are shown below). `Read` into a fresh variable returns,
whatever the bytes are. -/
theorem C20_read_returns_partial (t : Ty) (ht : Safe false t) (h : Tagged t) (b : Bytes) : Reflect.read t b ≠ none := by
  cases hx : tr t with
  | none => exact absurd hx (tr_ne t h)
  | some x =>
    obtain ⟨r, v, h1, _⟩ := (tr_safe t false x ht hx).au ⟨b, none⟩ (zero t) (hasTy_zero t)
    simp [Reflect.read, hx, h1]

/-- C20 for `ReadTail`. -/
theorem C20_readTail_returns_partial (t : Ty) (ht : (∃ k, t = .sl (.scal k)) ∨ Safe true t) (h : Tagged t) (b : Bytes) :
    readTail t b ≠ none := by
  cases hx : tr t with
  | none => exact absurd hx (tr_ne t h)
  | some x =>
    have fin : ∀ q : Option (Rd × Val), q ≠ none → (match q with
        | none => none
        | some (r, v) => if r.body ≠ [] then some (({ r with err := some .other } : Rd), v) else some (r, v)) ≠ none := by
      intro q hq
      cases q with
      | none => exact absurd rfl hq
      | some q => simp only; split <;> simp
    unfold readTail
    rw [hx]
    apply fin
    split
    · simp
    · rename_i hk
      have hs := ht.resolve_left (fun ⟨k, e⟩ => hk k e)
      obtain ⟨r, v, h1, _⟩ := (tr_safe t true x hs hx).tl ⟨b, none⟩ (zero t) (hasTy_zero t) (Or.inl rfl)
      simp [h1]

/-- `struct { A [][]string; B []uint64 "ber"; C []struct { X uint8; Y string "cnt(i8)" } "size(i16)"; D *uint16 "size(i8)" }`. -/
def safeTy : Ty :=
  .struct (.cons plain (.sl (.sl .str)) (.cons (.use true .none) (.sl (.scal .u64))
    (.cons (.use false (.size .i16)) (.sl (.struct (.cons plain (.scal .u8) (.cons (.use false (.cnt .i8)) .str .nil))))
    (.cons (.use false (.size .i8)) (.ptr (.scal .u16)) .nil))))

theorem safeTy_safe : Safe false safeTy := by
  simp [safeTy, plain, Safe, SafeFl, safePfx, sizeTail, wideScal, eats, eatsFl, codeR, cntable, width]

example : Safe false safeTy ∧ Tagged safeTy ∧
    (Reflect.read safeTy [255, 255]).map (·.1.err) = some (some .short) ∧
    (Reflect.read safeTy [0, 0, 0, 0, 0, 0, 0, 0, 5, 0, 1, 2, 3, 4, 5, 0]).map (·.1.err) = some (some .short) ∧
    (Reflect.read safeTy [0, 0, 0, 0, 0, 0, 0, 0, 5, 0, 1, 0, 2, 1, 4, 2, 6, 7]).map (·.2) =
      some (.seq [.seq [], .seq [], .seq [.seq [.scal (.u8 1), .str []], .seq [.scal (.u8 2), .str [4]]],
        .ref (.scal (.u16 1798))]) :=
  ⟨safeTy_safe, by simp [safeTy, plain, Tagged, TaggedFl, berDest, unsignedK], by decide +kernel, by decide +kernel, by decide +kernel⟩

/-- C20 is violated: a negative BER length (ten bytes) of a string. -/
theorem C20_ber_size_violated :
    let t := Ty.struct (.cons (.use false (.size .ber)) .str .nil)
    (tr t).isSome ∧ Reflect.read t [129, 255, 255, 255, 255, 255, 255, 255, 255, 127] = none := by
  decide +kernel

/-- C20 is violated: eight bytes as the 64-bit length of a string. -/
theorem C20_i64_size_violated :
    let t := Ty.struct (.cons (.use false (.size .i64)) .str .nil)
    (tr t).isSome ∧ Reflect.read t [0, 0, 0, 0, 0, 0, 0, 128] = none := by
  decide +kernel

/-- C20 is violated: eight bytes as the 64-bit count of a slice. -/
theorem C20_i64_count_violated :
    let t := Ty.struct (.cons (.use false (.cnt .i64)) (.sl (.scal .u16)) .nil)
    (tr t).isSome ∧ Reflect.read t [0, 0, 0, 0, 0, 0, 0, 128] = none := by
  decide +kernel

/-- C20 is violated: `ReadTail` into a struct whose last field is `[]uint16 "size(no)"` panics on any bytes,
because `reflect.MakeSlice` is given the element type. -/
theorem C20_tail_violated (b : Bytes) :
    readTail (.struct (.cons (.use false .no) (.sl (.scal .u16)) .nil)) b = none := by
  simp [readTail, tr, trFl, slR, scalR, kindSz, TR.autoCnt, dirSize, Dir.bare, structR, readFlds, FR.get, slTail, Ty.kind?, zero,
    zeros]

/-- C20 is violated: a slice of structs whose only field is a pointer, behind a size, is read for ever, since
an element consumes nothing. -/
theorem C20_endless_violated :
    let t := Ty.struct (.cons (.use false (.size .i8)) (.sl (.struct (.cons plain (.ptr (.scal .u8)) .nil))) .nil)
    (tr t).isSome ∧ Reflect.read t [1, 0] = none := by
  decide +kernel

/-- C20 is violated: `*uint16 "ber,size(i8)"`. -/
theorem C20_ber_pointer_violated :
    let t := Ty.struct (.cons (.use true (.size .i8)) (.ptr (.scal .u16)) .nil)
    (tr t).isSome ∧ Reflect.read t [1, 0] = none := by
  decide +kernel

/-! ### C64 -/

/-- C64 is violated: four bytes make the reader allocate a slice of as many elements as they say, before it
looks whether the data can hold them. -/
theorem C64_allocation_violated (n : Nat) (h0 : 0 < n) (hn : n < 2 ^ 32) :
    ∃ r v, Reflect.read (.sl (.scal .u64)) (le 4 n) = some (r, v) ∧ r.err = some .short ∧ vlen v = n := by
  have hp := pfx_read .i32 (by simp) n hn []
  simp only [pfxBytes, List.append_nil] at hp
  have hm : makeSlice (.scal (.u64 0)) (.seq []) n = some (.seq (List.replicate n (.scal (.u64 0)))) := by
    unfold makeSlice
    rw [if_neg (by simp [vlen]; omega), if_neg (by omega)]
    simp
  have hx : tr (.sl (.scal .u64)) = some (slR (some .u64) (.scal (.u64 0)) (scalR .u64)) := rfl
  have hs : scals .u64 (List.replicate n (.scal (.u64 0))) = some (List.replicate n (.u64 0)) := by
    clear hp hm h0 hn
    induction n with
    | zero => rfl
    | succ n ih => simp [List.replicate, scals, ih, Scal.kind]
  refine ⟨⟨[], some .short⟩, .seq (List.replicate n (.scal (.u64 0))), ?_, rfl, by simp [vlen]⟩
  simp only [Reflect.read, hx, slR, TR.autoCnt, TR.withCount, ne_eq, not_true_eq_false, if_false, hp, TR.byCount, zero,
    slSetCount, hm, elemsR, slValR, hs]
  have : n ≠ 0 := by omega
  simp [this, h0, Rd.scalSl, Rd.slWidth]

/-- The same does not happen for strings and `[]uint8`: they are never longer than the input. -/
theorem C64_bytes_partial (b : Bytes) (r : Rd) (v : Val) :
    (Reflect.read .str b = some (r, v) → vlen v ≤ b.length) ∧
    (Reflect.read (.sl (.scal .u8)) b = some (r, v) → vlen v ≤ b.length) := by
  have hs : ∀ (q : Rd) (n : Int) r' d, q.slice n = some (r', d) → d.length ≤ q.body.length := by
    intro q n r' d h
    unfold Rd.slice at h
    split at h
    · simp only [Option.some.injEq, Prod.mk.injEq] at h; simp [← h.2]
    · split at h
      · simp only [Option.some.injEq, Prod.mk.injEq] at h; simp [← h.2]
      · split at h
        · simp at h
        · simp only [Option.some.injEq, Prod.mk.injEq] at h
          rw [← h.2, List.length_take]; omega
  have hp := (pfx_after .i32 rfl ⟨b, none⟩).1.1
  refine ⟨fun h => ?_, fun h => ?_⟩
  · have h : setString (Pfx.i32.read ⟨b, none⟩).2.toInt (Pfx.i32.read ⟨b, none⟩).1 (.str []) = some (r, v) := h
    unfold setString at h
    split at h
    · simp at h
    · rename_i r' d hd
      simp only [Option.some.injEq, Prod.mk.injEq] at h
      have := hs _ _ _ _ hd
      rw [← h.2]
      simp only [vlen]
      exact Nat.le_trans this hp
  · have h : u8Auto (Pfx.i32.read ⟨b, none⟩).2.toInt (Pfx.i32.read ⟨b, none⟩).1 (.seq []) = some (r, v) := h
    unfold u8Auto at h
    split at h
    · simp at h
    · rename_i r' d hd
      simp only [Option.some.injEq, Prod.mk.injEq] at h
      have := hs _ _ _ _ hd
      rw [← h.2]
      simp only [vlen, List.length_map]
      exact Nat.le_trans this hp

example : (Reflect.read .str [255, 255, 255, 255, 1]).map (fun q => (q.1.err, vlen q.2)) = some (some .short, 0) := by
  decide +kernel

end Verif.Props
