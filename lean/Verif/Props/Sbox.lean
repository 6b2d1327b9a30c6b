import Verif.Props.Reflect
import Verif.Proofs.SboxFlat

/-! C22 to C27 and C78 to C80: the package `sbox`. -/
namespace Verif.Props
open Verif.Marshal Verif.Reflect Verif.Spec Verif.Sbox

theorem out_adds {f : Wr → Option Wr} {b : Bytes} (h : Adds f b) : out f = some b := by
  obtain ⟨w, h1, h2⟩ := h (Wr.new 0) (Wr.ok_new 0)
  simp [out, h1, h2.data, pending_new]

/-! ### C22 -/

/-- C22, the format (partial: for tuples that are `TupOk`). `WriteTuple` appends the fields as a tuple and disturbs
nothing else. -/
theorem C22_layout_partial (t : Tup) (h : TupOk t) (w : Wr) (hw : w.Ok) :
    ∃ w', tuple t w = some w' ∧ w'.Ok ∧ w'.pending = w.pending ++ tupleBytes (tupFields t) := by
  obtain ⟨w', h1, h2⟩ := tuple_adds t h w hw
  exact ⟨w', h1, h2.ok, h2.data⟩

/-- C22 (partial: for `TupTy` types and `TupVal` values, which includes structs with fields of any sound type). Reading
back what `WriteTuple` appended, in front of any other data, yields the value and consumes exactly the tuple. -/
theorem C22_roundtrip_partial (t : Ty) (ht : TupTy t) (v : Val) (hv : TupVal false t v) (w : Wr) (hw : w.Ok) :
    ∃ w' d, tuple (.val t v) w = some w' ∧ w'.Ok ∧ w'.pending = w.pending ++ d ∧
      ∀ rest, readRaw t ⟨d ++ rest, none⟩ = some (⟨rest, none⟩, v) := by
  obtain ⟨w', h1, h2, h3⟩ := C22_layout_partial (.val t v) ⟨ht, hv⟩ w hw
  obtain ⟨f, h4, h5⟩ := tupR_ok t ht
  exact ⟨w', _, h1, h2, h3, fun rest => by simpa only [readRaw, h4, tupFields] using h5 false v rest hv⟩

/-- C22 for flat types (partial: the tag `ber` is left out; fewer than `2^32` fields, each shorter than `2^32` bytes):
every value of the type round-trips. -/
theorem C22_flat_roundtrip_partial (t : Ty) (ht : flat t = true) (v : Val) (hv : HasTy t v) (hs : Small t v)
    (w : Wr) (hw : w.Ok) :
    ∃ w' d, tuple (.val t v) w = some w' ∧ w'.Ok ∧ w'.pending = w.pending ++ d ∧
      ∀ rest, readRaw t ⟨d ++ rest, none⟩ = some (⟨rest, none⟩, v) :=
  C22_roundtrip_partial t (flat_tup t ht v hv hs).1 v (flat_tup t ht v hv hs).2 w hw

/-- `struct { A int32; B string; C []byte }`. -/
def rowTy : Ty := .struct (.cons plain (.scal .i32) (.cons plain .str (.cons plain (.sl (.scal .u8)) .nil)))
def rowVal : Val := .seq [.scal (.i32 7), .str [65, 66], .seq [.scal (.u8 9)]]

theorem rowTy_flat : flat rowTy = true := by decide
theorem rowVal_has : HasTy rowTy rowVal := by simp [rowTy, rowVal, plain, HasTy, HasTyFl, Scal.kind]
theorem rowVal_small : Small rowTy rowVal := by
  simp [rowTy, rowVal, plain, Small, fields, elems, structFields, pay, scalBytes, le, width, Scal.kind, withCnt, counted]

example : flat rowTy = true ∧ HasTy rowTy rowVal ∧ Small rowTy rowVal ∧ TupTy rowTy ∧ TupVal false rowTy rowVal ∧
    out (tuple (.val rowTy rowVal)) = some ([3, 0, 0, 0] ++ [4, 7, 0, 0, 0] ++ [2, 65, 66] ++ [1, 9]) ∧
    readRaw rowTy ⟨[3, 0, 0, 0, 4, 7, 0, 0, 0, 2, 65, 66, 1, 9, 5], none⟩ = some (⟨[5], none⟩, rowVal) :=
  ⟨rowTy_flat, rowVal_has, rowVal_small, (flat_tup _ rowTy_flat _ rowVal_has rowVal_small).1,
   (flat_tup _ rowTy_flat _ rowVal_has rowVal_small).2, by decide +kernel, by decide +kernel⟩

/-- C22 is violated: `struct { A uint32 "ber" }` with 128, which is written with a length of one byte but takes two
(see C12); reading it back fails. -/
theorem C22_ber_violated :
    let t := Ty.struct (.cons (.use true .none) (.scal .u32) .nil)
    out (tuple (.val t (.seq [.scal (.u32 128)]))) = some [1, 0, 0, 0, 1, 129, 0] ∧
    readRaw t ⟨[1, 0, 0, 0, 1, 129, 0], none⟩ = some (⟨[0], some .short⟩, .seq [.scal (.u32 1)]) := by
  decide +kernel

/-- A struct with a `[]float64` comes back with other numbers (see C19). -/
theorem C22_float_violated :
    let t := Ty.struct (.cons plain (.sl (.scal .f64)) .nil)
    let b := [1, 0, 0, 0, 16, 1, 0, 0, 0, 2, 0, 0, 0, 0, 0, 0, 0, 0, 0, 0, 0]
    out (tuple (.val t (.seq [.seq [.scal (.f64 1), .scal (.f64 2)]]))) = some b ∧
    readRaw t ⟨b, none⟩ = some (⟨[], none⟩, .seq [.seq [.scal (.f64 8589934593), .scal (.f64 0)]]) := by
  decide +kernel

/-- A nil pointer is no tuple at all. -/
theorem C22_nil_violated : out (tuple (.val (.ptr (.scal .u8)) .nilp)) = some [] ∧ out (tuple .nil) = some [] := by
  decide +kernel

/-! ### C79 -/

/-- C79 (partial: for `TupFl` structs). A struct is read from a tuple of its first `k` fields and the others stay zero; if
the tuple has more fields than the struct then these are left unread. -/
theorem C79_struct_partial (fs : Fl) (h : TupFl fs) (addr : Bool) (vs : List Val) (hv : TupVals addr fs vs)
    (k : Nat) (hk : k < 2 ^ 32) (more : List Bytes) (rest : Bytes) :
    (k ≤ numFields fs → readRaw (.struct fs) ⟨tupleBytes ((structFields fs vs).take k) ++ rest, none⟩ =
      some (⟨rest, none⟩, .seq (upTo k fs vs))) ∧
    (numFields fs + more.length = k → readRaw (.struct fs) ⟨tupleBytes (structFields fs vs ++ more) ++ rest, none⟩ =
      some (⟨(more.map fieldBytes).flatten ++ rest, none⟩, .seq vs)) := by
  obtain ⟨l, h1, h2⟩ := struct_gets fs h
  have hl := fields_count addr fs vs hv
  refine ⟨fun hn => ?_, fun hn => ?_⟩
  · have := h2 addr vs k hv hk rest
    simp only [readRaw, h1]
    rw [← this]
    simp [tupleBytes, Nat.min_eq_left (hl ▸ hn)]
  · have := h2 addr vs k hv hk ((more.map fieldBytes).flatten ++ rest)
    simp only [readRaw, h1]
    rw [upTo_all addr fs vs hv k (by omega), List.take_of_length_le (by omega)] at this
    rw [← this]
    simp [tupleBytes, hl, hn]

example : readRaw rowTy ⟨tupleBytes [[7, 0, 0, 0]] ++ [5], none⟩ =
      some (⟨[5], none⟩, .seq [.scal (.i32 7), .str [], .seq []]) ∧
    readRaw rowTy ⟨tupleBytes [[7, 0, 0, 0], [65, 66], [9], [1]] ++ [5], none⟩ = some (⟨[1, 1, 5], none⟩, rowVal) := by
  decide +kernel

/-! ### C23 -/

/-- C23 (partial: for keys that are `KeysOk`). The body of a `SelectReq` is the header, with the number of key tuples,
and the key tuples; what follows the header is these tuples and no others. -/
theorem C23_select_count_partial (s : SelectReq) (h : KeysOk s.keys) (hn : (keysOf s.keys).length < 2 ^ 32)
    (w : Wr) (hw : w.Ok) :
    ∃ w' d, s.write w = some w' ∧ w'.Ok ∧
      w'.pending = w.pending ++ (le 4 s.space.toNat ++ (le 4 s.index.toNat ++ (le 4 s.offset.toNat ++
        (scalBytes (.i32 (sentLimit s.limit (keysOf s.keys).length)) ++ (le 4 (keysOf s.keys).length ++ d))))) ∧
      d = ((keysOf s.keys).map tupleBytes).flatten ∧
      ∀ ks : List (List Bytes), (∀ k ∈ ks, k.length < 2 ^ 32) → d = (ks.map tupleBytes).flatten → ks.length = (keysOf s.keys).length := by
  obtain ⟨w', h1, h2⟩ := select_adds s h hn w hw
  refine ⟨w', _, h1, h2.ok, h2.data, rfl, fun ks hk e => ?_⟩
  rw [tuples_inj _ _ (keysOf_lt _ h) hk e]

/-- Keys: `[]struct { A int32; B string; C []byte }`, and `[]interface{}` with an `int8`, a string and a row. -/
example : KeysOk (.val (.sl (.scal .i32)) (.seq [.scal (.i32 1), .scal (.i32 2)])) ∧
    KeysOk (.list [.val (.scal .i8) (.scal (.i8 1)), .val rowTy rowVal]) ∧
    out (SelectReq.write ⟨1, 2, 3, -2, .val (.sl (.scal .i8)) (.seq [.scal (.i8 1), .scal (.i8 2)])⟩) =
      some ([1, 0, 0, 0] ++ [2, 0, 0, 0] ++ [3, 0, 0, 0] ++ [2, 0, 0, 0] ++ [2, 0, 0, 0] ++
        [1, 0, 0, 0, 1, 1] ++ [1, 0, 0, 0, 1, 2]) := by
  refine ⟨?_, ?_, by decide +kernel⟩
  · simp [KeysOk, KeyVal, Ty.kind?, TupTy, TupVal, FieldVal, Fits, Scal.kind, pay, scalBytes, le, width]
  · have h := flat_tup _ rowTy_flat _ rowVal_has rowVal_small
    simp only [KeysOk, List.mem_cons, List.not_mem_nil, or_false, forall_eq_or_imp, forall_eq, TupOk]
    refine ⟨⟨⟨by simp [TupTy], ?_⟩, rfl⟩, h, rfl⟩
    simp [TupVal, FieldVal, Fits, Scal.kind, pay, scalBytes, le, width]

/-- C23 is violated: with `[]interface{}{[]int32{1, 2}}` two keys are announced, and one tuple of two fields follows. -/
theorem C23_nested_violated :
    out (SelectReq.write ⟨0, 0, 0, 1, .list [.val (.sl (.scal .i8)) (.seq [.scal (.i8 1), .scal (.i8 2)])]⟩) =
      some ([0, 0, 0, 0] ++ [0, 0, 0, 0] ++ [0, 0, 0, 0] ++ [1, 0, 0, 0] ++ [2, 0, 0, 0] ++ tupleBytes [[1], [2]]) := by
  decide +kernel

/-- A number or a string. -/
def Plain : Fld → Prop
  | some (.scal _, _) => True
  | some (.str, _) => True
  | _ => False

theorem plain_count : (fs : List Fld) → (∀ f ∈ fs, Plain f) → countFlds fs = some fs.length
  | [], _ => rfl
  | f :: fs, h => by
    have h1 : countFld f = some 1 := by
      have := h f (by simp)
      unfold Plain at this
      split at this
      · rfl
      · rfl
      · exact this.elim
    simp [countFlds, h1, plain_count fs fun g hg => h g (by simp [hg]), Nat.add_comm]

/-- C23 is violated by keys of several fields, given as `[]interface{}{[]interface{}{1, "a"}, ...}`: what is announced is the
number of fields of all the keys, which is that of the keys only if they have one field on the average. -/
theorem C23_composite_violated (fss : List (List Fld)) (h : ∀ fs ∈ fss, ∀ f ∈ fs, Plain f) :
    countKeys (.list (fss.map .list)) = some (fss.map List.length).sum := by
  simp only [countKeys]
  induction fss with
  | nil => rfl
  | cons fs fss ih =>
    simp [countTups, countTup, plain_count fs (h fs (by simp)), ih fun gs hg => h gs (by simp [hg])]

/-- One key of two fields: two are announced, and one follows. If the second field is a slice of two, three are announced. -/
theorem C23_composite_sent_violated :
    out (SelectReq.write ⟨0, 0, 0, 1, .list [.list [some (.scal .i8, .scal (.i8 1)), some (.str, .str [65])]]⟩) =
      some ([0, 0, 0, 0] ++ [0, 0, 0, 0] ++ [0, 0, 0, 0] ++ [1, 0, 0, 0] ++ [2, 0, 0, 0] ++ tupleBytes [[1], [65]]) ∧
    out (SelectReq.write ⟨0, 0, 0, 1, .list [.list [some (.scal .i8, .scal (.i8 1)),
        some (.sl (.scal .i8), .seq [.scal (.i8 2), .scal (.i8 3)])]]⟩) =
      some ([0, 0, 0, 0] ++ [0, 0, 0, 0] ++ [0, 0, 0, 0] ++ [1, 0, 0, 0] ++ [3, 0, 0, 0] ++ tupleBytes [[1], [2, 3]]) := by
  decide +kernel

/-- C23 is violated: with a slice of one nil pointer one key is announced, and none follows. -/
theorem C23_nil_violated :
    out (SelectReq.write ⟨0, 0, 0, 1, .val (.sl (.ptr (.scal .i8))) (.seq [.nilp])⟩) =
      some ([0, 0, 0, 0] ++ [0, 0, 0, 0] ++ [0, 0, 0, 0] ++ [1, 0, 0, 0] ++ [1, 0, 0, 0]) := by
  decide +kernel

/-- C23 is violated: a nil pointer as `Keys` is written as no key by `WriteKeys`, but `CountKeys` panics, and so does the request. -/
theorem C23_nil_pointer_violated (t : Ty) (w : Wr) : writeKeys (.val (.ptr t) .nilp) w = some w ∧ countKeys (.val (.ptr t) .nilp) = none ∧
    ∀ s : SelectReq, s.keys = .val (.ptr t) .nilp → s.write w = none := by
  refine ⟨rfl, rfl, fun s hs => ?_⟩
  simp only [SelectReq.write, hs, countKeys, countKeysTy]
  split <;> rfl

/-! ### C24 -/

/-- C24 for `StoreReq` (partial: for tuples that are `TupOk`): the layout, and the body determines the request up to the
fields of the tuple. -/
theorem C24_store_partial (a : StoreReq) (ha : TupOk a.tup) :
    out a.write = some (le 4 a.space.toNat ++ (le 4 ((if a.ret then 1 else 0) + 2 * a.mode.toNat) ++
      tupleBytes (tupFields a.tup))) ∧
    ∀ b : StoreReq, TupOk b.tup → out a.write = out b.write →
      a.space = b.space ∧ a.ret = b.ret ∧ a.mode = b.mode ∧ tupFields a.tup = tupFields b.tup := by
  refine ⟨out_adds (store_adds a ha), fun b hb h => ?_⟩
  rw [out_adds (store_adds a ha), out_adds (store_adds b hb), Option.some.injEq] at h
  obtain ⟨h1, h2⟩ := le4_inj a.space.toNat_lt b.space.toNat_lt h
  have hm := a.mode.toNat_lt
  have hm' := b.mode.toNat_lt
  have hf : ∀ r : Bool, (if r then 1 else 0) ≤ 1 := by decide
  have hfa := hf a.ret
  have hfb := hf b.ret
  obtain ⟨h3, h4⟩ := le4_inj (by omega) (by omega) h2
  obtain ⟨h5, _⟩ := tuple_inj (tupFields_lt _ ha) (tupFields_lt _ hb) (x := []) (y := []) (by simpa using h4)
  refine ⟨UInt32.toNat_inj.1 h1, ?_, UInt16.toNat_inj.1 ?_, h5⟩
  · cases ca : a.ret <;> cases cb : b.ret <;> simp only [ca, cb, if_true, if_false, Bool.false_eq_true] at h3 ⊢ <;> omega
  · omega

/-- C24 for `DeleteReq` (partial: for keys that are `TupOk`). -/
theorem C24_delete_partial (a : DeleteReq) (ha : TupOk a.key) :
    out a.write = some (le 4 a.space.toNat ++ (le 4 (if a.ret then 1 else 0) ++ tupleBytes (tupFields a.key))) ∧
    ∀ b : DeleteReq, TupOk b.key → out a.write = out b.write →
      a.space = b.space ∧ a.ret = b.ret ∧ tupFields a.key = tupFields b.key := by
  refine ⟨out_adds (delete_adds a ha), fun b hb h => ?_⟩
  rw [out_adds (delete_adds a ha), out_adds (delete_adds b hb), Option.some.injEq] at h
  obtain ⟨h1, h2⟩ := le4_inj a.space.toNat_lt b.space.toNat_lt h
  obtain ⟨h3, h4⟩ := le4_inj (by split <;> omega) (by split <;> omega) h2
  obtain ⟨h5, _⟩ := tuple_inj (tupFields_lt _ ha) (tupFields_lt _ hb) (x := []) (y := []) (by simpa using h4)
  refine ⟨UInt32.toNat_inj.1 h1, ?_, h5⟩
  cases hr : a.ret <;> cases hs : b.ret <;> simp_all

/-- C24 for `SelectReq` (partial: for keys that are `KeysOk`): the body determines the request up to the fields of the
keys and to the limit that is sent, which is the one that was asked for unless that is negative. -/
theorem C24_select_partial (a : SelectReq) (ha : KeysOk a.keys) (na : (keysOf a.keys).length < 2 ^ 32) :
    out a.write = some (le 4 a.space.toNat ++ (le 4 a.index.toNat ++ (le 4 a.offset.toNat ++
      (scalBytes (.i32 (sentLimit a.limit (keysOf a.keys).length)) ++
        (le 4 (keysOf a.keys).length ++ ((keysOf a.keys).map tupleBytes).flatten))))) ∧
    (0 ≤ a.limit → sentLimit a.limit (keysOf a.keys).length = a.limit) ∧
    ∀ b : SelectReq, KeysOk b.keys → (keysOf b.keys).length < 2 ^ 32 → out a.write = out b.write →
      a.space = b.space ∧ a.index = b.index ∧ a.offset = b.offset ∧ keysOf a.keys = keysOf b.keys ∧
      sentLimit a.limit (keysOf a.keys).length = sentLimit b.limit (keysOf b.keys).length := by
  refine ⟨out_adds (select_adds a ha na), fun h => by simp [sentLimit, h], fun b hb nb h => ?_⟩
  rw [out_adds (select_adds a ha na), out_adds (select_adds b hb nb), Option.some.injEq] at h
  obtain ⟨h1, h⟩ := le4_inj a.space.toNat_lt b.space.toNat_lt h
  obtain ⟨h2, h⟩ := le4_inj a.index.toNat_lt b.index.toNat_lt h
  obtain ⟨h3, h⟩ := le4_inj a.offset.toNat_lt b.offset.toNat_lt h
  obtain ⟨h4, h⟩ := List.append_inj h (by simp [scalBytes, le, width, Scal.kind])
  obtain ⟨_, h⟩ := le4_inj na nb h
  refine ⟨UInt32.toNat_inj.1 h1, UInt32.toNat_inj.1 h2, UInt32.toNat_inj.1 h3,
    tuples_inj _ _ (keysOf_lt _ ha) (keysOf_lt _ hb) h, ?_⟩
  have key : ∀ x y : Int32, scalBytes (.i32 x) = scalBytes (.i32 y) → x = y := by
    intro x y e
    simp only [scalBytes, pattern, width, Scal.kind] at e
    obtain ⟨e, _⟩ := le4_inj (x := []) (y := []) (by omega) (by omega) (congrArg (· ++ []) e)
    have := x.le_toInt
    have := x.toInt_lt
    have := y.le_toInt
    have := y.toInt_lt
    exact Int32.toInt_inj.1 (by omega)
  exact key _ _ h4

/-- C24 for `UpdateReq` (partial: for keys and operations the code handles): the body determines the request up to the
fields of the key, the codes of the operators and the content of the arguments. -/
theorem C24_update_partial (a : UpdateReq) (ha : TupOk a.key) (na : a.ops.length < 2 ^ 32) (oa : ∀ o ∈ a.ops, OpOk o) :
    out a.write = some (le 4 a.space.toNat ++ (le 4 (if a.ret then 1 else 0) ++ (tupleBytes (tupFields a.key) ++
      (le 4 a.ops.length ++ (a.ops.map opOut).flatten)))) ∧
    ∀ b : UpdateReq, TupOk b.key → b.ops.length < 2 ^ 32 → (∀ o ∈ b.ops, OpOk o) → out a.write = out b.write →
      a.space = b.space ∧ a.ret = b.ret ∧ tupFields a.key = tupFields b.key ∧ a.ops.map opSays = b.ops.map opSays := by
  refine ⟨out_adds (update_adds a ha na oa), fun b hb nb ob h => ?_⟩
  rw [out_adds (update_adds a ha na oa), out_adds (update_adds b hb nb ob), Option.some.injEq] at h
  obtain ⟨h1, h⟩ := le4_inj a.space.toNat_lt b.space.toNat_lt h
  obtain ⟨h2, h⟩ := le4_inj (by split <;> omega) (by split <;> omega) h
  obtain ⟨h3, h⟩ := tuple_inj (tupFields_lt _ ha) (tupFields_lt _ hb) h
  obtain ⟨h4, h⟩ := le4_inj na nb h
  refine ⟨UInt32.toNat_inj.1 h1, ?_, h3, ops_inj _ _ h4 oa ob h⟩
  cases hr : a.ret <;> cases hs : b.ret <;> simp_all

/-- C24 for `RPCReq` (partial: sizes below `2^63` and fewer than `2^32` arguments; the arguments are strings). -/
theorem C24_rpc_partial (a : RPCReq) (na : a.name.length < 2 ^ 63) (la : a.args.length < 2 ^ 32)
    (sa : ∀ x ∈ a.args, x.length < 2 ^ 63) :
    out a.write = some (le 4 0 ++ (fieldBytes a.name ++ tupleBytes a.args)) ∧
    ∀ b : RPCReq, b.name.length < 2 ^ 63 → b.args.length < 2 ^ 32 → (∀ x ∈ b.args, x.length < 2 ^ 63) →
      out a.write = out b.write → a = b := by
  refine ⟨out_adds (rpc_adds a na la sa), fun b nb lb sb h => ?_⟩
  rw [out_adds (rpc_adds a na la sa), out_adds (rpc_adds b nb lb sb), Option.some.injEq] at h
  obtain ⟨_, h⟩ := le4_inj (by decide) (by decide) h
  obtain ⟨h1, h⟩ := field_inj h
  obtain ⟨h2, _⟩ := tuple_inj la lb (x := []) (y := []) (by simpa using h)
  cases a; cases b; simp_all

/-- A request of each kind. -/
example : TupOk (.val rowTy rowVal) ∧ OpOk ⟨2, 43, .scal .i32, .scal (.i32 5)⟩ ∧
    out (StoreReq.write ⟨1, true, 2, .val rowTy rowVal⟩) =
      some ([1, 0, 0, 0] ++ [5, 0, 0, 0] ++ [3, 0, 0, 0, 4, 7, 0, 0, 0, 2, 65, 66, 1, 9]) ∧
    out (DeleteReq.write ⟨1, true, .val (.scal .u8) (.scal (.u8 3))⟩) =
      some ([1, 0, 0, 0] ++ [1, 0, 0, 0] ++ [1, 0, 0, 0, 1, 3]) ∧
    out (UpdateReq.write ⟨1, false, .val (.scal .u8) (.scal (.u8 3)), [⟨2, 43, .scal .i32, .scal (.i32 5)⟩]⟩) =
      some ([1, 0, 0, 0] ++ [0, 0, 0, 0] ++ [1, 0, 0, 0, 1, 3] ++ [1, 0, 0, 0] ++ [2, 0, 0, 0, 1, 4, 5, 0, 0, 0]) ∧
    out (RPCReq.write ⟨[102], [[1, 2], []]⟩) = some ([0, 0, 0, 0] ++ [1, 102] ++ [2, 0, 0, 0] ++ [2, 1, 2] ++ [0]) := by
  refine ⟨flat_tup _ rowTy_flat _ rowVal_has rowVal_small, ?_, by decide +kernel, by decide +kernel, by decide +kernel,
    by decide +kernel⟩
  exact ⟨by decide, (flat_field _ rfl).1, flat_val _ _ rfl _ (by simp [HasTy, Scal.kind]) (by decide +kernel)⟩

/-- C24 is violated: limits that differ have the same body (`SelectAll` and the greatest limit; any two below -2). -/
theorem C24_limit_violated (s i o : UInt32) (k : Keys) :
    SelectReq.write ⟨s, i, o, -1, k⟩ = SelectReq.write ⟨s, i, o, 2147483647, k⟩ ∧
    SelectReq.write ⟨s, i, o, -3, k⟩ = SelectReq.write ⟨s, i, o, -4, k⟩ := by
  constructor <;> rfl

/-- C24 is violated: a nil tuple is left out of the body, and nil operands of a `[]interface{}` disappear, although
they are counted. -/
theorem C24_nil_violated :
    out (StoreReq.write ⟨1, true, 2, .nil⟩) = some [1, 0, 0, 0, 5, 0, 0, 0] ∧
    out (StoreReq.write ⟨1, true, 2, .list [none, some (.scal .u8, .scal (.u8 3))]⟩) =
      some [1, 0, 0, 0, 5, 0, 0, 0, 2, 0, 0, 0, 1, 3] := by
  decide +kernel

/-! ### C25 -/

theorem many_of_codec (t : Ty) (hm : Row t) (ht : tupR t ≠ none) (ts : List Bytes) (vs : List Val)
    (extra : Bytes) (hl : ts.length = vs.length) (hn : ts.length < 2 ^ 32) (hfr : ∀ u ∈ ts, Framed u)
    (hd : ∀ p ∈ ts.zip vs, Reads t p.1 p.2) :
    readMany t (response ts ++ extra) = some (ts.length, (ts.length : Int), none, vs) := by
  obtain ⟨f, hf⟩ := Option.ne_none_iff_exists'.1 ht
  have hc := count_read ts.length hn ((ts.map framed).flatten ++ extra)
  have := many_all f (zero t) extra ts vs hl hfr fun p hp => (reads_iff t f hf _ _).1 (hd p hp)
  simp only [readMany, manyOk_of t hm, if_true, hf, response, List.append_assoc, hc.1, hc.2, Int.toNat_natCast, this]

/-- C25 (partial: complete responses all of whose tuples decode). All elements are the decodings of the tuples;
surplus data is ignored. -/
theorem C25_all_partial (t : Ty) (hm : Row t) (ht : Tagged t) (ts : List Bytes) (vs : List Val)
    (extra : Bytes) (hl : ts.length = vs.length) (hn : ts.length < 2 ^ 32) (hfr : ∀ u ∈ ts, Framed u)
    (hd : ∀ p ∈ ts.zip vs, Reads t p.1 p.2) :
    readMany t (response ts ++ extra) = some (ts.length, (ts.length : Int), none, vs) :=
  many_of_codec t hm (tupR_ne t ht) ts vs extra hl hn hfr hd

/-- Rows that were written are read: `ReadMany` inverts the framing of `WriteTuple`. -/
theorem C25_written_partial (t : Ty) (hm : Row t) (ht : TupTy t) (vs : List Val) (hv : ∀ v ∈ vs, TupVal true t v)
    (hn : vs.length < 2 ^ 32) (hs : ∀ v ∈ vs, (tupleBytes (fields t v)).length < 2 ^ 32) (extra : Bytes) :
    readMany t (response (vs.map fun v => tupleBytes (fields t v)) ++ extra) = some (vs.length, (vs.length : Int), none, vs) := by
  obtain ⟨f, h1, h2⟩ := tupR_ok t ht
  have := many_of_codec t hm (by simp [h1]) (vs.map fun v => tupleBytes (fields t v)) vs extra (by simp) (by simpa using hn)
    (by
      intro u hu
      obtain ⟨v, hv, rfl⟩ := List.mem_map.1 hu
      have := hs v hv
      exact ⟨by simp [tupleBytes], by omega⟩)
    (by
      intro p hp
      rw [List.zip_map_left, List.mem_map] at hp
      obtain ⟨⟨v, u⟩, hp, rfl⟩ := hp
      have e : u = v := by
        have := List.of_mem_zip hp
        obtain ⟨i, hi, hp⟩ := List.getElem_of_mem hp
        simp at hp
        rw [← hp.1, ← hp.2]
      subst e
      have := h2 true u [] (hv u (List.of_mem_zip hp).1)
      exact (reads_iff t f h1 _ _).2 ⟨_, by simpa using this, rfl⟩)
  simpa using this

/-- C25 (partial): in a complete response the elements are right up to and including the first tuple that does not
decode. What is missing: the later elements, see `C25_violated`. -/
theorem C25_prefix_partial (t : Ty) (ts : List Bytes)
    (extra : Bytes) (hn : ts.length < 2 ^ 32) (hfr : ∀ u ∈ ts, Framed u) (read : Nat) (total : Int) (err : Option RErr)
    (us : List Val) (h : readMany t (response ts ++ extra) = some (read, total, err, us))
    (k : Nat) (hk : ∀ i < k, ∀ u, ts[i]? = some u → ∃ v, Reads t u v) (i : Nat) (hi : i ≤ k) (u : Bytes)
    (hu : ts[i]? = some u) : ∃ r v, us[i]? = some v ∧ readRaw t ⟨u, none⟩ = some (r, v) := by
  have hc := count_read ts.length hn ((ts.map framed).flatten ++ extra)
  cases hf : tupR t with
  | none => simp only [readMany, hf] at h; split at h <;> simp at h
  | some f =>
  simp only [readMany, hf, response, List.append_assoc, hc.1, hc.2, Int.toNat_natCast] at h
  split at h
  · cases hq : manyLoop f ⟨(ts.map framed).flatten ++ extra, none⟩ none (List.replicate ts.length (zero t)) with
    | none => simp [hq] at h
    | some q =>
      obtain ⟨n, r, vs⟩ := q
      simp only [hq, Option.some.injEq, Prod.mk.injEq] at h
      obtain ⟨_, _, _, rfl⟩ := h
      simpa only [readRaw, hf] using many_prefix f (zero t) extra ts hfr n r vs hq k
        (fun i hi u hu => (hk i hi u hu).imp fun v hv => (reads_iff t f hf _ _).1 hv) i hi u hu
  · simp at h

/-- C25, the count (for every body): without error, as many tuples are complete in the body as were announced and
reported read. -/
theorem C25_frames_partial (t : Ty) (b : Bytes) (hb : 4 ≤ b.length) (read : Nat) (total : Int) (us : List Val)
    (h : readMany t b = some (read, total, none, us)) :
    (read : Int) = total ∧ us.length = read ∧
      ∃ ts extra, b = response ts ++ extra ∧ ts.length = read ∧ ∀ u ∈ ts, Framed u := by
  obtain ⟨n, hn, hs⟩ := u32_split b hb
  have hc := count_read n hn (b.drop 4)
  rw [← hs] at hc
  simp only [readMany, hc.1, hc.2, Int.toNat_natCast] at h
  split at h
  · cases hf : tupR t with
    | none => simp [hf] at h
    | some f =>
      simp only [hf] at h
      cases hq : manyLoop f ⟨b.drop 4, none⟩ none (List.replicate n (zero t)) with
      | none => simp [hq] at h
      | some q =>
        obtain ⟨m, r, vs⟩ := q
        simp only [hq, Option.some.injEq, Prod.mk.injEq] at h
        obtain ⟨rfl, rfl, he, rfl⟩ := h
        obtain ⟨h1, h2, ts, extra, h3, h4, h5, _⟩ := many_frames f (zero t) n _ _ _ _ _ hq he
        refine ⟨by rw [h1], by omega, ts, extra, ?_, by omega, h5⟩
        rw [response, List.append_assoc, ← h3, h4]; exact hs
  · simp at h

/-- Three tuples of which the second has a field of the wrong length. -/
def badResponse : Bytes := response [tupleBytes [[7]], tupleBytes [[7, 8]], tupleBytes [[9]]]

example : readMany (.scal .u8) (response [tupleBytes [[7]], tupleBytes [[9]]] ++ [1]) =
    some (2, 2, none, [.scal (.u8 7), .scal (.u8 9)]) ∧
    Framed (tupleBytes [[7]]) ∧ TupVal true rowTy rowVal := by
  refine ⟨by decide +kernel, ⟨by decide +kernel, by decide +kernel⟩, ?_⟩
  simp [rowTy, rowVal, plain, TupVal, TupVals, FieldVal, Fits, Scal.kind, pay, scalBytes, le, width, Ty.kind?, counted, withCnt]

/-- C25 is violated: a bad tuple is passed over without an error, and the following elements stay zero although
their tuples are well-formed. -/
theorem C25_violated :
    readMany (.scal .u8) badResponse = some (3, 3, none, [.scal (.u8 7), .scal (.u8 0), .scal (.u8 0)]) ∧
    readRaw (.scal .u8) ⟨tupleBytes [[9]], none⟩ = some (⟨[], none⟩, .scal (.u8 9)) := by
  decide +kernel

/-! ### C26 -/

/-- C26 (partial: the count must be there). If the body announces a tuple and is too short for it, `ReadFirst` returns
an error. -/
theorem C26_truncated_partial (t : Ty) (ht : Tagged t) (n : Nat) (h0 : 0 < n) (hn : n < 2 ^ 32) (rest : Bytes)
    (hr : rest.length < 4 ∨ ∃ m part, m < 2 ^ 32 ∧ rest = le 4 m ++ part ∧ part.length < m + 4) :
    ∃ read e v, readFirst t (le 4 n ++ rest) = some (read, (n : Int), some e, v) := by
  have hc := count_read n hn rest
  have hp : (0 : Int) < n := by omega
  simp only [readFirst, hc.1, hc.2, hp, if_true]
  rcases hr with hr | ⟨m, part, hm, rfl, hl⟩
  · simp only [short_read rest hr]
    exact ⟨_, _, _, rfl⟩
  · have h1 := count_read m hm part
    simp only [h1.1, h1.2, if_true, slice_short part ((m : Int) + 4) (by omega)]
    cases hf : tupR t with
    | none => exact absurd hf (tupR_ne t ht)
    | some f =>
      obtain ⟨r, v, h2, h3⟩ := tupR_empty t f hf
      simp only [readRaw, hf, h2]
      cases he : r.err with
      | none => exact absurd he h3
      | some e => exact ⟨_, e, v, rfl⟩

/-- A body that has the first tuple: `ReadFirst` returns what `ReadRawTuple` returns for it. -/
theorem C26_complete_partial (t : Ty) (n : Nat) (h0 : 0 < n) (hn : n < 2 ^ 32) (u extra : Bytes) (hu : Framed u) :
    readFirst t (le 4 n ++ (framed u ++ extra)) =
      (readRaw t ⟨u, none⟩).map fun q => (true, (n : Int), q.1.err, q.2) := by
  have hc := count_read n hn (framed u ++ extra)
  have hp : (0 : Int) < n := by omega
  obtain ⟨h1, h2⟩ := frame_read u extra hu
  simp only [readFirst, hc.1, hc.2, hp, if_true, h1, h2]
  cases readRaw t ⟨u, none⟩ <;> rfl

example : readFirst (.scal .u8) (le 4 2 ++ (framed (tupleBytes [[7]]) ++ [1])) = some (true, 2, none, .scal (.u8 7)) ∧
    readFirst (.scal .u8) (le 4 2 ++ [2, 0, 0, 0, 1, 0, 0, 0, 1]) = some (true, 2, some .other, .scal (.u8 0)) ∧
    Tagged rowTy := by
  exact ⟨by decide +kernel, by decide +kernel, by simp [rowTy, plain, Tagged, TaggedFl]⟩

/-- C26 is violated: a body too short for the count is an empty response without error. -/
theorem C26_violated (t : Ty) (b : Bytes) (h : b.length < 4) : readFirst t b = some (false, 0, none, zero t) := by
  simp only [readFirst, short_read b h]
  rfl

/-! ### C27 -/

/-- C27 (partial: see `C27_violated`). The operators of the protocol are sent with their codes; the codes pass
unchanged. -/
theorem C27_known_partial (o : Op) (h : OpOk o) : ∃ c, opCode o.op = some c ∧ c.toNat < 8 ∧ (o.op.toNat < 8 → c = o.op) ∧
    out o.write = some (updBytes o.field c (pay o.ty o.val)) := by
  obtain ⟨c, hc⟩ := Option.isSome_iff_exists.1 h.1
  refine ⟨c, hc, ?_, ?_, out_adds (op_adds o h c hc)⟩
  · have : ∀ n : Fin 256, ∀ c, opCode (UInt8.ofNat n) = some c → c.toNat < 8 := by decide +kernel
    exact this ⟨o.op.toNat, o.op.toNat_lt⟩ c (by simpa using hc)
  · intro hl
    simp only [opCode, hl, if_true, Option.some.injEq] at hc
    exact hc.symm

/-- C27: bytes from 125 on are rejected (the table lookup panics). -/
theorem C27_rejected_partial (o : Op) (h : 125 ≤ o.op.toNat) : out o.write = none := by
  have : ∀ n : Fin 256, 125 ≤ n.val → sentOp (UInt8.ofNat n) = none := by decide +kernel
  have hs : sentOp o.op = none := by simpa using this ⟨o.op.toNat, o.op.toNat_lt⟩ h
  simp only [out, Op.write, hs]
  cases (Wr.new 0).scal (.u32 o.field) <;> rfl

example : OpOk ⟨2, 43, .scal .i32, .scal (.i32 5)⟩ ∧
    out (Op.write ⟨2, 43, .scal .i32, .scal (.i32 5)⟩) = some (updBytes 2 1 [5, 0, 0, 0]) ∧
    out (Op.write ⟨2, 126, .scal .i32, .scal (.i32 5)⟩) = none := by
  refine ⟨?_, by decide +kernel, by decide +kernel⟩
  exact ⟨by decide, (flat_field _ rfl).1, flat_val _ _ rfl _ (by simp [HasTy, Scal.kind]) (by decide +kernel)⟩

/-- C27 is violated: every other byte below 125 is sent as the operator "set". -/
theorem C27_violated (o : Op) (h : 8 ≤ o.op.toNat) (h1 : o.op.toNat < 125) (hc : opCode o.op = none) (w : Wr) :
    o.write w = Op.write { o with op := 0 } w := by
  have : ∀ n : Fin 256, 8 ≤ n.val → n.val < 125 → opCode (UInt8.ofNat n) = none → sentOp (UInt8.ofNat n) = some 0 := by
    decide +kernel
  have hs : sentOp o.op = some 0 := by
    simpa using this ⟨o.op.toNat, o.op.toNat_lt⟩ h h1 (by simpa using hc)
  have h0 : sentOp 0 = some 0 := by decide
  simp only [Op.write, hs, h0]

example : opCode 45 = none ∧ opCode 8 = none := by decide

/-! ### C78 -/

/-- C78 (partial: for `SafeTup` types; the failing cases are shown below). Decoding a response returns, whatever the
bytes are. -/
theorem C78_returns_partial (t : Ty) (hs : SafeTup t) (ht : Tagged t) (b : Bytes) :
    readRaw t ⟨b, none⟩ ≠ none ∧ readFirst t b ≠ none ∧ (Row t → readMany t b ≠ none) := by
  cases hf : tupR t with
  | none => exact absurd hf (tupR_ne t ht)
  | some f =>
    have key : ∀ r, Ret r (f r (zero t)) := fun r => tupR_safe t hs f hf r _ (hasTy_zero t)
    refine ⟨?_, ?_, ?_⟩
    · obtain ⟨r, v, h, _⟩ := key ⟨b, none⟩
      simp [readRaw, hf, h]
    · unfold readFirst
      by_cases c : 0 < (Rd.intUint32 ⟨b, none⟩).2.toInt
      · simp only [c, if_true]
        by_cases c1 : (Rd.intUint32 ⟨b, none⟩).1.intUint32.1.err = none
        · simp only [c1, if_true]
          obtain ⟨r1, b1, h1, _⟩ := slice_after (Rd.intUint32 ⟨b, none⟩).1.intUint32.1
            ((Rd.intUint32 ⟨b, none⟩).1.intUint32.2.toInt + 4) (by have := (count_after (Rd.intUint32 ⟨b, none⟩).1).2; omega)
          obtain ⟨r, v, h, _⟩ := key ⟨b1, none⟩
          simp [h1, readRaw, hf, h]
        · simp [c1]
      · simp [c]
    · intro hm
      obtain ⟨n, r, vs, h, _⟩ := many_any f (zero t) key (Rd.intUint32 ⟨b, none⟩).2.toInt.toNat (Rd.intUint32 ⟨b, none⟩).1 none
      simp only [readMany, manyOk_of t hm, hf, h, if_true]; simp

/-- `*struct { A uint32; B [4]uint8; C struct { X, Y int16 } }`. -/
def fixedTy : Ty := .ptr (.struct (.cons plain (.scal .u32) (.cons plain (.arr 4 (.scal .u8))
  (.cons plain (.struct (.cons plain (.scal .i16) (.cons plain (.scal .i16) .nil))) .nil))))

example : SafeTup fixedTy ∧ Tagged fixedTy ∧ Row fixedTy ∧ SafeTup (.sl (.scal .i64)) ∧
    (readRaw fixedTy ⟨[3, 0, 0, 0, 129, 255, 255, 255, 255, 255, 255, 255, 255, 127], none⟩).isSome := by
  refine ⟨?_, by simp [fixedTy, plain, Tagged, TaggedFl], trivial, ?_, by decide +kernel⟩
  · simp [fixedTy, plain, SafeTup, fixedFields, fixedField, codeR, codeRFl, dirSize, asSz, count?, width, Safe, SafeFl]
  · simp [SafeTup, fixedField, codeR, width]

/-- C78 is violated: a negative length (a BER number of ten bytes) panics in strings, byte slices and `ber` fields. -/
theorem C78_length_violated :
    let b : Bytes := [1, 0, 0, 0, 129, 255, 255, 255, 255, 255, 255, 255, 255, 127]
    readRaw .str ⟨b, none⟩ = none ∧ readRaw (.sl (.scal .u8)) ⟨b, none⟩ = none ∧
    readRaw (.struct (.cons (.use true .none) (.scal .u32) .nil)) ⟨b, none⟩ = none ∧
    (tupR rowTy).isSome ∧
    readMany rowTy ([1, 0, 0, 0, 15, 0, 0, 0] ++ [2, 0, 0, 0, 4, 0, 0, 0, 0, 129, 255, 255, 255, 255, 255, 255, 255, 255, 127]) = none := by
  decide +kernel

/-- C78 is violated: any tuple with more fields than an array has elements. -/
theorem C78_array_violated (n m : Nat) (k : Kind) (hk : k ≠ .u8) (hm : n < m) (hm' : m < 2 ^ 32) (b : Bytes) :
    (tupR (.arr n (.scal k))).isSome ∧ readRaw (.arr n (.scal k)) ⟨le 4 m ++ b, none⟩ = none := by
  have hc := count_read m hm' b
  have h8 : ¬ (Ty.scal k).kind? = some .u8 := by simpa [Ty.kind?] using hk
  constructor
  · simp [tupR, tr]
  · simp only [readRaw, tupR, tr, h8, if_false, arrayR, zero, hc.1, hc.2, List.length_replicate]
    rw [if_neg (by omega), if_neg (by omega)]

/-! ### C80 -/

/-- C80 (partial: without an error). As many elements as `ReadMany` makes, at least that many times eight bytes are
in the body. -/
theorem C80_partial (t : Ty) (b : Bytes) (read : Nat) (total : Int) (us : List Val)
    (h : readMany t b = some (read, total, none, us)) : 8 * us.length ≤ b.length := by
  by_cases hb : 4 ≤ b.length
  · obtain ⟨h1, h2, ts, extra, h3, h4, h5⟩ := C25_frames_partial t b hb read total us h
    have key : ∀ ts : List Bytes, (∀ u ∈ ts, Framed u) → 8 * ts.length ≤ ((ts.map framed).flatten).length := by
      intro ts
      induction ts with
      | nil => simp
      | cons a ts ih =>
        intro hf
        have := ih fun u hu => hf u (by simp [hu])
        have := (hf a (by simp)).1
        simp only [List.map_cons, List.flatten_cons, List.length_append, List.length_cons, framed, le4_length]
        omega
    have := key ts h5
    rw [h3, response]
    simp only [List.length_append, le4_length]
    omega
  · have := short_read b (by omega)
    simp only [readMany, this] at h
    split at h
    · cases hf : tupR t with
      | none => simp [hf] at h
      | some f => simp [hf, manyLoop] at h
    · simp at h

example : readMany (.scal .u8) (response [tupleBytes [[7]], tupleBytes [[9]]]) =
    some (2, 2, none, [.scal (.u8 7), .scal (.u8 9)]) := by decide +kernel

/-- C80 is violated: four bytes make `ReadMany` allocate any number of elements below `2^32`. -/
theorem C80_violated (n : Nat) (h0 : 0 < n) (hn : n < 2 ^ 32) (k : Kind) :
    readMany (.scal k) (le 4 n) = some (0, (n : Int), some .short, List.replicate n (zero (.scal k))) := by
  have hc := count_read n hn []
  rw [List.append_nil] at hc
  obtain ⟨m, rfl⟩ : ∃ m, n = m + 1 := ⟨n - 1, by omega⟩
  have h1 : oneTuple (fixedR (scalR k)) ⟨[], none⟩ none (zero (.scal k)) = some (⟨[], some .short⟩, none, zero (.scal k), true) := by
    simp [oneTuple, short_read, Rd.slice]
  simp only [readMany, manyOk, if_true, tupR, hc.1, hc.2, Int.toNat_natCast, List.replicate_succ, manyLoop, h1]

end Verif.Props
