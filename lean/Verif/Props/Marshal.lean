import Verif.Proofs.Reader

/-!
Properties C09-C17 and C21: the primitive codec of `marshal`.
-/
namespace Verif.Props
open Verif.Marshal Verif.Spec

/-! ### C09 -/

/-- C09. Every scalar write appends exactly the little-endian two's-complement/IEEE bytes of the value,
and the reader gets the value back from them, leaving exactly what followed. -/
theorem C09_scalar_roundtrip (w : Wr) (hw : w.Ok) (s : Scal) :
    ∃ w', w.scal s = some w' ∧ w'.Ok ∧ w'.pending = w.pending ++ le (width s.kind) (pattern s) ∧
      ∀ rest, Rd.scal ⟨le (width s.kind) (pattern s) ++ rest, none⟩ s.kind = (⟨rest, none⟩, s) := by
  obtain ⟨w', h, e⟩ := Wr.scal_spec w s hw
  exact ⟨w', h, e.ok, e.data, Rd.scal_bytes s⟩

example : ∃ w, (Wr.new 0).scal (.i16 (-2)) = some w ∧ w.pending = [0xfe, 0xff] ∧
    Rd.scal ⟨[0xfe, 0xff, 7], none⟩ .i16 = (⟨[7], none⟩, .i16 (-2)) :=
  ⟨_, rfl, by decide +kernel, by decide +kernel⟩

/-! ### C10 -/

/-- C10. BER integers round-trip for every 64-bit value; the encoding has 1 to 10 bytes and no base-128
string with the same value is shorter. -/
theorem C10_ber_roundtrip (w : Wr) (hw : w.Ok) (x : UInt64) :
    ∃ w' d, w.uvar x = some w' ∧ w'.Ok ∧ w'.pending = w.pending ++ d ∧
      (∀ rest, Rd.uvar ⟨d ++ rest, none⟩ = (⟨rest, none⟩, x)) ∧
      1 ≤ d.length ∧ d.length ≤ 10 ∧
      (∀ b n, berValue b 0 = some (x.toNat, n) → d.length ≤ n) := by
  obtain ⟨w', h, e⟩ := Wr.uvar_spec w x hw
  obtain ⟨k, h1, h2⟩ := exists_class x.toNat
  have hl : (ber x.toNat).length = k + 1 := by rw [ber_length, berLen_class _ _ h1 h2]
  refine ⟨w', _, h, e.ok, e.data, Rd.uvar_ber x, by omega, ?_, ?_⟩
  · rw [hl]
    have hx := x.toNat_lt
    rcases h2 with rfl | h2
    · omega
    · have : 128 ^ k < 2 ^ 64 := by omega
      have : (2 : Nat) ^ (7 * k) < 2 ^ 64 := by rw [Nat.pow_mul]; exact this
      have := (Nat.pow_lt_pow_iff_right (by decide : 1 < 2)).mp this
      omega
  · intro b n hb
    have := berValue_lt b 0 _ _ hb
    rw [hl]
    rcases h2 with rfl | h2
    · omega
    · have : 128 ^ k < 128 ^ n := by omega
      have := (Nat.pow_lt_pow_iff_right (by decide : 1 < 128)).mp this
      omega

/-- C10, the exact bytes: shortest base-128 form, most significant digit first. -/
theorem C10_ber_bytes (w : Wr) (hw : w.Ok) (x : UInt64) :
    ∃ w', w.uvar x = some w' ∧ w'.pending = w.pending ++ ber x.toNat := by
  obtain ⟨w', h, e⟩ := Wr.uvar_spec w x hw
  exact ⟨w', h, e.data⟩

example : ∃ w, (Wr.new 0).uvar 0xffffffffffffffff = some w ∧
    w.pending = [0x81, 0xff, 0xff, 0xff, 0xff, 0xff, 0xff, 0xff, 0xff, 0x7f] ∧
    Rd.uvar ⟨w.pending ++ [3], none⟩ = (⟨[3], none⟩, 0xffffffffffffffff) :=
  ⟨_, rfl, by decide +kernel, by decide +kernel⟩

/-! ### C11 -/

/-- C11. On any input: the exact base-128 value if it is terminated and fits 64 bits; "too big" if it is
terminated and does not fit; some error if there is no terminating byte. An error consumes nothing. -/
theorem C11_ber_never_wraps (b : Bytes) :
    (∀ v n, berValue b 0 = some (v, n) → v < 2 ^ 64 →
        ∃ x, Rd.uvar ⟨b, none⟩ = (⟨b.drop n, none⟩, x) ∧ x.toNat = v) ∧
    (∀ v n, berValue b 0 = some (v, n) → 2 ^ 64 ≤ v → (Rd.uvar ⟨b, none⟩).1 = ⟨b, some .tooBig⟩) ∧
    (berValue b 0 = none →
        (Rd.uvar ⟨b, none⟩).1 = ⟨b, some .short⟩ ∨ (Rd.uvar ⟨b, none⟩).1 = ⟨b, some .tooBig⟩) := by
  obtain ⟨h1, h2, h3⟩ := uvarLoop_cases b 0 (by decide)
  simp only [show (0 : UInt64).toNat = 0 from rfl] at h1 h2 h3
  unfold Rd.uvar
  rw [if_neg (by simp)]
  refine ⟨?_, ?_, ?_⟩
  · intro v n hv hlt
    rw [h1 v n hv hlt]
    exact ⟨_, rfl, by rw [UInt64.toNat_ofNat']; omega⟩
  · intro v n hv hge
    obtain ⟨r, hr⟩ := h2 v n hv hge
    rw [hr]
  · intro hn
    rcases h3 hn with ⟨r, hr⟩ | ⟨r, hr⟩
    · left; rw [hr]
    · right; rw [hr]

/-- C11, converse: success of the reader means the value is exact. -/
theorem C11_ber_success_exact (b : Bytes) (h : (Rd.uvar ⟨b, none⟩).1.err = none) :
    ∃ n, berValue b 0 = some ((Rd.uvar ⟨b, none⟩).2.toNat, n) ∧ (Rd.uvar ⟨b, none⟩).1.body = b.drop n := by
  obtain ⟨h1, h2, h3⟩ := C11_ber_never_wraps b
  rcases hb : berValue b 0 with _ | ⟨v, n⟩
  · rcases h3 hb with e | e <;> rw [e] at h <;> simp at h
  · by_cases hv : v < 2 ^ 64
    · obtain ⟨x, e, rfl⟩ := h1 v n hb hv
      exact ⟨n, by rw [e], by rw [e]⟩
    · rw [h2 v n hb (by omega)] at h; simp at h

-- a value one above the largest, and an unterminated string
example : berValue [0x82, 0x80, 0x80, 0x80, 0x80, 0x80, 0x80, 0x80, 0x80, 0x00] 0 = some (2 ^ 64, 10) ∧
    (Rd.uvar ⟨[0x82, 0x80, 0x80, 0x80, 0x80, 0x80, 0x80, 0x80, 0x80, 0x00], none⟩).1.err = some .tooBig ∧
    berValue [0x81, 0x80] 0 = none ∧ (Rd.uvar ⟨[0x81, 0x80], none⟩).1.err = some .short := by
  decide +kernel

/-! ### C12 -/

/-- Length in bytes of what `Uint64var` appends. -/
def berWritten (x : UInt64) : Option Nat := ((Wr.new 0).uvar x).map fun w => w.pending.length

theorem berWritten_eq (x : UInt64) : berWritten x = some (berLen x.toNat) := by
  obtain ⟨w', h, e⟩ := Wr.uvar_spec (Wr.new 0) x (Wr.ok_new 0)
  unfold berWritten
  rw [h]
  simp only [Option.map_some, e.data, List.length_append, ber_length]
  simp [Wr.pending, Wr.new, Mem.view, Slc.nil]

/-- C12 (partial): the predicted size equals the encoded size exactly for the values that are not of the form
`128^(j+1) + r` with `r < 128^j`; for those it is one too small. Missing: the code is wrong on that set. -/
theorem C12_ber_size_partial (x : UInt64) :
    (berWritten x = some (varu64size x) ↔ ¬ ∃ j, x.toNat / 128 ^ j = 128) ∧
    ((∃ j, x.toNat / 128 ^ j = 128) → berWritten x = some (varu64size x + 1)) := by
  have hx := x.toNat_lt
  have h := varSizeLoop_spec 10 x.toNat (by omega)
  rw [berWritten_eq]
  unfold varu64size
  refine ⟨⟨fun e hh => ?_, fun hh => ?_⟩, fun hh => ?_⟩
  · have := h.1 hh; simp only [Option.some.injEq] at e; omega
  · rw [h.2 hh]
  · rw [← h.1 hh]

/-- The same for `Varsize`, used on non-negative lengths. -/
theorem C12_varsize_partial (x : Int64) (h0 : 0 ≤ x.toInt) :
    (berWritten x.toUInt64 = some (varsize x) ↔ ¬ ∃ j, x.toUInt64.toNat / 128 ^ j = 128) := by
  have e : x.toInt.toNat = x.toUInt64.toNat := by
    rw [i64_pattern, Int.emod_eq_of_lt h0]
    have := x.toInt_lt; omega
  have := (C12_ber_size_partial x.toUInt64).1
  unfold varu64size at this
  unfold varsize
  rw [e]; exact this

/-- C12 is violated: the size predicted for 128 is one byte, two are written. -/
theorem C12_ber_size_violated : varu64size 128 = 1 ∧ berWritten 128 = some 2 ∧
    varsize 128 = 1 ∧ varu64size 16400 = 2 ∧ berWritten 16400 = some 3 := by decide +kernel

example : ¬ ∃ j, (300 : UInt64).toNat / 128 ^ j = 128 := by
  rintro ⟨j, hj⟩
  rcases j with _ | _ | j
  · simp at hj
  · simp at hj
  · rw [Nat.div_eq_of_lt] at hj
    · omega
    · have : 128 ^ 2 ≤ 128 ^ (j + 2) := Nat.pow_le_pow_right (by decide) (by omega)
      exact Nat.lt_of_lt_of_le (by decide) this

/-! ### C13 -/

/-- The zero result of a read: zero scalar, nil slice, untouched destination. -/
def zeroRes : ROp → RVal
  | .scal k => .scal k.zero
  | .uvar => .u64 0
  | .intvar | .intUint8 | .intUint16 | .intUint32 | .intUint64 => .int 0
  | .bytes d => .bytes d
  | .scalSl _ d => .list d
  | .slice _ => .bytes []
  | .tail => .bytes []

/-- C13. After an error every primitive read returns the zero value, consumes nothing and keeps the
first error. -/
theorem C13_sticky_error (r : Rd) (h : r.err ≠ none) (op : ROp) :
    op.run r = some (r, zeroRes op) := by
  cases op <;> simp [ROp.run, zeroRes, Rd.scal, Rd.uvar, Rd.intvar, Rd.intUint8, Rd.intUint16, Rd.intUint32,
    Rd.intUint64, Rd.bytes, Rd.scalSl, Rd.slice, Rd.tail, h, Kind.zero, Rd.Scal.nat] <;> rfl

/-- A history of reads. -/
def runReads (r : Rd) : List ROp → Option (Rd × List RVal)
  | [] => some (r, [])
  | o :: os => (o.run r).bind fun p => (runReads p.1 os).map fun q => (q.1, p.2 :: q.2)

/-- C13 over histories: whatever is called after the first error, the state stays as it is. -/
theorem C13_sticky_history (r : Rd) (h : r.err ≠ none) (ops : List ROp) :
    runReads r ops = some (r, ops.map zeroRes) := by
  induction ops with
  | nil => rfl
  | cons o os ih => simp [runReads, C13_sticky_error r h, ih]

example : runReads ⟨[1], none⟩ [.scal .u16, .scal .u8, .tail] =
    some (⟨[1], some .short⟩, [.scal (.u16 0), .scal (.u8 0), .bytes []]) := by decide +kernel

/-! ### C14 -/

/-- Number of bytes a read asks for (none: BER, which is self-delimiting). -/
def wants : ROp → Nat → Option Nat
  | .scal k, _ => some (width k)
  | .uvar, _ | .intvar, _ => none
  | .intUint8, _ => some 1
  | .intUint16, _ => some 2
  | .intUint32, _ => some 4
  | .intUint64, _ => some 8
  | .bytes d, _ => some d.length
  | .scalSl k d, _ => some (d.length * width k)
  | .slice sz, _ => if sz < 0 then none else some sz.toNat
  | .tail, l => some l

/-- C14. A primitive read of `n` bytes succeeds exactly when `n` bytes are left, consumes exactly those and
its value depends on those only; otherwise it records an error and consumes nothing. It never panics
(negative sizes for Slice/String excluded, see `C14_negative_slice_panics`). -/
theorem C14_reads_exact (b : Bytes) (op : ROp) (n : Nat) (hn : wants op b.length = some n) :
    (n ≤ b.length → ∃ v, op.run ⟨b, none⟩ = some (⟨b.drop n, none⟩, v) ∧
        ∀ rest, op ≠ .tail → op.run ⟨b.take n ++ rest, none⟩ = some (⟨rest, none⟩, v)) ∧
    (b.length < n → op.run ⟨b, none⟩ = some (⟨b, some .short⟩, zeroRes op)) := by
  have hdec : ∀ (k : Kind) (c rest : Bytes), width k ≤ c.length →
      Rd.decode (c.take (width k) ++ rest) k = Rd.decode c k := by
    intro k c rest hl
    rw [← decode_take, List.take_append_of_le_length (by simp; omega), List.take_take, Nat.min_self,
      decode_take]
  have hsc : ∀ (k : Kind) (rest : Bytes), width k ≤ b.length →
      Rd.scal ⟨b.take (width k) ++ rest, none⟩ k = (⟨rest, none⟩, Rd.decode b k) := by
    intro k rest hl
    rw [Rd.scal_ok _ _ rfl (by simp; omega), hdec k b rest hl]
    simp only
    rw [List.drop_append_of_le_length (by simp; omega), List.drop_eq_nil_of_le (by simp; omega), List.nil_append]
  cases op with
  | scal k =>
    simp only [wants, Option.some.injEq] at hn; subst hn
    refine ⟨fun h => ⟨.scal (Rd.decode b k), ?_, fun rest _ => ?_⟩, fun h => ?_⟩
    · simp only [ROp.run, Rd.scal_ok ⟨b, none⟩ k rfl h]
    · simp only [ROp.run, hsc k rest h]
    · simp only [ROp.run, Rd.scal_short ⟨b, none⟩ k rfl h, zeroRes]
  | uvar => simp [wants] at hn
  | intvar => simp [wants] at hn
  | intUint8 =>
    simp only [wants, Option.some.injEq] at hn; subst hn
    have e := fun rest => hsc .u8 rest
    simp only [width] at e
    refine ⟨fun h => ⟨.int (UInt64.ofNat (Rd.Scal.nat (Rd.decode b .u8))).toInt64, ?_, fun rest _ => ?_⟩, fun h => ?_⟩
    · simp only [ROp.run, Rd.intUint8, Rd.scal_ok ⟨b, none⟩ .u8 rfl h, width]
    · simp only [ROp.run, Rd.intUint8, e rest h]
    · simp only [ROp.run, Rd.intUint8, Rd.scal_short ⟨b, none⟩ .u8 rfl h, zeroRes]; rfl
  | intUint16 =>
    simp only [wants, Option.some.injEq] at hn; subst hn
    have e := fun rest => hsc .u16 rest
    simp only [width] at e
    refine ⟨fun h => ⟨.int (UInt64.ofNat (Rd.Scal.nat (Rd.decode b .u16))).toInt64, ?_, fun rest _ => ?_⟩, fun h => ?_⟩
    · simp only [ROp.run, Rd.intUint16, Rd.scal_ok ⟨b, none⟩ .u16 rfl h, width]
    · simp only [ROp.run, Rd.intUint16, e rest h]
    · simp only [ROp.run, Rd.intUint16, Rd.scal_short ⟨b, none⟩ .u16 rfl h, zeroRes]; rfl
  | intUint32 =>
    simp only [wants, Option.some.injEq] at hn; subst hn
    have e := fun rest => hsc .u32 rest
    simp only [width] at e
    refine ⟨fun h => ⟨.int (UInt64.ofNat (Rd.Scal.nat (Rd.decode b .u32))).toInt64, ?_, fun rest _ => ?_⟩, fun h => ?_⟩
    · simp only [ROp.run, Rd.intUint32, Rd.scal_ok ⟨b, none⟩ .u32 rfl h, width]
    · simp only [ROp.run, Rd.intUint32, e rest h]
    · simp only [ROp.run, Rd.intUint32, Rd.scal_short ⟨b, none⟩ .u32 rfl h, zeroRes]; rfl
  | intUint64 =>
    simp only [wants, Option.some.injEq] at hn; subst hn
    have e := fun rest => hsc .u64 rest
    simp only [width] at e
    refine ⟨fun h => ⟨.int (UInt64.ofNat (Rd.Scal.nat (Rd.decode b .u64))).toInt64, ?_, fun rest _ => ?_⟩, fun h => ?_⟩
    · simp only [ROp.run, Rd.intUint64, Rd.scal_ok ⟨b, none⟩ .u64 rfl h, width]
    · simp only [ROp.run, Rd.intUint64, e rest h]
    · simp only [ROp.run, Rd.intUint64, Rd.scal_short ⟨b, none⟩ .u64 rfl h, zeroRes]; rfl
  | bytes d =>
    simp only [wants, Option.some.injEq] at hn; subst hn
    refine ⟨fun h => ⟨.bytes (b.take d.length), ?_, fun rest _ => ?_⟩, fun h => ?_⟩
    · simp only [ROp.run, Rd.bytes]
      rw [if_neg (by simp), if_neg (by omega)]
    · simp only [ROp.run, Rd.bytes]
      rw [if_neg (by simp), if_neg (by simp; omega)]
      simp only
      rw [List.drop_append_of_le_length (by simp; omega), List.drop_eq_nil_of_le (by simp; omega), List.nil_append]
      rw [List.take_append_of_le_length (by simp; omega), List.take_take, Nat.min_self]
    · simp only [ROp.run, Rd.bytes, zeroRes]
      rw [if_neg (by simp), if_pos h]
  | scalSl k d =>
    simp only [wants, Option.some.injEq] at hn; subst hn
    have hel : ∀ (m j : Nat) (c c' : Bytes), (∀ i, i < j + m → c.drop (i * width k) = c'.drop (i * width k) ∨
        (c.drop (i * width k)).take (width k) = (c'.drop (i * width k)).take (width k)) →
        Rd.slElems c k j m = Rd.slElems c' k j m := by
      intro m
      induction m with
      | zero => intros; rfl
      | succ m ih =>
        intro j c c' hh
        simp only [Rd.slElems, slWidth_eq]
        rw [ih (j + 1) c c' (fun i hi => hh i (by omega))]
        congr 1
        rcases hh j (by omega) with e | e
        · rw [e]
        · rw [← decode_take, e, decode_take]
    refine ⟨fun h => ⟨.list (Rd.slElems b k 0 d.length), ?_, fun rest _ => ?_⟩, fun h => ?_⟩
    · simp only [ROp.run, Rd.scalSl, slWidth_eq]
      rw [if_neg (by simp), if_neg (by omega)]
    · simp only [ROp.run, Rd.scalSl, slWidth_eq]
      rw [if_neg (by simp), if_neg (by simp; omega)]
      simp only
      rw [List.drop_append_of_le_length (by simp; omega), List.drop_eq_nil_of_le (by simp; omega), List.nil_append]
      rw [hel d.length 0 _ b ?_]
      intro i hi
      right
      have h1 : (i + 1) * width k ≤ d.length * width k := Nat.mul_le_mul_right _ (by omega)
      rw [Nat.add_mul, Nat.one_mul] at h1
      rw [List.drop_append_of_le_length (by simp; omega), List.drop_take,
        List.take_append_of_le_length (by simp; omega), List.take_take, Nat.min_eq_left (by omega)]
    · simp only [ROp.run, Rd.scalSl, slWidth_eq, zeroRes]
      rw [if_neg (by simp), if_pos h]
  | slice sz =>
    simp only [wants] at hn
    split at hn
    · simp at hn
    · rename_i hsz
      simp only [Option.some.injEq] at hn
      refine ⟨fun h => ⟨.bytes (b.take n), ?_, fun rest _ => ?_⟩, fun h => ?_⟩
      · simp only [ROp.run, Rd.slice]
        rw [if_neg (by simp), if_neg (by omega), if_neg hsz, hn]; rfl
      · simp only [ROp.run, Rd.slice]
        rw [if_neg (by simp), if_neg (by simp; omega), if_neg hsz, hn]
        simp only [Option.map_some]
        rw [List.drop_append_of_le_length (by simp; omega), List.drop_eq_nil_of_le (by simp; omega), List.nil_append]
        rw [List.take_append_of_le_length (by simp; omega), List.take_take, Nat.min_self]
      · simp only [ROp.run, Rd.slice, zeroRes]
        rw [if_neg (by simp), if_pos (by omega)]; rfl
  | tail =>
    simp only [wants, Option.some.injEq] at hn; subst hn
    refine ⟨fun _ => ⟨.bytes b, ?_, fun rest h => absurd rfl h⟩, fun h => by omega⟩
    simp [ROp.run, Rd.tail]

/-- C14, the excluded case: a negative size for `Slice`/`String` panics. Such sizes come from an `i64` or
`ber` length prefix read from the network. -/
theorem C14_negative_slice_panics (b : Bytes) (sz : Int) (h : sz < 0) :
    (ROp.slice sz).run ⟨b, none⟩ = none := by
  simp only [ROp.run, Rd.slice]
  rw [if_neg (by simp), if_neg (by omega), if_pos h]; rfl

example : wants (.scalSl .u16 [.u16 0, .u16 0]) 5 = some 4 ∧
    (ROp.scalSl .u16 [.u16 0, .u16 0]).run ⟨[1, 0, 2, 0, 9], none⟩ =
      some (⟨[9], none⟩, .list [.u16 1, .u16 2]) := by decide +kernel

/-! ### C15, C16 -/

/-- The growth function gives enough room, and stays in the range of a 64-bit `int`. -/
theorem C15_ceilLog_bounds (n : Nat) :
    n ≤ Wr.ceilLog n ∧ (n ≤ 2 ^ 61 → Wr.ceilLog n ≤ 2 ^ 61) :=
  ⟨Wr.ceilLog_ge n, Wr.ceilLog_le n 59⟩

theorem run_step (w : Wr) (hw : w.Ok) (op : WOp) (ht : wellTyped op) :
    ∃ w' ss, op.run w = some (w', ss) ∧ w'.Ok ∧ w.Frame w' ∧ (∀ s ∈ ss, w'.Protected s) ∧
      (∀ s ∈ ss, s.cap = s.len) ∧
      (notF64sl op → ∀ os, wrun w.pending (op :: os) =
        ((wrun w'.pending os).1, ss.map w'.mem.view ++ (wrun w'.pending os).2)) := by
  cases op with
  | scal s =>
    obtain ⟨w', h, e⟩ := Wr.scal_spec w s hw
    exact ⟨w', [], by simp [WOp.run, h], e.ok, e.frame, by simp, by simp,
      fun _ os => by simp [wrun, e.data, opBytes]⟩
  | uvar x =>
    obtain ⟨w', h, e⟩ := Wr.uvar_spec w x hw
    exact ⟨w', [], by simp [WOp.run, h], e.ok, e.frame, by simp, by simp,
      fun _ os => by simp [wrun, e.data, opBytes]⟩
  | bytes b =>
    obtain ⟨w', h, e⟩ := Wr.bytes_spec w b hw
    exact ⟨w', [], by simp [WOp.run, h], e.ok, e.frame, by simp, by simp,
      fun _ os => by simp [wrun, e.data, opBytes]⟩
  | scalSl k xs =>
    by_cases hf : notF64sl (.scalSl k xs)
    · obtain ⟨w', h, e⟩ := Wr.scalSl_spec w k xs hw ht (by rintro rfl; exact hf)
      exact ⟨w', [], by simp [WOp.run, h], e.ok, e.frame, by simp, by simp,
        fun _ os => by simp [wrun, e.data, opBytes]⟩
    · obtain ⟨w', d, h, e⟩ := Wr.scalSl_any w k xs hw ht
      exact ⟨w', [], by simp [WOp.run, h], e.ok, e.frame, by simp, by simp, fun c => absurd c hf⟩
  | written =>
    obtain ⟨h1, h2, h3, h4, h5, h6⟩ := Wr.written_spec w hw
    exact ⟨_, _, rfl, h1, h5, by simpa using h4, by simpa using h6,
      fun _ os => by simp [wrun, h2, h3]⟩
  | reset =>
    obtain ⟨h1, h2, h3⟩ := Wr.reset_spec w hw
    exact ⟨_, _, rfl, h1, h3, by simp, by simp, fun _ os => by simp [wrun, h2]⟩

theorem run_all (w : Wr) (hw : w.Ok) (ops : List WOp) (ht : ∀ o ∈ ops, wellTyped o) :
    ∃ w' ss, WOp.runAll w ops = some (w', ss) ∧ w'.Ok ∧ w.Frame w' ∧ (∀ s ∈ ss, w'.Protected s) ∧
      (∀ s ∈ ss, s.cap = s.len) ∧
      ((∀ o ∈ ops, notF64sl o) → wrun w.pending ops = (w'.pending, ss.map w'.mem.view)) := by
  induction ops generalizing w with
  | nil => exact ⟨w, [], rfl, hw, Wr.Frame.refl w, by simp, by simp, fun _ => by simp [wrun]⟩
  | cons o os ih =>
    obtain ⟨w1, s1, h1, ok1, f1, p1, c1, e1⟩ := run_step w hw o (ht o (by simp))
    obtain ⟨w2, s2, h2, ok2, f2, p2, c2, e2⟩ := ih w1 ok1 (fun x hx => ht x (by simp [hx]))
    refine ⟨w2, s1 ++ s2, by simp [WOp.runAll, h1, h2], ok2, f1.trans f2, ?_, ?_, ?_⟩
    · intro s hs
      rcases List.mem_append.mp hs with hs | hs
      · exact (f2 s (p1 s hs)).1
      · exact p2 s hs
    · intro s hs
      rcases List.mem_append.mp hs with hs | hs
      · exact c1 s hs
      · exact c2 s hs
    · intro hn
      rw [e1 (hn o (by simp)) os, e2 (fun x hx => hn x (by simp [hx]))]
      simp only [List.map_append]
      congr 2
      apply List.map_congr_left
      intro s hs
      exact (f2 s (p1 s hs)).2.symm

/-- C15 (partial: `Float64sl` of two or more elements is excluded, see C17). For every `DefSize` and every
history of writes, `Written` and `Reset`, nothing panics and the slices returned by `Written` (looked at when
the whole history is over) contain exactly what the abstract writer says; so does the pending data. -/
theorem C15_writer_concat_partial (defSize : Int) (ops : List WOp) (ht : ∀ o ∈ ops, wellTyped o)
    (hn : ∀ o ∈ ops, notF64sl o) :
    ∃ w ss, WOp.runAll (Wr.new defSize) ops = some (w, ss) ∧
      (w.pending, ss.map w.mem.view) = wrun [] ops := by
  obtain ⟨w, ss, h, _, _, _, _, e⟩ := run_all (Wr.new defSize) (Wr.ok_new _) ops ht
  refine ⟨w, ss, h, ?_⟩
  have := e hn
  rw [← this]
  congr 1

/-- C15: growth never panics, for every history including the faulty `Float64sl`. -/
theorem C15_never_panics (defSize : Int) (ops : List WOp) (ht : ∀ o ∈ ops, wellTyped o) :
    ∃ w ss, WOp.runAll (Wr.new defSize) ops = some (w, ss) := by
  obtain ⟨w, ss, h, _⟩ := run_all (Wr.new defSize) (Wr.ok_new _) ops ht
  exact ⟨w, ss, h⟩

/-- C16. Whatever is done with a writer after a `Written` (any further history), the returned slice
keeps its contents; its capacity is its length, so appending to it cannot reach the writer's memory either. -/
theorem C16_written_stable (defSize : Int) (ops later : List WOp) (ht : ∀ o ∈ ops ++ later, wellTyped o) :
    ∃ w ss w' ss', WOp.runAll (Wr.new defSize) ops = some (w, ss) ∧ WOp.runAll w later = some (w', ss') ∧
      ∀ s ∈ ss, w'.mem.view s = w.mem.view s ∧ s.cap = s.len := by
  obtain ⟨w, ss, h, ok, _, p, c, _⟩ := run_all (Wr.new defSize) (Wr.ok_new _) ops
    (fun o ho => ht o (by simp [ho]))
  obtain ⟨w', ss', h', _, f, _⟩ := run_all w ok later (fun o ho => ht o (by simp [ho]))
  exact ⟨w, ss, w', ss', h, h', fun s hs => ⟨(f s (p s hs)).2, c s hs⟩⟩

-- two bodies from one array, with a write after a Reset in between
example : (WOp.runAll (Wr.new 8) [.bytes [1, 2], .written, .bytes [9, 9, 9], .reset, .scal (.u16 3), .written,
      .bytes [4, 5, 6, 7, 8]]).map (fun p => (p.2.map p.1.mem.view, p.1.pending)) =
    some ([[1, 2], [3, 0]], [4, 5, 6, 7, 8]) := by decide +kernel

/-! ### C17 -/

/-- C17 (partial: `Float64sl` writes element `j` at byte `4*j`, so it is right only up to one element).
Writing a slice of any scalar type and reading back the same number of elements gives the same elements and
consumes exactly the bytes written. -/
theorem C17_slices_roundtrip_partial (w : Wr) (hw : w.Ok) (k : Kind) (xs dst : List Scal)
    (hk : ∀ x ∈ xs, x.kind = k) (hd : dst.length = xs.length) (hf : k = .f64 → xs.length ≤ 1) :
    ∃ w' d, w.scalSl k xs = some w' ∧ w'.Ok ∧ w'.pending = w.pending ++ d ∧
      d.length = xs.length * width k ∧
      ∀ rest, Rd.scalSl ⟨d ++ rest, none⟩ k dst = (⟨rest, none⟩, xs) := by
  obtain ⟨w', h, e⟩ := Wr.scalSl_spec w k xs hw hk hf
  exact ⟨w', _, h, e.ok, e.data, Wr.flatten_len k xs hk, fun rest => Rd.scalSl_bytes k xs dst rest hk hd⟩

/-- Byte strings, strings and `[]uint8`. -/
theorem C17_bytes_roundtrip (w : Wr) (hw : w.Ok) (b dst : Bytes) (hd : dst.length = b.length) :
    ∃ w', w.bytes b = some w' ∧ w'.Ok ∧ w'.pending = w.pending ++ b ∧
      ∀ rest, Rd.bytes ⟨b ++ rest, none⟩ dst = (⟨rest, none⟩, b) ∧
        Rd.slice ⟨b ++ rest, none⟩ b.length = some (⟨rest, none⟩, b) := by
  obtain ⟨w', h, e⟩ := Wr.bytes_spec w b hw
  refine ⟨w', h, e.ok, e.data, fun rest => ⟨?_, ?_⟩⟩
  · unfold Rd.bytes
    rw [if_neg (by simp), if_neg (by simp; omega), hd]; simp
  · unfold Rd.slice
    rw [if_neg (by simp), if_neg (by simp; omega), if_neg (by omega)]; simp

/-- C17 is violated by `Float64sl`: two elements do not come back. -/
theorem C17_float64sl_violated :
    ∃ w, (Wr.new 0).scalSl .f64 [.f64 0x0102030405060708, .f64 0x1112131415161718] = some w ∧
      w.pending = [8, 7, 6, 5, 0x18, 0x17, 0x16, 0x15, 0x14, 0x13, 0x12, 0x11, 0, 0, 0, 0] ∧
      (Rd.scalSl ⟨w.pending, none⟩ .f64 [.f64 0, .f64 0]).2 ≠
        [.f64 0x0102030405060708, .f64 0x1112131415161718] :=
  ⟨_, rfl, by decide +kernel, by decide +kernel⟩

/-- C17: after `Reset`, `Float64sl` even sends stale bytes of an earlier message. -/
theorem C17_float64sl_leaks :
    (WOp.runAll (Wr.new 0) [.bytes (List.replicate 16 0x53), .reset, .scalSl .f64 [.f64 0, .f64 0]]).map
      (fun p => p.1.pending) = some ([0, 0, 0, 0, 0, 0, 0, 0, 0, 0, 0, 0, 0x53, 0x53, 0x53, 0x53]) := by
  decide +kernel

example : ∃ w, (Wr.new 0).scalSl .i16 [.i16 (-1), .i16 300] = some w ∧
    Rd.scalSl ⟨w.pending ++ [7], none⟩ .i16 [.i16 0, .i16 0] = (⟨[7], none⟩, [.i16 (-1), .i16 300]) :=
  ⟨_, rfl, by decide +kernel⟩

/-! ### C21 -/

theorem scal_pfx (w : Wr) (hw : w.Ok) (s : Scal) (m : Nat) (hs : Rd.Scal.nat s = m) :
    ∃ w' d, w.scal s = some w' ∧ w'.Ok ∧ w'.pending = w.pending ++ d ∧
      ∀ rest, Rd.scal ⟨d ++ rest, none⟩ s.kind = (⟨rest, none⟩, s) ∧ Rd.Scal.nat s = m := by
  obtain ⟨w', h, e⟩ := Wr.scal_spec w s hw
  exact ⟨w', _, h, e.ok, e.data, fun rest => ⟨Rd.scal_bytes s rest, hs⟩⟩

/-- C21 (partial: prefix kind `i64` is excluded, its writer emits four bytes and its reader takes eight).
A length written with any other prefix kind is read back, for every length the prefix can represent. -/
theorem C21_length_prefix_partial (w : Wr) (hw : w.Ok) (p : Pfx) (hp : p ≠ .i64) (n : Nat) (hn : fits p n) :
    ∃ w' d, p.write w (Int64.ofNat n) = some w' ∧ w'.Ok ∧ w'.pending = w.pending ++ d ∧
      ∀ rest, p.read ⟨d ++ rest, none⟩ = (⟨rest, none⟩, Int64.ofNat n) := by
  cases p with
  | ber =>
    obtain ⟨w', h, e⟩ := Wr.uvar_spec w (Int64.ofNat n).toUInt64 hw
    refine ⟨w', _, h, e.ok, e.data, fun rest => ?_⟩
    simp only [Pfx.read, Rd.intvar, Rd.uvar_ber]
    rfl
  | i8 =>
    have hn' : n < 2 ^ 8 := hn
    obtain ⟨w', d, h, ok, dd, hr⟩ := scal_pfx w hw (.u8 (Int64.ofNat n).toUInt64.toUInt8) n (by
      show (UInt64.ofNat n).toUInt8.toNat = n
      simp; omega)
    refine ⟨w', d, h, ok, dd, fun rest => ?_⟩
    have e := hr rest
    simp only [Scal.kind] at e
    simp only [Pfx.read, Rd.intUint8, e.1, e.2]; rfl
  | i16 =>
    have hn' : n < 2 ^ 16 := hn
    obtain ⟨w', d, h, ok, dd, hr⟩ := scal_pfx w hw (.u16 (Int64.ofNat n).toUInt64.toUInt16) n (by
      show (UInt64.ofNat n).toUInt16.toNat = n
      simp; omega)
    refine ⟨w', d, h, ok, dd, fun rest => ?_⟩
    have e := hr rest
    simp only [Scal.kind] at e
    simp only [Pfx.read, Rd.intUint16, e.1, e.2]; rfl
  | i32 =>
    have hn' : n < 2 ^ 32 := hn
    obtain ⟨w', d, h, ok, dd, hr⟩ := scal_pfx w hw (.u32 (Int64.ofNat n).toUInt64.toUInt32) n (by
      show (UInt64.ofNat n).toUInt32.toNat = n
      simp; omega)
    refine ⟨w', d, h, ok, dd, fun rest => ?_⟩
    have e := hr rest
    simp only [Scal.kind] at e
    simp only [Pfx.read, Rd.intUint32, e.1, e.2]; rfl
  | i64 => exact absurd rfl hp

/-- C21 is violated for `i64`: the prefix of length 3 followed by three bytes is read as a different length. -/
theorem C21_i64_violated :
    ∃ w, Pfx.i64.write (Wr.new 0) 3 = some w ∧ w.pending = [3, 0, 0, 0] ∧
      Pfx.i64.read ⟨w.pending ++ [7, 8, 9], none⟩ = (⟨[3, 0, 0, 0, 7, 8, 9], some .short⟩, 0) ∧
      Pfx.i64.read ⟨w.pending ++ [7, 8, 9, 10], none⟩ = (⟨[], none⟩, 0x0a09080700000003) :=
  ⟨_, rfl, by decide +kernel, by decide +kernel, by decide +kernel⟩

example : fits Pfx.i16 65535 ∧ ∃ w, Pfx.i16.write (Wr.new 0) 65535 = some w ∧
    Pfx.i16.read ⟨w.pending, none⟩ = (⟨[], none⟩, 65535) :=
  ⟨by unfold fits; omega, _, rfl, by decide +kernel⟩

end Verif.Props
