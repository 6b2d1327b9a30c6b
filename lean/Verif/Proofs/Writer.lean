import Verif.Model.Marshal
import Verif.Spec.Codec
import Verif.Proofs.Mem

namespace Verif

namespace Mem

/-- A store inside the range of a slice overwrites the slice's contents. -/
theorem view_store_inside (m : Mem) (s : Slc) (pos : Nat) (d : Bytes) (hw : m.Wf s)
    (h : pos + d.length ≤ s.len) :
    (m.store s.blk (s.off + pos) d).view s = overwrite (m.view s) pos d := by
  obtain ⟨h1, h2⟩ := hw
  unfold view
  rw [block_store]
  by_cases hb : s.blk < m.blocks.length
  · simp only [hb, and_self, if_true]
    generalize m.block s.blk = B at h2
    unfold overwrite
    apply List.ext_getElem?
    intro i
    simp only [List.getElem?_take, List.getElem?_drop, List.getElem?_append, List.length_append,
      List.length_take, List.length_drop]
    grind
  · have : m.block s.blk = [] := by
      simp [block, List.getElem?_eq_none (by omega : m.blocks.length ≤ s.blk)]
    simp [hb, this] at h2 ⊢
    have : d = [] := List.length_eq_zero_iff.mp (by omega)
    simp [this, overwrite]

theorem Wf_store (m : Mem) (b pos : Nat) (d : Bytes) (s : Slc)
    (h : pos + d.length ≤ (m.block b).length) (hw : m.Wf s) : (m.store b pos d).Wf s := by
  unfold Wf at *
  rw [block_len_store _ _ _ _ _ h]; exact hw

end Mem

namespace Marshal
open Verif.Spec

/-- Apply relative stores to an array value. -/
def applyStores : Bytes → List (Nat × Bytes) → Bytes
  | B, [] => B
  | B, (p, d) :: r => applyStores (overwrite B p d) r

namespace Wr

def Ok (w : Wr) : Prop := w.mem.Wf w.buf

/-- A slice that the writer can no longer write into. -/
def Protected (w : Wr) (s : Slc) : Prop :=
  s.len = 0 ∨ (s.blk < w.mem.blocks.length ∧ (s.blk ≠ w.buf.blk ∨ s.off + s.len ≤ w.buf.off))

/-- `w'` is reached from `w` without touching protected slices. -/
def Frame (w w' : Wr) : Prop :=
  ∀ s, Protected w s → Protected w' s ∧ w'.mem.view s = w.mem.view s

/-- The bytes collected so far. -/
def pending (w : Wr) : Bytes := w.mem.view w.buf

/-- `w'` is `w` with `d` appended. -/
structure Ext (w w' : Wr) (d : Bytes) : Prop where
  ok : Ok w'
  data : w'.pending = w.pending ++ d
  frame : Frame w w'

theorem Frame.refl (w : Wr) : Frame w w := fun _ h => ⟨h, rfl⟩
theorem Frame.trans {a b c : Wr} (h1 : Frame a b) (h2 : Frame b c) : Frame a c := by
  intro s hs
  obtain ⟨p1, v1⟩ := h1 s hs
  obtain ⟨p2, v2⟩ := h2 s p1
  exact ⟨p2, v2.trans v1⟩

theorem or_ge_left (a b : Nat) : a ≤ a ||| b := Nat.left_le_or

theorem ceilLog_ge (n : Nat) : n ≤ ceilLog n := by
  unfold ceilLog
  simp only [Nat.shiftLeft_eq]
  generalize hm : (if n > 0 then (n - 1) >>> 2 else n) = m
  have h0 : n ≤ (m + 1) * 4 := by
    subst hm
    split
    · rw [Nat.shiftRight_eq_div_pow]; omega
    · omega
  have h1 := or_ge_left m (m >>> 3)
  generalize m ||| m >>> 3 = m1 at *
  have h2 := or_ge_left m1 (m1 >>> 2)
  generalize m1 ||| m1 >>> 2 = m2 at *
  have h3 := or_ge_left m2 (m2 >>> 4)
  generalize m2 ||| m2 >>> 4 = m3 at *
  have h4 := or_ge_left m3 (m3 >>> 8)
  generalize m3 ||| m3 >>> 8 = m4 at *
  have h5 := or_ge_left m4 (m4 >>> 16)
  omega

theorem or_shift_lt (m k j : Nat) (h : m < 2 ^ k) : m ||| (m >>> j) < 2 ^ k := by
  apply Nat.or_lt_two_pow h
  rw [Nat.shiftRight_eq_div_pow]
  exact Nat.lt_of_le_of_lt (Nat.div_le_self _ _) h

theorem ceilLog_le (n k : Nat) (h : n ≤ 2 ^ (k + 2)) : ceilLog n ≤ 2 ^ (k + 2) := by
  unfold ceilLog
  simp only [Nat.shiftLeft_eq]
  have hk : 2 ^ (k + 2) = 4 * 2 ^ k := by rw [Nat.pow_add]; omega
  have hpos : 0 < 2 ^ k := Nat.two_pow_pos k
  generalize hm : (if n > 0 then (n - 1) >>> 2 else n) = m
  have h0 : m < 2 ^ k := by
    subst hm
    split
    · rw [Nat.shiftRight_eq_div_pow]; omega
    · omega
  have h5 := or_shift_lt _ k 16 (or_shift_lt _ k 8 (or_shift_lt _ k 4 (or_shift_lt _ k 2 (or_shift_lt _ k 3 h0))))
  omega

theorem make_view (m : Mem) (d : Bytes) (c : Nat) :
    ((m.make d.length c).1.store m.blocks.length 0 d).view ⟨m.blocks.length, 0, d.length, c⟩ = d := by
  unfold Mem.view
  rw [Mem.block_store, Mem.block_make_new]
  have : (m.make d.length c).1.blocks.length = m.blocks.length + 1 := by simp [Mem.make]
  simp only [this, Nat.lt_add_one, and_self, if_true]
  unfold overwrite
  simp

theorem grow_spec (w : Wr) (n : Nat) (h : Ok w) :
    ∃ w', w.grow n = some w' ∧ Ok w' ∧ w'.pending = w.pending ∧ w'.buf.len = w.buf.len ∧
      w.buf.len + n ≤ w'.buf.cap ∧ Frame w w' := by
  unfold grow
  have hlen : (w.mem.view w.buf).length = w.buf.len := Mem.view_length _ _ h
  by_cases hc : w.buf.cap - w.buf.len < n
  · rw [if_pos hc]
    simp only
    generalize hd : (if w.defSize = 0 then 512 else w.defSize) = d
    generalize hcap : (if ((w.buf.len + n : Nat) : Int) ≤ d then d.toNat else ceilLog (w.buf.len + n)) = c
    have hge : w.buf.len + n ≤ c := by
      subst hcap
      split
      · omega
      · exact ceilLog_ge _
    rw [if_neg (by omega)]
    refine ⟨_, rfl, ?_, ?_, rfl, by simpa [Mem.make] using hge, ?_⟩
    · apply Mem.Wf_store
      · rw [show ((w.mem.make w.buf.len c).2).blk = w.mem.blocks.length from rfl, Mem.block_make_new]
        simp [hlen]; omega
      · refine ⟨by simp [Mem.make]; omega, ?_⟩
        rw [show ((w.mem.make w.buf.len c).2).blk = w.mem.blocks.length from rfl, Mem.block_make_new]
        simp [Mem.make]
    · unfold pending
      have := make_view w.mem (w.mem.view w.buf) c
      rw [hlen] at this
      exact this
    · intro s hs
      rcases hs with hs | ⟨hb, _⟩
      · exact ⟨Or.inl hs, by rw [Mem.view_len_zero _ _ hs, Mem.view_len_zero _ _ hs]⟩
      · have hne : s.blk ≠ w.mem.blocks.length := by omega
        refine ⟨Or.inr ⟨?_, Or.inl hne⟩, ?_⟩
        · simp [Mem.make]; omega
        · show ((w.mem.make w.buf.len c).1.store w.mem.blocks.length 0 (w.mem.view w.buf)).view s = _
          rw [Mem.view_store_frame _ _ _ _ _ (Nat.zero_le _) (Or.inl hne), Mem.view_make_frame _ _ _ _ hb]
  · rw [if_neg hc]
    exact ⟨w, rfl, h, rfl, rfl, by have := h.1; omega, Frame.refl w⟩

theorem ensure_spec (w : Wr) (n : Nat) (h : Ok w) :
    ∃ w' stale, w.ensure n = some (w', w.buf.len) ∧ Ok w' ∧ stale.length = n ∧
      w'.buf.len = w.buf.len + n ∧ w'.pending = w.pending ++ stale ∧ Frame w w' := by
  obtain ⟨w1, h1, hok, hp, hl, hcap, hf⟩ := grow_spec w n h
  refine ⟨{ w1 with buf := w1.buf.upto (w.buf.len + n) },
    (w1.mem.view (w1.buf.upto (w.buf.len + n))).drop w.buf.len, ?_, ?_, ?_, rfl, ?_, ?_⟩
  · simp [ensure, h1, hcap]
  · exact ⟨hcap, hok.2⟩
  · have hw : w1.mem.Wf (w1.buf.upto (w.buf.len + n)) := ⟨hcap, hok.2⟩
    rw [List.length_drop, Mem.view_length _ _ hw]; simp [Slc.upto]
  · have e : w.pending = (w1.mem.view (w1.buf.upto (w.buf.len + n))).take w.buf.len := by
      rw [← hp]; unfold pending Mem.view Slc.upto
      simp only
      rw [List.take_take, hl, Nat.min_eq_left (by omega)]
    rw [e, List.take_append_drop]; rfl
  · exact fun s hs => hf s hs

theorem overwrite_append (A B : Bytes) (p : Nat) (d : Bytes) :
    overwrite (A ++ B) (A.length + p) d = A ++ overwrite B p d := by
  unfold overwrite
  rw [List.take_length_add_append, Nat.add_assoc, List.drop_length_add_append]
  simp

theorem stores_spec (st : List (Nat × Bytes)) (w : Wr) (A B : Bytes) (h : Ok w)
    (hp : w.pending = A ++ B) (hst : ∀ x ∈ st, x.1 + x.2.length ≤ B.length) :
    ∃ w', stores A.length st w = some w' ∧ Ok w' ∧ w'.pending = A ++ applyStores B st ∧ Frame w w' := by
  induction st generalizing w B with
  | nil => exact ⟨w, rfl, h, hp, Frame.refl w⟩
  | cons x st ih =>
    obtain ⟨p, d⟩ := x
    have hpd : p + d.length ≤ B.length := hst (p, d) (by simp)
    have hlen : w.buf.len = A.length + B.length := by
      rw [← Mem.view_length _ _ h, show w.mem.view w.buf = A ++ B from hp, List.length_append]
    have hin : A.length + p + d.length ≤ w.buf.len := by omega
    have hblk : w.buf.off + (A.length + p) + d.length ≤ (w.mem.block w.buf.blk).length := by
      have := h.1; have := h.2; omega
    have hnew : ({ w with mem := w.mem.store w.buf.blk (w.buf.off + (A.length + p)) d } : Wr).pending
        = A ++ overwrite B p d := by
      unfold pending
      simp only
      rw [Mem.view_store_inside _ _ _ _ h hin, show w.mem.view w.buf = A ++ B from hp,
        overwrite_append _ _ _ _]
    obtain ⟨w', h1, h2, h3, h4⟩ := ih { w with mem := w.mem.store w.buf.blk (w.buf.off + (A.length + p)) d }
      (overwrite B p d) (Mem.Wf_store _ _ _ _ _ hblk h) hnew (by
        intro y hy; rw [overwrite_length _ _ _ hpd]; exact hst y (by simp [hy]))
    refine ⟨w', ?_, h2, h3, Frame.trans ?_ h4⟩
    · simp only [stores, storeAt, if_pos hin]; exact h1
    · intro s hs
      refine ⟨?_, ?_⟩
      · rcases hs with hs | hs
        · exact Or.inl hs
        · exact Or.inr (by simpa using hs)
      · rcases hs with hs | ⟨hb, hs⟩
        · rw [Mem.view_len_zero _ _ hs, Mem.view_len_zero _ _ hs]
        · apply Mem.view_store_frame
          · omega
          · rcases hs with hs | hs
            · exact Or.inl hs
            · right; omega

theorem put_spec (w : Wr) (n : Nat) (st : List (Nat × Bytes)) (h : Ok w)
    (hst : ∀ x ∈ st, x.1 + x.2.length ≤ n) :
    ∃ w' stale, w.put n st = some w' ∧ stale.length = n ∧ Ext w w' (applyStores stale st) := by
  obtain ⟨w1, stale, h1, h2, h3, h4, h5, h6⟩ := ensure_spec w n h
  obtain ⟨w2, g1, g2, g3, g4⟩ := stores_spec st w1 w.pending stale h2 h5 (by rw [h3]; exact hst)
  refine ⟨w2, stale, ?_, h3, g2, g3, h6.trans g4⟩
  have : w.pending.length = w.buf.len := Mem.view_length _ _ h
  rw [this] at g1
  simp [put, h1, g1]

/-- When the stores determine all bytes, the result does not depend on stale memory. -/
theorem put_det (w : Wr) (n : Nat) (st : List (Nat × Bytes)) (d : Bytes) (h : Ok w)
    (hst : ∀ x ∈ st, x.1 + x.2.length ≤ n)
    (hd : ∀ stale : Bytes, stale.length = n → applyStores stale st = d) :
    ∃ w', w.put n st = some w' ∧ Ext w w' d := by
  obtain ⟨w', stale, h1, h2, h3⟩ := put_spec w n st h hst
  exact ⟨w', h1, hd stale h2 ▸ h3⟩

theorem put_one (w : Wr) (d : Bytes) (h : Ok w) :
    ∃ w', w.put d.length [(0, d)] = some w' ∧ Ext w w' d := by
  apply put_det w _ _ d h
  · simp
  · intro st hl
    simp [applyStores, overwrite, ← hl]

theorem ok_new (d : Int) : Ok (new d) := by
  simp [Ok, new, Mem.Wf, Slc.nil]

theorem written_spec (w : Wr) (h : Ok w) :
    Ok w.written.1 ∧ w.written.1.pending = [] ∧ w.written.1.mem.view w.written.2 = w.pending ∧
    Protected w.written.1 w.written.2 ∧ Frame w w.written.1 ∧ w.written.2.cap = w.written.2.len := by
  obtain ⟨h1, h2⟩ := h
  refine ⟨⟨?_, ?_⟩, ?_, ?_, ?_, ?_, ?_⟩
  · simp [written, Slc.from']
  · simp [written, Slc.from']; omega
  · simp [pending, written, Slc.from', Mem.view]
  · simp [pending, written, Slc.range3, Mem.view]
  · by_cases hl : w.buf.len = 0
    · left; simp [written, Slc.range3, hl]
    · right
      refine ⟨?_, ?_⟩
      · simp only [written, Slc.range3]
        rcases Nat.lt_or_ge w.buf.blk w.mem.blocks.length with hb | hb
        · exact hb
        · simp [Mem.block, List.getElem?_eq_none hb] at h2; omega
      · right; simp [written, Slc.range3, Slc.from']
  · intro s hs
    refine ⟨?_, rfl⟩
    rcases hs with hs | ⟨hb, hs⟩
    · exact Or.inl hs
    · refine Or.inr ⟨hb, ?_⟩
      rcases hs with hs | hs
      · exact Or.inl hs
      · right; simp only [written, Slc.from']; omega
  · simp [written, Slc.range3]

theorem reset_spec (w : Wr) (h : Ok w) :
    Ok w.reset ∧ w.reset.pending = [] ∧ Frame w w.reset := by
  refine ⟨⟨by simp [reset, Slc.upto], h.2⟩, by simp [pending, reset, Slc.upto, Mem.view], ?_⟩
  intro s hs
  exact ⟨hs, rfl⟩

end Wr

/-! ### encodings -/

theorem putLE_eq_le (w n : Nat) : putLE w n = le w n := by
  induction w generalizing n with
  | zero => rfl
  | succ w ih =>
    simp only [putLE, le, List.range_succ_eq_map, List.map_cons, List.map_map]
    rw [ih]
    simp only [Nat.pow_zero, Nat.div_one, le]
    congr 1
    apply List.map_congr_left
    intro k _
    simp only [Function.comp, Nat.pow_succ', Nat.div_div_eq_div_mul]

theorem i8_pattern (x : Int8) : x.toUInt8.toNat = (x.toInt % 2 ^ 8).toNat := by
  show x.toBitVec.toNat = (x.toBitVec.toInt % _).toNat
  rw [BitVec.toInt_eq_toNat_bmod]
  have := x.toBitVec.isLt
  simp only [Int.bmod]
  split <;> omega

theorem i16_pattern (x : Int16) : x.toUInt16.toNat = (x.toInt % 2 ^ 16).toNat := by
  show x.toBitVec.toNat = (x.toBitVec.toInt % _).toNat
  rw [BitVec.toInt_eq_toNat_bmod]
  have := x.toBitVec.isLt
  simp only [Int.bmod]
  split <;> omega

theorem i32_pattern (x : Int32) : x.toUInt32.toNat = (x.toInt % 2 ^ 32).toNat := by
  show x.toBitVec.toNat = (x.toBitVec.toInt % _).toNat
  rw [BitVec.toInt_eq_toNat_bmod]
  have := x.toBitVec.isLt
  simp only [Int.bmod]
  split <;> omega

theorem i64_pattern (x : Int64) : x.toUInt64.toNat = (x.toInt % 2 ^ 64).toNat := by
  show x.toBitVec.toNat = (x.toBitVec.toInt % _).toNat
  rw [BitVec.toInt_eq_toNat_bmod]
  have := x.toBitVec.isLt
  simp only [Int.bmod]
  split <;> omega

theorem one_eq_le (x : UInt8) : [x] = le 1 x.toNat := by
  rw [← putLE_eq_le]; exact (putU8_eq x).symm

theorem elemBytes_eq (s : Scal) : Wr.elemBytes s = scalBytes s := by
  cases s <;> simp only [Wr.elemBytes, scalBytes, width, pattern, Scal.kind, one_eq_le, putU16, putU32, putU64,
    putLE_eq_le, i8_pattern, i16_pattern, i32_pattern, i64_pattern]

theorem le_length (w n : Nat) : (le w n).length = w := by simp [le]

@[simp] theorem scalBytes_length (s : Scal) : (scalBytes s).length = width s.kind := by
  simp [scalBytes, le]

namespace Wr

theorem scal_eq (w : Wr) (s : Scal) : w.scal s = w.put (elemBytes s).length [(0, elemBytes s)] := by
  cases s <;> simp [scal, elemBytes]

theorem scal_spec (w : Wr) (s : Scal) (h : Ok w) :
    ∃ w', w.scal s = some w' ∧ Ext w w' (scalBytes s) := by
  rw [scal_eq, elemBytes_eq]; exact put_one w _ h

theorem bytes_spec (w : Wr) (b : Bytes) (h : Ok w) :
    ∃ w', w.bytes b = some w' ∧ Ext w w' b := put_one w b h

theorem slStores_fit (k : Kind) (xs : List Scal) (j : Nat) (hk : ∀ x ∈ xs, x.kind = k) :
    ∀ x ∈ slStores k j xs, x.1 + x.2.length ≤ (j + xs.length) * slWidth k := by
  induction xs generalizing j with
  | nil => simp [slStores]
  | cons x xs ih =>
    intro y hy
    simp only [slStores, List.mem_cons] at hy
    rcases hy with rfl | hy
    · have hx : x.kind = k := hk x (by simp)
      have hl : (elemBytes x).length = slWidth k := by
        rw [elemBytes_eq, scalBytes_length, hx]; cases k <;> rfl
      simp only [hl]
      have : slStride k ≤ slWidth k := by cases k <;> decide
      have h1 : j * slStride k ≤ j * slWidth k := Nat.mul_le_mul_left _ this
      have h2 : (j + (xs.length + 1)) * slWidth k = j * slWidth k + xs.length * slWidth k + slWidth k := by
        rw [Nat.add_mul, Nat.add_mul]; omega
      rw [List.length_cons, h2]; omega
    · have := ih (j + 1) (fun z hz => hk z (by simp [hz])) y hy
      simp only [List.length_cons]
      rw [show j + (xs.length + 1) = j + 1 + xs.length by omega]; exact this

theorem flatten_len (k : Kind) (xs : List Scal) (hk : ∀ x ∈ xs, x.kind = k) :
    ((xs.map scalBytes).flatten).length = xs.length * width k := by
  induction xs with
  | nil => simp
  | cons x xs ih =>
    simp only [List.map_cons, List.flatten_cons, List.length_append, scalBytes_length,
      ih (fun z hz => hk z (by simp [hz])), hk x (by simp), List.length_cons, Nat.add_mul]
    omega

theorem slStores_apply (k : Kind) (xs : List Scal) (j : Nat) (B : Bytes) (hk : ∀ x ∈ xs, x.kind = k)
    (hs : slStride k = width k) (hB : (j + xs.length) * width k ≤ B.length) :
    applyStores B (slStores k j xs) =
      B.take (j * width k) ++ (xs.map scalBytes).flatten ++ B.drop ((j + xs.length) * width k) := by
  induction xs generalizing j B with
  | nil => simp [slStores, applyStores]
  | cons x xs ih =>
    have hx : x.kind = k := hk x (by simp)
    have hl : (scalBytes x).length = width k := by rw [scalBytes_length, hx]
    have e1 : (j + (xs.length + 1)) * width k = j * width k + width k + xs.length * width k := by
      rw [Nat.add_mul, Nat.add_mul]; omega
    have e2 : (j + 1 + xs.length) * width k = j * width k + width k + xs.length * width k := by
      rw [Nat.add_mul, Nat.add_mul]; omega
    have e3 : (j + 1) * width k = j * width k + width k := by rw [Nat.add_mul]; omega
    rw [List.length_cons, e1] at hB
    simp only [slStores, applyStores, elemBytes_eq, hs, List.length_cons]
    rw [ih (j + 1) _ (fun z hz => hk z (by simp [hz])) (by
      rw [overwrite_length _ _ _ (by omega), e2]; omega)]
    rw [e1, e2, e3]
    clear ih e1 e2 e3
    generalize j * width k = p at *
    generalize xs.length * width k = q at *
    have hov : overwrite B p (scalBytes x) = B.take p ++ scalBytes x ++ B.drop (p + width k) := by
      rw [← hl]; rfl
    have hlen : (B.take p ++ scalBytes x).length = p + width k := by
      rw [List.length_append, hl, List.length_take]; omega
    rw [hov, List.take_append_of_le_length (by omega), List.take_of_length_le (by omega)]
    rw [List.drop_append, hlen, List.drop_eq_nil_of_le (by omega : (B.take p ++ scalBytes x).length ≤ _)]
    rw [List.drop_drop]
    simp only [List.map_cons, List.flatten_cons, List.append_assoc, List.nil_append]
    congr 4
    omega

theorem scalSl_spec (w : Wr) (k : Kind) (xs : List Scal) (h : Ok w) (hk : ∀ x ∈ xs, x.kind = k)
    (hf : k = .f64 → xs.length ≤ 1) :
    ∃ w', w.scalSl k xs = some w' ∧ Ext w w' (xs.map scalBytes).flatten := by
  have hw : slWidth k = width k := by cases k <;> rfl
  by_cases hkf : k = .f64
  · have := hf hkf
    match xs, this with
    | [], _ => simpa [scalSl, slStores] using put_det w 0 [] [] h (by simp) (by intro s hs; simp [applyStores]; exact List.length_eq_zero_iff.mp hs)
    | [x], _ =>
      have hx : x.kind = k := hk x (by simp)
      have hl : (scalBytes x).length = slWidth k := by rw [scalBytes_length, hx, hw]
      have := put_one w (scalBytes x) h
      simp only [scalSl, slStores, List.length_singleton, Nat.one_mul, Nat.zero_mul, elemBytes_eq, ← hl,
        List.map_cons, List.map_nil, List.flatten_cons, List.flatten_nil, List.append_nil]
      exact this
  · have hs : slStride k = width k := by cases k <;> first | rfl | exact absurd rfl hkf
    unfold scalSl
    apply put_det w _ _ _ h
    · have := slStores_fit k xs 0 hk
      simpa using this
    · intro stale hl
      rw [slStores_apply k xs 0 stale hk hs (by rw [hl, hw]; simp)]
      rw [hw] at hl
      simp [← hl]

/-- Without any condition the typed slice writers at least append something and touch nothing else. -/
theorem scalSl_any (w : Wr) (k : Kind) (xs : List Scal) (h : Ok w) (hk : ∀ x ∈ xs, x.kind = k) :
    ∃ w' d, w.scalSl k xs = some w' ∧ Ext w w' d := by
  obtain ⟨w', st, h1, _, h3⟩ := put_spec w (xs.length * slWidth k) (slStores k 0 xs) h (by
    have := slStores_fit k xs 0 hk; simpa using this)
  exact ⟨w', _, h1, h3⟩

end Wr
end Marshal
end Verif
