import Verif.Model.Bytes

namespace Verif

@[simp] theorem putLE_length (w v : Nat) : (putLE w v).length = w := by
  induction w generalizing v with
  | zero => rfl
  | succ w ih => simp [putLE, ih]

theorem getLE_putLE (w v : Nat) : getLE (putLE w v) = v % 256 ^ w := by
  induction w generalizing v with
  | zero => simp [putLE, getLE, Nat.mod_one]
  | succ w ih =>
    simp only [putLE, getLE, ih]
    have : (UInt8.ofNat (v % 256)).toNat = v % 256 := by
      simp [UInt8.toNat_ofNat']
    rw [this, Nat.pow_succ, Nat.mul_comm (256 ^ w) 256, Nat.mod_mul]

theorem getLE_lt (b : Bytes) : getLE b < 256 ^ b.length := by
  induction b with
  | nil => simp [getLE]
  | cons x xs ih =>
    simp only [getLE, List.length_cons, Nat.pow_succ]
    have := x.toNat_lt
    omega

theorem putLE_getLE (b : Bytes) : putLE b.length (getLE b) = b := by
  induction b with
  | nil => rfl
  | cons x xs ih =>
    simp only [List.length_cons, putLE, getLE]
    have hx := x.toNat_lt
    have h1 : (x.toNat + 256 * getLE xs) % 256 = x.toNat := by omega
    have h2 : (x.toNat + 256 * getLE xs) / 256 = getLE xs := by omega
    rw [h1, h2, ih]
    congr 1
    simp

theorem getLE_inj {a b : Bytes} (hl : a.length = b.length) (h : getLE a = getLE b) : a = b := by
  rw [← putLE_getLE a, ← putLE_getLE b, hl, h]

@[simp] theorem putU8_length (x) : (putU8 x).length = 1 := by simp [putU8]
@[simp] theorem putU16_length (x) : (putU16 x).length = 2 := by simp [putU16]
@[simp] theorem putU32_length (x) : (putU32 x).length = 4 := by simp [putU32]
@[simp] theorem putU64_length (x) : (putU64 x).length = 8 := by simp [putU64]

theorem putU8_eq (x : UInt8) : putU8 x = [x] := by
  have := x.toNat_lt
  simp [putU8, putLE, Nat.mod_eq_of_lt this]

@[simp] theorem getU16_putU16 (x : UInt16) (r : Bytes) : getU16 (putU16 x ++ r) = x := by
  unfold getU16
  rw [List.take_append_of_le_length (by simp), List.take_of_length_le (by simp)]
  have := x.toNat_lt
  rw [putU16, getLE_putLE, Nat.mod_eq_of_lt (by omega)]; simp

@[simp] theorem getU32_putU32 (x : UInt32) (r : Bytes) : getU32 (putU32 x ++ r) = x := by
  unfold getU32
  rw [List.take_append_of_le_length (by simp), List.take_of_length_le (by simp)]
  have := x.toNat_lt
  rw [putU32, getLE_putLE, Nat.mod_eq_of_lt (by omega)]; simp

@[simp] theorem getU64_putU64 (x : UInt64) (r : Bytes) : getU64 (putU64 x ++ r) = x := by
  unfold getU64
  rw [List.take_append_of_le_length (by simp), List.take_of_length_le (by simp)]
  have := x.toNat_lt
  rw [putU64, getLE_putLE, Nat.mod_eq_of_lt (by omega)]; simp

@[simp] theorem getU32_putU32' (x : UInt32) : getU32 (putU32 x) = x := by
  simpa using getU32_putU32 x []

@[simp] theorem overwrite_length (b : Bytes) (pos : Nat) (d : Bytes)
    (h : pos + d.length ≤ b.length) : (overwrite b pos d).length = b.length := by
  simp [overwrite]; omega

end Verif
