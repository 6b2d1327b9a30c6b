import Verif.Proofs.Ber

namespace Verif.Marshal
open Verif.Spec

theorem need_eq (k : Kind) : Rd.need k = width k := by cases k <;> rfl
theorem step_eq (k : Kind) : Rd.step k = width k := by cases k <;> rfl
theorem slWidth_eq (k : Kind) : Rd.slWidth k = width k := by cases k <;> rfl

theorem decode_elem (s : Scal) (rest : Bytes) : Rd.decode (Wr.elemBytes s ++ rest) s.kind = s := by
  cases s <;> simp [Rd.decode, Wr.elemBytes, Scal.kind]

theorem decode_scal (s : Scal) (rest : Bytes) : Rd.decode (scalBytes s ++ rest) s.kind = s := by
  rw [← elemBytes_eq]; exact decode_elem s rest

/-- Decoding looks at the first `width` bytes only. -/
theorem decode_take (b : Bytes) (k : Kind) : Rd.decode (b.take (width k)) k = Rd.decode b k := by
  cases k <;> simp [Rd.decode, width, getU16, getU32, getU64, List.take_take]
  all_goals (cases b <;> rfl)

theorem Rd.scal_ok (r : Rd) (k : Kind) (h : r.err = none) (hl : width k ≤ r.body.length) :
    r.scal k = (⟨r.body.drop (width k), none⟩, Rd.decode r.body k) := by
  unfold Rd.scal
  rw [if_neg (by simp [h]), if_neg (by rw [need_eq]; omega), step_eq, h]

theorem Rd.scal_short (r : Rd) (k : Kind) (h : r.err = none) (hl : r.body.length < width k) :
    r.scal k = (⟨r.body, some .short⟩, k.zero) := by
  unfold Rd.scal
  rw [if_neg (by simp [h]), if_pos (by rw [need_eq]; omega)]

theorem Rd.scal_bytes (s : Scal) (rest : Bytes) :
    Rd.scal ⟨scalBytes s ++ rest, none⟩ s.kind = (⟨rest, none⟩, s) := by
  rw [Rd.scal_ok _ _ rfl (by simp)]
  simp only [decode_scal]
  rw [List.drop_append_of_le_length (by simp), List.drop_eq_nil_of_le (by simp)]
  rfl

theorem slElems_spec (k : Kind) (xs : List Scal) (pre : Bytes) (j : Nat) (rest : Bytes)
    (hk : ∀ x ∈ xs, x.kind = k) (hp : pre.length = j * width k) :
    Rd.slElems (pre ++ (xs.map scalBytes).flatten ++ rest) k j xs.length = xs := by
  induction xs generalizing pre j with
  | nil => rfl
  | cons x xs ih =>
    have hx : x.kind = k := hk x (by simp)
    simp only [List.length_cons, Rd.slElems, List.map_cons, List.flatten_cons]
    congr 1
    · rw [slWidth_eq, ← hp, List.append_assoc, List.drop_left, ← hx, List.append_assoc, decode_scal]
    · have := ih (pre ++ scalBytes x) (j + 1) (fun z hz => hk z (by simp [hz])) (by
        simp [hp, hx, Nat.add_mul])
      simpa [List.append_assoc] using this

theorem Rd.scalSl_bytes (k : Kind) (xs dst : List Scal) (rest : Bytes) (hk : ∀ x ∈ xs, x.kind = k)
    (hd : dst.length = xs.length) :
    Rd.scalSl ⟨(xs.map scalBytes).flatten ++ rest, none⟩ k dst = (⟨rest, none⟩, xs) := by
  have hl := Wr.flatten_len k xs hk
  unfold Rd.scalSl
  rw [if_neg (by simp), if_neg (by rw [slWidth_eq, hd]; simp only [List.length_append, hl]; omega)]
  rw [slWidth_eq, hd]
  have := slElems_spec k xs [] 0 rest hk (by simp)
  simp only [List.nil_append] at this
  simp only [this]
  rw [← hl, List.drop_left]

theorem Rd.uvar_ber (x : UInt64) (rest : Bytes) :
    Rd.uvar ⟨ber x.toNat ++ rest, none⟩ = (⟨rest, none⟩, x) := by
  have := (uvarLoop_cases (ber x.toNat ++ rest) 0 (by decide)).1 x.toNat (ber x.toNat).length
    (by simpa using berValue_ber x.toNat rest) x.toNat_lt
  unfold Rd.uvar
  rw [if_neg (by simp), this]
  simp

end Verif.Marshal
