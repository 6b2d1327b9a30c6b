import Verif.Model.Bytes
import Verif.Proofs.Bytes

namespace Verif

theorem overwrite_take_le {b : Bytes} {pos : Nat} {d : Bytes} (n : Nat) (h : n ≤ pos)
    (hp : pos ≤ b.length) : (overwrite b pos d).take n = b.take n := by
  unfold overwrite
  rw [List.append_assoc, List.take_append_of_le_length (by simp; omega), List.take_take,
    Nat.min_eq_left h]

theorem overwrite_take_add {b : Bytes} {pos : Nat} {d : Bytes} (h : pos + d.length ≤ b.length) :
    (overwrite b pos d).take (pos + d.length) = b.take pos ++ d := by
  unfold overwrite
  rw [List.take_append_of_le_length (by simp; omega)]
  apply List.take_of_length_le
  simp; omega

namespace Mem

/-- A slice lies inside its array. -/
def Wf (m : Mem) (s : Slc) : Prop := s.len ≤ s.cap ∧ s.off + s.cap ≤ (m.block s.blk).length

theorem block_store (m : Mem) (b pos : Nat) (d : Bytes) (b' : Nat) :
    (m.store b pos d).block b' =
      if b' = b ∧ b < m.blocks.length then overwrite (m.block b) pos d else m.block b' := by
  unfold store block
  simp only [List.getElem?_modify]
  by_cases h : b' = b
  · subst h
    by_cases hl : b' < m.blocks.length
    · simp [hl]
    · simp [hl]
  · have : b ≠ b' := fun h' => h h'.symm
    simp [h, this]

theorem block_len_store (m : Mem) (b pos : Nat) (d : Bytes) (b' : Nat)
    (h : pos + d.length ≤ (m.block b).length) :
    ((m.store b pos d).block b').length = (m.block b').length := by
  rw [block_store]
  split
  · rename_i h'
    rw [overwrite_length _ _ _ h, h'.1]
  · rfl

@[simp] theorem blocks_length_store (m : Mem) (b pos : Nat) (d : Bytes) :
    (m.store b pos d).blocks.length = m.blocks.length := by
  simp [store]

/-- Slices in another array, or ending before the stored range, are unaffected by a store. -/
theorem view_store_frame (m : Mem) (b pos : Nat) (d : Bytes) (s : Slc)
    (hp : pos ≤ (m.block b).length)
    (h : s.blk ≠ b ∨ s.off + s.len ≤ pos) : (m.store b pos d).view s = m.view s := by
  unfold view
  rw [block_store]
  split
  · rename_i h'
    have h2 : s.off + s.len ≤ pos := by
      rcases h with h | h
      · exact absurd h'.1 h
      · exact h
    rw [List.take_drop, List.take_drop, h'.1, overwrite_take_le _ h2 hp]
  · rfl

/-- Storing right after the end of a slice extends its contents. -/
theorem view_store_extend (m : Mem) (s : Slc) (d : Bytes) (hb : s.blk < m.blocks.length)
    (h : s.off + s.len + d.length ≤ (m.block s.blk).length) :
    (m.store s.blk (s.off + s.len) d).view { s with len := s.len + d.length } = m.view s ++ d := by
  unfold view
  rw [block_store]
  simp only [hb, and_self, if_true]
  rw [List.take_drop, List.take_drop, ← Nat.add_assoc, overwrite_take_add h]
  rw [List.drop_append_of_le_length (by simp; omega)]

theorem view_length (m : Mem) (s : Slc) (h : m.Wf s) : (m.view s).length = s.len := by
  unfold view; have := h.1; have := h.2; simp; omega

theorem view_len_zero (m : Mem) (s : Slc) (h : s.len = 0) : m.view s = [] := by
  simp [view, h]

theorem block_make_old (m : Mem) (l c b : Nat) (h : b < m.blocks.length) :
    (m.make l c).1.block b = m.block b := by
  simp [make, block, List.getElem?_append_left h]

theorem block_make_new (m : Mem) (l c : Nat) :
    (m.make l c).1.block m.blocks.length = List.replicate c 0 := by
  simp [make, block]

theorem view_make_frame (m : Mem) (l c : Nat) (s : Slc) (h : s.blk < m.blocks.length) :
    (m.make l c).1.view s = m.view s := by
  unfold view; rw [block_make_old m l c _ h]

theorem view_take (m : Mem) (s : Slc) (n : Nat) (h : n ≤ s.len) :
    m.view (s.upto n) = (m.view s).take n := by
  simp [view, Slc.upto, List.take_take, Nat.min_eq_left h]

theorem view_drop (m : Mem) (s : Slc) (n : Nat) :
    m.view (s.from' n) = (m.view s).drop n := by
  simp [view, Slc.from', List.drop_take]

theorem view_range (m : Mem) (s : Slc) (i j : Nat) :
    m.view (s.range i j) = (m.view (s.upto j)).drop i := by
  simp [view, Slc.range, Slc.upto, List.drop_take]

end Mem
end Verif
