import Verif.Spec.WriterPool
import Verif.Proofs.Writer
import Verif.Props.Marshal

namespace Verif

/-- A store before a slice does not change it. -/
theorem Mem.view_store_after (m : Mem) (b pos : Nat) (d : Bytes) (s : Slc) (h : pos + d.length ≤ s.off)
    (hb : pos + d.length ≤ (m.block b).length) : (m.store b pos d).view s = m.view s := by
  unfold Mem.view
  rw [Mem.block_store]
  split
  · rename_i h'
    rw [h'.1]
    congr 1
    unfold overwrite
    rw [List.drop_append, List.drop_eq_nil_of_le (by simp; omega), List.nil_append, List.drop_drop]
    congr 1
    simp; omega
  · rfl

namespace WriterPool
open Verif.Marshal Verif.Spec

theorem apart_symm {s t : Slc} (h : apart s t) : apart t s := by
  unfold apart at *; omega

/-- What belongs to others stays with them. -/
def Keeps (w w' : Wr) : Prop :=
  ∀ s, w.mem.Wf s → apart s w.buf → w'.mem.Wf s ∧ apart s w'.buf ∧ w'.mem.view s = w.mem.view s

theorem Keeps.refl (w : Wr) : Keeps w w := fun _ h a => ⟨h, a, rfl⟩

theorem Keeps.trans {a b c : Wr} (h1 : Keeps a b) (h2 : Keeps b c) : Keeps a c := by
  intro s hs ha
  obtain ⟨p, q, r⟩ := h1 s hs ha
  obtain ⟨p', q', r'⟩ := h2 s p q
  exact ⟨p', q', r'.trans r⟩

theorem store_keeps (m : Mem) (b : Slc) (hb : m.Wf b) (pos : Nat) (d : Bytes) (hp : pos + d.length ≤ b.cap) (s : Slc) (hs : m.Wf s)
    (ha : apart s b) : (m.store b.blk (b.off + pos) d).Wf s ∧ (m.store b.blk (b.off + pos) d).view s = m.view s := by
  have h1 : b.off + pos + d.length ≤ (m.block b.blk).length := by have := hb.2; omega
  refine ⟨Mem.Wf_store _ _ _ _ _ h1 hs, ?_⟩
  rcases ha with ha | ha | ha
  · exact Mem.view_store_frame _ _ _ _ _ (by omega) (Or.inl ha)
  · exact Mem.view_store_frame _ _ _ _ _ (by omega) (Or.inr (by have := hs.1; omega))
  · exact Mem.view_store_after _ _ _ _ _ (by omega) h1

theorem grow_keeps (w w' : Wr) (n : Nat) (h : w.Ok) (e : w.grow n = some w') : Keeps w w' := by
  unfold Wr.grow at e
  simp only at e
  split at e
  · generalize (if ((w.buf.len + n : Nat) : Int) ≤ (if w.defSize = 0 then 512 else w.defSize) then (if w.defSize = 0 then 512 else w.defSize).toNat else Wr.ceilLog (w.buf.len + n)) = c at e
    split at e
    · cases e
    · rename_i hc
      simp only [Option.some.injEq] at e
      subst e
      intro s hs ha
      have hlen : (w.mem.view w.buf).length = w.buf.len := Mem.view_length _ _ h
      have hfit : 0 + (w.mem.view w.buf).length ≤ ((w.mem.make w.buf.len c).1.block w.mem.blocks.length).length := by
        rw [Mem.block_make_new]; simp [hlen]; omega
      show ((w.mem.make w.buf.len c).1.store w.mem.blocks.length 0 (w.mem.view w.buf)).Wf s ∧ apart s ⟨w.mem.blocks.length, 0, w.buf.len, c⟩ ∧
        ((w.mem.make w.buf.len c).1.store w.mem.blocks.length 0 (w.mem.view w.buf)).view s = _
      rcases Nat.lt_or_ge s.blk w.mem.blocks.length with hb | hb
      · refine ⟨Mem.Wf_store _ _ _ _ _ hfit ?_, Or.inl (by simp; omega), ?_⟩
        · unfold Mem.Wf at *
          rw [Mem.block_make_old _ _ _ _ hb]; exact hs
        · rw [Mem.view_store_frame _ _ _ _ _ (Nat.zero_le _) (Or.inl (by omega)), Mem.view_make_frame _ _ _ _ hb]
      · have h0 : s.off + s.cap ≤ 0 := by
          have := hs.2
          simpa [Mem.block, List.getElem?_eq_none hb] using this
        have hl : s.len = 0 := by have := hs.1; omega
        refine ⟨⟨hs.1, by omega⟩, Or.inr (Or.inl (by simp; omega)), ?_⟩
        rw [Mem.view_len_zero _ _ hl, Mem.view_len_zero _ _ hl]
  · simp only [Option.some.injEq] at e
    subst e
    exact Keeps.refl w

theorem stores_keeps (st : List (Nat × Bytes)) (l : Nat) (w w' : Wr) (h : w.Ok) (e : Wr.stores l st w = some w') : Keeps w w' := by
  induction st generalizing w with
  | nil => cases e; exact Keeps.refl _
  | cons x st ih =>
    obtain ⟨p, d⟩ := x
    simp only [Wr.stores, Wr.storeAt] at e
    by_cases hp : l + p + d.length ≤ w.buf.len
    · rw [if_pos hp] at e
      have hok := h
      obtain ⟨h1, h2⟩ := h
      refine Keeps.trans ?_ (ih _ ?_ e)
      · intro s hs ha
        have := store_keeps w.mem w.buf hok (l + p) d (by omega) s hs ha
        exact ⟨this.1, ha, this.2⟩
      · exact Mem.Wf_store _ _ _ _ _ (by omega) hok
    · rw [if_neg hp] at e; cases e

theorem put_keeps (w w' : Wr) (n : Nat) (st : List (Nat × Bytes)) (h : w.Ok) (e : w.put n st = some w') : Keeps w w' := by
  obtain ⟨w1, h1, hok, _, _, hcap, _⟩ := Wr.grow_spec w n h
  simp only [Wr.put, Wr.ensure, h1, hcap, if_true] at e
  have k1 := grow_keeps w w1 n h h1
  have k2 : Keeps w1 { w1 with buf := w1.buf.upto (w.buf.len + n) } := fun s hs ha => ⟨hs, ha, rfl⟩
  exact (k1.trans k2).trans (stores_keeps st _ _ _ ⟨hcap, hok.2⟩ e)

theorem op_put (w : Wr) (o : WOp) (h1 : o ≠ .written) (h2 : o ≠ .reset) : ∃ n st, o.run w = (w.put n st).map (·, []) := by
  cases o with
  | scal s => exact ⟨_, _, by rw [WOp.run, Wr.scal_eq]⟩
  | uvar x =>
    simp only [WOp.run, Wr.uvar]
    split
    · exact ⟨_, _, rfl⟩
    · split
      · exact ⟨_, _, rfl⟩
      · split
        · exact ⟨_, _, rfl⟩
        · exact ⟨_, _, rfl⟩
  | bytes b => exact ⟨_, _, rfl⟩
  | scalSl k xs => exact ⟨_, _, rfl⟩
  | written => exact absurd rfl h1
  | reset => exact absurd rfl h2

theorem op_keeps (w w' : Wr) (ss : List Slc) (o : WOp) (h : w.Ok) (h1 : o ≠ .written) (h2 : o ≠ .reset) (e : o.run w = some (w', ss)) :
    Keeps w w' := by
  obtain ⟨n, st, hp⟩ := op_put w o h1 h2
  rw [hp] at e
  cases hq : w.put n st with
  | none => rw [hq] at e; cases e
  | some w1 =>
    rw [hq] at e
    simp only [Option.map_some, Option.some.injEq, Prod.mk.injEq] at e
    rw [← e.1]
    exact put_keeps w w1 n st h hq

end WriterPool
end Verif
