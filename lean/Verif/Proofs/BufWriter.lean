import Verif.Model.Net
import Verif.Proofs.Bytes

namespace Verif.Net
open Verif

theorem overwrite_take {b : Bytes} {pos : Nat} {d : Bytes} (h : pos + d.length ≤ b.length) :
    (overwrite b pos d).take (pos + d.length) = b.take pos ++ d := by
  unfold overwrite
  rw [List.take_append_of_le_length (by simp; omega)]
  apply List.take_of_length_le
  simp; omega

namespace BufW

/-- Everything submitted and not lost: delivered bytes followed by buffered bytes. -/
def abs (w : BufW) : Bytes := w.conn.out ++ w.buf.take w.wr

structure Inv (w : BufW) : Prop where
  wr_le : w.wr ≤ w.buf.length
  len : w.buf = [] ∨ w.buf.length = bufSize

/-- What a call that submits `d` guarantees. -/
def Post (w : BufW) (d : Bytes) (p : BufW × Out Unit) : Prop :=
  match p with
  | (w', .ok ()) => w'.Inv ∧ w'.abs = w.abs ++ d ∧ (w.conn.budget = none → w'.conn.budget = none) ∧
      w.conn.out <+: w'.conn.out
  | (w', .err _) => w.conn.budget ≠ none ∧ w'.conn.out <+: w.abs ++ d ∧ w.conn.out <+: w'.conn.out ∧
      w'.conn.out.length < (w.abs ++ d).length
  | (_, .panic) => False

theorem conn_write (c : Conn) (d : Bytes) :
    (∃ c', c.write d = (c', .ok ()) ∧ c'.out = c.out ++ d ∧ (c.budget = none → c'.budget = none)) ∨
    (∃ c' e, c.write d = (c', .err e) ∧ c.budget ≠ none ∧ c'.out <+: c.out ++ d ∧ c.out <+: c'.out ∧
      c'.out.length < (c.out ++ d).length) := by
  unfold Conn.write
  split
  · left; rename_i hb; exact ⟨_, rfl, rfl, by simp⟩
  · rename_i k hb
    split
    · left; exact ⟨_, rfl, rfl, by simp [hb]⟩
    · right
      refine ⟨_, _, rfl, by simp [hb], ?_, by simp, by simp; omega⟩
      simp only [List.prefix_append_right_inj]
      exact List.take_prefix _ _

theorem flush_post (w : BufW) (hi : w.Inv) :
    Post w [] w.flush ∧ (∀ w', w.flush = (w', .ok ()) → w'.wr = 0 ∧ w'.buf.length = bufSize) := by
  unfold flush rawWrite
  have hlen := hi.len
  have hb : ∀ b : Bytes, (b = [] ∨ b.length = bufSize) →
      (if b = [] then List.replicate bufSize 0 else b).length = bufSize := by
    intro b hb; split <;> simp_all
  by_cases hw : w.wr > 0
  · rcases conn_write w.conn (w.buf.take w.wr) with ⟨c', h1, h2, h3⟩ | ⟨c', e, h1, h2, h3, h4, h5⟩
    · have hne : w.buf ≠ [] := by
        intro h; have := hi.wr_le; simp [h] at this; omega
      have hl : w.buf.length = bufSize := by rcases hlen with h | h; exact absurd h hne; exact h
      simp only [hw, if_true, h1, hne, if_false]
      refine ⟨⟨⟨by simp, Or.inr hl⟩, ?_, h3, by simp [h2]⟩, ?_⟩
      · simp [abs, h2]
      · intro w' h
        simp only [Prod.mk.injEq, and_true] at h
        subst h
        exact ⟨rfl, hl⟩
    · simp only [hw, if_true, h1]
      refine ⟨⟨h2, by simpa [abs] using h3, h4, by simpa [abs] using h5⟩, by simp⟩
  · have h0 : w.wr = 0 := by omega
    simp only [hw, if_false]
    split
    · rename_i hbuf
      refine ⟨⟨⟨?_, Or.inr ?_⟩, ?_, by simp, by simp⟩, ?_⟩
      · simp [h0]
      · simp
      · simp [abs, h0]
      · intro w' h
        simp only [Prod.mk.injEq, and_true] at h
        subst h
        simp [h0]
    · rename_i hbuf
      refine ⟨⟨hi, by simp, by simp, by simp⟩, ?_⟩
      intro w' h
      simp only [Prod.mk.injEq, and_true] at h
      subst h
      rcases hlen with h | h
      · exact absurd h hbuf
      · exact ⟨h0, h⟩

theorem put_post (w : BufW) (d : Bytes) (hi : w.Inv) (h : w.wr + d.length ≤ w.buf.length) :
    Post w d (w.put d) := by
  unfold put
  simp only [h, if_true]
  refine ⟨⟨?_, ?_⟩, ?_, by simp, by simp⟩
  · simp [overwrite_length, h]
  · rcases hi.len with h' | h'
    · left
      have : w.wr + d.length ≤ 0 := by simpa [h'] using h
      have hd : d = [] := List.eq_nil_of_length_eq_zero (by omega)
      simp [overwrite, h', hd]
    · right; exact (overwrite_length _ _ _ h).trans h'
  · simp [abs, overwrite_take h]

theorem rawWrite_post (w : BufW) (d : Bytes) (hi : w.Inv) (h0 : w.wr = 0) :
    Post w d (w.rawWrite d) := by
  unfold rawWrite
  rcases conn_write w.conn d with ⟨c', h1, h2, h3⟩ | ⟨c', e, h1, h2, h3, h4, h5⟩
  · simp only [h1]
    exact ⟨⟨hi.wr_le, hi.len⟩, by simp [abs, h2, h0], h3, by simp [h2]⟩
  · simp only [h1]
    exact ⟨h2, by simpa [abs, h0] using h3, h4, by simpa [abs, h0] using h5⟩

theorem post_trans {w w' : BufW} {d1 d2 : Bytes} {p : BufW × Out Unit} (h : Post w' d2 p)
    (ha : w'.abs = w.abs ++ d1) (hb : w.conn.budget = none → w'.conn.budget = none)
    (hg : w.conn.out <+: w'.conn.out) :
    Post w (d1 ++ d2) p := by
  match p, h with
  | (w2, .ok ()), ⟨hi, h2, hbud, h3⟩ => exact ⟨hi, by simp [h2, ha], fun h => hbud (hb h), hg.trans h3⟩
  | (w2, .err e), h => exact ⟨fun h' => h.1 (hb h'), by simpa [ha] using h.2.1, hg.trans h.2.2.1, by simpa [ha] using h.2.2.2⟩
  | (w2, .panic), h => exact h.elim

/-- Sequencing: a flush followed by something submitting `d`. -/
theorem after_flush (w : BufW) (d : Bytes) (hi : w.Inv) (f : BufW → BufW × Out Unit)
    (hf : ∀ w', w'.Inv → w'.wr = 0 → w'.buf.length = bufSize → Post w' d (f w')) :
    Post w d (andThen w.flush f) := by
  unfold andThen
  obtain ⟨hp, hq⟩ := flush_post w hi
  match hfl : w.flush with
  | (w', .ok ()) =>
    rw [hfl] at hp
    obtain ⟨hi', ha, hbud, hg⟩ := hp
    obtain ⟨h0, hl⟩ := hq w' hfl
    simpa using post_trans (hf w' hi' h0 hl) ha hbud hg
  | (w', .err e) =>
    rw [hfl] at hp
    refine ⟨hp.1, by simpa using List.IsPrefix.trans hp.2.1 (by simp), hp.2.2.1, ?_⟩
    have := hp.2.2.2
    simp at this ⊢
    omega
  | (w', .panic) => rw [hfl] at hp; exact hp.elim

theorem write_post (w : BufW) (body : Bytes) (hi : w.Inv) : Post w body (w.write body) := by
  unfold write
  dsimp only
  split
  · apply after_flush w body hi (fun w' =>
      if body.length > w'.buf.length / 4 then w'.rawWrite body else w'.put body)
    intro w' hi' h0 hl
    split
    · exact rawWrite_post w' body hi' h0
    · exact put_post w' body hi' (by simp [bufSize] at hl; omega)
  · exact put_post w body hi (by omega)

theorem writeUint32_post (w : BufW) (i : UInt32) (hi : w.Inv) :
    Post w (putU32 i) (w.writeUint32 i) := by
  unfold writeUint32
  split
  · apply after_flush w _ hi (fun w' => w'.put (putU32 i))
    intro w' hi' h0 hl
    exact put_post w' _ hi' (by simp [h0, hl, bufSize])
  · exact put_post w _ hi (by simp; omega)

theorem write3Uint32_post (w : BufW) (i j k : UInt32) (hi : w.Inv) :
    Post w (putU32 i ++ putU32 j ++ putU32 k) (w.write3Uint32 i j k) := by
  unfold write3Uint32
  split
  · apply after_flush w _ hi (fun w' => w'.put (putU32 i ++ putU32 j ++ putU32 k))
    intro w' hi' h0 hl
    exact put_post w' _ hi' (by simp [h0, hl, bufSize])
  · exact put_post w _ hi (by simp; omega)

theorem init_inv (c : Conn) : (init c).Inv := ⟨by simp [init], Or.inl rfl⟩
theorem init_abs (c : Conn) : (init c).abs = c.out := by simp [init, abs]

/-- Sequencing of two submitting calls. -/
theorem post_seq {w : BufW} {d1 d2 : Bytes} {p : BufW × Out Unit} {f : BufW → BufW × Out Unit}
    (h1 : Post w d1 p) (h2 : ∀ w', w'.Inv → Post w' d2 (f w')) :
    Post w (d1 ++ d2) (andThen p f) := by
  unfold andThen
  match p, h1 with
  | (w', .ok ()), ⟨hi, ha, hbud, hg⟩ =>
    exact post_trans (h2 w' hi) ha hbud hg
  | (w', .err e), h =>
    refine ⟨h.1, ?_, h.2.2.1, ?_⟩
    · rw [← List.append_assoc]
      exact List.IsPrefix.trans h.2.1 (List.prefix_append _ _)
    have := h.2.2.2
    simp at this ⊢
    omega
  | (w', .panic), h => exact h.elim

end BufW
end Verif.Net
