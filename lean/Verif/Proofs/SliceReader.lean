import Verif.Model.Net
import Verif.Proofs.Mem

namespace Verif.Net
open Verif

theorem Src.read_spec (s : Src) (space : Nat) (hs : space ≠ 0) {s' d e}
    (h : s.read space = (s', d, e)) :
    s.chunks.flatten = d ++ s'.chunks.flatten ∧ d.length ≤ space ∧ s'.fin = s.fin ∧
    s'.eager = s.eager ∧ (∀ x, e = some x → x = s.fin ∧ s'.chunks = []) := by
  unfold Src.read at h
  simp only [hs, if_false] at h
  split at h
  · rename_i hc
    simp only [Prod.mk.injEq] at h
    obtain ⟨rfl, rfl, rfl⟩ := h
    simp [hc]
  · rename_i c cs hc
    split at h
    · rename_i hl
      simp only [Prod.mk.injEq] at h
      obtain ⟨rfl, rfl, rfl⟩ := h
      refine ⟨by simp [hc], hl, rfl, rfl, ?_⟩
      intro x hx
      split at hx
      · rename_i h2; simp at hx; exact ⟨hx.symm, h2.1⟩
      · simp at hx
    · simp only [Prod.mk.injEq] at h
      obtain ⟨rfl, rfl, rfl⟩ := h
      refine ⟨by simp [hc, ← List.append_assoc], by simp; omega, rfl, rfl, by simp⟩

namespace SR

theorem read_dec {s : Src} {space : Nat} {s' : Src} {d : Bytes}
    (h : s.read space = (s', d, none)) (hs : space ≠ 0) :
    s'.chunks.length < s.chunks.length ∨ (s'.chunks.length = s.chunks.length ∧ 0 < d.length ∧
      d.length = space) := by
  unfold Src.read at h
  simp only [hs, if_false] at h
  split at h
  · simp at h
  · rename_i c cs hc
    split at h
    · simp only [Prod.mk.injEq] at h
      obtain ⟨rfl, rfl, _⟩ := h
      left; simp [hc]
    · simp only [Prod.mk.injEq] at h
      obtain ⟨rfl, rfl, _⟩ := h
      right; simp [hc]; omega

/-- What the fill loop does. -/
structure FillPost (m : Mem) (b : Slc) (n l : Nat) (s : Src)
    (m' : Mem) (l' : Nat) (s' : Src) (e : Option IOErr) : Prop where
  data : ∃ d, s.chunks.flatten = d ++ s'.chunks.flatten ∧ l' = l + d.length ∧
    m'.view (b.upto l') = m.view (b.upto l) ++ d
  le_cap : l' ≤ b.cap
  fin : s'.fin = s.fin
  eager : s'.eager = s.eager
  frame : ∀ h : Slc, (h.blk ≠ b.blk ∨ h.off + h.len ≤ b.off + l) → m'.view h = m.view h
  lens : ∀ k, (m'.block k).length = (m.block k).length
  nblk : m'.blocks.length = m.blocks.length
  done : e = none → n ≤ l'
  fail : ∀ x, e = some x → x = s.fin ∧ s'.chunks = []

theorem fillAux_spec (fuel : Nat) (m : Mem) (b : Slc) (n l : Nat) (s : Src)
    (hfuel : l < n → s.chunks.length + 1 ≤ fuel)
    (hb : b.cap = 0 ∨ b.blk < m.blocks.length) (hw : b.off + b.cap ≤ (m.block b.blk).length)
    (hl : l ≤ b.cap) (hn : n ≤ b.cap) {m' l' s' e} (h : fillAux fuel m b n l s = (m', l', s', e)) :
    FillPost m b n l s m' l' s' e := by
  have done : ¬ l < n → (m, l, s, (none : Option IOErr)) = (m', l', s', e) →
      FillPost m b n l s m' l' s' e := by
    intro hln h
    simp only [Prod.mk.injEq] at h
    obtain ⟨rfl, rfl, rfl, rfl⟩ := h
    exact ⟨⟨[], by simp, by simp, by simp⟩, hl, rfl, rfl, fun _ _ => rfl, fun _ => rfl, rfl,
      fun _ => by omega, by simp⟩
  induction fuel generalizing m l s with
  | zero =>
    rw [fillAux] at h
    by_cases hln : l < n
    · have := hfuel hln; omega
    · simp only [hln, if_false] at h
      exact done hln h
  | succ fuel ih =>
  rw [fillAux] at h
  by_cases hln : l < n
  · have hcap : ¬ b.cap - l = 0 := by omega
    simp only [hln, if_true, hcap, if_false] at h
    have hb' : b.blk < m.blocks.length := by omega
    match hr : s.read (b.cap - l) with
    | (s1, d, some x) =>
      rw [hr] at h
      simp only [Prod.mk.injEq] at h
      obtain ⟨rfl, rfl, rfl, rfl⟩ := h
      obtain ⟨h1, h2, h3, h4, h5⟩ := Src.read_spec s _ hcap hr
      have hfit : b.off + l + d.length ≤ (m.block b.blk).length := by omega
      refine ⟨⟨d, h1, rfl, ?_⟩, by omega, h3, h4, ?_, ?_, by simp, by simp, h5⟩
      · exact Mem.view_store_extend m (b.upto l) d hb' hfit
      · intro h hh; exact Mem.view_store_frame _ _ _ _ _ (by omega) hh
      · intro k; exact Mem.block_len_store _ _ _ _ _ hfit
    | (s1, d, none) =>
      rw [hr] at h
      obtain ⟨h1, h2, h3, h4, h5⟩ := Src.read_spec s _ hcap hr
      have hfit : b.off + l + d.length ≤ (m.block b.blk).length := by omega
      have hlens : ∀ k, ((m.store b.blk (b.off + l) d).block k).length = (m.block k).length :=
        fun k => Mem.block_len_store _ _ _ _ _ hfit
      have := ih (m.store b.blk (b.off + l) d) (l + d.length) s1 (by
          intro hlt
          have := hfuel hln
          rcases read_dec hr hcap with hd | ⟨hd1, hd2, hd3⟩ <;> omega)
        (by simpa using hb) (by rw [hlens]; exact hw) (by omega) h (by
          intro hln h
          simp only [Prod.mk.injEq] at h
          obtain ⟨rfl, rfl, rfl, rfl⟩ := h
          exact ⟨⟨[], by simp, by simp, by simp⟩, by omega, rfl, rfl, fun _ _ => rfl,
            fun _ => rfl, rfl, fun _ => by omega, by simp⟩)
      obtain ⟨⟨d2, hd1, hd2, hd3⟩, q2, q3, q4, q5, q6, q7, q8, q9⟩ := this
      refine ⟨⟨d ++ d2, ?_, ?_, ?_⟩, q2, ?_, ?_, ?_, ?_, ?_, q8, ?_⟩
      · rw [h1, hd1, List.append_assoc]
      · simp; omega
      · rw [hd3]
        have : (m.store b.blk (b.off + l) d).view (b.upto (l + d.length)) =
            m.view (b.upto l) ++ d := Mem.view_store_extend m (b.upto l) d hb' hfit
        rw [this, List.append_assoc]
      · rw [q3, h3]
      · rw [q4, h4]
      · intro h hh
        rw [q5 h (by omega)]
        exact Mem.view_store_frame _ _ _ _ _ (by omega) hh
      · intro k; rw [q6, hlens]
      · rw [q7]; simp
      · intro x hx; rw [← h3]; exact q9 x hx
  · simp only [hln, if_false] at h
    exact done hln h

theorem fill_spec (m : Mem) (b : Slc) (n l : Nat) (s : Src)
    (hb : b.cap = 0 ∨ b.blk < m.blocks.length) (hw : b.off + b.cap ≤ (m.block b.blk).length)
    (hl : l ≤ b.cap) (hn : n ≤ b.cap) {m' l' s' e} (h : fill m b n l s = (m', l', s', e)) :
    FillPost m b n l s m' l' s' e :=
  fillAux_spec _ m b n l s (fun _ => Nat.le_refl _) hb hw hl hn h

/-- The stream still to be handed out: buffered bytes followed by what the source will deliver. -/
def stream (r : SR) : Bytes := r.mem.view r.buf ++ r.src.chunks.flatten

/-- Well-formed reader state. -/
structure Inv (r : SR) : Prop where
  wf : r.mem.Wf r.buf
  blk : r.buf.cap = 0 ∨ r.buf.blk < r.mem.blocks.length

/-- A slice the reader will never write to again. -/
def Safe (r : SR) (h : Slc) : Prop :=
  h.len = 0 ∨ (h.blk < r.mem.blocks.length ∧
    (h.blk = r.buf.blk → r.buf.cap = 0 ∨ h.off + h.len ≤ r.buf.off))

/-- What every reader call guarantees besides its result: the state stays well-formed, previously
safe slices keep their bytes and stay safe. -/
structure Step (r r' : SR) : Prop where
  inv : r'.Inv
  size : r'.size = r.size
  fin : r'.src.fin = r.src.fin
  eager : r'.src.eager = r.src.eager
  view : ∀ h, r.Safe h → r'.mem.view h = r.mem.view h
  safe : ∀ h, r.Safe h → r'.Safe h

theorem Step.refl {r : SR} (h : r.Inv) : Step r r := ⟨h, rfl, rfl, rfl, fun _ _ => rfl, fun _ h => h⟩

theorem Step.trans {a b c : SR} (h1 : Step a b) (h2 : Step b c) : Step a c :=
  ⟨h2.inv, h2.size.trans h1.size, h2.fin.trans h1.fin, h2.eager.trans h1.eager,
   fun h hs => (h2.view h (h1.safe h hs)).trans (h1.view h hs),
   fun h hs => h2.safe h (h1.safe h hs)⟩

theorem init_inv (s : Src) : (SR.init s).Inv := by
  refine ⟨⟨by simp [SR.init, Slc.nil], by simp [SR.init, Slc.nil]⟩, Or.inl rfl⟩

theorem init_stream (s : Src) : (SR.init s).stream = s.chunks.flatten := by
  simp [stream, SR.init, Slc.nil, Mem.view]

/-- The result of `Read(n)`. -/
inductive ReadRes (r : SR) (n : Nat) : SR × Out Slc → Prop
  | ok (r' : SR) (res : Slc) (hn : n ≤ r.stream.length) (hs : Step r r')
      (hres : r'.mem.view res = r.stream.take n) (hlen : res.len = n) (hsafe : r'.Safe res)
      (hst : r'.stream = r.stream.drop n) : ReadRes r n (r', .ok res)
  | eof (r' : SR) (hn : r.stream.length < n) (hs : Step r r')
      (h : r.src.fin = .eof ∧ r.stream = []) : ReadRes r n (r', .err .eof)
  | short (r' : SR) (hn : r.stream.length < n) (hs : Step r r') (hne : r.stream ≠ [])
      (h : r.src.fin = .eof) (hf : r.src.chunks.flatten = []) :
      ReadRes r n (r', .err .unexpectedEOF)
  | panic (r' : SR) (hn : r.stream.length < n) (hne : r.stream ≠ [])
      (h : r.src.fin = .eof) (hf : r.src.chunks.flatten ≠ [])
      (hv : ∀ h, r.Safe h → r'.mem.view h = r.mem.view h) : ReadRes r n (r', .panic)
  | other (r' : SR) (hn : r.stream.length < n) (hs : Step r r') (h : r.src.fin ≠ .eof) :
      ReadRes r n (r', .err r.src.fin)

/-- The buffer chosen by `Read` before filling (lines 23-33). -/
def prep (r : SR) (n : Nat) : Mem × Slc :=
  if r.buf.cap < n then
    let (m, nb) := r.mem.make r.buf.len (if n > r.size then n else r.size)
    (m.store nb.blk nb.off (r.mem.view r.buf), nb)
  else (r.mem, r.buf)

structure PrepPost (r : SR) (n : Nat) (m : Mem) (b : Slc) : Prop where
  len : b.len = r.buf.len
  cap : n ≤ b.cap
  lencap : b.len ≤ b.cap
  view : m.view b = r.mem.view r.buf
  wf : b.off + b.cap ≤ (m.block b.blk).length
  blk : b.cap = 0 ∨ b.blk < m.blocks.length
  frame : ∀ h, r.Safe h → m.view h = r.mem.view h
  sep : ∀ h, r.Safe h → h.len = 0 ∨ (h.blk < m.blocks.length ∧
    (h.blk = b.blk → b.cap = 0 ∨ h.off + h.len ≤ b.off))
  lens : ∀ k, (r.mem.block k).length ≤ (m.block k).length
  nblk : r.mem.blocks.length ≤ m.blocks.length

theorem prep_spec (r : SR) (n : Nat) (hi : r.Inv) (hn : r.buf.len ≤ n) :
    PrepPost r n (r.prep n).1 (r.prep n).2 := by
  unfold prep
  split
  · rename_i hc
    dsimp only
    have hw := hi.wf
    have hcap : r.buf.len ≤ (if n > r.size then n else r.size) := by split <;> omega
    have hcap2 : n ≤ (if n > r.size then n else r.size) := by split <;> omega
    generalize (if n > r.size then n else r.size) = c at hcap hcap2
    have hvl := Mem.view_length _ _ hw
    have hnew := Mem.block_make_new r.mem r.buf.len c
    have hblk : ((r.mem.make r.buf.len c).2) = ⟨r.mem.blocks.length, 0, r.buf.len, c⟩ := rfl
    have hfit : 0 + (r.mem.view r.buf).length ≤
        ((r.mem.make r.buf.len c).1.block r.mem.blocks.length).length := by
      rw [hnew]; simp; omega
    refine ⟨rfl, hcap2, hcap, ?_, ?_, Or.inr ?_, ?_, ?_, ?_, ?_⟩
    · have := Mem.view_store_extend (r.mem.make r.buf.len c).1 ⟨r.mem.blocks.length, 0, 0, c⟩
        (r.mem.view r.buf) (by simp [Mem.make]) hfit
      rw [Mem.view_len_zero _ ⟨r.mem.blocks.length, 0, 0, c⟩ rfl] at this
      simp only [Nat.zero_add, hvl, List.nil_append] at this
      exact this
    · rw [hblk, Mem.block_len_store _ _ _ _ _ hfit]
      simp [hnew]
    · simp [Mem.make]
    · intro h hs
      rcases hs with h0 | ⟨h1, h2⟩
      · rw [Mem.view_len_zero _ _ h0, Mem.view_len_zero _ _ h0]
      · rw [Mem.view_store_frame, Mem.view_make_frame _ _ _ _ h1]
        · simp [hblk]
        · left; simp only [hblk]; omega
    · intro h hs
      rcases hs with h0 | ⟨h1, h2⟩
      · left; exact h0
      · right
        refine ⟨by simp [Mem.make]; omega, ?_⟩
        simp only [hblk]
        intro h'; omega
    · intro k
      rw [hblk, Mem.block_len_store _ _ _ _ _ hfit]
      by_cases hk : k < r.mem.blocks.length
      · rw [Mem.block_make_old _ _ _ _ hk]; exact Nat.le_refl _
      · simp [Mem.block, List.getElem?_eq_none (Nat.le_of_not_lt hk)]
    · simp [Mem.make]
  · rename_i hc
    refine ⟨rfl, by dsimp only; omega, hi.wf.1, rfl, hi.wf.2, hi.blk, fun _ _ => rfl, fun _ hs => hs,
      fun _ => Nat.le_refl _, Nat.le_refl _⟩

theorem read_res (r : SR) (n : Nat) (hi : r.Inv) : ReadRes r n (r.read n) := by
  unfold read
  have hwf := hi.wf
  have hvl := Mem.view_length _ _ hwf
  split
  · rename_i hgt
    have hst : n ≤ r.stream.length := by simp [stream, hvl]; omega
    refine .ok _ _ hst ⟨⟨?_, ?_⟩, rfl, rfl, rfl, fun _ _ => rfl, ?_⟩ ?_ rfl ?_ ?_
    · have := hwf.1; have := hwf.2
      constructor <;> simp only [Slc.from'] <;> omega
    · rcases hi.blk with h | h
      · left; simp [Slc.from', h]
      · right; exact h
    · intro h hs
      rcases hs with h0 | ⟨h1, h2⟩
      · left; exact h0
      · right
        refine ⟨h1, fun h' => ?_⟩
        simp only [Slc.from'] at h' ⊢
        rcases h2 h' with h3 | h3 <;> omega
    · rw [Mem.view_take _ _ _ (by omega)]
      unfold stream
      rw [List.take_append_of_le_length (by omega)]
    · have := hwf.1
      rcases hi.blk with h | h
      · left; simp only [Slc.upto]; omega
      · right; exact ⟨h, fun _ => Or.inr (by simp [Slc.upto, Slc.from'])⟩
    · simp only [stream, Mem.view_drop]
      rw [List.drop_append_of_le_length (by omega)]
  · rename_i hle
    have hp := prep_spec r n hi (by omega)
    change ReadRes r n (
      match fill (r.prep n).1 (r.prep n).2 n (r.prep n).2.len r.src with
      | (m2, l, src, err) => if l ≥ n then
          ({ r with mem := m2, src := src, buf := (r.prep n).2.range n l },
            .ok ((r.prep n).2.upto n))
        else if l > 0 ∧ err = some .eof then
          if l ≤ (r.prep n).2.len then
            ({ r with mem := m2, src := src, buf := (r.prep n).2.from' l }, .err .unexpectedEOF)
          else ({ r with mem := m2, src := src }, .panic)
        else
          ({ r with mem := m2, src := src }, .err (err.getD .spin)))
    generalize (r.prep n).1 = m1 at hp
    generalize (r.prep n).2 = b at hp
    match hf : fill m1 b n b.len r.src with
    | (m2, l, src, err) =>
    have hfp := fill_spec m1 b n b.len r.src hp.blk hp.wf hp.lencap hp.cap hf
    obtain ⟨d, hd1, hd2, hd3⟩ := hfp.data
    have hbv : m1.view (b.upto b.len) = r.mem.view r.buf := hp.view
    have hstream : r.stream = (r.mem.view r.buf ++ d) ++ src.chunks.flatten := by
      rw [stream, hd1, List.append_assoc]
    have hvb : (r.mem.view r.buf ++ d).length = l := by
      simp [hvl, hd2, hp.len]
    have hview : ∀ h, r.Safe h → m2.view h = r.mem.view h := by
      intro h hs
      rw [← hp.frame h hs]
      rcases hp.sep h hs with h0 | ⟨h1, h2⟩
      · rw [Mem.view_len_zero _ _ h0, Mem.view_len_zero _ _ h0]
      · by_cases hbk : h.blk = b.blk
        · rcases h2 hbk with h3 | h3
          · have hl0 : d = [] := by
              apply List.eq_nil_of_length_eq_zero
              have := hfp.le_cap; omega
            have hln : n = 0 := by have := hp.cap; omega
            rw [fill, fillAux] at hf
            simp only [hln, Nat.not_lt_zero, if_false, Prod.mk.injEq] at hf
            rw [hf.1]
          · exact hfp.frame h (Or.inr (by omega))
        · exact hfp.frame h (Or.inl hbk)
    -- any buffer carved from `b` at `k ≥ 0`
    have hsafe : ∀ (b' : Slc), b'.blk = b.blk → b.off ≤ b'.off → (b.cap = 0 → b'.cap = 0) →
        ∀ h, r.Safe h → ({ r with mem := m2, src := src, buf := b' } : SR).Safe h := by
      intro b' hb1 hb2 hb3 h hs
      rcases hp.sep h hs with h0 | ⟨h1, h2⟩
      · left; exact h0
      · right
        refine ⟨by simpa [hfp.nblk] using h1, fun h' => ?_⟩
        simp only at h' ⊢
        rcases h2 (h'.trans hb1) with h3 | h3
        · left; exact hb3 h3
        · right; omega
    have hblk2 : b.cap = 0 ∨ b.blk < m2.blocks.length := by rw [hfp.nblk]; exact hp.blk
    have hwf2 : b.off + b.cap ≤ (m2.block b.blk).length := by rw [hfp.lens]; exact hp.wf
    have hlc := hfp.le_cap
    dsimp only
    split
    · rename_i hge
      refine .ok _ _ ?_ ⟨⟨⟨?_, ?_⟩, ?_⟩, rfl, hfp.fin, hfp.eager, hview, ?_⟩ ?_ rfl ?_ ?_
      · rw [hstream, List.length_append, hvb]; omega
      · simp only [Slc.range]; omega
      · simp only [Slc.range]; omega
      · rcases hblk2 with h | h
        · left; simp [Slc.range, h]
        · right; exact h
      · exact hsafe _ rfl (by simp [Slc.range]) (by simp only [Slc.range]; omega)
      · have : m2.view (b.upto n) = (m2.view (b.upto l)).take n := by
          have := Mem.view_take m2 (b.upto l) n hge
          simpa [Slc.upto] using this
        rw [hbv] at hd3
        simp only [this, hd3, hstream]
        generalize r.mem.view r.buf ++ d = A at hvb
        rw [List.take_append_of_le_length (by omega)]
      · rcases hblk2 with h | h
        · left; simp only [Slc.upto]; have := hp.cap; omega
        · right; exact ⟨h, fun _ => Or.inr (by simp [Slc.upto, Slc.range])⟩
      · rw [hstream]
        simp only [stream]
        rw [Mem.view_range, hd3, hbv]
        generalize r.mem.view r.buf ++ d = A at hvb
        rw [List.drop_append_of_le_length (by omega)]
    · rename_i hlt
      have hne : err ≠ none := fun h => by have := hfp.done h; omega
      obtain ⟨x, hx⟩ := Option.ne_none_iff_exists'.mp hne
      obtain ⟨hx1, hx2⟩ := hfp.fail x hx
      have hstr : r.stream = r.mem.view r.buf ++ d := by rw [hstream, hx2]; simp
      have hsl : r.stream.length = l := by rw [hstr, hvb]
      have hdfl : r.src.chunks.flatten = d := by rw [hd1, hx2]; simp
      split
      · rename_i h2
        have hfe : r.src.fin = .eof := by
          have := h2.2; rw [hx] at this; simp at this; rw [← hx1]; exact this
        split
        · rename_i hll
          refine .short _ (by omega) ⟨⟨⟨?_, ?_⟩, ?_⟩, rfl, hfp.fin, hfp.eager, hview, ?_⟩ ?_ hfe ?_
          · simp only [Slc.from']; omega
          · simp only [Slc.from']; omega
          · rcases hblk2 with h | h
            · left; simp [Slc.from', h]
            · right; exact h
          · exact hsafe _ rfl (by simp [Slc.from']) (by simp only [Slc.from']; omega)
          · intro h; rw [h] at hsl; simp at hsl; omega
          · rw [hdfl]; apply List.eq_nil_of_length_eq_zero; omega
        · rename_i hll
          refine .panic _ (by omega) ?_ hfe ?_ hview
          · intro h; rw [h] at hsl; simp at hsl; omega
          · rw [hdfl]; intro h; simp [h] at hd2; omega
      · rename_i h2
        have hstep : Step r { r with mem := m2, src := src } := by
          have hl2 : (r.mem.block r.buf.blk).length ≤ (m2.block r.buf.blk).length := by
            rw [hfp.lens]; exact hp.lens _
          have hn2 : r.mem.blocks.length ≤ m2.blocks.length := by
            rw [hfp.nblk]; exact hp.nblk
          refine ⟨⟨⟨hwf.1, Nat.le_trans hwf.2 hl2⟩, ?_⟩, rfl, hfp.fin, hfp.eager, hview, ?_⟩
          · rcases hi.blk with h | h
            · left; exact h
            · right; exact Nat.lt_of_lt_of_le h hn2
          · intro h hs
            rcases hs with h0 | ⟨h1, h3⟩
            · left; exact h0
            · right; exact ⟨Nat.lt_of_lt_of_le h1 hn2, h3⟩
        rw [hx]
        simp only [Option.getD_some]
        by_cases hfe : r.src.fin = .eof
        · rw [hx1, hfe]
          have hl0 : l = 0 := by
            have : ¬ (l > 0) := fun h => h2 ⟨h, by rw [hx, hx1, hfe]⟩
            omega
          exact .eof _ (by omega) hstep ⟨hfe, List.eq_nil_of_length_eq_zero (by omega)⟩
        · rw [hx1]
          exact .other _ (by omega) hstep hfe

end SR
end Verif.Net
