import Verif.Proofs.Frames

namespace Verif.Net
open Verif

def RCType.width : RCType → Spec.Width
  | .rc0 => .zero | .rc1 => .one | .rc4 => .four

theorem parseResp_none (w : Spec.Width) (s : Bytes)
    (h : s.length < 12 ∨ s.length - 12 < (Spec.u32At s 4).toNat) : Spec.parseResp w s = none := by
  unfold Spec.parseResp
  split
  · rfl
  · dsimp only; rw [if_pos (by simp; omega)]

theorem parseResp_some (w : Spec.Width) (s : Bytes) (h : 12 ≤ s.length)
    (h2 : (Spec.u32At s 4).toNat ≤ s.length - 12) :
    Spec.parseResp w s =
      let cb := Spec.splitCode w (Spec.u32At s 0) ((s.drop 12).take (Spec.u32At s 4).toNat)
      some (⟨Spec.u32At s 0, Spec.u32At s 8, cb.1, cb.2⟩,
        (s.drop 12).drop (Spec.u32At s 4).toNat) := by
  unfold Spec.parseResp
  rw [if_neg (by omega)]
  dsimp only
  rw [if_neg (by simp; omega)]

theorem readResponse_refines (rc : RCType) (hrc : rc ≠ .rc1) :
    Refines (readResponse rc) (·.body)
      (fun q b => (⟨q.msg, q.id, q.code, b⟩ : Spec.RespMsg)) (Spec.parseResp rc.width) := by
  intro r hi
  unfold readResponse
  rcases read_cases r 12 hi with ⟨r1, hs, hr, hn, hst, hview, hsafe, hstr⟩ | ⟨hn, hf⟩
  · rw [hr]
    dsimp only
    have hne : r.stream ≠ [] := by intro h; rw [h] at hn; simp at hn
    rw [hview, getU32_drop, getU32_zero, u32At_take _ _ _ (by omega), u32At_take _ _ _ (by omega)]
    have hl1 : r1.stream.length = r.stream.length - 12 := by rw [hstr]; simp
    -- the final body read, after the code has been taken
    have fin : ∀ (r2 : SR) (code : UInt32) (k : Nat) (bl : UInt32), SR.Step r r2 → r2.Safe hs →
        r2.mem.view hs = r.stream.take 12 →
        r2.stream = (r.stream.drop 12).drop k → bl.toNat = (Spec.u32At r.stream 4).toNat - k →
        k ≤ (Spec.u32At r.stream 4).toNat → k ≤ r.stream.length - 12 →
        ((Spec.u32At r.stream 4).toNat ≤ r.stream.length - 12 →
          Spec.splitCode rc.width (Spec.u32At r.stream 0)
          ((r.stream.drop 12).take (Spec.u32At r.stream 4).toNat) =
            (code, ((r.stream.drop 12).take (Spec.u32At r.stream 4).toNat).drop k)) →
        ∀ (X : SR × Out (Resp Slc)), (X = match r2.read bl.toNat with
          | (r3, .ok body) => (r3, .ok ⟨Spec.u32At r.stream 0,
              getU32 ((r3.mem.view hs).drop 8), code, body⟩)
          | (r3, .err e) => (r3, .err e)
          | (r3, .panic) => (r3, .panic)) →
        (∃ r' b, X = (r', Out.ok b) ∧ SR.Step r r' ∧ r'.Safe b.body ∧
          Spec.parseResp rc.width r.stream =
            some (⟨b.msg, b.id, b.code, r'.mem.view b.body⟩, r'.stream)) ∨
        (Spec.parseResp rc.width r.stream = none ∧ FailOK r X) := by
      intro r2 code k bl hst2 hsafe2 hv2 hstr2 hbl hk hk2 hsplit X hX
      rcases read_cases r2 bl.toNat hst2.inv with
        ⟨r3, bs, hr3, hn3, hst3, hview3, hsafe3, hstr3⟩ | ⟨hn3, hf3⟩
      · left
        rw [hr3] at hX
        refine ⟨_, _, hX, hst2.trans hst3, hsafe3, ?_⟩
        rw [hst3.view hs hsafe2, hv2, getU32_drop, u32At_take _ _ _ (by omega)]
        have hnn : (Spec.u32At r.stream 4).toNat ≤ r.stream.length - 12 := by
          rw [hstr2] at hn3; simp at hn3; omega
        rw [parseResp_some _ _ hn hnn, hsplit hnn]
        dsimp only
        rw [hview3, hstr3, hstr2, hbl]
        simp only [List.drop_take, List.drop_drop]
        rw [show 12 + k + ((Spec.u32At r.stream 4).toNat - k) =
          12 + (Spec.u32At r.stream 4).toNat by omega]
      · right
        refine ⟨parseResp_none _ _ (Or.inr ?_), ?_⟩
        · rw [hstr2] at hn3; simp at hn3; omega
        · rcases hf3 with ⟨r', e, h1, h2⟩ | ⟨r', h1, h2⟩
          · rw [h1] at hX; subst hX
            exact h2.lift hst2 hne rfl
          · rw [h1] at hX; subst hX
            exact h2.lift hst2 hne trivial
    have fin0 := fun code => fin r1 code 0 (Spec.u32At r.stream 4) hst hsafe hview (by simpa using hstr)
      rfl (by omega) (by omega)
    unfold readCode
    by_cases hping : Spec.u32At r.stream 0 ≠ pingType
    · rw [if_pos hping]
      have hping' : Spec.u32At r.stream 0 ≠ Spec.pingType := hping
      match rc, hrc with
      | .rc0, _ =>
        dsimp only
        exact fin0 0 (by simp [Spec.splitCode, RCType.width]) _ rfl
      | .rc4, _ =>
        dsimp only
        by_cases hb : Spec.u32At r.stream 4 < 4
        · rw [if_pos hb]
          have hb' : (Spec.u32At r.stream 4).toNat < 4 := by
            simpa [UInt32.lt_iff_toNat_lt] using hb
          refine fin0 rcProtocolError ?_ _ rfl
          intro hnn
          simp only [Spec.splitCode, hping', if_false, RCType.width]
          rw [if_pos (by simp; omega)]; simp [rcProtocolError]
        · rw [if_neg hb]
          have hb' : 4 ≤ (Spec.u32At r.stream 4).toNat := by
            simpa [UInt32.lt_iff_toNat_lt] using hb
          rcases read_cases r1 4 hst.inv with
            ⟨r2, cs, hr2, hn2, hst2, hview2, hsafe2, hstr2⟩ | ⟨hn2, hf2⟩
          · rw [hr2]
            dsimp only
            refine fin r2 _ 4 _ (hst.trans hst2) (hst2.safe _ hsafe) ?_ ?_ ?_ hb' (by omega) ?_ _ rfl
            · rw [hst2.view _ hsafe, hview]
            · rw [hstr2, hstr]
            · rw [UInt32.toNat_sub_of_le _ _ (by simpa [UInt32.le_iff_toNat_le] using hb')]
              rfl
            · intro hnn
              simp only [Spec.splitCode, hping', if_false, RCType.width]
              rw [if_neg (by simp; omega), hview2, hstr, getU32_zero, u32At_take _ _ _ (by omega),
                u32At_take _ _ _ (by omega)]
          · right
            refine ⟨parseResp_none _ _ (Or.inr (by omega)), ?_⟩
            rcases hf2 with ⟨r', e, h1, h2⟩ | ⟨r', h1, h2⟩
            · rw [h1]; exact h2.lift hst hne rfl
            · rw [h1]; exact h2.lift hst hne trivial
    · rw [if_neg hping]
      have hping' : Spec.u32At r.stream 0 = Spec.pingType := Decidable.not_not.mp hping
      dsimp only
      exact fin0 0 (by simp [Spec.splitCode, hping']) _ rfl
  · right
    refine ⟨parseResp_none _ _ (Or.inl hn), ?_⟩
    rcases hf with ⟨r', e, h1, h2⟩ | ⟨r', h1, h2⟩
    · rw [h1]; exact h2
    · rw [h1]; exact h2

/-- How a loop of at most `k` reads that returned `got` messages may end, when the source ends with
`fin` and `rest` is the unparsed remainder of the stream. -/
def Ending {α : Type} (parse : Bytes → Option (α × Bytes)) (fin : IOErr) (k got : Nat)
    (rest : Bytes) : Out Unit → Prop
  | .ok () => got = k
  | .err e => got < k ∧ parse rest = none ∧
      (fin = .eof → e = .eof ∨ (e = .unexpectedEOF ∧ rest ≠ [])) ∧ (fin ≠ .eof → e = fin)
  | .panic => got < k ∧ parse rest = none ∧ fin = .eof ∧ rest ≠ []

/-- The loop of reads computes the parse of the stream; earlier results keep their bytes. -/
theorem readMany_refines {β α : Type} {rd : SR → SR × Out β} {body : β → Slc} {val : β → Bytes → α}
    {parse : Bytes → Option (α × Bytes)} (h : Refines rd body val parse) (k : Nat) (r : SR)
    (hi : r.Inv) {r' bs o} (hr : readMany rd k r = (r', bs, o)) :
    (∀ x, r.Safe x → r'.mem.view x = r.mem.view x) ∧
    (bs.map (fun b => val b (r'.mem.view (body b)))) = (Spec.parseMany parse k r.stream).1 ∧
    (o = .ok () → r'.stream = (Spec.parseMany parse k r.stream).2) ∧
    Ending parse r.src.fin k bs.length (Spec.parseMany parse k r.stream).2 o := by
  induction k generalizing r r' bs o with
  | zero =>
    simp only [readMany, Prod.mk.injEq] at hr
    obtain ⟨rfl, rfl, rfl⟩ := hr
    simp [Spec.parseMany, Ending]
  | succ k ih =>
    rw [readMany] at hr
    rcases h r hi with ⟨r1, b, h1, h2, h3, h4⟩ | ⟨h1, hv, h2⟩
    · rw [h1] at hr
      dsimp only at hr
      match hm : readMany rd k r1 with
      | (r2, bs2, o2) =>
      rw [hm] at hr
      simp only [Prod.mk.injEq] at hr
      obtain ⟨rfl, rfl, rfl⟩ := hr
      obtain ⟨i1, i2, i3, i4⟩ := ih r1 h2.inv hm
      rw [h2.fin] at i4
      refine ⟨fun x hx => (i1 x (h2.safe x hx)).trans (h2.view x hx), ?_, ?_, ?_⟩
      · simp only [List.map_cons, Spec.parseMany, h4, i2, i1 _ h3]
      · simpa only [Spec.parseMany, h4] using i3
      · simp only [Spec.parseMany, h4]
        clear hm i3
        cases o2 with
        | ok u => simpa [Ending] using i4
        | err e => exact ⟨by simp [i4.1], i4.2⟩
        | panic => exact ⟨by simp [i4.1], i4.2⟩
    · match hrd : rd r, h2 with
      | (r1, .err e), h2 =>
        rw [hrd] at hr hv
        simp only [Prod.mk.injEq] at hr
        obtain ⟨rfl, rfl, rfl⟩ := hr
        refine ⟨hv, by simp [Spec.parseMany, h1], by simp, ?_⟩
        simp only [Spec.parseMany, h1]
        exact ⟨by simp, h1, h2⟩
      | (r1, .panic), h2 =>
        rw [hrd] at hr hv
        simp only [Prod.mk.injEq] at hr
        obtain ⟨rfl, rfl, rfl⟩ := hr
        refine ⟨hv, by simp [Spec.parseMany, h1], by simp, ?_⟩
        simp only [Spec.parseMany, h1]
        exact ⟨by simp, h1, h2⟩

end Verif.Net
