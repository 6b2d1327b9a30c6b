import Verif.Proofs.Responses

namespace Verif.Net
open Verif

/-- Wire format facts needed to parse back a concatenation of frames. -/
structure Framing {α β : Type} (enc : α → Bytes) (out : α → β) (ok : α → Prop)
    (p : Bytes → Option (β × Bytes)) : Prop where
  whole : ∀ a r, ok a → p (enc a ++ r) = some (out a, r)
  cut : ∀ a c, ok a → c < (enc a).length → p ((enc a).take c) = none
  nil : p [] = none

theorem parseMany_frames {α β : Type} {enc : α → Bytes} {out : α → β} {ok : α → Prop}
    {p : Bytes → Option (β × Bytes)} (h : Framing enc out ok p) (as : List α)
    (hok : ∀ a ∈ as, ok a) (c k : Nat) (hk : as.length < k) :
    (Spec.parseMany p k ((as.map enc).flatten.take c)).1 =
        (as.map out).take (Spec.wholeWithin (as.map enc) c) ∧
    ((as.map enc).flatten.length ≤ c →
      (Spec.parseMany p k ((as.map enc).flatten.take c)) = (as.map out, [])) := by
  induction as generalizing c k with
  | nil =>
    obtain ⟨k, rfl⟩ : ∃ j, k = j + 1 := ⟨k - 1, by simp at hk; omega⟩
    simp [Spec.parseMany, h.nil, Spec.wholeWithin]
  | cons a as ih =>
    obtain ⟨k, rfl⟩ : ∃ j, k = j + 1 := ⟨k - 1, by simp at hk; omega⟩
    have hoka := hok a (by simp)
    simp only [List.map_cons, List.flatten_cons, Spec.wholeWithin]
    by_cases hc : (enc a).length ≤ c
    · rw [List.take_append, List.take_of_length_le hc]
      simp only [Spec.parseMany, h.whole _ _ hoka, hc, if_true, List.take_succ_cons]
      obtain ⟨i1, i2⟩ := ih (fun b hb => hok b (by simp [hb])) (c - (enc a).length) k
        (by simp at hk; omega)
      refine ⟨by rw [i1], fun hle => ?_⟩
      rw [i2 (by simp at hle ⊢; omega)]
    · rw [List.take_append_of_le_length (by omega)]
      have hcut := h.cut a c hoka (by omega)
      simp only [Spec.parseMany, hcut, hc, if_false, List.take_zero]
      refine ⟨trivial, fun hle => ?_⟩
      simp at hle; omega

theorem reqFrame_length (q : Spec.ReqMsg) : (Spec.reqFrame q).length = 12 + q.body.length := by
  simp [Spec.reqFrame]; omega

theorem reqFraming : Framing Spec.reqFrame id (fun q => q.body.length < 2 ^ 32) Spec.parseReq := by
  constructor
  · intro q r hq
    have hw := header_words q.msg (UInt32.ofNat q.body.length) q.id (q.body ++ r)
    have he : Spec.reqFrame q ++ r = Spec.le32 q.msg ++ Spec.le32 (UInt32.ofNat q.body.length) ++
      Spec.le32 q.id ++ (q.body ++ r) := by simp [Spec.reqFrame]
    have hlen : (UInt32.ofNat q.body.length).toNat = q.body.length := by
      simp [UInt32.toNat_ofNat', Nat.mod_eq_of_lt hq]
    have hl : (Spec.reqFrame q ++ r).length = 12 + q.body.length + r.length := by
      simp [reqFrame_length]
    rw [parseReq_some _ (by omega) (by rw [he, hw.2.1, hlen, ← he, hl]; omega)]
    rw [he, hw.1, hw.2.1, hw.2.2, hlen]
    have hd : List.drop 12 (Spec.le32 q.msg ++ Spec.le32 (UInt32.ofNat q.body.length) ++
      Spec.le32 q.id ++ (q.body ++ r)) = q.body ++ r := by
      apply List.drop_left' ; simp
    rw [hd]; simp
  · intro q c hq hc
    apply parseReq_none
    by_cases h12 : c < 12
    · left; simp; omega
    · right
      rw [u32At_take _ _ _ (by omega)]
      have hw := header_words q.msg (UInt32.ofNat q.body.length) q.id q.body
      have hlen : (UInt32.ofNat q.body.length).toNat = q.body.length := by
        simp [UInt32.toNat_ofNat', Nat.mod_eq_of_lt hq]
      rw [Spec.reqFrame, hw.2.1, hlen, ← Spec.reqFrame]
      rw [reqFrame_length] at hc
      simp [reqFrame_length]; omega
  · rfl

/-- bytes of the return code in a response body -/
def codeBytes (w : Spec.Width) (q : Spec.RespMsg) : Bytes :=
  if q.msg = Spec.pingType then [] else (Spec.le32 q.code).take w.bytes

theorem respFrame_eq (w : Spec.Width) (q : Spec.RespMsg) : Spec.respFrame w q =
    Spec.reqFrame ⟨q.msg, q.id, codeBytes w q ++ q.body⟩ := by
  simp [Spec.respFrame, Spec.reqFrame, codeBytes]

theorem parseResp_of_parseReq (w : Spec.Width) (s : Bytes) :
    Spec.parseResp w s = (Spec.parseReq s).map (fun (q, r) =>
      (⟨q.msg, q.id, (Spec.splitCode w q.msg q.body).1, (Spec.splitCode w q.msg q.body).2⟩, r)) := by
  unfold Spec.parseResp Spec.parseReq
  split
  · rfl
  · dsimp only
    split <;> simp

theorem byteAt_le32 (x : UInt32) : UInt32.ofNat (Spec.byteAt (Spec.le32 x) 0) = x &&& 0xFF := by
  apply UInt32.toNat.inj
  simp [Spec.byteAt, Spec.le32, UInt32.toNat_and]
  have h : x.toNat &&& 255 = x.toNat % 256 := Nat.and_two_pow_sub_one_eq_mod x.toNat 8
  rw [h]
  omega

theorem splitCode_code (w : Spec.Width) (q : Spec.RespMsg) :
    Spec.splitCode w q.msg (codeBytes w q ++ q.body) = ((Spec.received w q).code, q.body) := by
  unfold Spec.splitCode codeBytes Spec.received
  by_cases hp : q.msg = Spec.pingType
  · simp [hp]
  · simp only [hp, if_false]
    cases w
    · simp [Spec.Width.bytes, Spec.Width.carry]
    · have h1 : (Spec.le32 q.code).take 1 = [q.code.toUInt8] := rfl
      simp only [Spec.Width.bytes, h1]
      have := byteAt_le32 q.code
      simp only [Spec.Width.carry, ← this]
      simp [Spec.byteAt, Spec.le32]
    · have h4 : (Spec.le32 q.code).take 4 = Spec.le32 q.code := rfl
      simp only [Spec.Width.bytes, h4, Spec.Width.carry]
      rw [if_neg (by simp), u32At_le32]
      simp [Spec.le32]

theorem respFraming (w : Spec.Width) : Framing (Spec.respFrame w) (Spec.received w)
    (fun q => q.body.length + 4 < 2 ^ 32) (Spec.parseResp w) := by
  have hcl : ∀ q, (codeBytes w q).length ≤ 4 := by
    intro q; unfold codeBytes; split <;> simp; omega
  constructor
  · intro q r hq
    rw [parseResp_of_parseReq, respFrame_eq, reqFraming.whole _ r (by
      have := hcl q; simp at hq ⊢; omega)]
    simp only [Option.map_some, id, splitCode_code, Spec.received]
  · intro q c hq hc
    rw [parseResp_of_parseReq, respFrame_eq, reqFraming.cut _ c (by
      have := hcl q; simp at hq ⊢; omega) (by rwa [← respFrame_eq])]
    rfl
  · rfl

/-! writing -/

def specReq (q : Req Bytes) : Spec.ReqMsg := ⟨q.msg, q.id, q.body⟩
def specResp (q : Resp Bytes) : Spec.RespMsg := ⟨q.msg, q.id, q.code, q.body⟩

theorem writeRequest_post (w : BufW) (q : Req Bytes) (hi : w.Inv) :
    BufW.Post w (Spec.reqFrame (specReq q)) (writeRequest w q) := by
  unfold writeRequest Spec.reqFrame
  rw [le32_eq, le32_eq, le32_eq]
  exact BufW.post_seq (BufW.write3Uint32_post w _ _ _ hi) (fun w' hi' => BufW.write_post w' _ hi')

theorem writeResponse_post (rc : RCType) (w : BufW) (q : Resp Bytes) (hi : w.Inv)
    (h : rc = .rc0 ∨ (rc = .rc4 ∧ q.msg ≠ pingType)) :
    BufW.Post w (Spec.respFrame rc.width (specResp q)) (writeResponse rc w q) := by
  unfold writeResponse
  have hlen : (codeBytes rc.width (specResp q)).length + q.body.length =
      q.body.length + (if q.msg = pingType then 0 else rc.rcl) := by
    rcases h with rfl | ⟨rfl, hp⟩
    · simp [codeBytes, RCType.width, Spec.Width.bytes, RCType.rcl]
    · have hp' : ¬ (specResp q).msg = Spec.pingType := hp
      simp [codeBytes, RCType.width, Spec.Width.bytes, RCType.rcl, hp', hp]; omega
  have hfr : Spec.respFrame rc.width (specResp q) =
      (putU32 q.msg ++ putU32 (UInt32.ofNat (q.body.length +
        (if q.msg = pingType then 0 else rc.rcl))) ++ putU32 q.id) ++
        (codeBytes rc.width (specResp q) ++ q.body) := by
    rw [← hlen]
    simp [Spec.respFrame, codeBytes, le32_eq, specResp]
  rw [hfr]
  refine BufW.post_seq (BufW.write3Uint32_post w _ _ _ hi) ?_
  intro w1 hi1
  rcases h with rfl | ⟨rfl, hp⟩
  · simp only [codeBytes, RCType.width, Spec.Width.bytes, List.take_zero, ite_self, List.nil_append]
    exact BufW.write_post w1 _ hi1
  · have hp' : ¬ (specResp q).msg = Spec.pingType := hp
    simp only [codeBytes, RCType.width, Spec.Width.bytes, hp', if_false]
    have h4 : (Spec.le32 (specResp q).code).take 4 = putU32 q.code := by
      rw [← le32_eq]; rfl
    rw [h4]
    exact BufW.post_seq (BufW.writeUint32_post w1 _ hi1) (fun w' hi' => BufW.write_post w' _ hi')

theorem writeMany_post {α : Type} {wr : BufW → α → BufW × Out Unit} {enc : α → Bytes}
    {ok : α → Prop} (h : ∀ w a, w.Inv → ok a → BufW.Post w (enc a) (wr w a)) (as : List α)
    (hok : ∀ a ∈ as, ok a) (w : BufW) (hi : w.Inv) :
    BufW.Post w (as.map enc).flatten (writeMany wr as w) ∧
    (∀ w', writeMany wr as w = (w', .ok ()) → w'.wr = 0) := by
  induction as generalizing w with
  | nil =>
    obtain ⟨h1, h2⟩ := BufW.flush_post w hi
    exact ⟨h1, fun w' hw => (h2 w' hw).1⟩
  | cons a as ih =>
    have h1 := h w a hi (hok a (by simp))
    rw [writeMany]
    constructor
    · exact BufW.post_seq h1 (fun w' hi' => (ih (fun b hb => hok b (by simp [hb])) w' hi').1)
    · intro w' hw
      match hm : wr w a with
      | (w1, .ok ()) =>
        rw [hm] at h1 hw
        simp only [BufW.andThen] at hw
        exact (ih (fun b hb => hok b (by simp [hb])) w1 h1.1).2 w' hw
      | (w1, .err e) => rw [hm] at hw; simp [BufW.andThen] at hw
      | (w1, .panic) => rw [hm] at hw; simp [BufW.andThen] at hw

end Verif.Net
