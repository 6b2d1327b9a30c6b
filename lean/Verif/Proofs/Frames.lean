import Verif.Proofs.SliceReader
import Verif.Proofs.BufWriter
import Verif.Spec.Frames

namespace Verif.Net
open Verif

theorem le32_eq (x : UInt32) : Spec.le32 x = putU32 x := by
  unfold Spec.le32 putU32
  have h := x.toNat_lt
  simp only [putLE]
  have h8 : ∀ (a : UInt32) (n : Nat), n < 256 → a.toNat % 256 = n → a.toUInt8 = UInt8.ofNat n := by
    intro a n hn h
    apply UInt8.toNat.inj
    simp [UInt32.toNat_toUInt8, h, Nat.mod_eq_of_lt hn]
  refine congr (congrArg _ (h8 _ _ (Nat.mod_lt _ (by omega)) rfl))
    (congr (congrArg _ (h8 _ _ (Nat.mod_lt _ (by omega)) ?_))
    (congr (congrArg _ (h8 _ _ (Nat.mod_lt _ (by omega)) ?_))
    (congr (congrArg _ (h8 _ _ (Nat.mod_lt _ (by omega)) ?_)) rfl))) <;>
  simp [UInt32.toNat_shiftRight, Nat.shiftRight_eq_div_pow, Nat.div_div_eq_div_mul]

theorem getLE_take4 (s : Bytes) :
    getLE (s.take 4) = Spec.byteAt s 0 + 2 ^ 8 * Spec.byteAt s 1 + 2 ^ 16 * Spec.byteAt s 2 +
      2 ^ 24 * Spec.byteAt s 3 := by
  match s with
  | [] => simp [getLE, Spec.byteAt]
  | [a] => simp [getLE, Spec.byteAt]
  | [a, b] => simp [getLE, Spec.byteAt]
  | [a, b, c] => simp [getLE, Spec.byteAt]; omega
  | a :: b :: c :: d :: r => simp [getLE, Spec.byteAt]; omega

theorem getU32_drop (s : Bytes) (k : Nat) : getU32 (s.drop k) = Spec.u32At s k := by
  unfold getU32 Spec.u32At
  rw [getLE_take4]
  simp [Spec.byteAt]

theorem getU32_zero (s : Bytes) : getU32 s = Spec.u32At s 0 := by
  simpa using getU32_drop s 0

theorem u32At_append_left (s r : Bytes) (k : Nat) (h : k + 4 ≤ s.length) :
    Spec.u32At (s ++ r) k = Spec.u32At s k := by
  unfold Spec.u32At Spec.byteAt
  rw [List.getElem?_append_left (by omega), List.getElem?_append_left (by omega),
    List.getElem?_append_left (by omega), List.getElem?_append_left (by omega)]

theorem u32At_append_right (s r : Bytes) (k : Nat) :
    Spec.u32At (s ++ r) (s.length + k) = Spec.u32At r k := by
  unfold Spec.u32At Spec.byteAt
  rw [List.getElem?_append_right (by omega), List.getElem?_append_right (by omega),
    List.getElem?_append_right (by omega), List.getElem?_append_right (by omega)]
  have h1 : s.length + k - s.length = k := by omega
  have h2 : ∀ j, s.length + k + j - s.length = k + j := by omega
  rw [h1, h2, h2, h2]

theorem u32At_take (s : Bytes) (n k : Nat) (h : k + 4 ≤ n) :
    Spec.u32At (s.take n) k = Spec.u32At s k := by
  unfold Spec.u32At Spec.byteAt
  rw [List.getElem?_take_of_lt (by omega), List.getElem?_take_of_lt (by omega),
    List.getElem?_take_of_lt (by omega), List.getElem?_take_of_lt (by omega)]

theorem u32At_le32 (x : UInt32) (r : Bytes) : Spec.u32At (Spec.le32 x ++ r) 0 = x := by
  rw [le32_eq, ← getU32_zero]; simp

@[simp] theorem le32_length (x : UInt32) : (Spec.le32 x).length = 4 := rfl

/-- The three header words in front of anything. -/
theorem header_words (a b c : UInt32) (r : Bytes) :
    Spec.u32At (Spec.le32 a ++ Spec.le32 b ++ Spec.le32 c ++ r) 0 = a ∧
    Spec.u32At (Spec.le32 a ++ Spec.le32 b ++ Spec.le32 c ++ r) 4 = b ∧
    Spec.u32At (Spec.le32 a ++ Spec.le32 b ++ Spec.le32 c ++ r) 8 = c := by
  refine ⟨?_, ?_, ?_⟩
  · simp only [List.append_assoc]; exact u32At_le32 _ _
  · simp only [List.append_assoc]
    exact (u32At_append_right (Spec.le32 a) _ 0).trans (u32At_le32 _ _)
  · rw [List.append_assoc]
    exact (u32At_append_right (Spec.le32 a ++ Spec.le32 b) _ 0).trans (u32At_le32 _ _)

/-- `p` is a legitimate failure for a stream that is too short; memory handed out before is
untouched. -/
def FailOK {β : Type} (r : SR) (p : SR × Out β) : Prop :=
  (∀ h, r.Safe h → p.1.mem.view h = r.mem.view h) ∧
  match p.2 with
  | .ok _ => False
  | .err e => (r.src.fin = .eof → e = .eof ∨ (e = .unexpectedEOF ∧ r.stream ≠ [])) ∧
      (r.src.fin ≠ .eof → e = r.src.fin)
  | .panic => r.src.fin = .eof ∧ r.stream ≠ []

theorem read_cases (r : SR) (n : Nat) (hi : r.Inv) :
    (∃ r' s, r.read n = (r', .ok s) ∧ n ≤ r.stream.length ∧ SR.Step r r' ∧
      r'.mem.view s = r.stream.take n ∧ r'.Safe s ∧ r'.stream = r.stream.drop n) ∨
    (r.stream.length < n ∧ ((∃ r' e, r.read n = (r', .err e) ∧ FailOK (β := Slc) r (r', .err e)) ∨
      (∃ r', r.read n = (r', .panic) ∧ FailOK (β := Slc) r (r', .panic)))) := by
  have h1 := SR.read_res r n hi
  generalize r.read n = q at h1
  cases h1 with
  | ok r' s hn hs hres hlen hsafe hst => exact Or.inl ⟨r', s, rfl, hn, hs, hres, hsafe, hst⟩
  | eof r' hn hs h =>
    exact Or.inr ⟨hn, Or.inl ⟨_, _, rfl, hs.view, fun _ => Or.inl rfl, fun h' => absurd h.1 h'⟩⟩
  | short r' hn hs hne h hf =>
    exact Or.inr ⟨hn, Or.inl ⟨_, _, rfl, hs.view, fun _ => Or.inr ⟨rfl, hne⟩,
      fun h' => absurd h h'⟩⟩
  | panic r' hn hne h hf hv => exact Or.inr ⟨hn, Or.inr ⟨_, rfl, hv, h, hne⟩⟩
  | other r' hn hs h =>
    exact Or.inr ⟨hn, Or.inl ⟨_, _, rfl, hs.view, fun h' => absurd h' h, fun _ => rfl⟩⟩

/-- Same failure at another result type. -/
def SameFail {β γ : Type} : Out β → Out γ → Prop
  | .err e, .err e' => e = e'
  | .panic, .panic => True
  | _, _ => False

/-- A failure of a later call is a legitimate failure of the whole call. -/
theorem FailOK.lift {β γ : Type} {r r1 : SR} {o : Out β} {o' : Out γ} {p : SR} (hs : SR.Step r r1)
    (hne : r.stream ≠ []) (h : FailOK r1 (p, o))
    (ho : SameFail o o') :
    FailOK r (p, o') := by
  obtain ⟨hv, h⟩ := h
  refine ⟨fun x hx => (hv x (hs.safe x hx)).trans (hs.view x hx), ?_⟩
  rw [hs.fin] at h
  clear hv
  cases o <;> cases o' <;> simp_all [SameFail]
  exact fun hf => (h.1 hf).imp id And.left

/-- A reading call refines a parser of the stream. `body` is the slice the caller may keep. -/
def Refines {β α : Type} (rd : SR → SR × Out β) (body : β → Slc) (val : β → Bytes → α)
    (parse : Bytes → Option (α × Bytes)) : Prop :=
  ∀ r, r.Inv →
    (∃ r' b, rd r = (r', .ok b) ∧ SR.Step r r' ∧ r'.Safe (body b) ∧
      parse r.stream = some (val b (r'.mem.view (body b)), r'.stream)) ∨
    (parse r.stream = none ∧ FailOK r (rd r))

theorem parseReq_some (s : Bytes) (h : 12 ≤ s.length)
    (h2 : (Spec.u32At s 4).toNat ≤ s.length - 12) :
    Spec.parseReq s = some (⟨Spec.u32At s 0, Spec.u32At s 8,
      (s.drop 12).take (Spec.u32At s 4).toNat⟩, (s.drop 12).drop (Spec.u32At s 4).toNat) := by
  unfold Spec.parseReq
  rw [if_neg (by omega)]
  dsimp only
  rw [if_neg (by simp; omega)]

theorem parseReq_none (s : Bytes)
    (h : s.length < 12 ∨ s.length - 12 < (Spec.u32At s 4).toNat) : Spec.parseReq s = none := by
  unfold Spec.parseReq
  split
  · rfl
  · dsimp only; rw [if_pos (by simp; omega)]

theorem readRequest_refines : Refines readRequest (·.body)
    (fun q b => (⟨q.msg, q.id, b⟩ : Spec.ReqMsg)) Spec.parseReq := by
  intro r hi
  unfold readRequest
  rcases read_cases r 12 hi with ⟨r1, hs, hr, hn, hst, hview, hsafe, hstr⟩ | ⟨hn, hf⟩
  · rw [hr]
    dsimp only
    have hne : r.stream ≠ [] := by intro h; rw [h] at hn; simp at hn
    rw [hview, getU32_drop, u32At_take _ _ _ (by omega)]
    rcases read_cases r1 (Spec.u32At r.stream 4).toNat hst.inv with
      ⟨r2, bs, hr2, hn2, hst2, hview2, hsafe2, hstr2⟩ | ⟨hn2, hf2⟩
    · left
      rw [hr2]
      refine ⟨_, _, rfl, hst.trans hst2, hsafe2, ?_⟩
      rw [hst2.view hs hsafe, hview, getU32_drop, getU32_zero, u32At_take _ _ _ (by omega),
          u32At_take _ _ _ (by omega)]
      dsimp only
      rw [hview2, hstr2, hstr]
      rw [hstr] at hn2; simp at hn2
      exact parseReq_some _ hn hn2
    · right
      refine ⟨parseReq_none _ (Or.inr (by rw [hstr] at hn2; simpa using hn2)), ?_⟩
      rcases hf2 with ⟨r', e, h1, h2⟩ | ⟨r', h1, h2⟩
      · rw [h1]; exact h2.lift hst hne rfl
      · rw [h1]; exact h2.lift hst hne trivial
  · right
    refine ⟨parseReq_none _ (Or.inl hn), ?_⟩
    rcases hf with ⟨r', e, h1, h2⟩ | ⟨r', h1, h2⟩
    · rw [h1]; exact h2
    · rw [h1]; exact h2

end Verif.Net
