import Verif.Proofs.ReflectReader

/-! The sizes the code assigns to types. -/
namespace Verif.Reflect
open Verif.Marshal Verif.Spec

/-- The running size after the fields `fs`, from `a`. -/
def accEnd (a : Option Nat) (fs : Fl) : Option Nat :=
  match a, sizeFl? fs with
  | some a, some n => some (a + n)
  | _, _ => none

theorem asSz_neg : asSz none < 0 := by decide
theorem asSz_nat (n : Nat) : asSz (some n) = n := rfl

theorem asSz_map (a : Option Nat) (n : Nat) :
    (if 0 ≤ asSz a then asSz a + (n : Int) else asSz a) = asSz (a.map (· + n)) := by
  cases a <;> simp [asSz]

/-- A prefix adds its length to a running size. -/
theorem dirSize_size (p : Pfx) (a : Option Nat) (n : Nat) (c : Int) (h : p = .ber → a = none ∨ BerSafe n) :
    dirSize n c (.size p) (asSz a) = asSz (a.map (· + pfxLen p n)) := by
  cases a with
  | none => cases p <;> simp [dirSize, asSz]
  | some a =>
    cases p <;> simp [dirSize, asSz, pfxLen]
    have := varsize_eq n (by simpa using h rfl)
    rw [if_neg (by omega), this]

theorem dirSize_cnt (p : Pfx) (a : Option Nat) (s : Int) (c : Nat) (h : p = .ber → a = none ∨ BerSafe c)
    (h8 : p = .i8 → a = none) :
    dirSize s c (.cnt p) (asSz a) = asSz (a.map (· + pfxLen p c)) := by
  cases a with
  | none => cases p <;> simp [dirSize, asSz]
  | some a =>
    cases p <;> simp [dirSize, asSz, pfxLen] at h8 ⊢
    have := varsize_eq c (by simpa using h rfl)
    rw [if_neg (by omega), this]

theorem accEnd_cons (g : Tag) (t : Ty) (fs : Fl) (a : Option Nat) (n : Nat)
    (h : sizeFl? (.cons g t fs) = (sizeFl? fs).map (n + ·)) :
    accEnd (a.map (· + n)) fs = accEnd a (.cons g t fs) := by
  unfold accEnd
  rw [h]
  cases a <;> cases sizeFl? fs <;> simp [Nat.add_assoc]

theorem accEnd_cons_none (g : Tag) (t : Ty) (fs : Fl) (a : Option Nat)
    (h : sizeFl? (.cons g t fs) = none) : accEnd none fs = accEnd a (.cons g t fs) := by
  unfold accEnd
  rw [h]
  cases a <;> rfl


theorem codeFl_neg : (fs : Fl) → codeFl (-1) fs = -1
  | .nil => by simp [codeFl]
  | .cons .hidden t fs => by simp only [codeFl]; exact codeFl_neg fs
  | .cons .skip t fs => by simp only [codeFl]; exact codeFl_neg fs
  | .cons (.use b d) t fs => by
    have e : (if b = true then (-1 : Int) else -1) = -1 := by split <;> rfl
    simp only [codeFl, e, dirSize_neg]
    simpa using codeFl_neg fs

theorem accEnd_none (fs : Fl) : accEnd none fs = none := rfl

mutual
/-- Where the size is computed rightly. -/
theorem sized_exact : (t : Ty) → Sized t → codeSz t = asSz (size? t)
  | .scal k, _ => by simp [codeSz, size?, asSz]
  | .str, _ => by simp [codeSz, size?, asSz]
  | .sl t, _ => by simp [codeSz, size?, asSz]
  | .ptr t, _ => by simp [codeSz, size?, asSz]
  | .arr n t, h => by
    have := sized_exact t (by simpa [Sized] using h)
    cases hs : size? t <;> simp [codeSz, this, hs, size?, asSz]
  | .struct fs, h => by
    have := sizedFl_exact fs (some 0) (by simpa [Sized] using h)
    have e : asSz (some 0) = 0 := rfl
    rw [e] at this
    simp only [codeSz, this, accEnd, size?]
    cases sizeFl? fs <;> simp
theorem sizedFl_exact : (fs : Fl) → ∀ a, SizedFl a fs → codeFl (asSz a) fs = asSz (accEnd a fs)
  | .nil, a, _ => by cases a <;> simp [codeFl, accEnd, sizeFl?]
  | .cons .hidden t fs, a, h => by
    have := sizedFl_exact fs a (by simpa [SizedFl] using h)
    simpa [codeFl, accEnd, sizeFl?] using this
  | .cons .skip t fs, a, h => by
    have := sizedFl_exact fs a (by simpa [SizedFl] using h)
    simpa [codeFl, accEnd, sizeFl?] using this
  | .cons (.use true d) t fs, a, h => by
    have e : accEnd a (.cons (.use true d) t fs) = none := by cases a <;> simp [accEnd, sizeFl?]
    rw [e]
    simpa [codeFl, dirSize_neg, asSz] using codeFl_neg fs
  | .cons (.use false .no) t fs, a, h => by
    have e : accEnd a (.cons (.use false .no) t fs) = none := by cases a <;> simp [accEnd, sizeFl?]
    rw [e]
    simpa [codeFl, dirSize, asSz] using codeFl_neg fs
  | .cons (.use false .none) t fs, a, h => by
    simp only [SizedFl] at h
    have hz := sized_exact t h.1
    cases hs : size? t with
    | some n =>
      rw [hs] at h hz
      have := sizedFl_exact fs _ h.2
      rw [accEnd_cons (.use false .none) t fs a n (by simp [sizeFl?, hs]; cases sizeFl? fs <;> simp), ← asSz_map] at this
      rw [← this]
      simp only [codeFl, dirSize, Bool.false_eq_true, if_false, hz, asSz_nat]
      split <;> rfl
    | none =>
      rw [hs] at h hz
      rw [← accEnd_cons_none (.use false .none) t fs a (by simp [sizeFl?, hs]), accEnd_none]
      simp only [codeFl, dirSize, Bool.false_eq_true, if_false, hz]
      rcases h.2.1 with rfl | rfl <;> simpa [asSz] using codeFl_neg fs
  | .cons (.use false (.size p)) t fs, a, h => by
    simp only [SizedFl] at h
    have hz := sized_exact t h.1
    cases hs : size? t with
    | some n =>
      rw [hs] at h hz
      simp only at h
      have := sizedFl_exact fs _ h.2.2
      rw [accEnd_cons (.use false (.size p)) t fs a _ (by simp [sizeFl?, hs]; cases sizeFl? fs <;> simp [Nat.add_assoc])] at this
      have hd := dirSize_size p a n (asSz (count? t)) h.2.1
      have e : a.map (· + (pfxLen p n + n)) = (a.map (· + pfxLen p n)).map (· + n) := by
        cases a <;> simp [Nat.add_assoc]
      rw [e, ← asSz_map] at this
      rw [← this]
      simp only [codeFl, Bool.false_eq_true, if_false, hz, asSz_nat, hd]
      split <;> rfl
    | none =>
      rw [hs] at h hz
      simp only at h
      rw [← accEnd_cons_none (.use false (.size p)) t fs a (by simp [sizeFl?, hs]), accEnd_none]
      have hd : dirSize (asSz none) (asSz (count? t)) (.size p) (asSz a) = -1 := by
        rcases h.2.1 with rfl | rfl
        · simp [dirSize, asSz]
        · exact dirSize_neg _ _ _
      simp only [codeFl, Bool.false_eq_true, if_false, hz, hd]
      simpa [asSz] using codeFl_neg fs
  | .cons (.use false (.cnt p)) t fs, a, h => by
    simp only [SizedFl] at h
    have hz := sized_exact t h.1
    cases hc : count? t with
    | some c =>
      rw [hc] at h
      cases hs : size? t with
      | some n =>
        rw [hs] at h hz
        simp only at h
        have := sizedFl_exact fs _ h.2.2.2
        rw [accEnd_cons (.use false (.cnt p)) t fs a _ (by simp [sizeFl?, hs, hc]; cases sizeFl? fs <;> simp [Nat.add_assoc])] at this
        have hd := dirSize_cnt p a (asSz (some n)) c h.2.1 h.2.2.1
        have e : a.map (· + (pfxLen p c + n)) = (a.map (· + pfxLen p c)).map (· + n) := by
          cases a <;> simp [Nat.add_assoc]
        rw [e, ← asSz_map] at this
        rw [← this]
        rw [asSz_nat] at hd
        simp only [codeFl, Bool.false_eq_true, if_false, hz, hc, asSz_nat, hd]
        split <;> rfl
      | none =>
        rw [hs] at h hz
        simp only at h
        obtain ⟨_, rfl, _⟩ := h
        rw [accEnd_none]
        have e : asSz none = -1 := rfl
        simp only [codeFl, Bool.false_eq_true, if_false, e, dirSize_neg]
        simpa using codeFl_neg fs
    | none =>
      rw [hc] at h
      simp only at h
      rw [← accEnd_cons_none (.use false (.cnt p)) t fs a (by simp [sizeFl?, hc]), accEnd_none]
      have hd : dirSize (codeSz t) (asSz none) (.cnt p) (asSz a) = -1 := by
        rcases h.2.1 with rfl | rfl
        · simp [dirSize, asSz]
        · exact dirSize_neg _ _ _
      simp only [codeFl, Bool.false_eq_true, if_false, hc, hd]
      simpa [asSz] using codeFl_neg fs
end

mutual
/-- The writer of any type declares the size `codeSz`. -/
theorem tw_sz : (t : Ty) → ∀ x, tw t = some x → x.sz = codeSz t ∧ x.cnt = asSz (count? t)
  | .scal k, x, h => by
    simp [tw] at h; subst h
    exact ⟨by simp [scalW, codeSz, kindSz_eq], rfl⟩
  | .str, x, h => by
    simp [tw] at h; subst h
    exact ⟨by simp [strW, fillauto_sz, codeSz], rfl⟩
  | .arr n t, x, h => by
    simp only [tw] at h
    cases he : tw t with
    | none => simp [he] at h
    | some e =>
      simp only [he, Option.some.injEq] at h
      subst h
      exact ⟨by simp [arrW, fillauto_sz, codeSz, (tw_sz t e he).1], rfl⟩
  | .sl t, x, h => by
    simp only [tw] at h
    cases he : tw t with
    | none => simp [he] at h
    | some e =>
      simp only [he, Option.some.injEq] at h
      subst h
      exact ⟨by simp [slW, fillauto_sz, codeSz], rfl⟩
  | .ptr t, x, h => by
    simp only [tw] at h
    cases he : tw t with
    | none => simp [he] at h
    | some e =>
      simp only [he, Option.some.injEq] at h
      subst h
      exact ⟨by simp [ptrW, codeSz], rfl⟩
  | .struct fs, x, h => by
    simp only [tw] at h
    cases he : twFl 0 false fs with
    | none => simp [he] at h
    | some q =>
      obtain ⟨s, l⟩ := q
      simp only [he, Option.some.injEq] at h
      subst h
      have := twFl_sz fs 0 false s l he
      exact ⟨by simp [structW, fillauto_sz, codeSz, this], rfl⟩
theorem twFl_sz : (fs : Fl) → ∀ s b s' l, twFl s b fs = some (s', l) → s' = codeFl s fs
  | .nil, s, b, s', l, h => by simp [twFl] at h; simp [codeFl, h.1]
  | .cons .hidden t fs, s, b, s', l, h => by
    simp only [twFl] at h
    cases he : twFl s b fs with
    | none => simp [he] at h
    | some q =>
      obtain ⟨s1, l1⟩ := q
      simp only [he, Option.some.injEq, Prod.mk.injEq] at h
      rw [← h.1, twFl_sz fs s b s1 l1 he]; simp [codeFl]
  | .cons .skip t fs, s, b, s', l, h => by
    simp only [twFl] at h
    split at h
    · simp at h
    cases he : twFl s b fs with
    | none => simp [he] at h
    | some q =>
      obtain ⟨s1, l1⟩ := q
      simp only [he, Option.some.injEq, Prod.mk.injEq] at h
      rw [← h.1, twFl_sz fs s b s1 l1 he]; simp [codeFl]
  | .cons (.use ber d) t fs, s, b, s', l, h => by
    simp only [twFl] at h
    split at h
    · simp at h
    cases hx : tw t with
    | none => simp [hx] at h
    | some x =>
      have hz := tw_sz t x hx
      simp only [hx, hz.1, hz.2] at h
      simp only [codeFl]
      by_cases c : codeSz t = 0 ∧ d.bare = true
      · rw [if_pos c] at h
        cases he : twFl (dirSize (codeSz t) (asSz (count? t)) d (if ber = true then -1 else s)) (decide (d = .no)) fs with
        | none => simp [he] at h
        | some q =>
          obtain ⟨s1, l1⟩ := q
          simp only [he, Option.some.injEq, Prod.mk.injEq] at h
          rw [← h.1, twFl_sz fs _ _ s1 l1 he, c.1]
          simp
      · rw [if_neg c] at h
        cases hy : (if ber = true then berFor t else some x) with
        | none => simp [hy] at h
        | some y =>
          simp only [hy] at h
          split at h
          · simp at h
          · rename_i s1 l1 he
            simp only [Option.some.injEq, Prod.mk.injEq] at h
            rw [← h.1, twFl_sz fs _ _ s1 l1 he]
            by_cases c2 : 0 ≤ dirSize (codeSz t) (asSz (count? t)) d (if ber = true then -1 else s)
            · rw [if_pos c2, if_pos c2]
            · rw [if_neg c2, if_neg c2]
end

end Verif.Reflect
