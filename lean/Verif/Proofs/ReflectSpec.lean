import Verif.Spec.Reflect
import Verif.Proofs.Ber
import Verif.Proofs.Reader

/-! Facts about the layout specification. -/
namespace Verif.Spec
open Verif.Marshal Verif.Reflect

theorem pfxBytes_length (p : Pfx) (n : Nat) : (pfxBytes p n).length = pfxLen p n := by
  cases p <;> simp [pfxBytes, pfxLen, le_length, ber_length]

theorem not_counted {t : Ty} {n : Nat} (h : size? t = some n) : counted t = false := by
  cases t <;> simp_all [size?, counted]

theorem countOf_fixed {t : Ty} {c : Nat} (h : count? t = some c) (v : Val) : countOf t v = c := by
  cases t <;> simp_all [count?, countOf]

theorem flatten_const {α} (l : List α) (f : α → Bytes) (n : Nat) (h : ∀ x ∈ l, (f x).length = n) :
    ((l.map f).flatten).length = l.length * n := by
  induction l with
  | nil => simp
  | cons x l ih =>
    simp only [List.map_cons, List.flatten_cons, List.length_append, List.length_cons, Nat.add_mul]
    rw [h x (by simp), ih (fun y hy => h y (by simp [hy]))]; omega

mutual
theorem pay_len : (t : Ty) → ∀ (n : Nat) (v : Val) (addr : Bool), size? t = some n → Fits addr t v →
    (pay t v).length = n
  | .scal k, n, v, addr, h, hf => by
    cases v <;> simp [Fits] at hf
    simp [size?] at h
    simp [pay, hf, h]
  | .str, n, v, addr, h, hf => by simp [size?] at h
  | .ptr _, n, v, addr, h, hf => by simp [size?] at h
  | .sl _, n, v, addr, h, hf => by simp [size?] at h
  | .arr m t, n, v, addr, h, hf => by
    cases v <;> simp only [Fits] at hf
    rename_i vs
    simp only [size?, Option.map_eq_some_iff] at h
    obtain ⟨a, ha, rfl⟩ := h
    obtain ⟨hl, _, hv⟩ := hf
    simp only [pay]
    rw [flatten_const vs _ a, hl]
    intro x hx
    simp only [withCnt, not_counted ha]
    exact pay_len t a x addr ha (hv x hx).1
  | .struct fs, n, v, addr, h, hf => by
    cases v <;> simp only [Fits] at hf
    simp only [size?] at h
    simp only [pay]
    exact payFl_len fs n _ addr h hf
theorem payFl_len : (fs : Fl) → ∀ (n : Nat) (vs : List Val) (addr : Bool), sizeFl? fs = some n →
    FitsFl addr fs vs → (payFl fs vs).length = n
  | .nil, n, vs, addr, h, hf => by
    cases vs <;> simp_all [FitsFl, sizeFl?, payFl]
  | .cons .hidden t fs, n, vs, addr, h, hf => by
    cases vs <;> simp only [FitsFl] at hf
    simp only [sizeFl?] at h
    simp only [payFl]
    exact payFl_len fs n _ addr h hf.2
  | .cons .skip t fs, n, vs, addr, h, hf => by
    cases vs <;> simp only [FitsFl] at hf
    simp only [sizeFl?] at h
    simp only [payFl]
    exact payFl_len fs n _ addr h hf.2
  | .cons (.use true d) t fs, n, vs, addr, h, hf => by simp [sizeFl?] at h
  | .cons (.use false .no) t fs, n, vs, addr, h, hf => by simp [sizeFl?] at h
  | .cons (.use false .none) t fs, n, vs, addr, h, hf => by
    cases vs <;> simp only [FitsFl] at hf
    rename_i v vs
    simp only [sizeFl?] at h
    split at h <;> simp at h
    rename_i a b ha hb
    subst h
    have h1 := pay_len t a v addr ha hf.1
    have h2 := payFl_len fs b vs addr hb hf.2.2
    simp [payFl, tagged, withCnt, not_counted ha, h1, h2]
  | .cons (.use false (.size p)) t fs, n, vs, addr, h, hf => by
    cases vs <;> simp only [FitsFl] at hf
    rename_i v vs
    simp only [sizeFl?] at h
    split at h <;> simp at h
    rename_i a b ha hb
    subst h
    have h1 := pay_len t a v addr ha hf.1
    have h2 := payFl_len fs b vs addr hb hf.2.2
    simp [payFl, tagged, pfxBytes_length, h1, h2]; omega
  | .cons (.use false (.cnt p)) t fs, n, vs, addr, h, hf => by
    cases vs <;> simp only [FitsFl] at hf
    rename_i v vs
    simp only [sizeFl?] at h
    split at h <;> simp at h
    rename_i c a b hc ha hb
    subst h
    have h1 := pay_len t a v addr ha hf.1
    have h2 := payFl_len fs b vs addr hb hf.2.2
    simp [payFl, tagged, pfxBytes_length, countOf_fixed hc, h1, h2]; omega
end

theorem pfxLen_pos (p : Pfx) (n : Nat) : 0 < pfxLen p n := by
  cases p <;> simp only [pfxLen] <;> try omega
  rw [berLen]; split <;> omega

theorem width_pos (k : Kind) : 0 < width k := by cases k <;> decide

theorem replicate_of_const {α} (l : List α) (z : α) (h : ∀ x ∈ l, x = z) : l = List.replicate l.length z := by
  induction l with
  | nil => rfl
  | cons x l ih =>
    rw [h x (by simp), List.length_cons, List.replicate_succ, ← ih (fun y hy => h y (by simp [hy]))]

mutual
/-- A type of size zero has only its zero value. -/
theorem zero_of_size : (t : Ty) → ∀ (v : Val) (addr : Bool), size? t = some 0 → Fits addr t v → v = zero t
  | .scal k, v, addr, h, hf => by
    have := width_pos k
    simp [size?] at h; omega
  | .str, v, addr, h, hf => by simp [size?] at h
  | .ptr _, v, addr, h, hf => by simp [size?] at h
  | .sl _, v, addr, h, hf => by simp [size?] at h
  | .arr m t, v, addr, h, hf => by
    cases v <;> simp only [Fits] at hf
    rename_i vs
    simp only [size?, Option.map_eq_some_iff] at h
    obtain ⟨a, ha, hm⟩ := h
    obtain ⟨hl, _, hv⟩ := hf
    simp only [zero]
    rcases Nat.mul_eq_zero.1 hm with rfl | rfl
    · rw [List.length_eq_zero_iff.1 hl]; rfl
    · rw [replicate_of_const vs (zero t) (fun x hx => zero_of_size t x addr ha (hv x hx).1), hl]
  | .struct fs, v, addr, h, hf => by
    cases v <;> simp only [Fits] at hf
    simp only [size?] at h
    simp only [zero]
    rw [zeros_of_size fs _ addr h hf]
theorem zeros_of_size : (fs : Fl) → ∀ (vs : List Val) (addr : Bool), sizeFl? fs = some 0 →
    FitsFl addr fs vs → vs = zeros fs
  | .nil, vs, addr, h, hf => by
    cases vs <;> simp_all [FitsFl, zeros]
  | .cons .hidden t fs, vs, addr, h, hf => by
    cases vs <;> simp only [FitsFl] at hf
    simp only [sizeFl?] at h
    simp only [zeros]
    rw [hf.1, zeros_of_size fs _ addr h hf.2]
  | .cons .skip t fs, vs, addr, h, hf => by
    cases vs <;> simp only [FitsFl] at hf
    simp only [sizeFl?] at h
    simp only [zeros]
    rw [hf.1, zeros_of_size fs _ addr h hf.2]
  | .cons (.use true d) t fs, vs, addr, h, hf => by simp [sizeFl?] at h
  | .cons (.use false .no) t fs, vs, addr, h, hf => by simp [sizeFl?] at h
  | .cons (.use false .none) t fs, vs, addr, h, hf => by
    cases vs <;> simp only [FitsFl] at hf
    rename_i v vs
    simp only [sizeFl?] at h
    split at h <;> simp at h
    rename_i a b ha hb
    obtain ⟨rfl, rfl⟩ := h
    simp only [zeros]
    rw [zero_of_size t v addr ha hf.1, zeros_of_size fs vs addr hb hf.2.2]
  | .cons (.use false (.size p)) t fs, vs, addr, h, hf => by
    simp only [sizeFl?] at h
    split at h <;> simp at h
    rename_i a b ha hb
    have := pfxLen_pos p a; omega
  | .cons (.use false (.cnt p)) t fs, vs, addr, h, hf => by
    simp only [sizeFl?] at h
    split at h <;> simp at h
    rename_i c a b hc ha hb
    have := pfxLen_pos p c; omega
end

mutual
theorem bulky_size : (t : Ty) → bulky t = true → size? t ≠ some 0
  | .scal k, _ => by have := width_pos k; simp [size?]; omega
  | .str, _ => by simp [size?]
  | .ptr _, _ => by simp [size?]
  | .sl _, _ => by simp [size?]
  | .arr m t, h => by
    simp [bulky] at h
    have := bulky_size t h.2
    simp only [size?, ne_eq, Option.map_eq_some_iff, not_exists, not_and]
    intro a ha hm
    rcases Nat.mul_eq_zero.1 hm with rfl | rfl
    · exact h.1 rfl
    · exact this ha
  | .struct fs, h => by
    simp only [bulky] at h
    simp only [size?]
    exact bulkyFl_size fs h
theorem bulkyFl_size : (fs : Fl) → bulkyFl fs = true → sizeFl? fs ≠ some 0
  | .nil, h => by simp [bulkyFl] at h
  | .cons .hidden t fs, h => by
    simp only [bulkyFl] at h; simp only [sizeFl?]; exact bulkyFl_size fs h
  | .cons .skip t fs, h => by
    simp only [bulkyFl] at h; simp only [sizeFl?]; exact bulkyFl_size fs h
  | .cons (.use true d) t fs, h => by simp [sizeFl?]
  | .cons (.use false .no) t fs, h => by simp [sizeFl?]
  | .cons (.use false .none) t fs, h => by
    simp only [bulkyFl, Bool.or_eq_true] at h
    simp only [sizeFl?]
    split <;> simp
    rename_i a b ha hb
    intro h0 h1
    subst h0 h1
    rcases h with h | h
    · exact bulky_size t h ha
    · exact bulkyFl_size fs h hb
  | .cons (.use false (.size p)) t fs, h => by
    simp only [sizeFl?]
    split <;> simp
    rename_i a b ha hb
    have := pfxLen_pos p a; omega
  | .cons (.use false (.cnt p)) t fs, h => by
    simp only [sizeFl?]
    split <;> simp
    rename_i c a b hc ha hb
    have := pfxLen_pos p c; omega
end

theorem ber_pos (n : Nat) : 0 < (ber n).length := by simp [ber]

mutual
/-- A bulky type always takes a byte. -/
theorem bulky_len : (t : Ty) → ∀ (v : Val) (addr : Bool), bulky t = true → Fits addr t v →
    0 < (layout t v).length
  | .scal k, v, addr, h, hf => by
    cases v <;> simp [Fits] at hf
    rename_i s
    have := width_pos k
    simp [layout, withCnt, counted, pay, hf]; omega
  | .str, v, addr, h, hf => by simp [layout, withCnt, counted, le_length]; omega
  | .ptr _, v, addr, h, hf => by simp [bulky] at h
  | .sl _, v, addr, h, hf => by simp [layout, withCnt, counted, le_length]; omega
  | .arr m t, v, addr, h, hf => by
    cases v <;> simp only [Fits] at hf
    rename_i vs
    simp [bulky] at h
    obtain ⟨hl, _, hv⟩ := hf
    cases vs with
    | nil => simp at hl; omega
    | cons x xs =>
      have := bulky_len t x addr h.2 (hv x (by simp)).1
      simp only [layout, withCnt, counted, pay, List.map_cons, List.flatten_cons, List.length_append] at *
      simp at *
      omega
  | .struct fs, v, addr, h, hf => by
    cases v <;> simp only [Fits] at hf
    simp only [bulky] at h
    have := bulkyFl_len fs _ addr h hf
    simpa [layout, withCnt, counted, pay] using this
theorem bulkyFl_len : (fs : Fl) → ∀ (vs : List Val) (addr : Bool), bulkyFl fs = true → FitsFl addr fs vs →
    0 < (payFl fs vs).length
  | .nil, vs, addr, h, hf => by simp [bulkyFl] at h
  | .cons .hidden t fs, vs, addr, h, hf => by
    cases vs <;> simp only [FitsFl] at hf
    simp only [bulkyFl] at h; simp only [payFl]; exact bulkyFl_len fs _ addr h hf.2
  | .cons .skip t fs, vs, addr, h, hf => by
    cases vs <;> simp only [FitsFl] at hf
    simp only [bulkyFl] at h; simp only [payFl]; exact bulkyFl_len fs _ addr h hf.2
  | .cons (.use b (.size p)) t fs, vs, addr, h, hf => by
    cases vs with
    | nil => cases b <;> simp [FitsFl] at hf
    | cons v vs =>
      simp only [payFl, tagged, List.length_append, pfxBytes_length]
      have := pfxLen_pos p (if b = true then berPay v else pay t v).length
      omega
  | .cons (.use b (.cnt p)) t fs, vs, addr, h, hf => by
    cases vs with
    | nil => cases b <;> simp [FitsFl] at hf
    | cons v vs =>
      simp only [payFl, tagged, List.length_append, pfxBytes_length]
      have := pfxLen_pos p (countOf t v)
      omega
  | .cons (.use b .no) t fs, vs, addr, h, hf => by
    cases vs with
    | nil => cases b <;> simp [FitsFl] at hf
    | cons v vs =>
      simp only [bulkyFl] at h
      have : FitsFl addr fs vs := by cases b <;> simp only [FitsFl] at hf <;> exact hf.2.2
      have := bulkyFl_len fs vs addr h this
      simp only [payFl, List.length_append]; omega
  | .cons (.use true .none) t fs, vs, addr, h, hf => by
    cases vs <;> simp only [FitsFl] at hf
    rename_i v vs
    simp only [bulkyFl, Bool.or_eq_true, Bool.not_eq_true'] at h
    simp only [payFl, tagged, withCnt, List.length_append]
    rcases h with h | h
    · cases t with
      | scal k =>
        cases v <;> simp [FitsBer] at hf
        rename_i s
        have := ber_pos (natOf (.scal s))
        simp [berPay, counted]; omega
      | sl t => simp [counted, le_length]; omega
      | arr n t => simp [isArr] at h
      | str => simp [FitsBer] at hf
      | ptr t => simp [FitsBer] at hf
      | struct t => simp [FitsBer] at hf
    · have := bulkyFl_len fs vs addr h hf.2.2; omega
  | .cons (.use false .none) t fs, vs, addr, h, hf => by
    cases vs <;> simp only [FitsFl] at hf
    rename_i v vs
    simp only [bulkyFl, Bool.or_eq_true] at h
    simp only [payFl, tagged, List.length_append, Bool.false_eq_true, if_false]
    rcases h with h | h
    · have := bulky_len t v addr h hf.1
      simp only [layout] at this; omega
    · have := bulkyFl_len fs vs addr h hf.2.2; omega
end

end Verif.Spec
