import Verif.Spec.Reflect
import Verif.Model.Sbox

/-! A type whose tags make sense has a codec. -/
namespace Verif.Reflect
open Verif.Marshal Verif.Spec

theorem berForR_some (t : Ty) (h : berDest t) : ∃ y, berForR t = some y := by
  unfold berDest at h
  split at h
  all_goals first
    | exact absurd h id
    | simp [berForR, h]

mutual
theorem tr_tagged : (t : Ty) → Tagged t → ∃ x, tr t = some x
  | .scal k, _ => ⟨_, by rw [tr]⟩
  | .str, _ => ⟨_, by rw [tr]⟩
  | .arr n t, h => by
    obtain ⟨x, e⟩ := tr_tagged t (by simpa [Tagged] using h)
    exact ⟨_, by rw [tr, e]⟩
  | .sl t, h => by
    obtain ⟨x, e⟩ := tr_tagged t (by simpa [Tagged] using h)
    exact ⟨_, by rw [tr, e]⟩
  | .ptr t, h => by
    obtain ⟨x, e⟩ := tr_tagged t (by simpa [Tagged] using h)
    exact ⟨_, by rw [tr, e]⟩
  | .struct fs, h => by
    obtain ⟨x, e⟩ := trFl_tagged fs 0 false (by simpa [Tagged] using h) (by simp)
    exact ⟨_, by rw [tr, e]⟩
theorem trFl_tagged : (fs : Fl) → (size : Int) → (no : Bool) → TaggedFl fs → (no = true → onlyHidden fs = true) →
    ∃ x, trFl size no fs = some x
  | .nil, _, _, _, _ => ⟨_, by rw [trFl]⟩
  | .cons .hidden t fs, size, no, h, hn => by
    obtain ⟨x, e⟩ := trFl_tagged fs size no (by simpa [TaggedFl] using h) (by simpa [onlyHidden] using hn)
    exact ⟨_, by rw [trFl, e]⟩
  | .cons .skip t fs, size, no, h, hn => by
    have hno : no = false := by simpa [onlyHidden] using hn
    obtain ⟨x, e⟩ := trFl_tagged fs size no (by simpa [TaggedFl] using h) (by simp [hno])
    rw [trFl, e]
    simp [hno]
  | .cons (.use ber d) t fs, size, no, h, hn => by
    have hno : no = false := by simpa [onlyHidden] using hn
    simp only [TaggedFl] at h
    obtain ⟨h1, h2, h3, h4⟩ := h
    obtain ⟨x, e⟩ := tr_tagged t h1
    have fin : ∀ s, ∃ y, trFl s (d = .no) fs = some y :=
      fun s => trFl_tagged fs s (d = .no) h4 (fun hd => h3 (by simpa using hd))
    rw [trFl, e]
    simp only [hno, Bool.false_eq_true, if_false]
    split
    · obtain ⟨y, hy⟩ := fin (dirSize x.sz x.cnt d (if ber = true then -1 else size))
      rw [hy]; exact ⟨_, rfl⟩
    · have hb : ∃ y, (if ber = true then berForR t else some x) = some y := by
        split
        · rename_i hb; exact berForR_some t (h2 hb)
        · exact ⟨x, rfl⟩
      obtain ⟨y, hy⟩ := hb
      rw [hy]
      simp only
      obtain ⟨z, hz⟩ := fin (if 0 ≤ dirSize x.sz x.cnt d (if ber = true then -1 else size) then
        dirSize x.sz x.cnt d (if ber = true then -1 else size) + x.sz else
        dirSize x.sz x.cnt d (if ber = true then -1 else size))
      rw [hz]; exact ⟨_, rfl⟩
end

theorem tr_ne (t : Ty) (h : Tagged t) : tr t ≠ none := by
  obtain ⟨x, e⟩ := tr_tagged t h
  simp [e]

end Verif.Reflect

namespace Verif.Sbox
open Verif.Marshal Verif.Spec Verif.Reflect

theorem tupR_tagged : (t : Ty) → Tagged t → ∃ f, tupR t = some f
  | .scal k, _ => ⟨_, by rw [tupR]⟩
  | .str, _ => ⟨_, by rw [tupR]⟩
  | .arr n t, h => by
    obtain ⟨x, e⟩ := tr_tagged (.arr n t) h
    obtain ⟨y, e'⟩ := tr_tagged t (by simpa [Tagged] using h)
    exact ⟨_, by rw [tupR, e, e']⟩
  | .sl t, h => by
    obtain ⟨x, e⟩ := tr_tagged (.sl t) h
    obtain ⟨y, e'⟩ := tr_tagged t (by simpa [Tagged] using h)
    exact ⟨_, by rw [tupR, e, e']⟩
  | .struct fs, h => by
    obtain ⟨⟨s, l⟩, e⟩ := trFl_tagged fs 0 false (by simpa [Tagged] using h) (by simp)
    exact ⟨_, by rw [tupR, e]⟩
  | .ptr t, h => by
    obtain ⟨x, e⟩ := tr_tagged (.ptr t) h
    obtain ⟨f, e'⟩ := tupR_tagged t (by simpa [Tagged] using h)
    exact ⟨_, by rw [tupR, e, e']⟩

theorem tupR_ne (t : Ty) (h : Tagged t) : tupR t ≠ none := by
  obtain ⟨x, e⟩ := tupR_tagged t h
  simp [e]

end Verif.Sbox
