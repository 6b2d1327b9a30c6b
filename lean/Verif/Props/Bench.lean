import Verif.Spec.Bench
/-!
C140: the benchmark prints the statistics of all measurements.
-/
namespace Verif.Bench

theorem fresh_describes : Describes fresh [] := by
  constructor <;> simp [fresh]

theorem epoch_describes {a : Accum} {ms : List (UInt64 × Bool)} (h : Describes a ms) (d : UInt64) (g : Bool) :
    Describes (a.epoch d g) (ms ++ [(d, g)]) := by
  obtain ⟨h1, h2, h3, h4, h5, h6, h7⟩ := h
  refine ⟨?_, ?_, ?_, ?_, ?_, ?_, ?_⟩
  · simp [Accum.epoch, h1]
  · cases g <;> simp [Accum.epoch, h2, List.filter_append]
  · simp [Accum.epoch, h3]
  · intro m hm
    simp only [Accum.epoch, List.mem_append, List.mem_singleton, UInt64.le_iff_toNat_le, UInt64.lt_iff_toNat_lt, gt_iff_lt] at *
    rcases hm with hm | rfl
    · have := h4 m hm; split <;> omega
    · split <;> simp <;> omega
  · intro m hm
    simp only [Accum.epoch, List.mem_append, List.mem_singleton, UInt64.le_iff_toNat_le, UInt64.lt_iff_toNat_lt, gt_iff_lt] at *
    rcases hm with hm | rfl
    · have := h5 m hm; split <;> omega
    · split <;> simp <;> omega
  · simp only [Accum.epoch]
    split
    · exact .inr ⟨(d, g), by simp, rfl⟩
    · rcases h6 with h | ⟨m, hm, e⟩
      · exact .inl h
      · exact .inr ⟨m, by simp [hm], e⟩
  · simp only [Accum.epoch]
    split
    · exact .inr ⟨(d, g), by simp, rfl⟩
    · rcases h7 with h | ⟨m, hm, e⟩
      · exact .inl h
      · exact .inr ⟨m, by simp [hm], e⟩

theorem add_describes {a b : Accum} {ms ns : List (UInt64 × Bool)} (h : Describes a ms) (g : Describes b ns) :
    Describes (a.add b) (ms ++ ns) := by
  obtain ⟨h1, h2, h3, h4, h5, h6, h7⟩ := h
  obtain ⟨g1, g2, g3, g4, g5, g6, g7⟩ := g
  refine ⟨?_, ?_, ?_, ?_, ?_, ?_, ?_⟩
  · simp [Accum.add, h1, g1]
  · simp [Accum.add, h2, g2, List.filter_append]
  · simp [Accum.add, h3, g3]
  · intro m hm
    simp only [Accum.add, List.mem_append, UInt64.le_iff_toNat_le, UInt64.lt_iff_toNat_lt, gt_iff_lt] at *
    rcases hm with hm | hm
    · have := h4 m hm; split <;> omega
    · have := g4 m hm; split <;> omega
  · intro m hm
    simp only [Accum.add, List.mem_append, UInt64.le_iff_toNat_le, UInt64.lt_iff_toNat_lt, gt_iff_lt] at *
    rcases hm with hm | hm
    · have := h5 m hm; split <;> omega
    · have := g5 m hm; split <;> omega
  · simp only [Accum.add]
    split
    · rcases g6 with h | ⟨m, hm, e⟩
      · exact .inl h
      · exact .inr ⟨m, by simp [hm], e⟩
    · rcases h6 with h | ⟨m, hm, e⟩
      · exact .inl h
      · exact .inr ⟨m, by simp [hm], e⟩
  · simp only [Accum.add]
    split
    · rcases g7 with h | ⟨m, hm, e⟩
      · exact .inl h
      · exact .inr ⟨m, by simp [hm], e⟩
    · rcases h7 with h | ⟨m, hm, e⟩
      · exact .inl h
      · exact .inr ⟨m, by simp [hm], e⟩

theorem record_from {a : Accum} {ns : List (UInt64 × Bool)} (ms : List (UInt64 × Bool)) (h : Describes a ns) :
    Describes (ms.foldl (fun a m => a.epoch m.1 m.2) a) (ns ++ ms) := by
  induction ms generalizing a ns with
  | nil => simpa using h
  | cons m ms ih =>
    have := ih (epoch_describes h m.1 m.2)
    simpa using this

theorem total_from {a : Accum} {ns : List (UInt64 × Bool)} (gs : List (List (UInt64 × Bool))) (h : Describes a ns) :
    Describes ((gs.map record).foldl Accum.add a) (ns ++ gs.flatten) := by
  induction gs generalizing a ns with
  | nil => simpa using h
  | cons m gs ih =>
    have := ih (add_describes h (by simpa [record] using record_from m fresh_describes : Describes (record m) m))
    simpa using this

theorem perm_describes {a : Accum} {ms ns : List (UInt64 × Bool)} (hp : ms.Perm ns) (h : Describes a ms) : Describes a ns := by
  obtain ⟨h1, h2, h3, h4, h5, h6, h7⟩ := h
  refine ⟨?_, ?_, ?_, fun m hm => h4 m (hp.mem_iff.2 hm), fun m hm => h5 m (hp.mem_iff.2 hm), ?_, ?_⟩
  · rw [h1, hp.length_eq]
  · rw [h2, (hp.filter _).length_eq]
  · rw [h3, (hp.map _).sum_nat]
  · exact h6.imp id fun ⟨m, hm, e⟩ => ⟨m, hp.mem_iff.1 hm, e⟩
  · exact h7.imp id fun ⟨m, hm, e⟩ => ⟨m, hp.mem_iff.1 hm, e⟩

end Verif.Bench

namespace Verif.Props
open Verif.Bench

/-- C140: however the measurements are distributed over the goroutines, and in whatever order these deliver their results, what is printed
describes all measurements. -/
theorem C140_merged (gs : List (List (UInt64 × Bool))) (ms : List (UInt64 × Bool)) (h : gs.flatten.Perm ms) :
    Describes (total (gs.map record)) ms :=
  perm_describes h (by simpa [total] using total_from gs fresh_describes)

example : total ([[(5, true), (3, false)], [], [(9, true)]].map record) = ⟨3, 1, 3, 9, 17⟩ ∧
    ([[(5, true), (3, false)], [], [(9, true)]] : List (List (UInt64 × Bool))).flatten.Perm [(9, true), (3, false), (5, true)] := by
  decide +kernel

/-- C140: the numbers determine each other: two accumulators that describe the same measurements, of which there is one at least, are equal. -/
theorem C140_determined (a b : Accum) (ms : List (UInt64 × Bool)) (h : ms ≠ []) (ha : Describes a ms) (hb : Describes b ms) : a = b := by
  obtain ⟨m, ms', rfl⟩ := List.exists_cons_of_ne_nil h
  have e1 := ha.count.trans hb.count.symm
  have e2 := ha.bad.trans hb.bad.symm
  have e3 := ha.sum.trans hb.sum.symm
  have am := ha.least m (by simp)
  have bm := hb.least m (by simp)
  have aM := ha.greatest m (by simp)
  have bM := hb.greatest m (by simp)
  have e4 : a.min = b.min := by
    apply UInt64.toNat_inj.1
    simp only [UInt64.le_iff_toNat_le] at *
    have := m.1.toNat_lt
    rcases ha.isLeast with x | ⟨p, hp, x⟩ <;> rcases hb.isLeast with y | ⟨q, hq, y⟩
    · omega
    · have := ha.least q hq; rw [UInt64.le_iff_toNat_le, ← y] at this; omega
    · have := hb.least p hp; rw [UInt64.le_iff_toNat_le, ← x] at this; omega
    · have h1 := ha.least q hq; have h2 := hb.least p hp
      rw [UInt64.le_iff_toNat_le, ← y] at h1; rw [UInt64.le_iff_toNat_le, ← x] at h2; omega
  have e5 : a.max = b.max := by
    apply UInt64.toNat_inj.1
    simp only [UInt64.le_iff_toNat_le] at *
    rcases ha.isGreatest with x | ⟨p, hp, x⟩ <;> rcases hb.isGreatest with y | ⟨q, hq, y⟩
    · rw [x, y]
    · have := ha.greatest q hq; rw [UInt64.le_iff_toNat_le, ← y, x] at this; rw [x]; simp at this ⊢; omega
    · have := hb.greatest p hp; rw [UInt64.le_iff_toNat_le, ← x, y] at this; rw [y]; simp at this ⊢; omega
    · have h1 := ha.greatest q hq; have h2 := hb.greatest p hp
      rw [UInt64.le_iff_toNat_le, ← y] at h1; rw [UInt64.le_iff_toNat_le, ← x] at h2; omega
  cases a; cases b; simp_all

end Verif.Props
