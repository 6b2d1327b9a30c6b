import Verif.Model.CodecFill
import Verif.Proofs.CodecOrder

/-! The codecs of the caches are those of Model/Reflect.lean. -/
namespace Verif.CodecCache
open Verif.Reflect Verif.Marshal

/-! ### Parts are smaller -/

theorem fillFl_part : (size : Int) → (no : Bool) → (fs : Fl) → (got : List TW) → (acc : List (Option FW)) → (m : Ty) →
    fillFl size no fs got acc = .dep m → sizeOf m < sizeOf fs
  | _, _, .nil, _, _, m, h => by simp [fillFl] at h
  | size, no, .cons .hidden t fs, got, acc, m, h => by
    simp only [fillFl] at h
    have := fillFl_part size no fs got _ m h
    simp only [Fl.cons.sizeOf_spec]; omega
  | size, no, .cons .skip t fs, got, acc, m, h => by
    simp only [fillFl] at h
    split at h
    · cases h
    · have := fillFl_part size no fs got _ m h
      simp only [Fl.cons.sizeOf_spec]; omega
  | size, no, .cons (.use ber d) t fs, got, acc, m, h => by
    simp only [fillFl] at h
    split at h
    · cases h
    · cases got with
      | nil => simp only [Act.dep.injEq] at h; subst h; simp only [Fl.cons.sizeOf_spec]; omega
      | cons x got =>
        simp only at h
        split at h
        · have := fillFl_part _ _ fs got _ m h
          simp only [Fl.cons.sizeOf_spec]; omega
        · split at h
          · cases h
          · have := fillFl_part _ _ fs got _ m h
            simp only [Fl.cons.sizeOf_spec]; omega

theorem nonrec_writers (t : Ty) : Nonrec writers t := by
  have lt : ∀ m n, PartOf writers m n → sizeOf m < sizeOf n := by
    intro m n ⟨got, h⟩
    simp only [writers] at h
    unfold fillW at h
    split at h <;> try simp only [Act.dep.injEq, reduceCtorEq] at h
    all_goals first
      | (subst h; simp; done)
      | (subst h; simp; omega)
      | (have := fillFl_part _ _ _ _ _ m h; simp only [Ty.struct.sizeOf_spec]; omega)
  have : ∀ k t, sizeOf t < k → Nonrec writers t := by
    intro k
    induction k with
    | zero => intro t h; omega
    | succ k ih => exact fun t h => ⟨t, fun m hm => ih m (by have := lt m t hm; omega)⟩
  exact this _ t (Nat.lt_succ_self _)

theorem fillRFl_part : (size : Int) → (no : Bool) → (fs : Fl) → (got : List TR) → (acc : List (Option FR)) → (m : Ty) →
    fillRFl size no fs got acc = .dep m → sizeOf m < sizeOf fs
  | _, _, .nil, _, _, m, h => by simp [fillRFl] at h
  | size, no, .cons .hidden t fs, got, acc, m, h => by
    simp only [fillRFl] at h
    have := fillRFl_part size no fs got _ m h
    simp only [Fl.cons.sizeOf_spec]; omega
  | size, no, .cons .skip t fs, got, acc, m, h => by
    simp only [fillRFl] at h
    split at h
    · cases h
    · have := fillRFl_part size no fs got _ m h
      simp only [Fl.cons.sizeOf_spec]; omega
  | size, no, .cons (.use ber d) t fs, got, acc, m, h => by
    simp only [fillRFl] at h
    split at h
    · cases h
    · cases got with
      | nil => simp only [Act.dep.injEq] at h; subst h; simp only [Fl.cons.sizeOf_spec]; omega
      | cons x got =>
        simp only at h
        split at h
        · have := fillRFl_part _ _ fs got _ m h
          simp only [Fl.cons.sizeOf_spec]; omega
        · split at h
          · cases h
          · have := fillRFl_part _ _ fs got _ m h
            simp only [Fl.cons.sizeOf_spec]; omega

theorem nonrec_readers (t : Ty) : Nonrec readers t := by
  have lt : ∀ m n, PartOf readers m n → sizeOf m < sizeOf n := by
    intro m n ⟨got, h⟩
    simp only [readers] at h
    unfold fillR at h
    split at h <;> try simp only [Act.dep.injEq, reduceCtorEq] at h
    all_goals first
      | (subst h; simp; done)
      | (subst h; simp; omega)
      | (have := fillRFl_part _ _ _ _ _ m h; simp only [Ty.struct.sizeOf_spec]; omega)
  have : ∀ k t, sizeOf t < k → Nonrec readers t := by
    intro k
    induction k with
    | zero => intro t h; omega
    | succ k ih => exact fun t h => ⟨t, fun m hm => ih m (by have := lt m t hm; omega)⟩
  exact this _ t (Nat.lt_succ_self _)

/-! ### `Fill` with complete parts -/

/-- The parts read so far are right. -/
def Right (f : List TW → Act Ty TW) (got : List TW) : Prop :=
  ∀ i (hi : i < got.length), ∃ m, f (got.take i) = .dep m ∧ tw m = some got[i]

theorem Right.head {f : List TW → Act Ty TW} {x : TW} {got : List TW} (h : Right f (x :: got)) {m : Ty} (hm : f [] = .dep m) :
    tw m = some x ∧ Right (fun g => f (x :: g)) got := by
  constructor
  · obtain ⟨m', h1, h2⟩ := h 0 (by simp)
    simp only [List.take_zero, hm, Act.dep.injEq] at h1
    subst h1
    simpa using h2
  · intro i hi
    obtain ⟨m', h1, h2⟩ := h (i + 1) (by simp; omega)
    exact ⟨m', by simpa using h1, by simpa using h2⟩

/-- What `twFl` says. -/
def flRes (r : Option (Int × List (Option FW))) (acc : List (Option FW)) : Act Ty TW → Prop
  | .done x => ∃ sz l, r = some (sz, l) ∧ x = structW sz (acc ++ l)
  | .panic => r = none
  | .dep m => tw m = none → r = none

theorem flRes_cons {r : Option (Int × List (Option FW))} {acc : List (Option FW)} {o : Option FW} {a : Act Ty TW}
    (h : flRes r (acc ++ [o]) a) : flRes (match (generalizing := false) r with | none => none | some (s, l) => some (s, o :: l)) acc a := by
  cases a with
  | done x =>
    obtain ⟨sz, l, rfl, rfl⟩ := h
    exact ⟨sz, o :: l, rfl, by simp⟩
  | panic => simp only [flRes] at h ⊢; rw [h]
  | dep m => simp only [flRes] at h ⊢; intro hm; rw [h hm]

theorem fillFl_res : (size : Int) → (no : Bool) → (fs : Fl) → (got : List TW) → (acc : List (Option FW)) →
    Right (fun g => fillFl size no fs g acc) got → flRes (twFl size no fs) acc (fillFl size no fs got acc)
  | size, no, .nil, got, acc, _ => by
    simp only [fillFl, flRes, twFl]
    exact ⟨size, [], rfl, by simp⟩
  | size, no, .cons .hidden t fs, got, acc, h => by
    simp only [fillFl] at h ⊢
    rw [twFl]
    exact flRes_cons (fillFl_res size no fs got _ h)
  | size, no, .cons .skip t fs, got, acc, h => by
    simp only [fillFl] at h ⊢
    rw [twFl]
    by_cases c : no = true
    · simp [c, flRes]
    · have c : no = false := by simpa using c
      subst c
      simp only [Bool.false_eq_true, if_false] at h ⊢
      exact flRes_cons (fillFl_res size false fs got _ h)
  | size, no, .cons (.use ber d) t fs, got, acc, h => by
    rw [twFl]
    by_cases c : no = true
    · simp [fillFl, c, flRes]
    · cases got with
      | nil =>
        simp only [fillFl, c, Bool.false_eq_true, if_false, flRes]
        intro ht; rw [ht]
      | cons x got =>
        obtain ⟨hx, hr⟩ := h.head (m := t) (by simp [fillFl, c])
        simp only [fillFl, c, Bool.false_eq_true, if_false, hx] at hr ⊢
        by_cases c2 : x.sz = 0 ∧ d.bare = true
        · rw [if_pos c2, if_pos c2]
          simp only [if_pos c2] at hr
          exact flRes_cons (fillFl_res _ _ fs got _ hr)
        · rw [if_neg c2, if_neg c2]
          simp only [if_neg c2] at hr
          cases hb : (if ber = true then berFor t else some x) with
          | none => simp [flRes]
          | some y =>
            simp only [hb] at hr
            exact flRes_cons (fillFl_res _ _ fs got _ hr)

/-- What `tw` says. -/
def tyRes (r : Option TW) : Act Ty TW → Prop
  | .done x => r = some x
  | .panic => r = none
  | .dep m => tw m = none → r = none

theorem fillW_res (t : Ty) (got : List TW) (h : Right (fillW t) got) : tyRes (tw t) (fillW t got) := by
  unfold fillW
  split
  · rw [tw]; rfl
  · rw [tw]; rfl
  · simp only [tyRes]; intro ht; rw [tw, ht]
  · have := (h.head (by rw [fillW])).1
    rw [tw, this]; rfl
  · simp only [tyRes]; intro ht; rw [tw, ht]
  · have := (h.head (by rw [fillW])).1
    rw [tw, this]; rfl
  · simp only [tyRes]; intro ht; rw [tw, ht]
  · have := (h.head (by rw [fillW])).1
    rw [tw, this]; rfl
  · rename_i fs
    have := fillFl_res 0 false fs got [] (fun i hi => by simpa [fillW] using h i hi)
    cases hf : fillFl 0 false fs got [] with
    | done x =>
      rw [hf] at this
      obtain ⟨sz, l, h1, rfl⟩ := this
      simp [tyRes, tw, h1]
    | panic =>
      rw [hf] at this
      simp only [flRes] at this
      simp [tyRes, tw, this]
    | dep m =>
      rw [hf] at this
      simp only [flRes] at this
      simp only [tyRes]
      intro hm
      simp [tw, this hm]

theorem den_writers {t : Ty} {x : TW} (h : Den writers t x) : tw t = some x := by
  induction h with
  | mk n got dep a h1 h2 hd ih =>
    have := fillW_res n got (fun i hi => ⟨dep i, h1 i hi, ih i hi⟩)
    simp only [writers] at hd
    rw [hd] at this
    exact this

theorem fails_writers {t : Ty} (h : Fails writers t) : tw t = none := by
  have rt : ∀ n got, Reads writers n got → Right (fillW n) got := by
    intro n got h i hi
    obtain ⟨m, h1, h2⟩ := h i hi
    exact ⟨m, h1, den_writers h2⟩
  induction h with
  | here n got h1 h2 =>
    have := fillW_res n got (rt n got h1)
    simp only [writers] at h2
    rw [h2] at this
    exact this
  | part n m got h1 h2 _ ih =>
    have := fillW_res n got (rt n got h1)
    simp only [writers] at h2
    rw [h2] at this
    exact this ih

/-! ### The same for readers -/

/-- The parts read so far are right. -/
def RightR (f : List TR → Act Ty TR) (got : List TR) : Prop :=
  ∀ i (hi : i < got.length), ∃ m, f (got.take i) = .dep m ∧ tr m = some got[i]

theorem RightR.head {f : List TR → Act Ty TR} {x : TR} {got : List TR} (h : RightR f (x :: got)) {m : Ty} (hm : f [] = .dep m) :
    tr m = some x ∧ RightR (fun g => f (x :: g)) got := by
  constructor
  · obtain ⟨m', h1, h2⟩ := h 0 (by simp)
    simp only [List.take_zero, hm, Act.dep.injEq] at h1
    subst h1
    simpa using h2
  · intro i hi
    obtain ⟨m', h1, h2⟩ := h (i + 1) (by simp; omega)
    exact ⟨m', by simpa using h1, by simpa using h2⟩

/-- What `trFl` says. -/
def flResR (r : Option (Int × List (Option FR))) (acc : List (Option FR)) : Act Ty TR → Prop
  | .done x => ∃ sz l, r = some (sz, l) ∧ x = structR sz (acc ++ l)
  | .panic => r = none
  | .dep m => tr m = none → r = none

theorem flResR_cons {r : Option (Int × List (Option FR))} {acc : List (Option FR)} {o : Option FR} {a : Act Ty TR}
    (h : flResR r (acc ++ [o]) a) : flResR (match (generalizing := false) r with | none => none | some (s, l) => some (s, o :: l)) acc a := by
  cases a with
  | done x =>
    obtain ⟨sz, l, rfl, rfl⟩ := h
    exact ⟨sz, o :: l, rfl, by simp⟩
  | panic => simp only [flResR] at h ⊢; rw [h]
  | dep m => simp only [flResR] at h ⊢; intro hm; rw [h hm]

theorem fillRFl_res : (size : Int) → (no : Bool) → (fs : Fl) → (got : List TR) → (acc : List (Option FR)) →
    RightR (fun g => fillRFl size no fs g acc) got → flResR (trFl size no fs) acc (fillRFl size no fs got acc)
  | size, no, .nil, got, acc, _ => by
    simp only [fillRFl, flResR, trFl]
    exact ⟨size, [], rfl, by simp⟩
  | size, no, .cons .hidden t fs, got, acc, h => by
    simp only [fillRFl] at h ⊢
    rw [trFl]
    exact flResR_cons (fillRFl_res size no fs got _ h)
  | size, no, .cons .skip t fs, got, acc, h => by
    simp only [fillRFl] at h ⊢
    rw [trFl]
    by_cases c : no = true
    · simp [c, flResR]
    · have c : no = false := by simpa using c
      subst c
      simp only [Bool.false_eq_true, if_false] at h ⊢
      exact flResR_cons (fillRFl_res size false fs got _ h)
  | size, no, .cons (.use ber d) t fs, got, acc, h => by
    rw [trFl]
    by_cases c : no = true
    · simp [fillRFl, c, flResR]
    · cases got with
      | nil =>
        simp only [fillRFl, c, Bool.false_eq_true, if_false, flResR]
        intro ht; rw [ht]
      | cons x got =>
        obtain ⟨hx, hr⟩ := h.head (m := t) (by simp [fillRFl, c])
        simp only [fillRFl, c, Bool.false_eq_true, if_false, hx] at hr ⊢
        by_cases c2 : x.sz = 0 ∧ d.bare = true
        · rw [if_pos c2, if_pos c2]
          simp only [if_pos c2] at hr
          exact flResR_cons (fillRFl_res _ _ fs got _ hr)
        · rw [if_neg c2, if_neg c2]
          simp only [if_neg c2] at hr
          cases hb : (if ber = true then berForR t else some x) with
          | none => simp [flResR]
          | some y =>
            simp only [hb] at hr
            exact flResR_cons (fillRFl_res _ _ fs got _ hr)

/-- What `tr` says. -/
def tyResR (r : Option TR) : Act Ty TR → Prop
  | .done x => r = some x
  | .panic => r = none
  | .dep m => tr m = none → r = none

theorem fillR_res (t : Ty) (got : List TR) (h : RightR (fillR t) got) : tyResR (tr t) (fillR t got) := by
  unfold fillR
  split
  · rw [tr]; rfl
  · rw [tr]; rfl
  · simp only [tyResR]; intro ht; rw [tr, ht]
  · have := (h.head (by rw [fillR])).1
    rw [tr, this]; rfl
  · simp only [tyResR]; intro ht; rw [tr, ht]
  · have := (h.head (by rw [fillR])).1
    rw [tr, this]; rfl
  · simp only [tyResR]; intro ht; rw [tr, ht]
  · have := (h.head (by rw [fillR])).1
    rw [tr, this]; rfl
  · rename_i fs
    have := fillRFl_res 0 false fs got [] (fun i hi => by simpa [fillR] using h i hi)
    cases hf : fillRFl 0 false fs got [] with
    | done x =>
      rw [hf] at this
      obtain ⟨sz, l, h1, rfl⟩ := this
      simp [tyResR, tr, h1]
    | panic =>
      rw [hf] at this
      simp only [flResR] at this
      simp [tyResR, tr, this]
    | dep m =>
      rw [hf] at this
      simp only [flResR] at this
      simp only [tyResR]
      intro hm
      simp [tr, this hm]

theorem den_readers {t : Ty} {x : TR} (h : Den readers t x) : tr t = some x := by
  induction h with
  | mk n got dep a h1 h2 hd ih =>
    have := fillR_res n got (fun i hi => ⟨dep i, h1 i hi, ih i hi⟩)
    simp only [readers] at hd
    rw [hd] at this
    exact this

theorem fails_readers {t : Ty} (h : Fails readers t) : tr t = none := by
  have rt : ∀ n got, Reads readers n got → RightR (fillR n) got := by
    intro n got h i hi
    obtain ⟨m, h1, h2⟩ := h i hi
    exact ⟨m, h1, den_readers h2⟩
  induction h with
  | here n got h1 h2 =>
    have := fillR_res n got (rt n got h1)
    simp only [readers] at h2
    rw [h2] at this
    exact this
  | part n m got h1 h2 _ ih =>
    have := fillR_res n got (rt n got h1)
    simp only [readers] at h2
    rw [h2] at this
    exact this ih

end Verif.CodecCache
