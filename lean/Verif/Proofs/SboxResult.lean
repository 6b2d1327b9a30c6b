import Verif.Proofs.SboxReq
import Verif.Proofs.ReflectSafe

/-! Reading responses. -/
namespace Verif.Sbox
open Verif.Marshal Verif.Reflect Verif.Spec

theorem manyOk_of (t : Ty) (h : Row t) : manyOk t = true := by
  cases t with
  | arr n u => rcases h with ⟨k, rfl⟩ | rfl <;> rfl
  | sl u => rcases h with ⟨k, rfl⟩ | rfl <;> rfl
  | _ => rfl

theorem le_putLE (w n : Nat) : le w n = putLE w n := by
  induction w generalizing n with
  | zero => rfl
  | succ w ih =>
    rw [putLE, ← ih]
    simp only [le, List.range_succ_eq_map, List.map_cons, List.map_map, Nat.pow_zero, Nat.div_one]
    congr 1
    apply List.map_congr_left
    intro a _
    simp only [Function.comp, Nat.pow_succ, Nat.div_div_eq_div_mul, Nat.mul_comm]

/-- The first four bytes as a number. -/
theorem u32_split (b : Bytes) (h : 4 ≤ b.length) : ∃ n, n < 2 ^ 32 ∧ b = le 4 n ++ b.drop 4 := by
  have hl : (b.take 4).length = 4 := by simp; omega
  refine ⟨getLE (b.take 4), ?_, ?_⟩
  · have := getLE_lt (b.take 4)
    rw [hl] at this; omega
  · have h1 := putLE_getLE (b.take 4)
    rw [hl] at h1
    rw [le_putLE, h1, List.take_append_drop]

theorem short_read (b : Bytes) (h : b.length < 4) : Rd.intUint32 ⟨b, none⟩ = (⟨b, some .short⟩, 0) := by
  simp only [Rd.intUint32, Rd.scal_short ⟨b, none⟩ .u32 rfl (by simpa [width] using h)]
  rfl

@[simp] theorem le4_length (n : Nat) : (le 4 n).length = 4 := by simp [le]

theorem slice_short (b : Bytes) (n : Int) (h : (b.length : Int) < n) : Rd.slice ⟨b, none⟩ n = some (⟨b, some .short⟩, []) := by
  simp [Rd.slice, h]

theorem frame_read (t rest : Bytes) (h : Framed t) :
    (Rd.intUint32 ⟨framed t ++ rest, none⟩).1 = ⟨t ++ rest, none⟩ ∧
      Rd.slice ⟨t ++ rest, none⟩ ((Rd.intUint32 ⟨framed t ++ rest, none⟩).2.toInt + 4) = some (⟨rest, none⟩, t) := by
  obtain ⟨h1, h2⟩ := h
  have hc := count_read (t.length - 4) (by omega) (t ++ rest)
  have e : framed t ++ rest = le 4 (t.length - 4) ++ (t ++ rest) := by simp [framed]
  rw [e]
  refine ⟨hc.1, ?_⟩
  rw [hc.2, show ((t.length - 4 : Nat) : Int) + 4 = (t.length : Int) by omega]
  exact slice_ok t rest

theorem oneTuple_frame (f : RdF) (t rest : Bytes) (h : Framed t) (e : Option RErr) (v : Val) :
    oneTuple f ⟨framed t ++ rest, none⟩ e v =
      (f ⟨t, e⟩ v).map fun q => (⟨rest, none⟩, q.1.err, q.2, false) := by
  obtain ⟨h1, h2⟩ := frame_read t rest h
  simp only [oneTuple, ne_eq, not_true_eq_false, if_false, h1, h2]
  cases f ⟨t, e⟩ v <;> rfl

/-- A tuple decodes as a value. -/
def Decodes (f : RdF) (z : Val) (t : Bytes) (v : Val) : Prop := ∃ r, f ⟨t, none⟩ z = some (r, v) ∧ r.err = none

theorem reads_iff (t : Ty) (f : RdF) (hf : tupR t = some f) (b : Bytes) (v : Val) : Reads t b v ↔ Decodes f (zero t) b v := by
  simp only [Reads, Decodes, readRaw, hf]

theorem many_all (f : RdF) (z : Val) (extra : Bytes) : (ts : List Bytes) → (vs : List Val) → ts.length = vs.length →
    (∀ t ∈ ts, Framed t) → (∀ p ∈ ts.zip vs, Decodes f z p.1 p.2) →
    manyLoop f ⟨(ts.map framed).flatten ++ extra, none⟩ none (List.replicate ts.length z) =
      some (ts.length, ⟨extra, none⟩, vs)
  | [], [], _, _, _ => by simp [manyLoop]
  | t :: ts, v :: vs, hl, hf, hd => by
    obtain ⟨r, h1, h2⟩ := hd (t, v) (by simp)
    have ih := many_all f z extra ts vs (by simpa using hl) (fun u hu => hf u (by simp [hu]))
      (fun p hp => hd p (by simp [hp]))
    simp only [List.map_cons, List.flatten_cons, List.append_assoc, List.length_cons, List.replicate_succ, manyLoop]
    rw [oneTuple_frame f t _ (hf t (by simp)), h1]
    simp only [Option.map_some, h2, ih]
  | [], _ :: _, hl, _, _ => by simp at hl
  | _ :: _, [], hl, _, _ => by simp at hl

/-- Up to the first tuple that does not decode, the elements are right. -/
theorem many_prefix (f : RdF) (z : Val) (extra : Bytes) : (ts : List Bytes) → (∀ t ∈ ts, Framed t) → ∀ n r us,
    manyLoop f ⟨(ts.map framed).flatten ++ extra, none⟩ none (List.replicate ts.length z) = some (n, r, us) →
    ∀ k : Nat, (∀ i < k, ∀ t, ts[i]? = some t → ∃ v, Decodes f z t v) →
      ∀ i ≤ k, ∀ t, ts[i]? = some t → ∃ r u, us[i]? = some u ∧ f ⟨t, none⟩ z = some (r, u)
  | [], _, _, _, _, _, _, _, i, _, t, ht => by simp at ht
  | t :: ts, hf, n, r, us, h, k, hd, i, hi, u, hu => by
    simp only [List.map_cons, List.flatten_cons, List.append_assoc, List.length_cons, List.replicate_succ, manyLoop] at h
    rw [oneTuple_frame f t _ (hf t (by simp))] at h
    cases ht : f ⟨t, none⟩ z with
    | none => simp [ht] at h
    | some q =>
      obtain ⟨q, v⟩ := q
      simp only [ht, Option.map_some] at h
      cases hm : manyLoop f ⟨(ts.map framed).flatten ++ extra, none⟩ q.err (List.replicate ts.length z) with
      | none => simp [hm] at h
      | some p =>
        obtain ⟨n', r', vs⟩ := p
        simp only [hm, Option.some.injEq, Prod.mk.injEq] at h
        obtain ⟨_, _, rfl⟩ := h
        cases i with
        | zero =>
          simp only [List.getElem?_cons_zero, Option.some.injEq] at hu
          subst hu
          exact ⟨q, v, by simp, ht⟩
        | succ i =>
          simp only [List.getElem?_cons_succ] at hu ⊢
          obtain ⟨v0, q0, hq0, he0⟩ := hd 0 (by omega) t (by simp)
          rw [ht] at hq0
          simp only [Option.some.injEq, Prod.mk.injEq] at hq0
          obtain ⟨rfl, rfl⟩ := hq0
          rw [he0] at hm
          exact many_prefix f z extra ts (fun u hu => hf u (by simp [hu])) n' r' vs hm (k - 1)
            (fun j hj t' ht' => hd (j + 1) (by omega) t' (by simpa using ht')) i (by omega) u hu

/-- Without error there are as many complete tuples as were read. -/
theorem many_frames (f : RdF) (z : Val) : (m : Nat) → ∀ b e n r us,
    manyLoop f ⟨b, none⟩ e (List.replicate m z) = some (n, r, us) → r.err = none →
    n = m ∧ us.length = m ∧ ∃ (ts : List Bytes) (extra : Bytes), b = (ts.map framed).flatten ++ extra ∧ ts.length = m ∧ (∀ t ∈ ts, Framed t) ∧ r = ⟨extra, none⟩
  | 0, b, e, n, r, us, h, he => by
    simp [manyLoop] at h
    obtain ⟨rfl, rfl, rfl⟩ := h
    exact ⟨rfl, rfl, [], b, by simp, rfl, by simp, rfl⟩
  | m + 1, b, e, n, r, us, h, he => by
    simp only [List.replicate_succ, manyLoop] at h
    by_cases hb : b.length < 4
    · have : oneTuple f ⟨b, none⟩ e z = some (⟨b, some .short⟩, e, z, true) := by
        simp only [oneTuple, ne_eq, not_true_eq_false, if_false, short_read b hb]
        simp [Rd.slice]
      simp only [this, Option.some.injEq, Prod.mk.injEq] at h
      obtain ⟨_, rfl, _⟩ := h
      simp at he
    · obtain ⟨c, hc, hs⟩ := u32_split b (by omega)
      have hr := count_read c hc (b.drop 4)
      rw [← hs] at hr
      by_cases hlen : (b.drop 4).length < c + 4
      · have : oneTuple f ⟨b, none⟩ e z = some (⟨b.drop 4, some .short⟩, e, z, true) := by
          simp only [oneTuple, ne_eq, not_true_eq_false, if_false, hr.1, hr.2]
          rw [slice_short _ _ (by omega)]
          simp
        simp only [this, Option.some.injEq, Prod.mk.injEq] at h
        obtain ⟨_, rfl, _⟩ := h
        simp at he
      · have hlt : ((b.drop 4).take (c + 4)).length = c + 4 := by simp only [List.length_take]; omega
        have hfr : Framed ((b.drop 4).take (c + 4)) := ⟨by omega, by omega⟩
        have e1 : b = framed ((b.drop 4).take (c + 4)) ++ (b.drop 4).drop (c + 4) := by
          simp only [framed, hlt, Nat.add_sub_cancel, List.append_assoc, List.take_append_drop]; exact hs
        rw [e1, oneTuple_frame f _ _ hfr] at h
        cases hq : f ⟨(b.drop 4).take (c + 4), e⟩ z with
        | none => simp [hq] at h
        | some q =>
          simp only [hq, Option.map_some] at h
          cases hm : manyLoop f ⟨(b.drop 4).drop (c + 4), none⟩ q.1.err (List.replicate m z) with
          | none => simp only [hm] at h; cases h
          | some p =>
            obtain ⟨n', r', vs⟩ := p
            simp only [hm, Option.some.injEq, Prod.mk.injEq] at h
            obtain ⟨rfl, rfl, rfl⟩ := h
            obtain ⟨h1, h2, ts, extra, h3, h4, h5, h6⟩ := many_frames f z m _ _ _ _ _ hm he
            refine ⟨by omega, by simp [h2], (b.drop 4).take (c + 4) :: ts, extra, ?_, by simp [h4], ?_, h6⟩
            · rw [List.map_cons, List.flatten_cons, List.append_assoc, ← h3]; exact e1
            · intro t ht
              simp only [List.mem_cons] at ht
              rcases ht with rfl | ht
              · exact hfr
              · exact h5 t ht

/-! ### The first tuple -/

theorem structReadFlds_zero : (l : List (Option FR)) → (r : Rd) → (vs : List Val) → ∀ q,
    structReadFlds 0 l r vs = some q → q.1 = r
  | [], r, [], q, h => by simp [structReadFlds] at h; rw [← h]
  | none :: l, r, v :: vs, q, h => by
    simp only [structReadFlds] at h
    cases hm : structReadFlds 0 l r vs with
    | none => simp [hm] at h
    | some p =>
      simp only [hm, Option.some.injEq] at h
      rw [← h]
      exact structReadFlds_zero l r vs p hm
  | some f :: l, r, v :: vs, q, h => by simp [structReadFlds] at h; rw [← h]
  | [], _, _ :: _, q, h => by simp [structReadFlds] at h
  | none :: _, _, [], q, h => by simp [structReadFlds] at h
  | some _ :: _, _, [], q, h => by simp [structReadFlds] at h

theorem structReadFlds_zero_some (fs : Fl) : ∀ s b s' l, trFl s b fs = some (s', l) → ∀ r, ∃ q,
    structReadFlds 0 l r (zeros fs) = some q := by
  induction fs using Fl.rec (motive_1 := fun _ => True) with
  | scal | str | arr | sl | ptr | struct => trivial
  | nil => intro s b s' l h r; simp [trFl] at h; rw [h.2]; exact ⟨(r, []), by simp [structReadFlds, zeros]⟩
  | cons g t fs _ ih =>
    intro s b s' l h r
    have none_case : ∀ s1 b1 s2 l1, trFl s1 b1 fs = some (s2, l1) → ∃ q,
        structReadFlds 0 (none :: l1) r (zeros (.cons g t fs)) = some q := by
      intro s1 b1 s2 l1 h1
      obtain ⟨q, hq⟩ := ih s1 b1 s2 l1 h1 r
      exact ⟨_, by simp only [zeros, structReadFlds, hq]; rfl⟩
    cases g with
    | hidden =>
      simp only [trFl] at h
      cases hm : trFl s b fs with
      | none => simp [hm] at h
      | some p => simp only [hm, Option.some.injEq, Prod.mk.injEq] at h; rw [← h.2]; exact none_case _ _ _ _ hm
    | skip =>
      simp only [trFl] at h
      cases b with
      | true => simp at h
      | false =>
        simp only [Bool.false_eq_true, if_false] at h
        cases hm : trFl s false fs with
        | none => simp [hm] at h
        | some p => simp only [hm, Option.some.injEq, Prod.mk.injEq] at h; rw [← h.2]; exact none_case _ _ _ _ hm
    | use ber d =>
      obtain ⟨_, x, _, s1, s2, l1, h1, _, h2⟩ := trFl_inv s s' b ber d t fs l h
      rcases h2 with ⟨_, _, rfl, _⟩ | ⟨_, _, y, _, rfl⟩
      · exact none_case _ _ _ _ h1
      · exact ⟨_, by simp only [zeros, structReadFlds]; rfl⟩

/-- Nothing can be read from an empty body. -/
theorem tupR_empty : (t : Ty) → ∀ f, tupR t = some f → ∃ r v, f ⟨[], none⟩ (zero t) = some (r, v) ∧ r.err ≠ none
  | .scal k, f, h => by
    simp [tupR] at h; subst h
    simp [fixedR, oneField, short_read]
  | .str, f, h => by
    simp [tupR] at h; subst h
    simp [stringR, short_read]
  | .arr n t, f, h => by
    simp only [tupR] at h
    cases h1 : tr (.arr n t) with
    | none => simp [h1] at h
    | some x =>
      cases h2 : tr t with
      | none => simp [h1, h2] at h
      | some e =>
        simp only [h1, h2, Option.some.injEq] at h
        by_cases c : t.kind? = some .u8
        · simp only [c, if_true] at h; subst h
          simp [fixedR, oneField, short_read]
        · simp only [c, if_false] at h; subst h
          cases n with
          | zero => simp [arrayR, short_read, zero, sizedEachR]
          | succ n =>
            simp only [arrayR, short_read [] (by decide), zero, List.length_replicate]
            rw [if_pos (by simp)]
            simp
  | .sl t, f, h => by
    simp only [tupR] at h
    cases h1 : tr (.sl t) with
    | none => simp [h1] at h
    | some x =>
      cases h2 : tr t with
      | none => simp [h1, h2] at h
      | some e =>
        simp only [h1, h2, Option.some.injEq] at h
        by_cases c : t.kind? = some .u8
        · simp only [c, if_true] at h; subst h
          simp [bytesR, short_read]
        · simp only [c, if_false] at h; subst h
          simp [sliceR, short_read, sizedEachR]
  | .struct fs, f, h => by
    simp only [tupR] at h
    cases hl : trFl 0 false fs with
    | none => simp [hl] at h
    | some p =>
      obtain ⟨s, l⟩ := p
      simp only [hl, Option.some.injEq] at h; subst h
      obtain ⟨q, hq⟩ := structReadFlds_zero_some fs 0 false s l hl ⟨[], some .short⟩
      have := structReadFlds_zero _ _ _ _ hq
      simp [structRd, zero, short_read, hq, this]
  | .ptr t, f, h => by
    simp only [tupR] at h
    cases h1 : tr (.ptr t) with
    | none => simp [h1] at h
    | some x =>
      cases h2 : tupR t with
      | none => simp [h1, h2] at h
      | some g =>
        simp only [h1, h2, Option.some.injEq] at h; subst h
        obtain ⟨r, v, h3, h4⟩ := tupR_empty t g h2
        simp [zero, h3, h4]

end Verif.Sbox
