import Verif.Proofs.ReflectSafe
import Verif.Spec.Delim

/-! A read that succeeds depends only on the bytes it takes. -/
namespace Verif.Reflect
open Verif.Marshal

abbrev EX {α : Type} (f : Rd → Option (Rd × α)) : Prop := Spec.Delimited f

theorem decode_ext (b c : Bytes) (k : Kind) (h : ¬ b.length < Rd.need k) : Rd.decode (b ++ c) k = Rd.decode b k := by
  cases k <;> simp only [Rd.need, Nat.not_lt] at h <;> simp only [Rd.decode]
  all_goals
    rcases b with _ | ⟨b0, b⟩
    · simp at h
  all_goals try rfl
  all_goals
    rcases b with _ | ⟨b1, b⟩
    · simp at h
  all_goals try rfl
  all_goals
    rcases b with _ | ⟨b2, b⟩
    · simp at h
  all_goals
    rcases b with _ | ⟨b3, b⟩
    · simp at h
  all_goals try rfl
  all_goals
    rcases b with _ | ⟨b4, b⟩
    · simp at h
  all_goals
    rcases b with _ | ⟨b5, b⟩
    · simp at h
  all_goals
    rcases b with _ | ⟨b6, b⟩
    · simp at h
  all_goals
    rcases b with _ | ⟨b7, b⟩
    · simp at h
  all_goals rfl

theorem scal_ext (k : Kind) : EX fun r => some (r.scal k) := by
  intro r r' w h he
  simp only [Option.some.injEq] at h
  unfold Rd.scal at h
  split at h
  · rename_i h1; cases h; exact absurd he h1
  · rename_i h1
    split at h
    · cases h; cases he
    · rename_i h2
      cases h
      have hs : (r.body.take (Rd.step k)).length = Rd.step k := by rw [List.length_take]; rw [need_eq] at h2; rw [step_eq]; omega
      have hl : ¬ (r.body.take (Rd.step k)).length < Rd.need k := by rw [hs, need_eq, step_eq]; omega
      refine ⟨he, r.body.take (Rd.step k), (List.take_append_drop ..).symm, fun c => ?_⟩
      have hd : Rd.decode (r.body.take (Rd.step k)) k = Rd.decode r.body k := by
        have := decode_ext _ (r.body.drop (Rd.step k)) k hl
        rw [List.take_append_drop] at this
        exact this.symm
      simp only [Rd.scal, ne_eq, not_true_eq_false, if_false, Option.some.injEq]
      rw [if_neg (by rw [List.length_append]; omega), decode_ext _ _ _ hl, hd, List.drop_left' hs]

theorem uvar_ext : EX fun r => some r.uvar := by
  have key : ∀ b acc v rest, Rd.uvarLoop b acc = .done v rest → ∃ u, b = u ++ rest ∧ ∀ c, Rd.uvarLoop (u ++ c) acc = .done v c := by
    intro b
    induction b with
    | nil => intro acc v rest h; simp [Rd.uvarLoop] at h
    | cons x xs ih =>
      intro acc v rest h
      simp only [Rd.uvarLoop] at h
      split at h
      · rename_i h1; cases h; exact ⟨[x], rfl, fun c => by simp only [List.cons_append, List.nil_append, Rd.uvarLoop, if_pos h1]⟩
      · rename_i h1
        split at h
        · cases h
        · rename_i h2
          obtain ⟨u, e, g⟩ := ih _ _ _ h
          exact ⟨x :: u, by rw [e]; rfl, fun c => by simp only [List.cons_append, Rd.uvarLoop, if_neg h1, if_neg h2, g]⟩
  intro r r' w h he
  simp only [Option.some.injEq] at h
  unfold Rd.uvar at h
  split at h
  · rename_i h1; cases h; exact absurd he h1
  · split at h <;> cases h
    · rename_i h1 v rest h2
      obtain ⟨u, e, g⟩ := key _ _ _ _ h2
      refine ⟨he, u, e, fun c => ?_⟩
      simp only [Rd.uvar, ne_eq, not_true_eq_false, if_false, g]
    · cases he
    · cases he

theorem slice_ext (n : Int) : EX fun r => r.slice n := by
  intro r r' w h he
  simp only [Rd.slice] at h
  split at h
  · rename_i h1; cases h; exact absurd he h1
  · split at h
    · cases h; cases he
    · rename_i h2
      split at h
      · cases h
      · rename_i h3
        cases h
        have hn : (r.body.take n.toNat).length = n.toNat := by rw [List.length_take]; omega
        refine ⟨he, r.body.take n.toNat, (List.take_append_drop ..).symm, fun c => ?_⟩
        simp only [Rd.slice, ne_eq, not_true_eq_false, if_false]
        rw [if_neg (by rw [List.length_append]; omega), if_neg h3, List.drop_left' hn, List.take_left' hn]

theorem slElems_ext (b c : Bytes) (k : Kind) (n j : Nat) (h : (j + n) * Rd.slWidth k ≤ b.length) :
    Rd.slElems (b ++ c) k j n = Rd.slElems b k j n := by
  induction n generalizing j with
  | zero => rfl
  | succ n ih =>
    have hw : (j + 1) * Rd.slWidth k ≤ b.length := Nat.le_trans (Nat.mul_le_mul_right _ (by omega)) h
    have hw' : j * Rd.slWidth k + Rd.slWidth k ≤ b.length := by rw [Nat.add_mul, Nat.one_mul] at hw; exact hw
    simp only [Rd.slElems]
    rw [List.drop_append_of_le_length (by omega), decode_ext, ih (j + 1) (by rw [show j + 1 + n = j + (n + 1) by omega]; exact h)]
    rw [List.length_drop]
    have : Rd.need k = Rd.slWidth k := by cases k <;> rfl
    omega

theorem scalSl_ext (k : Kind) (xs : List Scal) : EX fun r => some (r.scalSl k xs) := by
  intro r r' w h he
  simp only [Option.some.injEq] at h
  unfold Rd.scalSl at h
  split at h
  · rename_i h1; cases h; exact absurd he h1
  · split at h
    · cases h; cases he
    · rename_i h2
      cases h
      have hn : (r.body.take (xs.length * Rd.slWidth k)).length = xs.length * Rd.slWidth k := by rw [List.length_take]; omega
      refine ⟨he, r.body.take (xs.length * Rd.slWidth k), (List.take_append_drop ..).symm, fun c => ?_⟩
      have hd : Rd.slElems (r.body.take (xs.length * Rd.slWidth k)) k 0 xs.length = Rd.slElems r.body k 0 xs.length := by
        have := slElems_ext (r.body.take (xs.length * Rd.slWidth k)) (r.body.drop (xs.length * Rd.slWidth k)) k xs.length 0
          (by rw [hn]; simp)
        rw [List.take_append_drop] at this
        exact this.symm
      simp only [Rd.scalSl, ne_eq, not_true_eq_false, if_false, Option.some.injEq]
      rw [if_neg (by rw [List.length_append]; omega), slElems_ext _ _ _ _ _ (by rw [hn]; simp), hd, List.drop_left' hn]

/-- The value is worked on. -/
theorem EX.map {α β : Type} {f : Rd → Option (Rd × α)} (h : EX f) (g : α → β) : EX fun r => (f r).map fun q => (q.1, g q.2) := by
  intro r r' w e he
  simp only [Option.map_eq_some_iff] at e
  obtain ⟨⟨r1, v⟩, e1, e2⟩ := e
  cases e2
  obtain ⟨h1, u, h2, h3⟩ := h r r1 v e1 he
  exact ⟨h1, u, h2, fun c => by simp [h3 c]⟩

/-- One read after the other. -/
theorem EX.bind {α β : Type} {f : Rd → Option (Rd × α)} {g : α → Rd → Option (Rd × β)} (h : EX f) (hg : ∀ v, EX (g v)) :
    EX fun r => (f r).bind fun q => g q.2 q.1 := by
  intro r r' w e he
  simp only [Option.bind_eq_some_iff] at e
  obtain ⟨⟨r1, v⟩, e1, e2⟩ := e
  obtain ⟨h1, u, h2, h3⟩ := hg v r1 r' w e2 he
  obtain ⟨h4, u', h5, h6⟩ := h r r1 v e1 h1
  exact ⟨h4, u' ++ u, by rw [h5, h2, List.append_assoc], fun c => by simp [h6, h3]⟩

theorem EX.pure {α : Type} (v : α) : EX fun r => some (r, v) := by
  intro r r' w e he
  cases e
  exact ⟨he, [], rfl, fun c => rfl⟩

theorem EX.none {α : Type} : EX fun _ : Rd => (none : Option (Rd × α)) := by
  intro r r' w e
  cases e

theorem EX.fail {α : Type} (e : RErr) (v : α) : EX fun r => some ({ r with err := some e }, v) := by
  intro r r' w h he
  cases h
  cases he

/-- A read which is not tried if an error is pending. -/
theorem EX.guard {α : Type} {f : Rd → Option (Rd × α)} (h : EX f) (v : α) :
    EX fun r => if r.err ≠ .none then some (r, v) else f r := by
  intro r r' w e he
  simp only at e
  split at e
  · rename_i h1; cases e; exact absurd he h1
  · rename_i h1
    obtain ⟨h2, u, h3, h4⟩ := h r r' w e he
    exact ⟨h2, u, h3, fun c => by simp only [ne_eq, not_true_eq_false, if_false]; exact h4 c⟩

theorem pfx_ext (p : Pfx) : EX fun r => some (p.read r) := by
  cases p
  · exact uvar_ext.map UInt64.toInt64
  · exact (scal_ext .u8).map fun s => (UInt64.ofNat (Rd.Scal.nat s)).toInt64
  · exact (scal_ext .u16).map fun s => (UInt64.ofNat (Rd.Scal.nat s)).toInt64
  · exact (scal_ext .u32).map fun s => (UInt64.ofNat (Rd.Scal.nat s)).toInt64
  · exact (scal_ext .u64).map fun s => (UInt64.ofNat (Rd.Scal.nat s)).toInt64

/-- All but `Tail` of a reader. -/
structure XR (x : TR) : Prop where
  fixed : ∀ v, EX fun r => x.fixed r v
  auto : ∀ v, EX fun r => x.auto r v
  cnt : ∀ f, x.autoCount = some f → ∀ n v, EX fun r => f n r v
  size : ∀ f, x.autoSize = some f → ∀ n v, EX fun r => f n r v

/-- Reading from a part of the body. -/
theorem sub_ext (x : TR) (n : Int) (v : Val) : EX fun r => x.sub n r v := by
  intro r r' w h he
  simp only [TR.sub] at h
  split at h
  · cases h
  · rename_i r1 b e1
    split at h
    · cases h
    · rename_i rr v1 e2
      have fin : r1.err = none → rr.err = none → rr.body = [] → r' = r1 → w = v1 →
          r.err = none ∧ ∃ u, r.body = u ++ r'.body ∧ ∀ c, x.sub n ⟨u ++ c, none⟩ v = some (⟨c, none⟩, w) := by
        intro q1 q2 q3 q4 q5
        obtain ⟨h1, u, h2, h3⟩ := slice_ext n r r1 b e1 q1
        refine ⟨h1, u, by rw [q4]; exact h2, fun c => ?_⟩
        have h3 := h3 c
        simp only at h3
        rw [q1] at e2
        simp only [TR.sub, h3, e2, q2, q3, q5, ne_eq, not_true_eq_false, if_false]
      split at h
      · rename_i q; cases h; exact absurd he q
      · rename_i q2
        split at h
        · cases h; cases he
        · rename_i q3
          cases h
          exact fin he (by simpa using q2) (by simpa using q3) rfl rfl

theorem bySize_ext {x : TR} (h : XR x) (n : Int) (v : Val) : EX fun r => x.bySize n r v := by
  simp only [TR.bySize]
  split
  · rename_i f e; exact h.size f e n v
  · split
    · exact EX.none
    · exact h.fixed _
    · exact EX.fail _ _
    · exact sub_ext x n _

theorem byCount_ext {x : TR} (h : XR x) (n : Int) (v : Val) : EX fun r => x.byCount n r v := by
  simp only [TR.byCount]
  split
  · rename_i f e; exact h.cnt f e n v
  · split
    · exact EX.none
    · exact EX.fail _ _
    · exact h.fixed _

theorem rwithSize_ext {x : TR} (h : XR x) (p : Pfx) (v : Val) : EX fun r => x.withSize p r v := by
  have := EX.bind (pfx_ext p) (g := fun n r => x.bySize n.toInt r v) fun n => bySize_ext h _ v
  exact this.guard v

theorem rwithCount_ext {x : TR} (h : XR x) (p : Pfx) (v : Val) : EX fun r => x.withCount p r v := by
  have := EX.bind (pfx_ext p) (g := fun n r => x.byCount n.toInt r v) fun n => byCount_ext h _ v
  exact this.guard v

theorem xr_scal (k : Kind) : XR (scalR k) := by
  have : ∀ v : Val, EX fun r => some ((r.scal k).1, Val.scal (r.scal k).2) := fun _ => (scal_ext k).map Val.scal
  exact ⟨this, this, by simp [scalR], by simp [scalR]⟩

theorem setString_ext (n : Int) (v : Val) : EX fun r => setString n r v := by
  have := (slice_ext n).map Val.str
  intro r r' w h he
  have hh : ∀ r, setString n r v = (r.slice n).map fun q => (q.1, Val.str q.2) := by
    intro r; unfold setString; cases r.slice n <;> rfl
  simp only [hh] at h ⊢
  exact this r r' w h he

theorem xr_str : XR strR := by
  have : ∀ v : Val, EX fun r => (if r.err ≠ none then some (r, v) else setString (Pfx.i32.read r).2.toInt (Pfx.i32.read r).1 v) := by
    intro v
    have := EX.bind (pfx_ext .i32) (g := fun n r => setString n.toInt r v) fun n => setString_ext _ v
    exact this.guard v
  refine ⟨this, this, fun f e n v => ?_, fun f e n v => ?_⟩
  · cases e; exact setString_ext n v
  · cases e; exact setString_ext n v

theorem readEach_ext (f : RdF) (h : ∀ v, EX fun r => f r v) (vs : List Val) : EX fun r => readEach f r vs := by
  induction vs with
  | nil => exact EX.pure []
  | cons v vs ih =>
    have := (h v).bind (g := fun v r => (readEach f r vs).map fun q => (q.1, v :: q.2)) fun v => ih.map _
    have e : (fun r => readEach f r (v :: vs)) =
        fun r => (f r v).bind fun q => (readEach f q.1 vs).map fun p => (p.1, q.2 :: p.2) := by
      funext r
      simp only [readEach]
      cases f r v with
      | none => rfl
      | some q =>
        simp only [Option.bind_some]
        cases readEach f q.1 vs <;> rfl
    rw [e]
    exact this

theorem slValR_ext (k : Kind) (vs : List Val) : EX fun r => slValR k r vs := by
  simp only [slValR]
  split
  · exact EX.none
  · split
    · exact EX.pure vs
    · exact (scalSl_ext k _).map (List.map Val.scal)

theorem elemsR_ext (k : Option Kind) (f : RdF) (h : ∀ v, EX fun r => f r v) (v : Val) : EX fun r => elemsR k f r v := by
  cases v with
  | seq vs =>
    have e : (fun r => elemsR k f r (.seq vs)) = fun r => ((match k with
      | some k => slValR k r vs
      | none => readEach f r vs : Option (Rd × List Val)).map fun q => (q.1, Val.seq q.2)) := by
      funext r
      simp only [elemsR]
      cases k with
      | none => simp only; cases readEach f r vs <;> rfl
      | some k => simp only; cases slValR k r vs <;> rfl
    rw [e]
    cases k with
    | none => exact (readEach_ext f h vs).map Val.seq
    | some k => exact (slValR_ext k vs).map Val.seq
  | _ => exact EX.none

theorem xr_arr (n : Nat) (k : Option Kind) {e : TR} (h : XR e) : XR (arrR n k e) :=
  ⟨elemsR_ext k e.auto h.auto, elemsR_ext k e.auto h.auto, by simp [arrR], by simp [arrR]⟩

theorem u8Auto_ext (n : Int) (v : Val) : EX fun r => u8Auto n r v := by
  have := (slice_ext n).map fun b => Val.seq (b.map fun x => .scal (.u8 x))
  have e : (fun r => u8Auto n r v) = fun r => (r.slice n).map fun q => (q.1, Val.seq (q.2.map fun x => .scal (.u8 x))) := by
    funext r; unfold u8Auto; cases r.slice n <;> rfl
  rw [e]
  exact this

theorem xr_sl (k : Option Kind) (z : Val) {e : TR} (h : XR e) : XR (slR k z e) := by
  have hc : ∀ f, (if k = some .u8 then some u8Auto else none) = some f → ∀ n v, EX fun r => f n r v := by
    intro f e n v
    split at e <;> cases e
    exact u8Auto_ext n v
  have x0 : ∀ a, (∀ v : Val, EX fun r => a r v) → XR { slR k z e with auto := a } := fun a ha => ⟨elemsR_ext k e.auto h.auto, ha, hc, hc⟩
  have := x0 (fun _ _ => none) fun v => EX.none
  exact x0 _ fun v => rwithCount_ext this .i32 v

theorem ptr_ext {f : RdF} (h : ∀ v, EX fun r => f r v) (v : Val) : EX fun r => (match v with
    | .ref u => match f r u with
      | none => none
      | some (r, u) => some (r, Val.ref u)
    | _ => some (r, v)) := by
  cases v with
  | ref u =>
    have e : (fun r => match f r u with
      | none => none
      | some (r, u) => some (r, Val.ref u)) = fun r => (f r u).map fun q => (q.1, Val.ref q.2) := by
      funext r; cases f r u <;> rfl
    simp only
    rw [e]
    exact (h u).map Val.ref
  | _ => exact EX.pure _

theorem xr_ptr (z : Val) {e : TR} (h : XR e) : XR (ptrR z e) :=
  ⟨ptr_ext h.fixed, ptr_ext h.fixed, by simp [ptrR], by simp [ptrR]⟩

theorem xr_ber (k : Kind) : XR (berR k) := by
  have : ∀ v : Val, EX fun r => some (r.uvar.1, ofUint r.uvar.2 k) := fun _ => uvar_ext.map fun x => ofUint x k
  exact ⟨this, this, by simp [berR], by simp [berR]⟩

theorem xr_berFor {t : Ty} {y : TR} (h : berForR t = some y) : XR y := by
  unfold berForR at h
  split at h
  · split at h <;> cases h; exact xr_ber _
  · split at h <;> cases h; exact xr_arr _ _ (xr_ber _)
  · split at h <;> cases h; exact xr_sl _ _ (xr_ber _)
  · split at h <;> cases h
    have := xr_ptr (.scal (Kind.zero ‹_›)) (xr_ber ‹_›)
    exact ⟨this.fixed, this.auto, this.cnt, this.size⟩
  · cases h

theorem get_ext {f : FR} (h : XR f.x) (v : Val) : EX fun r => f.get false r v := by
  simp only [FR.get, Bool.false_eq_true, if_false]
  split
  · exact rwithSize_ext h _ v
  · exact rwithCount_ext h _ v
  · exact h.fixed v
  · exact h.auto v

theorem readFlds_ext (l : List (Option FR)) (h : ∀ f, some f ∈ l → XR f.x) (vs : List Val) : EX fun r => readFlds false l r vs := by
  induction l generalizing vs with
  | nil =>
    cases vs with
    | nil => exact EX.pure []
    | cons v vs => exact EX.none
  | cons o l ih =>
    have ih := ih fun f hf => h f (List.mem_cons_of_mem _ hf)
    cases vs with
    | nil => cases o <;> exact EX.none
    | cons v vs =>
      cases o with
      | none =>
        have e : (fun r => readFlds false (none :: l) r (v :: vs)) = fun r => (readFlds false l r vs).map fun q => (q.1, v :: q.2) := by
          funext r
          simp only [readFlds]
          cases readFlds false l r vs <;> rfl
        rw [e]
        exact (ih vs).map _
      | some f =>
        have e : (fun r => readFlds false (some f :: l) r (v :: vs)) =
            fun r => (f.get false r v).bind fun q => (readFlds false l q.1 vs).map fun p => (p.1, q.2 :: p.2) := by
          funext r
          simp only [readFlds]
          cases f.get false r v with
          | none => rfl
          | some q =>
            simp only [Option.bind_some]
            cases readFlds false l q.1 vs <;> rfl
        rw [e]
        exact (get_ext (h f (List.mem_cons_self ..)) v).bind (g := fun v r => (readFlds false l r vs).map fun q => (q.1, v :: q.2))
          fun v => (ih vs).map _

theorem xr_struct (sz : Int) {l : List (Option FR)} (h : ∀ f, some f ∈ l → XR f.x) : XR (structR sz l) := by
  have : ∀ v : Val, EX fun r => (structR sz l).fixed r v := by
    intro v
    cases v with
    | seq vs =>
      have e : (fun r => (structR sz l).fixed r (.seq vs)) = fun r => (readFlds false l r vs).map fun q => (q.1, Val.seq q.2) := by
        funext r
        simp only [structR]
        cases readFlds false l r vs <;> rfl
      rw [e]
      exact (readFlds_ext l h vs).map Val.seq
    | _ => exact EX.none
  exact ⟨this, this, by simp [structR], by simp [structR]⟩

mutual
theorem tr_ext : (t : Ty) → ∀ x, tr t = some x → XR x
  | .scal k, x, h => by simp [tr] at h; subst h; exact xr_scal k
  | .str, x, h => by simp [tr] at h; subst h; exact xr_str
  | .arr n t, x, h => by
    simp only [tr] at h
    cases he : tr t with
    | none => simp [he] at h
    | some e =>
      simp only [he, Option.some.injEq] at h
      subst h
      exact xr_arr n _ (tr_ext t e he)
  | .sl t, x, h => by
    simp only [tr] at h
    cases he : tr t with
    | none => simp [he] at h
    | some e =>
      simp only [he, Option.some.injEq] at h
      subst h
      exact xr_sl _ _ (tr_ext t e he)
  | .ptr t, x, h => by
    simp only [tr] at h
    cases he : tr t with
    | none => simp [he] at h
    | some e =>
      simp only [he, Option.some.injEq] at h
      subst h
      exact xr_ptr _ (tr_ext t e he)
  | .struct fs, x, h => by
    simp only [tr] at h
    cases he : trFl 0 false fs with
    | none => simp [he] at h
    | some q =>
      obtain ⟨s, l⟩ := q
      simp only [he, Option.some.injEq] at h
      subst h
      exact xr_struct s (trFl_ext fs 0 false s l he)
theorem trFl_ext : (fs : Fl) → ∀ s b s' l, trFl s b fs = some (s', l) → ∀ f, some f ∈ l → XR f.x
  | .nil, s, b, s', l, h => by simp [trFl] at h; rw [h.2]; simp
  | .cons .hidden t fs, s, b, s', l, h => by
    simp only [trFl] at h
    cases he : trFl s b fs with
    | none => simp [he] at h
    | some q =>
      obtain ⟨s1, l1⟩ := q
      simp only [he, Option.some.injEq, Prod.mk.injEq] at h
      have := trFl_ext fs s b s1 l1 he
      rw [← h.2]
      simpa using this
  | .cons .skip t fs, s, b, s', l, h => by
    simp only [trFl] at h
    split at h
    · simp at h
    cases he : trFl s b fs with
    | none => simp [he] at h
    | some q =>
      obtain ⟨s1, l1⟩ := q
      simp only [he, Option.some.injEq, Prod.mk.injEq] at h
      have := trFl_ext fs s b s1 l1 he
      rw [← h.2]
      simpa using this
  | .cons (.use ber d) t fs, s, b, s', l, h => by
    obtain ⟨_, x, hx, s1, s2, l1, h1, h2, h3⟩ := trFl_inv s s' b ber d t fs l h
    have hz := tr_ext t x hx
    have hr := trFl_ext fs _ _ _ _ h1
    rcases h3 with ⟨_, _, rfl, _⟩ | ⟨_, _, y, hy, rfl⟩
    · simpa using hr
    · intro f hf
      rw [List.mem_cons] at hf
      rcases hf with hf | hf
      · cases hf
        cases ber with
        | true => exact xr_berFor hy
        | false => cases hy; exact hz
      · exact hr f hf
end

end Verif.Reflect
