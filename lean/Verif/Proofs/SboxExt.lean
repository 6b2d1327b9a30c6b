import Verif.Proofs.ReflectExt
import Verif.Proofs.SboxResult
import Verif.Model.SizedTuple

/-! A tuple that is read successfully depends only on the bytes it takes. -/
namespace Verif.Sbox
open Verif.Marshal Verif.Reflect Verif.Spec

theorem cnt_ext : EX fun r => some r.intUint32 := pfx_ext .i32
theorem ivar_ext : EX fun r => some r.intvar := pfx_ext .ber

/-- A count of fields, of which at least one is wanted. -/
theorem atLeastOne_ext {α : Type} {f : Rd → Option (Rd × α)} (h : EX f) (v : α) : EX fun r =>
    if 1 ≤ r.intUint32.2.toInt then f r.intUint32.1 else some ({ r.intUint32.1 with err := some .other }, v) := by
  have := cnt_ext.bind (g := fun (n : Int64) r => if 1 ≤ n.toInt then f r else some ({ r with err := some .other }, v)) fun n => by
    by_cases hn : 1 ≤ n.toInt
    · simp only [hn, if_true]; exact h
    · simp only [hn, if_false]; exact EX.fail _ _
  exact this

theorem fixedR_ext {x : TR} (h : XR x) (v : Val) : EX fun r => fixedR x r v := by
  have key : EX fun r => if r.intvar.2.toInt = x.sz then x.fixed r.intvar.1 v else some ({ r.intvar.1 with err := some .other }, v) := by
    have := ivar_ext.bind (g := fun (n : Int64) r => if n.toInt = x.sz then x.fixed r v else some ({ r with err := some .other }, v))
      fun n => by
        by_cases hn : n.toInt = x.sz
        · simp only [hn, if_true]; exact h.fixed v
        · simp only [hn, if_false]; exact EX.fail _ _
    exact this
  have e : (fun r => fixedR x r v) = fun r => if 1 ≤ r.intUint32.2.toInt then
      (if r.intUint32.1.intvar.2.toInt = x.sz then x.fixed r.intUint32.1.intvar.1 v
        else some ({ r.intUint32.1.intvar.1 with err := some .other }, v))
      else some ({ r.intUint32.1 with err := some .other }, v) := by
    funext r
    simp only [fixedR, oneField]
    by_cases h1 : 1 ≤ r.intUint32.2.toInt
    · simp only [h1, if_true]
      by_cases h2 : r.intUint32.1.intvar.2.toInt = x.sz
      · simp only [h2, if_true]
      · simp only [h2, if_false, Bool.false_eq_true]
    · simp only [h1, if_false, Bool.false_eq_true]
  rw [e]
  exact atLeastOne_ext key v

theorem stringR_ext (v : Val) : EX fun r => stringR r v := by
  have := ivar_ext.bind (g := fun (n : Int64) r => setString n.toInt r v) fun n => setString_ext _ v
  exact atLeastOne_ext this v

theorem bytesR_ext {x : TR} (h : XR x) (v : Val) : EX fun r => bytesR x r v :=
  atLeastOne_ext (rwithSize_ext h .ber v) v

theorem sizedEachR_ext {e : TR} (h : XR e) (vs : List Val) : EX fun r => sizedEachR e r vs := by
  have := readEach_ext (fun r v => e.withSize .ber r v) (rwithSize_ext h .ber) vs
  have e' : ∀ vs r, sizedEachR e r vs = readEach (fun r v => e.withSize .ber r v) r vs := by
    intro vs
    induction vs with
    | nil => intro r; rfl
    | cons v vs ih =>
      intro r
      simp only [sizedEachR, readEach, ih]
      rfl
  simp only [e']
  exact this

theorem seqMap_ext {f : Rd → Option (Rd × List Val)} (h : EX f) : EX fun r => (match f r with
    | none => none
    | some (r, vs) => some (r, Val.seq vs)) := by
  have e : (fun r => (match f r with
    | none => none
    | some (r, vs) => some (r, Val.seq vs))) = fun r => (f r).map fun q => (q.1, Val.seq q.2) := by
    funext r; cases f r <;> rfl
  rw [e]
  exact h.map _

theorem refMap_ext {f : Rd → Option (Rd × Val)} (h : EX f) : EX fun r => (match f r with
    | none => none
    | some (r, u) => some (r, Val.ref u)) := by
  have e : (fun r => (match f r with
    | none => none
    | some (r, u) => some (r, Val.ref u))) = fun r => (f r).map fun q => (q.1, Val.ref q.2) := by
    funext r; cases f r <;> rfl
  rw [e]
  exact h.map _

theorem arrayR_ext {e : TR} (h : XR e) (v : Val) : EX fun r => arrayR e r v := by
  cases v with
  | seq vs =>
    have := cnt_ext.bind (g := fun (n : Int64) r => if n.toInt < vs.length then some ({ r with err := some .other }, Val.seq vs)
      else if n.toInt = vs.length then (match sizedEachR e r vs with
        | none => none
        | some (r, vs) => some (r, Val.seq vs)) else none) fun n => by
      by_cases h1 : n.toInt < vs.length
      · simp only [h1, if_true]; exact EX.fail _ _
      · simp only [h1, if_false]
        by_cases h2 : n.toInt = vs.length
        · simp only [h2, if_true]; exact seqMap_ext (sizedEachR_ext h vs)
        · simp only [h2, if_false]; exact EX.none
    exact this
  | _ => exact EX.none

theorem sliceR_ext {e : TR} (h : XR e) (z v : Val) : EX fun r => sliceR e z r v := by
  have := cnt_ext.bind (g := fun (n : Int64) r => (match sizedEachR e r (List.replicate n.toInt.toNat z) with
        | none => none
        | some (r, vs) => some (r, Val.seq vs))) fun n => seqMap_ext (sizedEachR_ext h _)
  exact this

theorem structReadFlds_ext (l : List (Option FR)) (h : ∀ f, some f ∈ l → XR f.x) (k : Nat) (vs : List Val) :
    EX fun r => structReadFlds k l r vs := by
  induction l generalizing vs k with
  | nil =>
    cases vs with
    | nil => simp only [structReadFlds]; exact EX.pure []
    | cons v vs => simp only [structReadFlds]; exact EX.none
  | cons o l ih =>
    have ih := ih fun f hf => h f (List.mem_cons_of_mem _ hf)
    cases vs with
    | nil => cases o <;> cases k <;> simp only [structReadFlds] <;> exact EX.none
    | cons v vs =>
      cases o with
      | none =>
        have e : (fun r => structReadFlds k (none :: l) r (v :: vs)) = fun r => (structReadFlds k l r vs).map fun q => (q.1, v :: q.2) := by
          funext r
          rw [structReadFlds]
          cases structReadFlds k l r vs <;> rfl
        rw [e]
        exact (ih k vs).map _
      | some f =>
        cases k with
        | zero => simp only [structReadFlds]; exact EX.pure _
        | succ k =>
          have e : (fun r => structReadFlds (k + 1) (some f :: l) r (v :: vs)) =
              fun r => (f.x.withSize .ber r v).bind fun q => (structReadFlds k l q.1 vs).map fun p => (p.1, q.2 :: p.2) := by
            funext r
            rw [structReadFlds]
            cases f.x.withSize .ber r v with
            | none => rfl
            | some q =>
              simp only [Option.bind_some]
              cases structReadFlds k l q.1 vs <;> rfl
          rw [e]
          exact (rwithSize_ext (h f (List.mem_cons_self ..)) .ber v).bind (g := fun v r => (structReadFlds k l r vs).map fun q => (q.1, v :: q.2))
            fun v => (ih k vs).map _

theorem structRd_ext (l : List (Option FR)) (h : ∀ f, some f ∈ l → XR f.x) (v : Val) : EX fun r => structRd l r v := by
  cases v with
  | seq vs =>
    have := cnt_ext.bind (g := fun (n : Int64) r => (match structReadFlds n.toInt.toNat l r vs with
        | none => none
        | some (r, vs) => some (r, Val.seq vs))) fun n => seqMap_ext (structReadFlds_ext l h _ vs)
    exact this
  | _ => exact EX.none

theorem tupR_ext : (t : Ty) → ∀ f, tupR t = some f → ∀ v, EX fun r => f r v
  | .scal k, f, h, v => by
    simp only [tupR, Option.some.injEq] at h
    subst h
    exact fixedR_ext (xr_scal k) v
  | .str, f, h, v => by
    simp only [tupR, Option.some.injEq] at h
    subst h
    exact stringR_ext v
  | .arr n t, f, h, v => by
    simp only [tupR] at h
    split at h
    · rename_i x e h1 h2
      cases h
      split
      · exact fixedR_ext (tr_ext _ _ h1) v
      · exact arrayR_ext (tr_ext _ _ h2) v
    · cases h
  | .sl t, f, h, v => by
    simp only [tupR] at h
    split at h
    · rename_i x e h1 h2
      cases h
      split
      · exact bytesR_ext (tr_ext _ _ h1) v
      · exact sliceR_ext (tr_ext _ _ h2) _ v
    · cases h
  | .struct fs, f, h, v => by
    simp only [tupR] at h
    split at h
    · rename_i s l h1
      cases h
      exact structRd_ext l (trFl_ext fs _ _ _ _ h1) v
    · cases h
  | .ptr t, f, h, v => by
    simp only [tupR] at h
    split at h
    · rename_i x g h1 h2
      cases h
      exact refMap_ext (tupR_ext t g h2 _)
    · cases h

theorem readRaw_ext (t : Ty) : EX fun r => readRaw t r := by
  simp only [readRaw]
  cases h : tupR t with
  | none => exact EX.none
  | some f => exact tupR_ext t f h _

end Verif.Sbox
