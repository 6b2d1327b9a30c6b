import Verif.Proofs.MultiReqRest
import Verif.Spec.RequestRest
/-! The calls on a request come to rest: a measure that each step inside a method lowers, when user code does at most `a` things at a time. -/
namespace Verif.Request
open Verif.MultiReq (sumTo sum_one sum_same)

/-- What is left to do for a goroutine in a method of a request. -/
def pwA (a : Nat) : Pc → Nat
  | .idle | .dead => 0
  | .leave _ => 1
  | .finish _ => 2
  | .fin _ l => 3 + l.length
  | .claimC _ => 6 + a
  | .claimW _ => 7 + a
  | .check _ => 17
  | .react _ l => 18 + l.length
  | .walk _ => 20 + a
  | .mark _ => 21 + a
  | .fill .. => 22 + a
  | .locked _ => 23 + a
  | .wait _ => 24 + a

def workA (a B : Nat) (s : St) : Nat := (4 + a) * s.d.chain.length + sumTo B fun t => pwA a (s.pc t)

theorem chain_cons (a n : Nat) : (4 + a) * (n + 1) = (4 + a) * n + (4 + a) := Nat.mul_succ _ _

theorem less_pc {a : Nat} {r r' : St} {c : Choice} (h : step r c = some r') (hc : Goes a c) :
    ∃ t p, r'.pc = setPc r.pc t p ∧ r.pc t ≠ .idle ∧ (4 + a) * r'.d.chain.length + pwA a p < (4 + a) * r.d.chain.length + pwA a (r.pc t) := by
  have own : ∀ t o, r.ownStep t o = some r' → ∃ d p, o = some (d, p) ∧ r'.pc = setPc r.pc t p ∧ r'.d = d := by
    intro t o h
    cases o with
    | none => cases h
    | some x => cases h; exact ⟨_, _, rfl, rfl, rfl⟩
  cases c with
  | call => cases hc
  | go t =>
    simp only [Request.step] at h
    split at h
    · rename_i op hw
      have cp : (Request.casPending r.d).chain = r.d.chain := by unfold Request.casPending; split <;> rfl
      have ci : (Request.casInFly r.d t).chain = r.d.chain := by unfold Request.casInFly; split <;> rfl
      cases op <;> simp only [Request.St.begin, Request.St.lockStep] at h <;> (try split at h) <;> cases h <;>
        refine ⟨t, _, rfl, by rw [hw]; simp, ?_⟩ <;> rw [hw] <;> simp only [pwA, Data.note, cp, ci] <;> omega
    · rename_i hw
      obtain ⟨d, p, e, e1, e2⟩ := own _ _ h
      refine ⟨t, p, e1, ?_, ?_⟩
      · intro e'; rw [e'] at e; cases e
      · rw [e2]
        have doc : ∀ x d', Request.doAct r.d t x = some d' → d'.chain = r.d.chain := by
          intro x d' h
          cases x <;> simp only [Request.doAct, Request.casPending, Request.casInFly] at h <;> (repeat' split at h) <;> cases h <;> (try split) <;> rfl
        cases hq : r.pc t with
        | wait op => exact absurd hq (hw op)
        | locked op =>
          rw [hq] at e
          simp only [Request.own, Option.some.injEq] at e
          cases op <;> simp only [Request.lockedStep] at e <;> (try split at e) <;> cases e <;>
            simp only [pwA, Data.note, List.length_cons, chain_cons] <;> omega
        | react op l | fin op l =>
          rw [hq] at e
          cases l with
          | nil => cases e; simp only [pwA, List.length_nil]; omega
          | cons x l =>
            simp only [Request.own] at e
            split at e <;> cases e <;> simp only [pwA, List.length_cons] <;> (try rw [doc _ _ ‹_›]) <;> omega
        | _ =>
          rw [hq] at e
          simp only [Request.own] at e
          (repeat' split at e) <;> cases e <;> simp_all only [pwA, Data.note, List.length_cons, chain_cons] <;> (try rw [doc _ _ ‹_›]) <;> omega
  | bookmark t acts =>
    simp only [Request.step] at h
    obtain ⟨d, p, e, e1, e2⟩ := own _ _ h
    refine ⟨t, p, e1, ?_, ?_⟩
    · intro e'; rw [e'] at e; cases e
    · rw [e2]
      unfold Request.enterBookmark at e
      simp only [Goes] at hc
      (repeat' split at e) <;> cases e
      simp_all only [pwA, Data.note]; omega
  | responder t acts =>
    simp only [Request.step] at h
    obtain ⟨d, p, e, e1, e2⟩ := own _ _ h
    refine ⟨t, p, e1, ?_, ?_⟩
    · intro e'; rw [e'] at e; cases e
    · rw [e2]
      unfold Request.enterResponder at e
      simp only [Goes] at hc
      (repeat' split at e) <;> cases e
      simp_all only [pwA, Data.note]; omega

/-- No goroutine from `B` on is in a method. -/
def BndR (B : Nat) (s : St) : Prop := ∀ t, s.pc t ≠ .idle → t < B

theorem less_work {a B : Nat} {s s' : St} {c : Choice} (b : BndR B s) (h : step s c = some s') (hc : Goes a c) : workA a B s' < workA a B s ∧ BndR B s' := by
  obtain ⟨t, p, h1, h2, h3⟩ := less_pc h hc
  have hb := b t h2
  refine ⟨?_, fun u hu => ?_⟩
  · have := sum_one (B := B) (f := fun u => pwA a (s.pc u)) (g := fun u => pwA a (s'.pc u)) hb (fun j hj => by rw [h1]; simp [setPc, hj])
    simp only [h1, setPc, if_true] at this
    unfold workA
    simp only [h1, setPc]
    omega
  · rw [h1] at hu
    simp only [setPc] at hu
    split at hu
    · rename_i e; subst e; exact hb
    · exact b u hu

theorem bndR_step {B : Nat} {s s' : St} {c : Choice} (b : BndR B s) (h : step s c = some s') : ∃ B', BndR B' s' := by
  have old : ∀ a, Goes a c → ∃ B', BndR B' s' := fun a hc => ⟨B, (less_work b h hc).2⟩
  cases c with
  | call t op =>
    simp only [Request.step] at h
    split at h <;> cases h
    refine ⟨B + (t + 1), fun u hu => ?_⟩
    simp only [setPc] at hu
    split at hu
    · omega
    · have := b u hu; omega
  | go t => exact old 0 trivial
  | bookmark t acts => exact old acts.length (Nat.le_refl _)
  | responder t acts => exact old acts.length (Nat.le_refl _)

theorem bndR_run {B : Nat} {s s' : St} {cs : List Choice} (b : BndR B s) (h : run s cs = some s') : ∃ B', BndR B' s' := by
  induction cs generalizing s B with
  | nil => cases h; exact ⟨B, b⟩
  | cons c cs ih =>
    simp only [run] at h
    cases e : step s c with
    | none => rw [e] at h; cases h
    | some t =>
      rw [e] at h
      obtain ⟨B', b'⟩ := bndR_step b e
      exact ih b' h

theorem less_run {a B : Nat} {s s' : St} {ds : List Choice} (b : BndR B s) (hc : ∀ c ∈ ds, Goes a c) (h : run s ds = some s') : ds.length + workA a B s' ≤ workA a B s := by
  induction ds generalizing s with
  | nil => cases h; simp
  | cons c ds ih =>
    simp only [run] at h
    cases e : step s c with
    | none => rw [e] at h; cases h
    | some t =>
      rw [e] at h
      obtain ⟨h1, h2⟩ := less_work b e (hc c (List.mem_cons_self ..))
      have := ih h2 (fun d hd => hc d (List.mem_cons_of_mem _ hd)) h
      simp only [List.length_cons]
      omega

/-- If nobody can go on, the mutex is free or its owner is dead. -/
theorem rest_lock {id msg : UInt32} {s : St} {t : Nat} (i2 : Inv (fun _ => True) (C2 (fun _ => True) id msg) (H2 (fun _ => True) id msg) s)
    (i9 : Inv (fun _ => True) (fun _ => True) H9 s) (hq : ∀ c, Goes 0 c → step s c = none) (hl : s.lock = some t) : s.pc t = .dead := by
  have h2 := (i2.owner t hl).2
  have h9 := (i9.owner t hl).2
  have hcrit := (i9.owner t hl).1
  have go := hq (.go t) trivial
  have book := hq (.bookmark t []) (Nat.le_refl _)
  have resp := hq (.responder t []) (Nat.le_refl _)
  simp only [Request.step] at go book resp
  cases hp : s.pc t
  case dead => rfl
  all_goals rw [hp] at h2 h9 hcrit go book resp
  case idle => simp [Pc.crit] at hcrit
  case wait => simp [Pc.crit] at hcrit
  case walk op =>
    obtain ⟨_, r, hr, _⟩ := h2
    cases hc : s.d.chain with
    | nil => simp [enterResponder, hc, hr, St.ownStep] at resp
    | cons b l => simp [enterBookmark, hc, hr, St.ownStep] at book
  case react op acts =>
    cases acts with
    | nil => simp [own, St.ownStep] at go
    | cons x l => simp only [own] at go; split at go <;> simp [St.ownStep] at go
  case fin op acts =>
    cases acts with
    | nil => simp [own, St.ownStep] at go
    | cons x l => simp only [own] at go; split at go <;> simp [St.ownStep] at go
  case check op =>
    simp only [own] at go
    cases hc : s.d.chain with
    | nil => exact absurd hc h9
    | cons b l => rw [hc] at go; simp only at go; split at go <;> simp [St.ownStep] at go
  all_goals simp [own, St.ownStep] at go

theorem rest_all {id msg : UInt32} {s : St} (i2 : Inv (fun _ => True) (C2 (fun _ => True) id msg) (H2 (fun _ => True) id msg) s)
    (i9 : Inv (fun _ => True) (fun _ => True) H9 s) (hq : ∀ c, Goes 0 c → step s c = none) : (∃ t, s.pc t = .dead) ∨ ∀ t, s.pc t = .idle := by
  cases hl : s.lock with
  | some t => exact .inl ⟨t, rest_lock i2 i9 hq hl⟩
  | none =>
    refine .inr fun t => ?_
    have go := hq (.go t) trivial
    simp only [Request.step] at go
    cases hp : s.pc t
    case idle => rfl
    case wait op =>
      rw [hp] at go
      cases op <;> simp [St.begin, St.lockStep, hl] at go
    all_goals
      have := i9.mutex t (by rw [hp]; rfl)
      rw [hl] at this
      cases this

/-! ### Calls and returns -/

open Verif.MultiReq (opOf)

/-- The call of `op` by goroutine `t` is going on, has returned, or never will. -/
def Kept (s : St) (t : Nat) (op : Op) : Prop := .returned t op ∈ s.d.log ∨ opOf (s.pc t) = some op ∨ s.pc t = .dead

theorem own_kept {d d' : Data} {t : Nat} {p p' : Pc} (h : own d t p = some (d', p')) :
    (∀ e, e ∈ d.log → e ∈ d'.log) ∧ ∀ op, opOf p = some op → .returned t op ∈ d'.log ∨ opOf p' = some op ∨ p' = .dead := by
  unfold own at h
  split at h
  case h_3 op =>
    simp only [Option.some.injEq] at h
    cases op <;> simp only [lockedStep] at h <;> grind [opOf, Data.note]
  case h_10 a acts => cases a <;> simp only [doAct, casPending, casInFly] at h <;> grind [opOf]
  case h_13 a acts => cases a <;> simp only [doAct, casPending, casInFly] at h <;> grind [opOf]
  all_goals grind [opOf, Data.note]

theorem book_kept {d d' : Data} {acts : List Act} {p p' : Pc} (h : enterBookmark d acts p = some (d', p')) :
    (∀ e, e ∈ d.log → e ∈ d'.log) ∧ ∀ op, opOf p = some op → opOf p' = some op := by
  unfold enterBookmark at h
  grind [opOf, Data.note]

theorem resp_kept {d d' : Data} {acts : List Act} {p p' : Pc} (h : enterResponder d acts p = some (d', p')) :
    (∀ e, e ∈ d.log → e ∈ d'.log) ∧ ∀ op, opOf p = some op → opOf p' = some op := by
  unfold enterResponder at h
  grind [opOf, Data.note]

theorem kept_step {s s' : St} {c : Choice} (h : step s c = some s') {t : Nat} {op : Op} (k : Kept s t op) : Kept s' t op := by
  have pcs : ∀ {u : Nat} {p : Pc}, s'.pc = setPc s.pc u p → (∀ e, e ∈ s.d.log → e ∈ s'.d.log) →
      (∀ op, opOf (s.pc u) = some op → .returned u op ∈ s'.d.log ∨ opOf p = some op ∨ p = .dead) → s.pc u ≠ .dead → Kept s' t op := by
    intro u p h1 h2 h3 h4
    unfold Kept
    rw [h1]
    simp only [setPc]
    rcases k with k | k | k
    · exact .inl (h2 _ k)
    · split
      · rename_i e; subst e; exact h3 op k
      · exact .inr (.inl k)
    · split
      · rename_i e; subst e; exact absurd k h4
      · exact .inr (.inr k)
  have own : ∀ t o, s.ownStep t o = some s' → ∃ d p, o = some (d, p) ∧ s'.pc = setPc s.pc t p ∧ s'.d = d := by
    intro t o h
    cases o with
    | none => cases h
    | some x => cases h; exact ⟨_, _, rfl, rfl, rfl⟩
  cases c with
  | call u o =>
    simp only [Request.step] at h
    split at h <;> cases h
    rename_i hi
    exact pcs rfl (fun _ h => h) (fun o' e => by rw [hi] at e; cases e) (by rw [hi]; simp)
  | go u =>
    simp only [Request.step] at h
    split at h
    · rename_i o hw
      cases o <;> simp only [Request.St.begin, Request.St.lockStep] at h <;> (try split at h) <;> cases h <;>
        refine pcs rfl (fun e he => ?_) (fun o' e => ?_) (by rw [hw]; simp)
      all_goals first
        | (rw [hw] at e; cases e; first | exact .inl (List.mem_cons_self ..) | exact .inr (.inl rfl))
        | exact he
        | (refine List.mem_cons_of_mem _ ?_
           first
           | (unfold casPending; split <;> first | exact List.mem_cons_of_mem _ he | exact he)
           | (unfold casInFly; split <;> first | exact List.mem_cons_of_mem _ he | exact he))
    · obtain ⟨d, p, e, e1, e2⟩ := own _ _ h
      have nd : s.pc u ≠ .dead := by intro e'; rw [e'] at e; cases e
      obtain ⟨k1, k2⟩ := own_kept e
      exact pcs e1 (by rw [e2]; exact k1) (by rw [e2]; exact k2) nd
  | bookmark u acts =>
    simp only [Request.step] at h
    obtain ⟨d, p, e, e1, e2⟩ := own _ _ h
    have nd : s.pc u ≠ .dead := by intro e'; rw [e'] at e; cases e
    obtain ⟨k1, k2⟩ := book_kept e
    exact pcs e1 (by rw [e2]; exact k1) (fun o ho => .inr (.inl (k2 o ho))) nd
  | responder u acts =>
    simp only [Request.step] at h
    obtain ⟨d, p, e, e1, e2⟩ := own _ _ h
    have nd : s.pc u ≠ .dead := by intro e'; rw [e'] at e; cases e
    obtain ⟨k1, k2⟩ := resp_kept e
    exact pcs e1 (by rw [e2]; exact k1) (fun o ho => .inr (.inl (k2 o ho))) nd

theorem kept_run {s s' : St} {cs : List Choice} (h : run s cs = some s') {t : Nat} {op : Op} (hc : .call t op ∈ cs ∨ Kept s t op) : Kept s' t op := by
  induction cs generalizing s with
  | nil =>
    cases h
    rcases hc with hc | hc
    · cases hc
    · exact hc
  | cons c cs ih =>
    simp only [run] at h
    cases e : step s c with
    | none => rw [e] at h; cases h
    | some u =>
      rw [e] at h
      refine ih h ?_
      rcases hc with hc | hc
      · rcases List.mem_cons.1 hc with rfl | hc
        · refine .inr (.inr (.inl ?_))
          simp only [Request.step] at e
          split at e <;> cases e
          simp [setPc, opOf]
        · exact .inl hc
      · exact .inr (kept_step e hc)

end Verif.Request
