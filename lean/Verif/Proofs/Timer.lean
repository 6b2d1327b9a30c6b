import Verif.Proofs.TimerHeap
import Verif.Spec.Timer
/-! The timer heap refines the collection of armed timers. -/
namespace Verif.Timer
open Forest

/-- What a slot says. -/
def ent (h : Slots) (i : Nat) : Nat × Int := ((h i).x.getD 0, (h i).e)

structure Inv (s : St) (F : Forest) (fl : List Nat) (A : Armed) : Prop where
  wf : WF s.hp F fl
  perm : A.Perm (F.idx.map (ent s.hp.h))
  link : ∀ i ∈ F.idx, ∃ x, (s.hp.h i).x = some x ∧ s.ti x = i
  back : ∀ x, s.ti x ≠ 0 → s.ti x ∈ F.idx ∧ (s.hp.h (s.ti x)).x = some x

theorem Inv.new : Inv St.new .nil [] [] :=
  ⟨WF.new, by simp [idx], by simp [idx], fun x h => absurd rfl h⟩

theorem Inv.pos {s F fl A} (I : Inv s F fl A) {i} (h : i ∈ F.idx) : 0 < i := (I.wf.range i (by simp [h])).1

theorem Inv.armed {s F fl A} (I : Inv s F fl A) {x e} : (x, e) ∈ A ↔
    s.ti x ≠ 0 ∧ (s.hp.h (s.ti x)).e = e := by
  rw [I.perm.mem_iff, List.mem_map]
  constructor
  · rintro ⟨i, hi, he⟩
    obtain ⟨y, hy, ht⟩ := I.link i hi
    simp only [ent, hy, Option.getD_some, Prod.mk.injEq] at he
    obtain ⟨rfl, rfl⟩ := he
    rw [ht]; exact ⟨by have := I.pos hi; omega, rfl⟩
  · rintro ⟨h0, rfl⟩
    have := I.back x h0
    exact ⟨s.ti x, this.1, by simp [ent, this.2]⟩

theorem Inv.isArmed {s F fl A} (I : Inv s F fl A) {x} : isArmed A x ↔ s.ti x ≠ 0 := by
  constructor
  · rintro ⟨e, h⟩; exact (I.armed.1 h).1
  · intro h; exact ⟨_, I.armed.2 ⟨h, rfl⟩⟩

/-- Taking out the slot of an armed timer. -/
theorem Inv.remove {s F fl A} (I : Inv s F fl A) {x : Nat} (hx : s.ti x ≠ 0) :
    ∃ s' F' fl' B, s.remove (s.ti x) = some s' ∧ Inv s' F' fl' B ∧ A.Perm ((x, (s.hp.h (s.ti x)).e) :: B) := by
  obtain ⟨hm, hxx⟩ := I.back x hx
  obtain ⟨H', F', er, w', hp, hk⟩ := remove_ok I.wf hm
  have hnF : s.ti x ∉ F'.idx := (List.nodup_cons.1 (hp.nodup_iff.2 (List.nodup_append.1 I.wf.nodup).1)).1
  have hsub : ∀ i ∈ F'.idx, i ∈ F.idx := fun i hi => hp.mem_iff.1 (by simp [hi])
  have hne : ∀ i ∈ F'.idx, i ≠ s.ti x := fun i hi e => hnF (e ▸ hi)
  refine ⟨⟨H', fun y => if y = x then 0 else s.ti y⟩, F', s.ti x :: fl, F'.idx.map (ent s.hp.h), ?_, ⟨w', ?_, ?_, ?_⟩, ?_⟩
  · simp [St.remove, hxx, er]
  · have : F'.idx.map (ent H'.h) = F'.idx.map (ent s.hp.h) := by
      refine List.map_congr_left fun i hi => ?_
      have := hk i (hne i hi)
      simp [ent, this.1, this.2]
    rw [this]
  · intro i hi
    obtain ⟨y, hy, ht⟩ := I.link i (hsub i hi)
    have hyx : y ≠ x := fun e => hne i hi (by rw [← ht, e])
    exact ⟨y, by show (H'.h i).x = _; rw [(hk i (hne i hi)).2, hy], by simp [hyx, ht]⟩
  · intro y hy
    by_cases hyx : y = x
    · simp [hyx] at hy
    · simp only [hyx, if_false] at hy ⊢
      have hb := I.back y hy
      have hyt : s.ti y ≠ s.ti x := fun e => hyx (by
        have h1 := hb.2; rw [e, hxx] at h1; simpa using h1.symm)
      refine ⟨?_, by show (H'.h _).x = _; rw [(hk _ hyt).2]; exact hb.2⟩
      rcases List.mem_cons.1 (hp.mem_iff.2 hb.1) with h | h
      · exact absurd h hyt
      · exact h
  · refine I.perm.trans ((hp.symm.map _).trans ?_)
    rw [List.map_cons]
    have : ent s.hp.h (s.ti x) = (x, (s.hp.h (s.ti x)).e) := by simp [ent, hxx]
    rw [this]

theorem Inv.nodup {s F fl A} (I : Inv s F fl A) : (A.map (·.1)).Nodup := by
  have h1 : (A.map (·.1)).Perm (F.idx.map fun i => (s.hp.h i).x.getD 0) := by
    have := I.perm.map (·.1)
    rw [List.map_map] at this
    exact this
  rw [h1.nodup_iff]
  have h2 : ∀ i ∈ F.idx, ∀ j ∈ F.idx, (s.hp.h i).x.getD 0 = (s.hp.h j).x.getD 0 → i = j := by
    intro i hi j hj he
    obtain ⟨x, hx, hxi⟩ := I.link i hi
    obtain ⟨y, hy, hyj⟩ := I.link j hj
    rw [hx, hy] at he
    simp at he
    rw [← hxi, ← hyj, he]
  have hn := (List.nodup_append.1 I.wf.nodup).1
  rw [List.Nodup, List.pairwise_map]
  refine (List.pairwise_iff_forall_sublist.2 fun {a b} hab => ?_)
  intro he
  have hab' := List.pairwise_iff_forall_sublist.1 hn hab
  exact hab' (h2 a (hab.subset (by simp)) b (hab.subset (by simp)) he)

theorem filter_head {A B : Armed} {x : Nat} {e : Int} (hp : A.Perm ((x, e) :: B)) (hn : (A.map (·.1)).Nodup) :
    B.Perm (A.filter fun p => p.1 ≠ x) := by
  have hn' : (((x, e) :: B).map (·.1)).Nodup := (hp.map _).nodup_iff.1 hn
  have hB : ∀ p ∈ B, p.1 ≠ x := by
    intro p hpB he
    rw [List.map_cons, List.nodup_cons] at hn'
    exact hn'.1 (List.mem_map.2 ⟨p, hpB, he⟩)
  have h1 : (A.filter fun p => p.1 ≠ x).Perm (((x, e) :: B).filter fun p => p.1 ≠ x) := hp.filter _
  refine (h1.trans ?_).symm
  rw [List.filter_cons]
  simp only [ne_eq, not_true_eq_false, decide_false, Bool.false_eq_true, if_false]
  rw [List.filter_eq_self.2 (by intro p hp'; simpa using hB p hp')]

theorem Inv.top {s F fl A} (I : Inv s F fl A) (h : s.hp.size ≠ 0) :
    s.hp.top ∈ F.idx ∧ ∀ p ∈ A, (s.hp.h s.hp.top).e ≤ p.2 := by
  rcases I.wf.shape with ⟨hF, _⟩ | ⟨kids, hF⟩
  · have := I.wf.size; rw [hF] at this; simp [idx] at this; omega
  · have ht : s.hp.top ∈ F.idx := by rw [hF]; simp [idx]
    refine ⟨ht, fun p hp => ?_⟩
    have := I.perm.mem_iff.1 hp
    obtain ⟨i, hi, rfl⟩ := List.mem_map.1 this
    obtain ⟨b, O⟩ := I.wf.ord
    rw [hF] at O hi
    show _ ≤ (s.hp.h i).e
    simp only [idx, List.append_nil, List.mem_cons] at hi
    rcases hi with rfl | hi
    · exact Int.le_refl _
    · exact O.2.1.le i hi

/-- Every operation does what it should, unless a timer is armed again. -/
theorem step_ok {s F fl A} (I : Inv s F fl A) (o : Op) (hf : ∀ x e, o = .after x e → ¬ Timer.isArmed A x) :
    ∃ s' r F' fl' B, s.step o = some (s', r) ∧ Inv s' F' fl' B ∧ Allowed A o r B := by
  cases o with
  | after x e =>
    have hx : s.ti x = 0 := by
      have := hf x e rfl
      rw [I.isArmed] at this
      omega
    obtain ⟨H', F', fl', i, b, ep, w', hp, hiF, hi0, hix, hie, hk, hb⟩ := push_ok I.wf x e
    refine ⟨⟨H', fun y => if y = x then i else s.ti y⟩, .signal b, F', fl', (x, e) :: A, by simp [St.step, ep], ⟨w', ?_, ?_, ?_⟩,
      List.Perm.refl _, ?_⟩
    · refine List.Perm.trans ?_ (hp.map _).symm
      rw [List.map_cons]
      have : ent H'.h i = (x, e) := by simp [ent, hix, hie]
      rw [this]
      refine List.Perm.cons _ (I.perm.trans ?_)
      rw [List.map_congr_left (g := ent H'.h) fun j hj => ?_]
      simp [ent, (hk j hj).1, (hk j hj).2]
    · intro j hj
      rcases List.mem_cons.1 (hp.mem_iff.1 hj) with rfl | hj
      · exact ⟨x, hix, by simp⟩
      · obtain ⟨y, hy, ht⟩ := I.link j hj
        have hyx : y ≠ x := fun e => by rw [e, hx] at ht; have := I.pos hj; omega
        exact ⟨y, by show (H'.h j).x = _; rw [(hk j hj).2, hy], by simp [hyx, ht]⟩
    · intro y hy
      by_cases hyx : y = x
      · subst hyx
        simp only [if_true] at hy ⊢
        exact ⟨hp.mem_iff.2 (by simp), hix⟩
      · simp only [hyx, if_false] at hy ⊢
        have := I.back y hy
        exact ⟨hp.mem_iff.2 (by simp [this.1]), by show (H'.h _).x = _; rw [(hk _ this.1).2]; exact this.2⟩
    · rw [hb]
      constructor
      · intro h p hpA
        obtain ⟨j, hj, rfl⟩ := List.mem_map.1 (I.perm.mem_iff.1 hpA)
        exact h j hj
      · intro h j hj
        exact h (ent s.hp.h j) (I.perm.mem_iff.2 (List.mem_map.2 ⟨j, hj, rfl⟩))
  | stop x =>
    by_cases hx : s.ti x = 0
    · refine ⟨s, .none, F, fl, A, by simp [St.step, hx], I, ?_⟩
      show A.Perm _
      rw [List.filter_eq_self.2]
      intro p hp
      simp only [ne_eq, decide_not, Bool.not_eq_eq_eq_not, Bool.not_true, decide_eq_false_iff_not]
      intro he
      exact (I.isArmed.1 ⟨p.2, by rw [← he]; exact hp⟩) hx
    · obtain ⟨s', F', fl', B, er, I', hp⟩ := I.remove hx
      exact ⟨s', .none, F', fl', B, by simp [St.step, Nat.pos_of_ne_zero hx, er], I', filter_head hp I.nodup⟩
  | scan now =>
    by_cases hs : s.hp.size = 0
    · refine ⟨s, .none, F, fl, A, by simp [St.step, hs], I, List.Perm.refl _, ?_⟩
      have : A = [] := by
        have h1 := I.perm.length_eq
        rw [List.length_map, ← I.wf.size, hs] at h1
        exact List.eq_nil_of_length_eq_zero h1
      simp [this]
    · obtain ⟨ht, hmin⟩ := I.top hs
      by_cases hn : (s.hp.h s.hp.top).e ≥ now
      · refine ⟨s, .none, F, fl, A, by simp [St.step, hs, hn], I, List.Perm.refl _, ?_⟩
        intro p hp; have := hmin p hp; omega
      · obtain ⟨x, hx, htx⟩ := I.link _ ht
        have hx0 : s.ti x ≠ 0 := by rw [htx]; have := I.pos ht; omega
        obtain ⟨s', F', fl', B, er, I', hp⟩ := I.remove hx0
        rw [htx] at er hp
        refine ⟨s', .expired x, F', fl', B, by simp [St.step, hs, hn, hx, er], I', _, ?_, ?_, hmin, hp⟩
        · exact hp.mem_iff.2 (by simp)
        · omega

theorem pad_getD {l : List Nat} {k : Nat} (h : k < l.length) : (pad l).getD k 0 = l[k] := by
  rw [pad, List.getD_eq_getElem?_getD, List.getElem?_append_left h, List.getElem?_eq_getElem h]; rfl

/-- Reachable slots are the slots of the forest. -/
theorem reach_iff {H F fl} (w : WF H F fl) (i : Nat) : Reach H i ↔ i ∈ F.idx := by
  have hn := (List.nodup_append.1 w.nodup).1
  constructor
  · intro h
    induction h with
    | top ht =>
      rcases w.shape with ⟨_, h⟩ | ⟨k, h⟩
      · exact absurd h ht
      · rw [h]; simp [idx]
    | @kid i k _ hk ih =>
      obtain ⟨ka, hm⟩ := mem_nodes ih
      have N := nodes_node w.rep hm
      rw [N.1, ← roots_length] at hk
      refine (nodes_idx hm).2 _ (roots_sub _ _ ?_)
      rw [Item.kid, N.2.2.1, pad_getD hk]
      exact List.getElem_mem hk
  · intro h
    have key : ∀ (G : Forest) (p k : Nat), FRep H.h p k G → (∀ j ∈ G.roots, Reach H j) → ∀ j ∈ G.idx, Reach H j := by
      intro G
      induction G with
      | nil => intro p k _ _ j hj; simp [idx] at hj
      | cons i kids r ihk ihr =>
        intro p k R hr j hj
        have R' := frep_cons.1 R
        simp only [roots, List.mem_cons] at hr
        simp only [idx, List.mem_cons, List.mem_append] at hj
        rcases hj with rfl | hj | hj
        · exact hr j (.inl rfl)
        · refine ihk i 0 R'.2.2.1.2.2.2 (fun q hq => ?_) j hj
          have hpos := roots_pos R'.2.2.1.2.2.2 hq
          obtain ⟨hlt, hget⟩ := List.getElem?_eq_some_iff.1 hpos
          have := Reach.kid (k := (H.h q).upi - 0) (hr i (.inl rfl)) (by rw [R'.2.2.1.1, ← roots_length]; exact hlt)
          rw [Item.kid, R'.2.2.1.2.2.1, pad_getD hlt, hget] at this
          exact this
        · exact ihr p (k + 1) R'.2.2.2 (fun q hq => hr q (.inr hq)) j hj
    refine key F 0 0 w.rep (fun j hj => ?_) i h
    rcases w.shape with ⟨hF, _⟩ | ⟨k, hF⟩
    · rw [hF] at hj; simp [roots] at hj
    · rw [hF] at hj; simp [roots] at hj
      subst hj
      exact .top (by have := w.range H.top (by rw [hF]; simp [idx]); omega)

theorem Inv.holds {s F fl A} (I : Inv s F fl A) : Holds s A := by
  refine ⟨?_, ?_, ?_, I.nodup, ?_, ?_⟩
  · intro i hi
    have hF := (reach_iff I.wf i).1 hi
    obtain ⟨x, hx, ht⟩ := I.link i hF
    refine ⟨x, hx, ht, I.armed.2 ?_⟩
    rw [ht]; exact ⟨by have := I.pos hF; omega, rfl⟩
  · intro x e h
    obtain ⟨h0, he⟩ := I.armed.1 h
    have := I.back x h0
    exact ⟨(reach_iff I.wf _).2 this.1, this.2, he⟩
  · intro x h; rw [I.isArmed] at h; omega
  · rw [I.wf.size, I.perm.length_eq, List.length_map]
  · intro hA
    have : s.hp.size ≠ 0 := by
      rw [I.wf.size]
      have := I.perm.length_eq
      rw [List.length_map] at this
      rw [← this]; intro h; exact hA (List.eq_nil_of_length_eq_zero h)
    exact (I.top this).2

theorem run_ok : ∀ (os : List Op) {s F fl A}, Inv s F fl A →
    (∃ s' rs F' fl' B, s.run os = some (s', rs) ∧ AllowedRun A os rs B ∧ Inv s' F' fl' B) ∨
    (∃ pre x e post s' rs F' fl' B, os = pre ++ .after x e :: post ∧ s.run pre = some (s', rs) ∧
      AllowedRun A pre rs B ∧ Inv s' F' fl' B ∧ isArmed B x) := by
  intro os
  induction os with
  | nil => intro s F fl A I; exact .inl ⟨s, [], F, fl, A, rfl, .nil (List.Perm.refl _), I⟩
  | cons o os ih =>
    intro s F fl A I
    by_cases hf : ∃ x e, o = .after x e ∧ Timer.isArmed A x
    · obtain ⟨x, e, rfl, ha⟩ := hf
      exact .inr ⟨[], x, e, os, s, [], F, fl, A, rfl, rfl, .nil (List.Perm.refl _), I, ha⟩
    · obtain ⟨s1, r, F1, fl1, B1, e1, I1, al⟩ := step_ok I o (fun x e h ha => hf ⟨x, e, h, ha⟩)
      rcases ih I1 with ⟨s', rs, F', fl', B, e2, ar, I'⟩ | ⟨pre, x, e, post, s', rs, F', fl', B, rfl, e2, ar, I', ha⟩
      · exact .inl ⟨s', r :: rs, F', fl', B, by simp [St.run, e1, e2], .cons al ar, I'⟩
      · exact .inr ⟨o :: pre, x, e, post, s', r :: rs, F', fl', B, rfl, by simp [St.run, e1, e2], .cons al ar, I', ha⟩

end Verif.Timer
