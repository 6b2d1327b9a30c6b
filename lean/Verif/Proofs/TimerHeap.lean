import Verif.Proofs.TimerSubst
/-! The heap invariant, `push` and `remove`. -/
namespace Verif.Timer
open Forest

theorem shift1_up {h : Slots} {up j : Nat} (hk : (h up).kid (j + 1) ≠ up) :
    shift1 h up j up = { h up with down := (h up).down.set j ((h up).kid (j + 1)) } := by
  have : ((h up).down.set j ((h up).kid (j + 1))).getD (j + 1) 0 = (h up).kid (j + 1) := by
    simp [Item.kid, List.getD_eq_getElem?_getD]
  simp only [shift1, upd_same, Item.kid] at *
  rw [this, upd_ne (Ne.symm hk), upd_same]

theorem shift1_ne {h : Slots} {up j t : Nat} (hk : (h up).kid (j + 1) ≠ up) (ht : t ≠ up) :
    shift1 h up j t = { h t with upi := (h t).upi - if t = (h up).kid (j + 1) then 1 else 0 } := by
  have this : ((h up).down.set j ((h up).kid (j + 1))).getD (j + 1) 0 = (h up).kid (j + 1) := by
    simp [Item.kid, List.getD_eq_getElem?_getD]
  by_cases h1 : t = (h up).kid (j + 1)
  · rw [if_pos h1]
    simp only [shift1, upd_same, Item.kid] at *
    rw [this, h1, upd_same, upd_ne hk]
  · rw [if_neg h1]
    simp only [shift1, upd_same, Item.kid] at *
    rw [this, upd_ne h1, upd_ne ht]; rfl

theorem shift_spec {h : Slots} {up j w x y z : Nat} (hd : (h up).down = [w, x, y, z]) (hj : j < 4)
    (h1 : x ≠ up) (h2 : y ≠ up) (h3 : z ≠ up) :
    shift h up j up = { h up with down := (h up).down.eraseIdx j ++ [0] } ∧
    ∀ s, s ≠ up → shift h up j s = { h s with upi := (h s).upi - ((h up).down.drop (j + 1)).count s } := by
  have c2 : ∀ g : Slots, (g up).down.getD 3 0 = z → shift1 g up 2 up = { g up with down := (g up).down.set 2 z } ∧
      ∀ s, s ≠ up → shift1 g up 2 s = { g s with upi := (g s).upi - if s = z then 1 else 0 } := by
    intro g hg
    have hg' : (g up).kid 3 = z := hg
    refine ⟨?_, fun s hs => ?_⟩
    · have := shift1_up (h := g) (up := up) (j := 2) (by rw [hg']; exact h3); rw [hg'] at this; exact this
    · have := shift1_ne (h := g) (up := up) (j := 2) (by rw [hg']; exact h3) hs; rw [hg'] at this; exact this
  have c1 : ∀ g : Slots, (g up).down.getD 2 0 = y → shift1 g up 1 up = { g up with down := (g up).down.set 1 y } ∧
      ∀ s, s ≠ up → shift1 g up 1 s = { g s with upi := (g s).upi - if s = y then 1 else 0 } := by
    intro g hg
    have hg' : (g up).kid 2 = y := hg
    refine ⟨?_, fun s hs => ?_⟩
    · have := shift1_up (h := g) (up := up) (j := 1) (by rw [hg']; exact h2); rw [hg'] at this; exact this
    · have := shift1_ne (h := g) (up := up) (j := 1) (by rw [hg']; exact h2) hs; rw [hg'] at this; exact this
  have c0 : ∀ g : Slots, (g up).down.getD 1 0 = x → shift1 g up 0 up = { g up with down := (g up).down.set 0 x } ∧
      ∀ s, s ≠ up → shift1 g up 0 s = { g s with upi := (g s).upi - if s = x then 1 else 0 } := by
    intro g hg
    have hg' : (g up).kid 1 = x := hg
    refine ⟨?_, fun s hs => ?_⟩
    · have := shift1_up (h := g) (up := up) (j := 0) (by rw [hg']; exact h1); rw [hg'] at this; exact this
    · have := shift1_ne (h := g) (up := up) (j := 0) (by rw [hg']; exact h1) hs; rw [hg'] at this; exact this
  match j, hj with
  | 0, _ =>
    have a0 := c0 h (by simp [hd])
    have a1 := c1 (shift1 h up 0) (by simp [a0.1, hd])
    have a2 := c2 (shift1 (shift1 h up 0) up 1) (by simp [a1.1, a0.1, hd])
    constructor
    · simp [shift, a2.1, a1.1, a0.1, hd]
    · intro s hs
      simp only [shift, Nat.zero_le, if_true, upd_ne hs, a2.2 s hs, a1.2 s hs, a0.2 s hs, hd]
      congr 1
      simp only [List.drop_succ_cons, List.drop_zero, List.count_cons, List.count_nil, beq_iff_eq, eq_comm (b := s)]; omega
  | 1, _ =>
    have a1 := c1 h (by simp [hd])
    have a2 := c2 (shift1 h up 1) (by simp [a1.1, hd])
    constructor
    · simp [shift, a2.1, a1.1, hd]
    · intro s hs
      simp only [shift, show ¬ (1 ≤ 0) by omega, show ¬ (2 ≤ 0) by omega, show ¬ (2 ≤ 1) by omega, show 1 ≤ 2 by omega, Nat.le_refl, if_true, if_false, upd_ne hs, a2.2 s hs, a1.2 s hs, hd]
      congr 1
      simp only [List.drop_succ_cons, List.drop_zero, List.count_cons, List.count_nil, beq_iff_eq, eq_comm (b := s)]; omega
  | 2, _ =>
    have a2 := c2 h (by simp [hd])
    constructor
    · simp [shift, a2.1, hd]
    · intro s hs
      simp only [shift, show ¬ (1 ≤ 0) by omega, show ¬ (2 ≤ 0) by omega, show ¬ (2 ≤ 1) by omega, show 1 ≤ 2 by omega, Nat.le_refl, if_true, if_false, upd_ne hs, a2.2 s hs, hd]
      congr 1
      simp only [List.drop_succ_cons, List.drop_zero, List.count_cons, List.count_nil, beq_iff_eq, eq_comm (b := s)]; omega
  | 3, _ =>
    constructor
    · simp [shift, hd]
    · intro s hs
      simp [shift, hd, upd_ne hs]

theorem child_of {h F} : ∀ {p k a}, FRep h p k F → a ∈ F.idx → a ∉ F.roots →
    ∃ kq, ((h a).up, kq) ∈ F.nodes ∧ a ∈ kq.roots := by
  induction F with
  | nil => intro p k a _ h; simp [idx] at h
  | cons i kids r ihk ihr =>
    intro p k a H h hr
    have H' := frep_cons.1 H
    simp only [idx, List.mem_cons, List.mem_append] at h
    simp only [roots, List.mem_cons, not_or] at hr
    simp only [nodes, List.mem_cons, List.mem_append]
    rcases h with rfl | h | h
    · exact absurd rfl hr.1
    · by_cases hk : a ∈ kids.roots
      · exact ⟨kids, .inl (by rw [(roots_up H'.2.2.1.2.2.2 hk).1]), hk⟩
      · obtain ⟨kq, h1, h2⟩ := ihk H'.2.2.1.2.2.2 h hk
        exact ⟨kq, .inr (.inl h1), h2⟩
    · obtain ⟨kq, h1, h2⟩ := ihr H'.2.2.2 h hr.2
      exact ⟨kq, .inr (.inr h1), h2⟩

theorem nodes_unique {F : Forest} : ∀ {a ka kb}, F.idx.Nodup → (a, ka) ∈ F.nodes → (a, kb) ∈ F.nodes → ka = kb := by
  induction F with
  | nil => intro a ka kb _ h; simp [nodes] at h
  | cons i k r ihk ihr =>
    intro a ka kb hn h1 h2
    have hk := nodup_kids hn
    rcases nodes_cases hn h1 with ⟨e1, rfl, x1, y1⟩ | ⟨e1, x1, y1⟩ | ⟨e1, x1, y1⟩ <;>
      rcases nodes_cases hn h2 with ⟨e2, rfl, x2, y2⟩ | ⟨e2, x2, y2⟩ | ⟨e2, x2, y2⟩
    · rfl
    · exact absurd e1 e2
    · exact absurd e1 e2
    · exact absurd e2 e1
    · exact ihk (List.nodup_cons.1 hk.1).2 x1 x2
    · exact absurd (nodes_idx x1).1 x2
    · exact absurd e2 e1
    · exact absurd (nodes_idx x2).1 x1
    · exact ihr hk.2.1 y1 y2

theorem nodes_length {F : Forest} : ∀ {a ka}, (a, ka) ∈ F.nodes → ka.idx.length < F.idx.length := by
  induction F with
  | nil => intro a ka h; simp [nodes] at h
  | cons i k r ihk ihr =>
    intro a ka h
    simp only [nodes, List.mem_cons, List.mem_append, Prod.mk.injEq] at h
    simp only [idx, List.length_cons, List.length_append]
    rcases h with ⟨rfl, rfl⟩ | h | h
    · omega
    · have := ihk h; omega
    · have := ihr h; omega

theorem parent_not_below {h F} : ∀ {p k a ka}, FRep h p k F → (p :: F.idx).Nodup → (a, ka) ∈ F.nodes →
    (h a).up ∉ ka.idx := by
  induction F with
  | nil => intro p k a ka _ _ h; simp [nodes] at h
  | cons i kids r ihk ihr =>
    intro p k a ka H hpn hm
    have H' := frep_cons.1 H
    have hn := (List.nodup_cons.1 hpn).2
    have hp : p ∉ (Forest.cons i kids r).idx := (List.nodup_cons.1 hpn).1
    simp only [idx, List.mem_cons, List.mem_append, not_or] at hp
    have hk := nodup_kids hn
    rcases nodes_cases hn hm with ⟨rfl, rfl, x1, y1⟩ | ⟨e1, x1, y1⟩ | ⟨e1, x1, y1⟩
    · rw [H'.1]; exact hp.2.1
    · exact ihk H'.2.2.1.2.2.2 hk.1 x1
    · exact ihr H'.2.2.2 (List.nodup_cons.2 ⟨hp.2.2, hk.2.1⟩) y1

theorem roots_pos {h F} : ∀ {p k i}, FRep h p k F → i ∈ F.roots → F.roots[(h i).upi - k]? = some i := by
  induction F with
  | nil => intro p k i _ h; simp [roots] at h
  | cons j kids r _ ihr =>
    intro p k i H h
    have H' := frep_cons.1 H
    simp only [roots, List.mem_cons] at h ⊢
    rcases h with rfl | h
    · simp [H'.2.1]
    · have hu := roots_up H'.2.2.2 h
      have he : (‹Slots› i).upi - k = ((‹Slots› i).upi - (k + 1)) + 1 := by omega
      rw [he, List.getElem?_cons_succ]
      exact ihr H'.2.2.2 h

theorem roots_nodup {F : Forest} (h : F.idx.Nodup) : F.roots.Nodup := by
  induction F with
  | nil => simp [roots]
  | cons i k r _ ih =>
    have hk := nodup_kids h
    exact List.nodup_cons.2 ⟨fun h' => hk.2.2.1 (roots_sub r i h'), ih hk.2.1⟩

theorem count_drop {l : List Nat} {i pi n : Nat} (hn : l.Nodup) (hi : l[pi]? = some i) (h0 : i ≠ 0) :
    ((pad l).drop n).count i = if n ≤ pi then 1 else 0 := by
  have hz : ∀ m, (List.replicate m 0).count i = 0 := fun m => by
    rw [List.count_eq_zero]; intro h'; exact h0 (List.eq_of_mem_replicate h')
  have hc : (l.drop n).count i = if n ≤ pi then 1 else 0 := by
    have hnd : (l.drop n).Nodup := hn.sublist (List.drop_sublist n l)
    obtain ⟨hlt, hget⟩ := List.getElem?_eq_some_iff.1 hi
    split
    · next hle =>
      have hm : i ∈ l.drop n := by
        rw [List.mem_drop_iff_getElem]
        exact ⟨pi - n, by omega, by rw [← hget]; congr 1; omega⟩
      rw [hnd.count, if_pos hm]
    · next hle =>
      rw [List.count_eq_zero]
      intro hm
      rw [List.mem_drop_iff_getElem] at hm
      obtain ⟨q, hq, hq'⟩ := hm
      have := (List.getElem?_inj (i := n + q) (by omega) hn (j := pi)).1 (by rw [List.getElem?_eq_getElem (by omega), List.getElem?_eq_getElem hlt, hq', hget])
      omega
  simp only [pad, List.drop_append, List.count_append, hc, List.drop_replicate, hz, Nat.add_zero]

/-- The chain of unused slots. -/
def FreeList (h : Slots) : Nat → List Nat → Prop
  | f, [] => f = 0
  | f, i :: r => f = i ∧ FreeList h (h i).up r

theorem FreeList.congr {h h' : Slots} {l : List Nat} : ∀ {f}, (∀ i ∈ l, (h' i).up = (h i).up) → FreeList h f l → FreeList h' f l := by
  induction l with
  | nil => intro f _ H; exact H
  | cons i r ih =>
    intro f he H
    refine ⟨H.1, ?_⟩
    rw [he i (by simp)]
    exact ih (fun j hj => he j (by simp [hj])) H.2

/-- The heap holds the forest `F` (one tree or none) and has the unused slots `fl`. -/
structure WF (H : Heap) (F : Forest) (fl : List Nat) : Prop where
  shape : (F = .nil ∧ H.top = 0) ∨ ∃ kids, F = .cons H.top kids .nil
  rep : FRep H.h 0 0 F
  nodup : (F.idx ++ fl).Nodup
  range : ∀ i ∈ F.idx ++ fl, 0 < i ∧ i < H.n
  ord : ∃ b, Ord (fun i => (H.h i).e) b F
  size : H.size = F.idx.length
  free : FreeList H.h H.free fl
  total : F.idx.length + fl.length + 1 = H.n

theorem WF.new : WF Heap.new .nil [] :=
  ⟨.inl ⟨rfl, rfl⟩, trivial, by simp [idx], by simp [idx], ⟨0, trivial⟩, rfl, rfl, rfl⟩

theorem WF.zero {H F fl} (w : WF H F fl) : (0 :: F.idx).Nodup :=
  List.nodup_cons.2 ⟨fun h => by have := w.range 0 (by simp [h]); omega, (List.nodup_append.1 w.nodup).1⟩

/-- The last lines of `remove`. -/
theorem remove_finish {H F fl a} (w : WF H F fl) (F' : Forest) (g : Slots) (top : Nat)
    (hp : (a :: F'.idx).Perm F.idx) (rep : FRep g 0 0 F') (hk : Keeps H.h g)
    (shape : (F' = .nil ∧ top = 0) ∨ ∃ kids, F' = .cons top kids .nil)
    (ord : ∃ b, Ord (fun i => (H.h i).e) b F') (hf : ∀ i ∈ fl, (g i).up = (H.h i).up) :
    WF { H with h := upd g a { Item.zero with up := H.free }, top, size := H.size - 1, free := a } F' (a :: fl) := by
  have haF : a ∈ F.idx := hp.mem_iff.1 (by simp)
  have hnd := List.nodup_append.1 w.nodup
  have ha : a ∉ F'.idx := (List.nodup_cons.1 (hp.nodup_iff.2 hnd.1)).1
  have hafl : a ∉ fl := fun h => hnd.2.2 a haF a h rfl
  have hp2 : (F'.idx ++ a :: fl).Perm (F.idx ++ fl) := by
    refine List.perm_middle.trans ?_
    rw [← List.cons_append]; exact List.Perm.append_right _ hp
  refine ⟨shape, ?_, hp2.nodup_iff.2 w.nodup, fun i hi => w.range i (hp2.mem_iff.1 hi), ?_, ?_, ?_, ?_⟩
  · exact rep.congr fun i hi => upd_ne (fun e : i = a => ha (e ▸ hi))
  · obtain ⟨b, O⟩ := ord
    refine ⟨b, O.congr fun i hi => ?_⟩
    show (upd g a _ i).e = _
    rw [upd_ne (fun e : i = a => ha (e ▸ hi)), (hk i).1]
  · show H.size - 1 = _
    rw [w.size, ← hp.length_eq]; simp
  · refine ⟨rfl, ?_⟩
    show FreeList (upd g a { Item.zero with up := H.free }) (upd g a { Item.zero with up := H.free } a).up fl
    rw [upd_same]
    refine w.free.congr fun i hi => ?_
    rw [upd_ne (fun e : i = a => hafl (e ▸ hi)), hf i hi]
  · show _ + (fl.length + 1) + 1 = H.n
    have := w.total; have := hp.length_eq; simp at this; omega

theorem len_zero {F : Forest} (h : F.len = 0) : F = .nil := by cases F <;> simp_all [len]

/-- `remove` takes exactly the slot `a` out. -/
theorem remove_ok {H F fl a} (w : WF H F fl) (ha : a ∈ F.idx) :
    ∃ H' F', H.remove a = some H' ∧ WF H' F' (a :: fl) ∧ (a :: F'.idx).Perm F.idx ∧
      ∀ i, i ≠ a → (H'.h i).e = (H.h i).e ∧ (H'.h i).x = (H.h i).x := by
  obtain ⟨ka, hm⟩ := mem_nodes ha
  have N := nodes_node w.rep hm
  have hnd := List.nodup_append.1 w.nodup
  have z := w.zero
  have hna := nodes_nodup hnd.1 hm
  have hka := nodes_idx hm
  have hflF : ∀ i ∈ fl, i ∉ F.idx := fun i h1 h2 => hnd.2.2 i h2 i h1 rfl
  obtain ⟨b, O⟩ := w.ord
  have Oa := nodes_ord O hm
  obtain ⟨kids, hF⟩ : ∃ kids, F = .cons H.top kids .nil := by
    rcases w.shape with h | h
    · rw [h.1] at ha; simp [idx] at ha
    · exact h
  by_cases h0 : (H.h a).downl = 0
  · have hnil : ka = .nil := len_zero (by rw [← N.1, h0])
    subst hnil
    have hperm : (a :: (F.subst a none).idx).Perm F.idx := subst_idx (S := none) (ka := .nil) (by simp [sIdx, idx]) hnd.1 hm
    have hord : Ord (fun i => (H.h i).e) b (F.subst a none) := subst_ord (by simp) O
    by_cases ht : a = H.top
    · subst ht
      have hsub : F.subst H.top none = .nil := by rw [hF]; simp [subst]
      refine ⟨_, F.subst H.top none, by simp only [Heap.remove, h0, if_true]; rfl, ?_, hperm, ?_⟩
      · exact remove_finish w _ H.h 0 hperm (by rw [hsub]; trivial) (Keeps.refl _) (.inl ⟨hsub, rfl⟩) ⟨b, hord⟩
          (fun _ _ => rfl)
      · intro i hi
        show ((upd H.h H.top _) i).e = _ ∧ ((upd H.h H.top _) i).x = _
        rw [upd_ne hi]; exact ⟨rfl, rfl⟩
    · -- a leaf below the top
      have hnr : a ∉ F.roots := by rw [hF]; simp [roots, ht]
      obtain ⟨kq, hq, haq⟩ := child_of w.rep ha hnr
      have Nq := nodes_node w.rep hq
      have hqi := nodes_idx hq
      have hqn := nodes_nodup hnd.1 hq
      have hua := roots_up Nq.2.2.2 haq
      generalize hqq : (H.h a).up = q at *
      have hq0 : q ≠ 0 := fun e => (List.nodup_cons.1 z).1 (e ▸ hqi.1)
      have hqa : q ≠ a := fun e => (List.nodup_cons.1 hqn).1 (e ▸ roots_sub _ _ haq)
      have hrq : ∀ i ∈ kq.roots, i ≠ q := fun i hi e => (List.nodup_cons.1 hqn).1 (e ▸ roots_sub _ _ hi)
      have hrn : kq.roots.Nodup := roots_nodup (List.nodup_cons.1 hqn).2
      have hlen4 : (H.h q).down.length = 4 := by
        rw [Nq.2.2.1, pad]; simp; have := Nq.2.1; omega
      obtain ⟨d0, d1, d2, d3, hdown⟩ : ∃ d0 d1 d2 d3, (H.h q).down = [d0, d1, d2, d3] := by
        match (H.h q).down, hlen4 with
        | [a, b, c, d], _ => exact ⟨a, b, c, d, rfl⟩
      have hdq : ∀ d ∈ (H.h q).down, d ≠ q := by
        intro d hd
        rw [Nq.2.2.1, pad, List.mem_append] at hd
        rcases hd with hd | hd
        · exact hrq d hd
        · rw [List.eq_of_mem_replicate hd]; exact Ne.symm hq0
      have hlt : (H.h a).upi < 4 := by have := Nq.2.1; omega
      have sp := shift_spec hdown hlt (hdq d1 (by simp [hdown])) (hdq d2 (by simp [hdown])) (hdq d3 (by simp [hdown]))
      -- how slots change
      let g : Slots := upd (shift H.h q (H.h a).upi) q
        { shift H.h q (H.h a).upi q with downl := (shift H.h q (H.h a).upi q).downl - 1 }
      have gq : g q = { H.h q with down := (H.h q).down.eraseIdx (H.h a).upi ++ [0], downl := (H.h q).downl - 1 } := by
        simp only [g, upd_same, sp.1]
      have gi : ∀ i, i ≠ q → g i = { H.h i with upi := (H.h i).upi - ((H.h q).down.drop ((H.h a).upi + 1)).count i } := by
        intro i hi; simp only [g, upd_ne hi]; exact sp.2 i hi
      have hk : Keeps H.h g := by
        intro i
        by_cases hi : i = q
        · subst hi; rw [gq]; exact ⟨rfl, rfl⟩
        · rw [gi i hi]; exact ⟨rfl, rfl⟩
      have g0 : ∀ i, i ≠ q → i ≠ 0 → i ∉ kq.roots → g i = H.h i := by
        intro i hi hi0 hir
        rw [gi i hi]
        have : ((H.h q).down.drop ((H.h a).upi + 1)).count i = 0 := by
          rw [List.count_eq_zero]
          intro h'
          have := List.mem_of_mem_drop h'
          rw [Nq.2.2.1, pad, List.mem_append] at this
          rcases this with h' | h'
          · exact hir h'
          · exact hi0 (List.eq_of_mem_replicate h')
        rw [this]; rfl
      have isroot : ∀ i ∈ F.idx, (H.h i).up = q → i ∈ kq.roots := by
        intro i hi hiu
        have hnr' : i ∉ F.roots := by
          intro h'
          have := (roots_up w.rep h').1
          exact hq0 (hiu.symm.trans this)
        obtain ⟨kq', h1, h2⟩ := child_of w.rep hi hnr'
        rw [hiu] at h1
        rw [nodes_unique hnd.1 hq h1]; exact h2
      have g1 : ∀ i ∈ F.idx, i ≠ q → (H.h i).up = q → g i =
          { H.h i with upi := (H.h i).upi - if (H.h a).upi + 1 ≤ (H.h i).upi then 1 else 0 } := by
        intro i hi hiq hiu
        have hr := isroot i hi hiu
        rw [gi i hiq, Nq.2.2.1, count_drop hrn (by simpa using roots_pos Nq.2.2.2 hr)
          (fun e => (List.nodup_cons.1 z).1 (e ▸ hi))]
      have rep : FRep g 0 0 (F.subst a none) := by
        refine erase_frep w.rep z hm ?_ ?_ ?_
        · intro i hi _ hiq hiu hlt'
          rw [hqq] at hiq hiu
          rw [g1 i hi hiq hiu, if_pos (by omega)]
        · intro i hi _ hiq hneg
          rw [hqq] at hiq hneg
          by_cases hiu : (H.h i).up = q
          · rw [g1 i hi hiq hiu, if_neg (fun h' => hneg ⟨hiu, by omega⟩)]; rfl
          · exact g0 i hiq (fun e => (List.nodup_cons.1 z).1 (e ▸ hi)) (fun h' => hiu (roots_up Nq.2.2.2 h').1)
        · intro _
          rw [hqq]; exact gq
      refine ⟨_, F.subst a none, by simp only [Heap.remove, h0, if_true, ht, if_false, hqq]; rfl, ?_, hperm, ?_⟩
      · refine remove_finish w _ g H.top hperm rep hk (.inr ⟨kids.subst a none, ?_⟩) ⟨b, hord⟩ ?_
        · rw [hF]; simp [subst, Ne.symm ht]
        · intro i hi
          have hiF := hflF i hi
          rw [g0 i (fun e => hiF (e ▸ hqi.1)) (fun e => by have := w.range i (by simp [hi]); omega)
            (fun h' => hiF (hqi.2 i (roots_sub _ _ h')))]
      · intro i hi
        show ((upd g a _) i).e = _ ∧ ((upd g a _) i).x = _
        rw [upd_ne hi]; exact hk i
  · -- with children
    have hl0 : ka.len ≠ 0 := by rw [← N.1]; exact h0
    have hfuel : ka.idx.length ≤ H.n := by
      have h1 := w.total
      have h2 := nodes_length hm
      omega
    obtain ⟨h1, m, K, ej, J⟩ := join_ok (f := H.n) N hna Oa hfuel hl0
    have hmk : m ∈ ka.idx := J.perm.mem_iff.1 (by simp)
    have hKk : ∀ i ∈ K.idx, i ∈ ka.idx := fun i hi => J.perm.mem_iff.1 (by simp [hi])
    have hmK : m ∉ K.idx := (List.nodup_cons.1 (J.perm.nodup_iff.2 (List.nodup_cons.1 hna).2)).1
    have hak : a ∉ ka.idx := (List.nodup_cons.1 hna).1
    have hma : m ≠ a := fun e => hak (e ▸ hmk)
    have hperm : (a :: (F.subst a (some (m, K))).idx).Perm F.idx := subst_idx (S := some (m, K)) (by exact J.perm) hnd.1 hm
    have hord : Ord (fun i => (H.h i).e) b (F.subst a (some (m, K))) :=
      subst_ord (by rintro t ⟨⟩; exact ⟨Oa.le m hmk, J.ord⟩) O
    have hup : (h1 a).up = (H.h a).up := by rw [J.self]
    have hupi : (h1 a).upi = (H.h a).upi := by rw [J.self]
    by_cases ht : a = H.top
    · subst ht
      have hkk : kids = ka := by
        rw [hF] at hm hnd
        rcases nodes_cases hnd.1 hm with h | h | h
        · exact h.2.1
        · exact absurd rfl h.1
        · exact absurd rfl h.1
      have hsub : F.subst H.top (some (m, K)) = .cons m K .nil := by rw [hF]; simp [subst]
      let g : Slots := upd h1 m { h1 m with up := 0, upi := 0 }
      have hk : Keeps H.h g := J.keeps.trans (keeps_upd rfl rfl)
      refine ⟨_, F.subst H.top (some (m, K)), by simp only [Heap.remove, h0, if_false, ej, Option.map_some, if_true]; rfl, ?_, hperm, ?_⟩
      · refine remove_finish w _ g m hperm ?_ hk (.inr ⟨K, hsub⟩) ⟨b, hord⟩ ?_
        · rw [hsub, frep_cons]
          refine ⟨by simp [g], by simp [g], J.node.congr (by simp [g]) (by simp [g]) (fun j hj => upd_ne fun e => hmK (e ▸ hj)), trivial⟩
        · intro i hi
          have hiF := hflF i hi
          simp only [g]
          rw [upd_ne (fun e : i = m => hiF (e ▸ hka.2 _ hmk)), J.frame i (fun e => hiF (e ▸ ha)) (fun h' => hiF (hka.2 i h'))]
      · intro i hi
        show ((upd g H.top _) i).e = _ ∧ ((upd g H.top _) i).x = _
        rw [upd_ne hi]; exact hk i
    · have hnr : a ∉ F.roots := by rw [hF]; simp [roots, ht]
      obtain ⟨kq, hq, haq⟩ := child_of w.rep ha hnr
      have hqi := nodes_idx hq
      have hqn := nodes_nodup hnd.1 hq
      have hqk := parent_not_below w.rep z hm
      generalize hqq : (H.h a).up = q at *
      have hqa : q ≠ a := fun e => (List.nodup_cons.1 hqn).1 (e ▸ roots_sub _ _ haq)
      have hqm : q ≠ m := fun e => hqk (e ▸ hmk)
      have h1q : h1 q = H.h q := J.frame q hqa hqk
      let g1 : Slots := upd h1 m { h1 m with up := q, upi := (H.h a).upi }
      let g : Slots := upd g1 q { g1 q with down := (g1 q).down.set (H.h a).upi m }
      have hk : Keeps H.h g := J.keeps.trans ((keeps_upd rfl rfl : Keeps h1 g1).trans (keeps_upd rfl rfl))
      have gm : g m = { h1 m with up := q, upi := (H.h a).upi } := by simp only [g, upd_ne (Ne.symm hqm), g1, upd_same]
      have gq : g q = { H.h q with down := (H.h q).down.set (H.h a).upi m } := by
        simp only [g, upd_same, g1, upd_ne hqm, h1q]
      have gi : ∀ i, i ≠ a → i ≠ q → i ∉ ka.idx → g i = H.h i := by
        intro i h1 h2 h3
        simp only [g, upd_ne h2, g1, upd_ne (fun e : i = m => h3 (e ▸ hmk))]
        exact J.frame i h1 h3
      have rep : FRep g 0 0 (F.subst a (some (m, K))) := by
        refine replace_frep (J.node.congr (by rw [gm]) (by rw [gm]) fun j hj => ?_) (by rw [gm, hqq]) (by rw [gm]) w.rep z hm ?_ ?_
        · have jq : j ≠ q := fun e => hqk (e ▸ hKk j hj)
          have jm : j ≠ m := fun e => hmK (e ▸ hj)
          simp only [g, upd_ne jq, g1, upd_ne jm]
        · intro i _ h1 h2 h3
          rw [hqq] at h3
          exact gi i h1 h3 h2
        · intro _; rw [hqq]; exact gq
      refine ⟨_, F.subst a (some (m, K)), by
        simp only [Heap.remove, h0, if_false, ej, Option.map_some, ht, hup, hupi]; rfl, ?_, hperm, ?_⟩
      · refine remove_finish w _ g H.top hperm rep hk (.inr ⟨kids.subst a (some (m, K)), ?_⟩) ⟨b, hord⟩ ?_
        · rw [hF]; simp [subst, Ne.symm ht]
        · intro i hi
          have hiF := hflF i hi
          rw [gi i (fun e => hiF (e ▸ ha)) (fun e => hiF (e ▸ hqi.1)) (fun h' => hiF (hka.2 i h'))]
      · intro i hi
        show ((upd g a _) i).e = _ ∧ ((upd g a _) i).x = _
        rw [upd_ne hi]; exact hk i

/-- `push` adds one slot. -/
theorem push_ok {H F fl} (w : WF H F fl) (x : Nat) (e : Int) :
    ∃ H' F' fl' i b, H.push x e = some (H', i, b) ∧ WF H' F' fl' ∧ F'.idx.Perm (i :: F.idx) ∧ i ∉ F.idx ∧ 0 < i ∧
      (H'.h i).x = some x ∧ (H'.h i).e = e ∧
      (∀ j ∈ F.idx, (H'.h j).e = (H.h j).e ∧ (H'.h j).x = (H.h j).x) ∧
      (b = true ↔ ∀ j ∈ F.idx, e < (H.h j).e) := by
  have hnd := List.nodup_append.1 w.nodup
  -- the slot used
  obtain ⟨H1, i, fl', hH1, w1⟩ : ∃ (H1 : Heap) (i : Nat) (fl' : List Nat),
      (if H.free ≠ 0 then ({ H with h := upd H.h H.free { Item.zero with x := some x, e := e }, free := (H.h H.free).up }, H.free)
        else ({ H with h := upd H.h H.n { Item.zero with x := some x, e := e }, n := H.n + 1 }, H.n) : Heap × Nat) = (H1, i) ∧
      (H1.h = upd H.h i { Item.zero with x := some x, e := e } ∧ H1.top = H.top ∧ H1.size = H.size ∧
        (i :: (F.idx ++ fl')).Nodup ∧ (∀ j ∈ i :: (F.idx ++ fl'), 0 < j ∧ j < H1.n) ∧
        FreeList H.h H1.free fl' ∧ F.idx.length + fl'.length + 2 = H1.n) := by
    by_cases hf : H.free = 0
    · have hfl : fl = [] := by
        match fl, w with
        | [], _ => rfl
        | i :: r, w =>
          have := w.free.1
          have := w.range i (by simp)
          omega
      subst hfl
      have hn : H.n ∉ F.idx ++ [] := fun h => by have := w.range _ h; omega
      refine ⟨_, _, [], if_neg (by simpa using hf), rfl, rfl, rfl, List.nodup_cons.2 ⟨hn, w.nodup⟩, ?_, ?_, ?_⟩
      · intro j hj
        rcases List.mem_cons.1 hj with rfl | hj
        · have := w.total; exact ⟨by omega, by show _ < H.n + 1; omega⟩
        · have := w.range j hj; exact ⟨this.1, by show _ < H.n + 1; omega⟩
      · exact hf
      · show _ = H.n + 1; have := w.total; simp at this ⊢; omega
    · match fl, w with
      | [], w => exact absurd w.free hf
      | k :: r, w =>
        have hk := w.free.1
        have hnd' : (k :: (F.idx ++ r)).Nodup := (List.perm_middle.nodup_iff).1 w.nodup
        refine ⟨_, _, r, if_pos hf, rfl, rfl, rfl, by rw [hk]; exact hnd', ?_, ?_, ?_⟩
        · intro j hj
          rw [hk] at hj
          exact w.range j (List.perm_middle.mem_iff.2 hj)
        · show FreeList H.h (H.h H.free).up r
          rw [hk]; exact w.free.2
        · show _ = H.n; have := w.total; simp at this ⊢; omega
  obtain ⟨eh, etop, esize, hnd1, hrange, hfree, htot⟩ := w1
  have hiF : i ∉ F.idx := fun h => (List.nodup_cons.1 hnd1).1 (by simp [h])
  have hifl : i ∉ fl' := fun h => (List.nodup_cons.1 hnd1).1 (by simp [h])
  have hflF : ∀ j ∈ fl', j ∉ F.idx := fun j h1 h2 => (List.nodup_append.1 (List.nodup_cons.1 hnd1).2).2.2 j h2 j h1 rfl
  have hi0 : 0 < i := (hrange i (by simp)).1
  have hhi : H1.h i = { Item.zero with x := some x, e := e } := by rw [eh, upd_same]
  have hhj : ∀ j, j ≠ i → H1.h j = H.h j := fun j hj => by rw [eh, upd_ne hj]
  have Ni : Node H1.h i .nil := ⟨by rw [hhi]; rfl, by simp [len], by rw [hhi]; rfl, trivial⟩
  have hpush : H.push x e =
      (if H1.top = 0 then some ({ H1 with size := H1.size + 1, top := i }, i, true)
       else if e ≤ (H1.h H1.top).e then
        (putUnder H1.n H1.h i H1.top).map fun h => ({ H1 with size := H1.size + 1, h, top := i }, i, decide ((h i).e < (h H1.top).e))
       else (putUnder H1.n H1.h H1.top i).map fun h => ({ H1 with size := H1.size + 1, h }, i, false)) := by
    simp only [Heap.push]
    rw [hH1]
  rcases w.shape with ⟨hF, ht⟩ | ⟨kids, hF⟩
  · subst hF
    refine ⟨_, .cons i .nil .nil, fl', i, true, by rw [hpush, etop, ht, if_pos rfl], ?_, by simp [idx], by simp [idx], hi0,
      by simp [hhi], by simp [hhi], by simp [idx], by simp [idx]⟩
    refine ⟨.inr ⟨.nil, rfl⟩, ?_, by simpa [idx] using hnd1, by simpa [idx] using hrange, ⟨e, ?_⟩, ?_, ?_, ?_⟩
    · rw [frep_cons]; exact ⟨by simp [hhi, Item.zero], by simp [hhi, Item.zero], Ni, trivial⟩
    · exact ⟨by simp [hhi], trivial, trivial⟩
    · show H1.size + 1 = _; rw [esize, w.size]; simp [idx]
    · exact hfree.congr fun j hj => by show (H1.h j).up = _; rw [hhj j (fun e => hifl (e ▸ hj))]
    · show _ = H1.n; rw [← htot]; simp [idx]; omega
  · subst hF
    have W := frep_cons.1 w.rep
    have htop0 : H.top ≠ 0 := by have := w.range H.top (by simp [idx]); omega
    have hti : H.top ≠ i := fun h => hiF (by simp [idx, h])
    have hki : i ∉ kids.idx := fun h => hiF (by simp [idx, h])
    have htk : H.top ∉ kids.idx := by have := hnd.1; simp [idx] at this; exact this.1
    have Nt : Node H1.h H.top kids := W.2.2.1.congr (by rw [hhj _ hti]) (by rw [hhj _ hti])
      (fun j hj => hhj j fun e => hki (e ▸ hj))
    obtain ⟨b, O⟩ := w.ord
    have Ok : Ord (fun j => (H1.h j).e) (H1.h H.top).e kids := by
      have : (H1.h H.top).e = (H.h H.top).e := by rw [hhj _ hti]
      rw [this]
      exact O.2.1.congr fun j hj => by rw [hhj j fun e => hki (e ▸ hj)]
    have hidx : (Forest.cons H.top kids .nil).idx = H.top :: kids.idx := by simp [idx]
    have hn1 : (i :: H.top :: kids.idx).Nodup := by
      have := hnd1
      rw [hidx, ← List.cons_append] at this
      exact (List.nodup_append.1 this).1
    have htope : (H1.h H.top).e = (H.h H.top).e := by rw [hhj _ hti]
    have hmin : ∀ j ∈ (Forest.cons H.top kids .nil).idx, (H.h H.top).e ≤ (H.h j).e := by
      rw [hidx]; intro j hj
      rcases List.mem_cons.1 hj with rfl | hj
      · exact Int.le_refl _
      · exact O.2.1.le j hj
    have hlen : kids.idx.length + 1 + fl'.length + 2 = H1.n := by rw [hidx] at htot; simpa using htot
    by_cases hle : e ≤ (H1.h H.top).e
    · obtain ⟨h', K, ep, ok⟩ := put_ok H1.n H1.h i .nil H.top kids Ni Nt (by simpa [idx] using hn1) (by rw [hhi]; exact hle)
        trivial Ok (by simp [idx]; omega)
      have hp : (Forest.cons i K .nil).idx.Perm (i :: (Forest.cons H.top kids .nil).idx) := by
        rw [hidx]; simp only [idx, List.append_nil]
        exact List.Perm.cons _ (by simpa [idx] using ok.perm)
      have hfr : ∀ j ∈ fl', h' j = H1.h j := fun j hj => by
        have hjF := hflF j hj
        rw [hidx] at hjF
        exact ok.frame j (fun e => hifl (e ▸ hj)) (by simp [idx]) hjF
      refine ⟨_, .cons i K .nil, fl', i, _, by
        rw [hpush, etop, if_neg htop0, if_pos hle, ep, Option.map_some], ?_, hp, hiF, hi0, ?_, ?_, ?_, ?_⟩
      · refine ⟨.inr ⟨K, rfl⟩, ?_, ?_, ?_, ⟨e, ?_⟩, ?_, ?_, ?_⟩
        · rw [frep_cons]; exact ⟨by show (h' i).up = 0; rw [ok.up, hhi]; rfl, by show (h' i).upi = 0; rw [ok.upi, hhi]; rfl, ok.node, trivial⟩
        · exact ((hp.append_right fl').nodup_iff).2 hnd1
        · intro j hj; exact hrange j ((hp.append_right fl').mem_iff.1 hj)
        · refine ⟨?_, ?_, trivial⟩
          · show e ≤ (h' i).e; rw [(ok.keeps i).1, hhi]; exact Int.le_refl _
          · show Ord (fun j => (h' j).e) (h' i).e K
            rw [ok.keeps.e, (ok.keeps i).1]; exact ok.ord
        · show H1.size + 1 = _; rw [esize, w.size, hp.length_eq]; simp
        · exact hfree.congr fun j hj => by
            show (h' j).up = _
            rw [hfr j hj, hhj j (fun e => hifl (e ▸ hj))]
        · show _ = H1.n; rw [hp.length_eq, ← htot]; simp; omega
      · show (h' i).x = _; rw [(ok.keeps i).2, hhi]
      · show (h' i).e = _; rw [(ok.keeps i).1, hhi]
      · intro j hj
        show (h' j).e = _ ∧ (h' j).x = _
        rw [(ok.keeps j).1, (ok.keeps j).2, hhj j (fun e => hiF (e ▸ hj))]
        exact ⟨rfl, rfl⟩
      · rw [decide_eq_true_iff, (ok.keeps i).1, (ok.keeps H.top).1, hhi, htope]
        constructor
        · intro h j hj; have := hmin j hj; simp at h; omega
        · intro h; exact h H.top (by simp [idx])
    · obtain ⟨h', K, ep, ok⟩ := put_ok H1.n H1.h H.top kids i .nil Nt Ni (by
          have : (H.top :: kids.idx ++ i :: Forest.nil.idx).Perm (i :: H.top :: kids.idx) := by
            simp only [idx]; exact List.perm_append_comm
          exact this.nodup_iff.2 hn1) (by rw [hhi]; show _ ≤ e; omega) Ok trivial (by omega)
      have hp : (Forest.cons H.top K .nil).idx.Perm (i :: (Forest.cons H.top kids .nil).idx) := by
        rw [hidx]; simp only [idx, List.append_nil]
        have h1 : (H.top :: K.idx).Perm (H.top :: (i :: kids.idx)) := by
          refine List.Perm.cons _ (ok.perm.trans ?_)
          simp only [idx]; exact List.perm_append_comm
        exact h1.trans (List.Perm.swap ..)
      have hfr : ∀ j ∈ fl', h' j = H1.h j := fun j hj => by
        have hjF := hflF j hj
        rw [hidx] at hjF
        simp only [List.mem_cons, not_or] at hjF
        exact ok.frame j hjF.1 hjF.2 (by simp only [idx, List.mem_cons, List.not_mem_nil, or_false]; exact fun e => hifl (e ▸ hj))
      refine ⟨_, .cons H.top K .nil, fl', i, _, by
        rw [hpush, etop, if_neg htop0, if_neg hle, ep, Option.map_some], ?_, hp, hiF, hi0, ?_, ?_, ?_, ?_⟩
      · refine ⟨.inr ⟨K, rfl⟩, ?_, ?_, ?_, ⟨(H.h H.top).e, ?_⟩, ?_, ?_, ?_⟩
        · rw [frep_cons]
          exact ⟨by show (h' H.top).up = 0; rw [ok.up, hhj _ hti]; exact W.1,
            by show (h' H.top).upi = 0; rw [ok.upi, hhj _ hti]; exact W.2.1, ok.node, trivial⟩
        · exact ((hp.append_right fl').nodup_iff).2 hnd1
        · intro j hj; exact hrange j ((hp.append_right fl').mem_iff.1 hj)
        · refine ⟨?_, ?_, trivial⟩
          · show _ ≤ (h' H.top).e; rw [(ok.keeps _).1, htope]; exact Int.le_refl _
          · show Ord (fun j => (h' j).e) (h' H.top).e K
            rw [ok.keeps.e, (ok.keeps _).1]; exact ok.ord
        · show H1.size + 1 = _; rw [esize, w.size, hp.length_eq]; simp
        · exact hfree.congr fun j hj => by
            show (h' j).up = _
            rw [hfr j hj, hhj j (fun e => hifl (e ▸ hj))]
        · show _ = H1.n; rw [hp.length_eq, ← htot]; simp; omega
      · show (h' i).x = _; rw [(ok.keeps i).2, hhi]
      · show (h' i).e = _; rw [(ok.keeps i).1, hhi]
      · intro j hj
        show (h' j).e = _ ∧ (h' j).x = _
        rw [(ok.keeps j).1, (ok.keeps j).2, hhj j (fun e => hiF (e ▸ hj))]
        exact ⟨rfl, rfl⟩
      · constructor
        · intro h; cases h
        · intro h; have := h H.top (by simp [idx]); omega

end Verif.Timer
