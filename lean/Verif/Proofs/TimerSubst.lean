import Verif.Proofs.TimerForest
/-! Taking one node out of a forest. -/
namespace Verif.Timer
open Forest

/-- All nodes with their children. -/
def Forest.nodes : Forest → List NT
  | .nil => []
  | .cons i k r => (i, k) :: (k.nodes ++ r.nodes)

theorem mem_nodes {F : Forest} : ∀ {a}, a ∈ F.idx → ∃ ka, (a, ka) ∈ F.nodes := by
  induction F with
  | nil => intro a h; simp [idx] at h
  | cons i k r ihk ihr =>
    intro a h
    simp only [idx, List.mem_cons, List.mem_append] at h
    simp only [nodes, List.mem_cons, List.mem_append]
    rcases h with rfl | h | h
    · exact ⟨k, .inl rfl⟩
    · obtain ⟨ka, h⟩ := ihk h; exact ⟨ka, .inr (.inl h)⟩
    · obtain ⟨ka, h⟩ := ihr h; exact ⟨ka, .inr (.inr h)⟩

theorem nodes_idx {F : Forest} : ∀ {a ka}, (a, ka) ∈ F.nodes → a ∈ F.idx ∧ ∀ j ∈ ka.idx, j ∈ F.idx := by
  induction F with
  | nil => intro a ka h; simp [nodes] at h
  | cons i k r ihk ihr =>
    intro a ka h
    simp only [nodes, List.mem_cons, List.mem_append, Prod.mk.injEq] at h
    simp only [idx, List.mem_cons, List.mem_append]
    rcases h with ⟨rfl, rfl⟩ | h | h
    · exact ⟨.inl rfl, fun j hj => .inr (.inl hj)⟩
    · have := ihk h; exact ⟨.inr (.inl this.1), fun j hj => .inr (.inl (this.2 j hj))⟩
    · have := ihr h; exact ⟨.inr (.inr this.1), fun j hj => .inr (.inr (this.2 j hj))⟩

theorem nodes_nodup {F : Forest} : ∀ {a ka}, F.idx.Nodup → (a, ka) ∈ F.nodes → (a :: ka.idx).Nodup := by
  induction F with
  | nil => intro a ka _ h; simp [nodes] at h
  | cons i k r ihk ihr =>
    intro a ka hn h
    simp only [idx] at hn
    have hn2 := (List.nodup_cons.1 hn).2
    simp only [nodes, List.mem_cons, List.mem_append, Prod.mk.injEq] at h
    rcases h with ⟨rfl, rfl⟩ | h | h
    · rw [List.nodup_cons] at hn ⊢
      exact ⟨fun h => hn.1 (by simp [h]), (List.nodup_append.1 hn.2).1⟩
    · exact ihk (List.nodup_append.1 hn2).1 h
    · exact ihr (List.nodup_append.1 hn2).2.1 h

theorem nodes_node {h F} : ∀ {p k a ka}, FRep h p k F → (a, ka) ∈ F.nodes → Node h a ka := by
  induction F with
  | nil => intro p k a ka _ h; simp [nodes] at h
  | cons i kids r ihk ihr =>
    intro p k a ka H h
    rw [frep_cons] at H
    simp only [nodes, List.mem_cons, List.mem_append, Prod.mk.injEq] at h
    rcases h with ⟨rfl, rfl⟩ | h | h
    · exact H.2.2.1
    · exact ihk H.2.2.1.2.2.2 h
    · exact ihr H.2.2.2 h

theorem nodes_ord {e F} : ∀ {b : Int} {a ka}, Ord e b F → (a, ka) ∈ F.nodes → Ord e (e a) ka := by
  induction F with
  | nil => intro b a ka _ h; simp [nodes] at h
  | cons i kids r ihk ihr =>
    intro b a ka H h
    simp only [nodes, List.mem_cons, List.mem_append, Prod.mk.injEq] at h
    rcases h with ⟨rfl, rfl⟩ | h | h
    · exact H.2.1
    · exact ihk H.2.1 h
    · exact ihr H.2.2 h

/-- Replace the node `a` (with all that hangs under it) by one tree, or by nothing. -/
def Forest.subst (a : Nat) (S : Option NT) : Forest → Forest
  | .nil => .nil
  | .cons i k r =>
    if i = a then (match S with | none => r | some t => .cons t.1 t.2 r)
    else .cons i (k.subst a S) (r.subst a S)

def sIdx : Option NT → List Nat
  | none => []
  | some t => NT.idx t

theorem subst_notin {a S} {F : Forest} (h : a ∉ F.idx) : F.subst a S = F := by
  induction F with
  | nil => rfl
  | cons i k r ihk ihr =>
    simp only [idx, List.mem_cons, List.mem_append, not_or] at h
    simp [subst, Ne.symm h.1, ihk h.2.1, ihr h.2.2]

/-- The ways a node sits in a forest. -/
theorem nodes_cases {i : Nat} {k r : Forest} {a ka} (hn : (Forest.cons i k r).idx.Nodup)
    (h : (a, ka) ∈ (Forest.cons i k r).nodes) :
    (i = a ∧ k = ka ∧ a ∉ k.idx ∧ a ∉ r.idx) ∨ (i ≠ a ∧ (a, ka) ∈ k.nodes ∧ a ∉ r.idx) ∨
      (i ≠ a ∧ a ∉ k.idx ∧ (a, ka) ∈ r.nodes) := by
  simp only [idx] at hn
  have h1 := (List.nodup_cons.1 hn).1
  have h2 := (List.nodup_append.1 (List.nodup_cons.1 hn).2).2.2
  simp only [List.mem_append, not_or] at h1
  simp only [nodes, List.mem_cons, List.mem_append, Prod.mk.injEq] at h
  rcases h with ⟨rfl, rfl⟩ | h | h
  · exact .inl ⟨rfl, rfl, h1.1, h1.2⟩
  · have ha := (nodes_idx h).1
    exact .inr (.inl ⟨fun e => h1.1 (e ▸ ha), h, fun h' => h2 a ha a h' rfl⟩)
  · have ha := (nodes_idx h).1
    exact .inr (.inr ⟨fun e => h1.2 (e ▸ ha), fun h' => h2 a h' a ha rfl, h⟩)

theorem nodup_kids {i : Nat} {k r : Forest} (hn : (Forest.cons i k r).idx.Nodup) :
    (i :: k.idx).Nodup ∧ r.idx.Nodup ∧ i ∉ r.idx ∧ (∀ j ∈ k.idx, j ∉ r.idx) := by
  simp only [idx] at hn
  rw [List.nodup_cons] at hn
  have h2 := List.nodup_append.1 hn.2
  exact ⟨List.nodup_cons.2 ⟨fun h => hn.1 (by simp [h]), h2.1⟩, h2.2.1, fun h => hn.1 (by simp [h]),
    fun j hj hj' => h2.2.2 j hj j hj' rfl⟩

theorem subst_idx {a ka S} {F : Forest} (hS : (sIdx S).Perm ka.idx) :
    F.idx.Nodup → (a, ka) ∈ F.nodes → (a :: (F.subst a S).idx).Perm F.idx := by
  induction F with
  | nil => intro _ h; simp [nodes] at h
  | cons i k r ihk ihr =>
    intro hn h
    have hk := nodup_kids hn
    rcases nodes_cases hn h with ⟨rfl, rfl, h1, h2⟩ | ⟨h1, h2, h3⟩ | ⟨h1, h2, h3⟩
    · cases S with
      | none =>
        simp only [subst, if_true, idx]
        exact List.Perm.cons _ (List.Perm.append_right r.idx hS)
      | some t =>
        simp only [subst, if_true, idx]
        exact List.Perm.cons _ (List.Perm.append_right r.idx hS)
    · simp only [subst, h1, if_false, subst_notin h3, idx]
      refine (List.Perm.swap ..).trans (List.Perm.cons _ ?_)
      rw [← List.cons_append]
      exact List.Perm.append_right _ (ihk (List.nodup_cons.1 hk.1).2 h2)
    · simp only [subst, h1, if_false, subst_notin h2, idx]
      refine (List.Perm.swap ..).trans (List.Perm.cons _ ?_)
      refine List.perm_middle.symm.trans ?_
      exact List.Perm.append_left _ (ihr hk.2.1 h3)

theorem subst_ord {e a S} {F : Forest} (hS : ∀ t, S = some t → e a ≤ e t.1 ∧ Ord e (e t.1) t.2) :
    ∀ {b : Int}, Ord e b F → Ord e b (F.subst a S) := by
  induction F with
  | nil => intros; trivial
  | cons i k r ihk ihr =>
    intro b H
    by_cases hi : i = a
    · subst hi
      cases S with
      | none => simp only [subst, if_true]; exact H.2.2
      | some t =>
        simp only [subst, if_true]
        have := hS t rfl
        exact ⟨by have := H.1; omega, this.2, H.2.2⟩
    · simp only [subst, hi, if_false]
      exact ⟨H.1, ihk H.2.1, ihr H.2.2⟩

/-- Where the parent link of a node leads. -/
theorem parent_in {h F} : ∀ {p k a}, FRep h p k F → a ∈ F.idx → ((h a).up = p ∧ a ∈ F.roots) ∨ (h a).up ∈ F.idx := by
  induction F with
  | nil => intro p k a _ h; simp [idx] at h
  | cons i kids r ihk ihr =>
    intro p k a H h
    rw [frep_cons] at H
    simp only [idx, List.mem_cons, List.mem_append] at h
    simp only [roots, idx, List.mem_cons, List.mem_append]
    rcases h with rfl | h | h
    · exact .inl ⟨H.1, .inl rfl⟩
    · rcases ihk H.2.2.1.2.2.2 h with h' | h'
      · exact .inr (.inl h'.1)
      · exact .inr (.inr (.inl h'))
    · rcases ihr H.2.2.2 h with h' | h'
      · exact .inl ⟨h'.1, .inr h'.2⟩
      · exact .inr (.inr (.inr h'))

theorem roots_up {h F} : ∀ {p k a}, FRep h p k F → a ∈ F.roots → (h a).up = p ∧ k ≤ (h a).upi ∧ (h a).upi < k + F.len := by
  induction F with
  | nil => intro p k a _ h; simp [roots] at h
  | cons i kids r _ ihr =>
    intro p k a H h
    rw [frep_cons] at H
    simp only [roots, List.mem_cons] at h
    simp only [len]
    rcases h with rfl | h
    · exact ⟨H.1, by omega, by omega⟩
    · have := ihr H.2.2.2 h; exact ⟨this.1, by omega, by omega⟩

theorem subst_len {a t} (F : Forest) : (F.subst a (some t)).len = F.len := by
  induction F with
  | nil => rfl
  | cons i k r _ ihr => by_cases h : i = a <;> simp [subst, h, len, ihr]

/-- Child entries after replacing the root `a`. -/
theorem subst_roots {h F a t} : ∀ {p k}, FRep h p k F → F.idx.Nodup → a ∈ F.roots →
    (F.subst a (some t)).roots = F.roots.set ((h a).upi - k) t.1 := by
  induction F with
  | nil => intro p k _ _ h; simp [roots] at h
  | cons i kids r _ ihr =>
    intro p k H hn ha
    have H' := frep_cons.1 H
    have hk := nodup_kids hn
    simp only [roots, List.mem_cons] at ha
    by_cases hi : i = a
    · subst hi
      simp [subst, roots, H'.2.1]
    · have ha' : a ∈ r.roots := by rcases ha with rfl | ha; exact absurd rfl hi; exact ha
      have hu := roots_up H'.2.2.2 ha'
      have hs : (h a).upi - k = ((h a).upi - (k + 1)) + 1 := by omega
      simp only [subst, hi, if_false, roots, hs, List.set_cons_succ]
      rw [ihr H'.2.2.2 hk.2.1 ha']

theorem subst_roots_notin {F : Forest} {a t} (h : a ∉ F.roots) : (F.subst a (some t)).roots = F.roots := by
  induction F with
  | nil => rfl
  | cons i kids r _ ihr =>
    simp only [roots, List.mem_cons, not_or] at h
    simp [subst, Ne.symm h.1, roots, ihr h.2]

theorem pad_set_lt {l : List Nat} {j m : Nat} (h : j < l.length) : (pad l).set j m = pad (l.set j m) := by
  simp [pad, List.set_append, h]

/-- The node `a` is replaced by the tree `(m, K)`. -/
theorem replace_frep {h h2 : Slots} {a ka m K} (hm : Node h2 m K) (mup : (h2 m).up = (h a).up)
    (mupi : (h2 m).upi = (h a).upi) : ∀ {F : Forest} {p k}, FRep h p k F → (p :: F.idx).Nodup → (a, ka) ∈ F.nodes →
    (∀ i ∈ F.idx, i ≠ a → i ∉ ka.idx → i ≠ (h a).up → h2 i = h i) →
    ((h a).up ∈ F.idx → h2 (h a).up = { h (h a).up with down := (h (h a).up).down.set (h a).upi m }) →
    FRep h2 p k (F.subst a (some (m, K))) := by
  intro F
  induction F with
  | nil => intro p k _ _ h; simp [nodes] at h
  | cons i kids r ihk ihr =>
    intro p k H hpn hmem fr par
    have H' := frep_cons.1 H
    have hn := (List.nodup_cons.1 hpn).2
    have hp : p ∉ (Forest.cons i kids r).idx := (List.nodup_cons.1 hpn).1
    have hk := nodup_kids hn
    simp only [idx, List.mem_cons, List.mem_append, not_or] at hp fr par
    rcases nodes_cases hn hmem with ⟨rfl, rfl, h1, h2'⟩ | ⟨h1, h2', h3⟩ | ⟨h1, h2', h3⟩
    · -- the node itself
      simp only [subst, if_true]
      rw [frep_cons]
      refine ⟨by rw [mup]; exact H'.1, by rw [mupi]; exact H'.2.1, hm, H'.2.2.2.congr fun j hj => ?_⟩
      refine fr j (.inr (.inr hj)) (fun e => h2' (e ▸ hj)) (fun hj' => hk.2.2.2 j hj' hj) ?_
      rw [H'.1]; exact fun e => hp.2.2 (e ▸ hj)
    · -- below this root
      have hak := nodes_idx h2'
      simp only [subst, h1, if_false, subst_notin h3]
      have hir : ∀ j ∈ ka.idx, j ∈ kids.idx := hak.2
      have hpar : (h a).up = i ∨ (h a).up ∈ kids.idx := by
        rcases parent_in H'.2.2.1.2.2.2 hak.1 with h' | h'
        · exact .inl h'.1
        · exact .inr h'
      have rest : FRep h2 p (k + 1) r := by
        refine H'.2.2.2.congr fun j hj => fr j (.inr (.inr hj)) (fun e => h3 (e ▸ hj))
          (fun hj' => hk.2.2.2 j (hir j hj') hj) ?_
        rcases hpar with h' | h'
        · rw [h']; exact fun e => hk.2.2.1 (e ▸ hj)
        · exact fun e => hk.2.2.2 _ h' (e ▸ hj)
      have sub : FRep h2 i 0 (kids.subst a (some (m, K))) := by
        refine ihk H'.2.2.1.2.2.2 hk.1 h2' (fun j hj => fr j (.inr (.inl hj))) (fun hj => par (.inr (.inl hj)))
      rw [frep_cons]
      by_cases hroot : a ∈ kids.roots
      · have hu := roots_up H'.2.2.1.2.2.2 hroot
        have pp := par (.inl hu.1)
        rw [hu.1] at pp
        refine ⟨by rw [pp]; exact H'.1, by rw [pp]; exact H'.2.1, ⟨?_, ?_, ?_, sub⟩, rest⟩
        · rw [pp, subst_len]; exact H'.2.2.1.1
        · rw [subst_len]; exact H'.2.2.1.2.1
        · rw [pp, subst_roots H'.2.2.1.2.2.2 (List.nodup_cons.1 hk.1).2 hroot]
          show (h i).down.set (h a).upi m = _
          rw [H'.2.2.1.2.2.1, pad_set_lt (by rw [roots_length]; omega)]
          rfl
      · have hpk : (h a).up ∈ kids.idx := by
          rcases parent_in H'.2.2.1.2.2.2 hak.1 with h' | h'
          · exact absurd h'.2 hroot
          · exact h'
        have hi : h2 i = h i := by
          refine fr i (.inl rfl) h1 (fun h' => ?_) (fun e => ?_)
          · exact (List.nodup_cons.1 hk.1).1 (hir i h')
          · exact (List.nodup_cons.1 hk.1).1 (e ▸ hpk)
        refine ⟨by rw [hi]; exact H'.1, by rw [hi]; exact H'.2.1, ⟨?_, ?_, ?_, sub⟩, rest⟩
        · rw [hi, subst_len]; exact H'.2.2.1.1
        · rw [subst_len]; exact H'.2.2.1.2.1
        · rw [hi, subst_roots_notin hroot]; exact H'.2.2.1.2.2.1
    · -- in the rest
      have hak := nodes_idx h3
      simp only [subst, h1, if_false, subst_notin h2']
      have hpar : (h a).up = p ∨ (h a).up ∈ r.idx := by
        rcases parent_in H'.2.2.2 hak.1 with h' | h'
        · exact .inl h'.1
        · exact .inr h'
      have keep : ∀ j, j = i ∨ j ∈ kids.idx → h2 j = h j := by
        intro j hj
        have jr : j ∉ r.idx := by
          rcases hj with rfl | hj
          · exact hk.2.2.1
          · exact hk.2.2.2 j hj
        refine fr j ?_ (fun e => jr (e ▸ hak.1)) (fun hj' => jr (hak.2 j hj')) (fun e => ?_)
        · rcases hj with rfl | hj
          · exact .inl rfl
          · exact .inr (.inl hj)
        · rcases hpar with h' | h'
          · rw [h'] at e
            rcases hj with rfl | hj
            · exact hp.1 e.symm
            · exact hp.2.1 (e ▸ hj)
          · exact jr (e ▸ h')
      rw [frep_cons]
      refine ⟨by rw [keep i (.inl rfl)]; exact H'.1, by rw [keep i (.inl rfl)]; exact H'.2.1,
        H'.2.2.1.congr (by rw [keep i (.inl rfl)]) (by rw [keep i (.inl rfl)]) (fun j hj => keep j (.inr hj)), ?_⟩
      exact ihr H'.2.2.2 (List.nodup_cons.2 ⟨hp.2.2, hk.2.1⟩) h3 (fun j hj => fr j (.inr (.inr hj)))
        (fun hj => par (.inr (.inr hj)))

theorem shift_frep {h h2 : Slots} {p} : ∀ {F : Forest} {k}, FRep h p (k + 1) F → (p :: F.idx).Nodup →
    (∀ j ∈ F.idx, (h j).up = p → h2 j = { h j with upi := (h j).upi - 1 }) →
    (∀ j ∈ F.idx, (h j).up ≠ p → h2 j = h j) → FRep h2 p k F := by
  intro F
  induction F with
  | nil => intros; trivial
  | cons i kids r _ ihr =>
    intro k H hpn h1 h2'
    have H' := frep_cons.1 H
    have hk := nodup_kids (List.nodup_cons.1 hpn).2
    have hp := (List.nodup_cons.1 hpn).1
    simp only [idx, List.mem_cons, List.mem_append, not_or] at hp h1 h2'
    have hi := h1 i (.inl rfl) H'.1
    rw [frep_cons]
    refine ⟨by rw [hi]; exact H'.1, by rw [hi]; simp [H'.2.1],
      H'.2.2.1.congr (by rw [hi]) (by rw [hi]) (fun j hj => h2' j (.inr (.inl hj)) ?_), ?_⟩
    · intro e
      rcases parent_in H'.2.2.1.2.2.2 hj with h' | h'
      · exact hp.1 (e.symm.trans h'.1)
      · exact hp.2.1 (e ▸ h')
    · exact ihr H'.2.2.2 (List.nodup_cons.2 ⟨hp.2.2, hk.2.1⟩) (fun j hj => h1 j (.inr (.inr hj)))
        (fun j hj => h2' j (.inr (.inr hj)))

theorem erase_roots {h F a} : ∀ {p k}, FRep h p k F → F.idx.Nodup → a ∈ F.roots →
    (F.subst a none).roots = F.roots.eraseIdx ((h a).upi - k) := by
  induction F with
  | nil => intro p k _ _ h; simp [roots] at h
  | cons i kids r _ ihr =>
    intro p k H hn ha
    have H' := frep_cons.1 H
    have hk := nodup_kids hn
    simp only [roots, List.mem_cons] at ha
    by_cases hi : i = a
    · subst hi
      simp [subst, roots, H'.2.1]
    · have ha' : a ∈ r.roots := by rcases ha with rfl | ha; exact absurd rfl hi; exact ha
      have hu := roots_up H'.2.2.2 ha'
      have hs : (h a).upi - k = ((h a).upi - (k + 1)) + 1 := by omega
      simp only [subst, hi, if_false, roots, hs, List.eraseIdx_cons_succ]
      rw [ihr H'.2.2.2 hk.2.1 ha']

theorem erase_roots_notin {F : Forest} {a} (h : a ∉ F.roots) : (F.subst a none).roots = F.roots := by
  induction F with
  | nil => rfl
  | cons i kids r _ ihr =>
    simp only [roots, List.mem_cons, not_or] at h
    simp [subst, Ne.symm h.1, roots, ihr h.2]

theorem pad_erase {l : List Nat} {j : Nat} (h : j < l.length) (h4 : l.length ≤ 4) :
    (pad l).eraseIdx j ++ [0] = pad (l.eraseIdx j) := by
  have h1 : 4 - (l.length - 1) = (4 - l.length) + 1 := by omega
  simp only [pad]
  rw [List.eraseIdx_append_of_lt_length h, List.length_eraseIdx_of_lt h, h1, List.append_assoc, List.replicate_succ']

/-- The leaf `a` is taken out, its later siblings move up one place. -/
theorem erase_frep {h h2 : Slots} {a} : ∀ {F : Forest} {p k}, FRep h p k F → (p :: F.idx).Nodup → (a, Forest.nil) ∈ F.nodes →
    (∀ i ∈ F.idx, i ≠ a → i ≠ (h a).up → (h i).up = (h a).up → (h a).upi < (h i).upi →
      h2 i = { h i with upi := (h i).upi - 1 }) →
    (∀ i ∈ F.idx, i ≠ a → i ≠ (h a).up → ¬ ((h i).up = (h a).up ∧ (h a).upi < (h i).upi) → h2 i = h i) →
    ((h a).up ∈ F.idx → h2 (h a).up =
      { h (h a).up with down := (h (h a).up).down.eraseIdx (h a).upi ++ [0], downl := (h (h a).up).downl - 1 }) →
    FRep h2 p k (F.subst a none) := by
  intro F
  induction F with
  | nil => intro p k _ _ h; simp [nodes] at h
  | cons i kids r ihk ihr =>
    intro p k H hpn hmem sib fr par
    have H' := frep_cons.1 H
    have hn := (List.nodup_cons.1 hpn).2
    have hp : p ∉ (Forest.cons i kids r).idx := (List.nodup_cons.1 hpn).1
    have hk := nodup_kids hn
    simp only [idx, List.mem_cons, List.mem_append, not_or] at hp fr par sib
    rcases nodes_cases hn hmem with ⟨rfl, rfl, h1, h2'⟩ | ⟨h1, h2', h3⟩ | ⟨h1, h2', h3⟩
    · -- the node itself
      simp only [subst, if_true]
      have hjr : ∀ j ∈ r.idx, j ≠ i ∧ j ≠ (h i).up := by
        intro j hj
        refine ⟨fun e => h2' (e ▸ hj), ?_⟩
        rw [H'.1]; exact fun e => hp.2.2 (e ▸ hj)
      refine shift_frep H'.2.2.2 (List.nodup_cons.2 ⟨hp.2.2, hk.2.1⟩) (fun j hj hju => ?_) (fun j hj hju => ?_)
      · refine sib j (.inr (.inr hj)) (hjr j hj).1 (hjr j hj).2 (hju.trans H'.1.symm) ?_
        rcases parent_in H'.2.2.2 hj with h' | h'
        · have := roots_up H'.2.2.2 h'.2; rw [H'.2.1]; omega
        · exact absurd (hju ▸ h') hp.2.2
      · refine fr j (.inr (.inr hj)) (hjr j hj).1 (hjr j hj).2 (fun h' => hju (h'.1.trans H'.1))
    · -- below this root
      have hak := nodes_idx h2'
      simp only [subst, h1, if_false, subst_notin h3]
      have hpar : (h a).up = i ∨ (h a).up ∈ kids.idx := by
        rcases parent_in H'.2.2.1.2.2.2 hak.1 with h' | h'
        · exact .inl h'.1
        · exact .inr h'
      have rest : FRep h2 p (k + 1) r := by
        refine H'.2.2.2.congr fun j hj => fr j (.inr (.inr hj)) (fun e => h3 (e ▸ hj)) ?_ ?_
        · rcases hpar with h' | h'
          · rw [h']; exact fun e => hk.2.2.1 (e ▸ hj)
          · exact fun e => hk.2.2.2 _ h' (e ▸ hj)
        · rintro ⟨h', _⟩
          rcases parent_in H'.2.2.2 hj with g | g
          · rw [g.1] at h'
            rcases hpar with q | q
            · exact hp.1 (h'.trans q)
            · exact hp.2.1 (h' ▸ q)
          · rcases hpar with q | q
            · exact hk.2.2.1 (q ▸ h' ▸ g)
            · exact hk.2.2.2 _ q (h' ▸ g)
      have sub : FRep h2 i 0 (kids.subst a none) := by
        refine ihk H'.2.2.1.2.2.2 hk.1 h2' (fun j hj => sib j (.inr (.inl hj))) (fun j hj => fr j (.inr (.inl hj)))
          (fun hj => par (.inr (.inl hj)))
      rw [frep_cons]
      by_cases hroot : a ∈ kids.roots
      · have hu := roots_up H'.2.2.1.2.2.2 hroot
        have pp := par (.inl hu.1)
        rw [hu.1] at pp
        have hr := erase_roots H'.2.2.1.2.2.2 (List.nodup_cons.1 hk.1).2 hroot
        have hl : (kids.subst a none).len = kids.len - 1 := by
          rw [← roots_length, hr, List.length_eraseIdx_of_lt (by rw [roots_length]; omega), roots_length]
        have h4 := H'.2.2.1.2.1
        refine ⟨by rw [pp]; exact H'.1, by rw [pp]; exact H'.2.1, ⟨?_, ?_, ?_, sub⟩, rest⟩
        · rw [pp, hl]; show (h i).downl - 1 = _; rw [H'.2.2.1.1]
        · rw [hl]; omega
        · rw [pp, hr]
          show (h i).down.eraseIdx (h a).upi ++ [0] = _
          rw [H'.2.2.1.2.2.1, pad_erase (by rw [roots_length]; omega) (by rw [roots_length]; omega)]
          rfl
      · have hpk : (h a).up ∈ kids.idx := by
          rcases parent_in H'.2.2.1.2.2.2 hak.1 with h' | h'
          · exact absurd h'.2 hroot
          · exact h'
        have hi : h2 i = h i := by
          refine fr i (.inl rfl) h1 (fun e => ?_) ?_
          · exact (List.nodup_cons.1 hk.1).1 (e ▸ hpk)
          · rintro ⟨h', _⟩; rw [H'.1] at h'; exact hp.2.1 (h' ▸ hpk)
        have hr := erase_roots_notin hroot
        have hl : (kids.subst a none).len = kids.len := by rw [← roots_length, hr, roots_length]
        refine ⟨by rw [hi]; exact H'.1, by rw [hi]; exact H'.2.1, ⟨?_, ?_, ?_, sub⟩, rest⟩
        · rw [hi, hl]; exact H'.2.2.1.1
        · rw [hl]; exact H'.2.2.1.2.1
        · rw [hi, hr]; exact H'.2.2.1.2.2.1
    · -- in the rest
      have hak := nodes_idx h3
      simp only [subst, h1, if_false, subst_notin h2']
      have hpar : ((h a).up = p ∧ k < (h a).upi) ∨ (h a).up ∈ r.idx := by
        rcases parent_in H'.2.2.2 hak.1 with h' | h'
        · exact .inl ⟨h'.1, by have := roots_up H'.2.2.2 h'.2; omega⟩
        · exact .inr h'
      have keep : ∀ j, j = i ∨ j ∈ kids.idx → h2 j = h j := by
        intro j hj
        have jr : j ∉ r.idx := by
          rcases hj with rfl | hj
          · exact hk.2.2.1
          · exact hk.2.2.2 j hj
        refine fr j ?_ (fun e => jr (e ▸ hak.1)) (fun e => ?_) ?_
        · rcases hj with rfl | hj
          · exact .inl rfl
          · exact .inr (.inl hj)
        · rcases hpar with h' | h'
          · rw [h'.1] at e
            rcases hj with rfl | hj
            · exact hp.1 e.symm
            · exact hp.2.1 (e ▸ hj)
          · exact jr (e ▸ h')
        · rintro ⟨g, g2⟩
          rcases hj with rfl | hj
          · rw [H'.1] at g
            rcases hpar with h' | h'
            · rw [H'.2.1] at g2; omega
            · exact hp.2.2 (g ▸ h')
          · have hju : (h j).up = i ∨ (h j).up ∈ kids.idx := by
              rcases parent_in H'.2.2.1.2.2.2 hj with q | q
              · exact .inl q.1
              · exact .inr q
            rw [g] at hju
            rcases hpar with h' | h'
            · rw [h'.1] at hju
              rcases hju with q | q
              · exact hp.1 q
              · exact hp.2.1 q
            · rcases hju with q | q
              · exact hk.2.2.1 (q ▸ h')
              · exact hk.2.2.2 _ q h'
      rw [frep_cons]
      refine ⟨by rw [keep i (.inl rfl)]; exact H'.1, by rw [keep i (.inl rfl)]; exact H'.2.1,
        H'.2.2.1.congr (by rw [keep i (.inl rfl)]) (by rw [keep i (.inl rfl)]) (fun j hj => keep j (.inr hj)), ?_⟩
      exact ihr H'.2.2.2 (List.nodup_cons.2 ⟨hp.2.2, hk.2.1⟩) h3 (fun j hj => sib j (.inr (.inr hj)))
        (fun j hj => fr j (.inr (.inr hj))) (fun hj => par (.inr (.inr hj)))

end Verif.Timer
