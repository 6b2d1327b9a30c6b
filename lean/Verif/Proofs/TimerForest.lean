import Verif.Model.Timer
/-! Slots as forests: representation, framing, and `putUnder`. -/
namespace Verif.Timer

/-- A list of trees over slot numbers. -/
inductive Forest
  | nil
  | cons (i : Nat) (kids rest : Forest)

namespace Forest

def idx : Forest → List Nat
  | nil => []
  | cons i k r => i :: (k.idx ++ r.idx)

def roots : Forest → List Nat
  | nil => []
  | cons i _ r => i :: r.roots

def len : Forest → Nat
  | nil => 0
  | cons _ _ r => r.len + 1

@[simp] theorem roots_length (F : Forest) : F.roots.length = F.len := by
  induction F <;> simp [roots, len, *]

theorem roots_sub (F : Forest) : ∀ i ∈ F.roots, i ∈ F.idx := by
  induction F with
  | nil => simp [roots]
  | cons i k r _ ih => intro j; simp only [roots, idx]; grind

end Forest

open Forest

/-- The four child entries of a node with the children `F`. -/
def pad (l : List Nat) : List Nat := l ++ List.replicate (4 - l.length) 0

/-- `F` is what hangs under `p`, from position `k` on. -/
def FRep (h : Slots) : Nat → Nat → Forest → Prop
  | _, _, .nil => True
  | p, k, .cons i kids rest =>
    (h i).up = p ∧ (h i).upi = k ∧ (h i).downl = kids.len ∧ kids.len ≤ 4 ∧ (h i).down = pad kids.roots ∧
      FRep h i 0 kids ∧ FRep h p (k + 1) rest

/-- The slot `i` with the children `kids`. -/
def Node (h : Slots) (i : Nat) (kids : Forest) : Prop :=
  (h i).downl = kids.len ∧ kids.len ≤ 4 ∧ (h i).down = pad kids.roots ∧ FRep h i 0 kids

theorem frep_cons {h p k i kids rest} : FRep h p k (.cons i kids rest) ↔
    (h i).up = p ∧ (h i).upi = k ∧ Node h i kids ∧ FRep h p (k + 1) rest := by
  simp only [FRep, Node]; grind

/-- Parents are not later than children, all not earlier than `b`. -/
def Ord (e : Nat → Int) : Int → Forest → Prop
  | _, .nil => True
  | b, .cons i kids rest => b ≤ e i ∧ Ord e (e i) kids ∧ Ord e b rest

theorem Ord.mono {e F} : ∀ {a b : Int}, a ≤ b → Ord e b F → Ord e a F := by
  induction F with
  | nil => intros; trivial
  | cons i k r _ ih => intro a b hab h; exact ⟨by have := h.1; omega, h.2.1, ih hab h.2.2⟩

theorem Ord.le {e F} : ∀ {b : Int}, Ord e b F → ∀ i ∈ F.idx, b ≤ e i := by
  induction F with
  | nil => simp [idx]
  | cons j k r ihk ihr =>
    intro b h i hi
    simp only [idx, List.mem_cons, List.mem_append] at hi
    rcases hi with rfl | hi | hi
    · exact h.1
    · have := ihk h.2.1 i hi; have := h.1; omega
    · exact ihr h.2.2 i hi

theorem Ord.congr {e e' F} : ∀ {b : Int}, (∀ i ∈ F.idx, e' i = e i) → Ord e b F → Ord e' b F := by
  induction F with
  | nil => intros; trivial
  | cons j k r ihk ihr =>
    intro b he h
    simp only [idx, List.mem_cons, List.mem_append] at he
    refine ⟨by rw [he j (by simp)]; exact h.1, ?_, ihr (fun i hi => he i (by simp [hi])) h.2.2⟩
    rw [he j (by simp)]; exact ihk (fun i hi => he i (by simp [hi])) h.2.1

theorem FRep.congr {h h' : Slots} {F} : ∀ {p k}, (∀ i ∈ F.idx, h' i = h i) → FRep h p k F → FRep h' p k F := by
  induction F with
  | nil => intros; trivial
  | cons j kids r ihk ihr =>
    intro p k he h
    simp only [idx, List.mem_cons, List.mem_append] at he
    simp only [FRep] at h ⊢
    rw [he j (by simp)]
    exact ⟨h.1, h.2.1, h.2.2.1, h.2.2.2.1, h.2.2.2.2.1, ihk (fun i hi => he i (by simp [hi])) h.2.2.2.2.2.1,
      ihr (fun i hi => he i (by simp [hi])) h.2.2.2.2.2.2⟩

/-- Only the child fields of the root matter. -/
theorem Node.congr {h h' : Slots} {i kids} (hd : (h' i).down = (h i).down) (hl : (h' i).downl = (h i).downl)
    (he : ∀ j ∈ kids.idx, h' j = h j) (H : Node h i kids) : Node h' i kids :=
  ⟨hl.trans H.1, H.2.1, hd.trans H.2.2.1, H.2.2.2.congr he⟩

@[simp] theorem upd_same (h : Slots) (i it) : upd h i it i = it := by simp [upd]
theorem upd_ne {h : Slots} {i j it} (hn : j ≠ i) : upd h i it j = h j := by simp [upd, hn]

/-- Deadlines and expirators of all slots are kept. -/
def Keeps (h h' : Slots) : Prop := ∀ i, (h' i).e = (h i).e ∧ (h' i).x = (h i).x

theorem Keeps.refl (h) : Keeps h h := fun _ => ⟨rfl, rfl⟩
theorem Keeps.trans {a b c} (h : Keeps a b) (g : Keeps b c) : Keeps a c :=
  fun i => ⟨(g i).1.trans (h i).1, (g i).2.trans (h i).2⟩
theorem Keeps.e {a b} (h : Keeps a b) : (fun i => (b i).e) = fun i => (a i).e := funext fun i => (h i).1

theorem keeps_upd {h : Slots} {i it} (he : it.e = (h i).e) (hx : it.x = (h i).x) : Keeps h (upd h i it) := by
  intro j; by_cases hj : j = i
  · subst hj; simp [he, hx]
  · simp [upd_ne hj]

/-- A slot with its subtree: the pairs handled by the joining code. -/
abbrev NT := Nat × Forest

def NT.idx (t : NT) : List Nat := t.1 :: t.2.idx

/-- All slots of some trees. -/
def flat (L : List NT) : List Nat := L.flatMap NT.idx

/-- What hanging `d` (with `kd`) under `u` (with `ku`) achieves. -/
structure PutOk (h h' : Slots) (u : Nat) (ku : Forest) (moved : List Nat) (K : Forest) : Prop where
  node : Node h' u K
  perm : K.idx.Perm (ku.idx ++ moved)
  ord : Ord (fun i => (h i).e) (h u).e K
  frame : ∀ i, i ≠ u → i ∉ ku.idx → i ∉ moved → h' i = h i
  up : (h' u).up = (h u).up
  upi : (h' u).upi = (h u).upi
  keeps : Keeps h h'

/-- The contract of a `putUnder` with fuel `f`. -/
def PutSpec (f : Nat) : Prop :=
  ∀ (h : Slots) (u : Nat) (ku : Forest) (d : Nat) (kd : Forest), Node h u ku → Node h d kd →
    (u :: ku.idx ++ d :: kd.idx).Nodup → (h u).e ≤ (h d).e →
    Ord (fun i => (h i).e) (h u).e ku → Ord (fun i => (h i).e) (h d).e kd → ku.idx.length < f →
    ∃ h' K, putUnder f h u d = some h' ∧ PutOk h h' u ku (d :: kd.idx) K

/-- Hanging each of the listed slots under its predecessor, last first. -/
def chain (put : Slots → Nat → Nat → Option Slots) (h : Slots) : List Nat → Option Slots
  | [] => some h
  | [_] => some h
  | x :: y :: r => (chain put h (y :: r)).bind fun h => put h x y

structure Tree' (h : Slots) (f : Nat) (t : NT) : Prop where
  node : Node h t.1 t.2
  ord : Ord (fun i => (h i).e) (h t.1).e t.2
  fuel : t.2.idx.length < f

theorem chain_ok {f : Nat} (P : PutSpec f) (h : Slots) :
    ∀ (L : List NT) (t : NT), (∀ s ∈ t :: L, Tree' h f s) → (flat (t :: L)).Nodup →
      (t :: L).Pairwise (fun a b => (h a.1).e ≤ (h b.1).e) →
      ∃ h' K, chain (putUnder f) h ((t :: L).map (·.1)) = some h' ∧ PutOk h h' t.1 t.2 (flat L) K := by
  intro L
  induction L with
  | nil =>
    intro t ht hn hs
    refine ⟨h, t.2, rfl, (ht t (by simp)).node, by simp [flat], (ht t (by simp)).ord, fun _ _ _ _ => rfl, rfl, rfl, Keeps.refl h⟩
  | cons s L ih =>
    intro t ht hn hs
    have hns : (flat (s :: L)).Nodup := by
      simp only [flat, List.flatMap_cons] at hn ⊢; exact (List.nodup_append.1 hn).2.1
    obtain ⟨h1, K1, e1, ok1⟩ := ih s (fun r hr => ht r (by simp [List.mem_cons] at hr ⊢; right; exact hr)) hns
      (List.pairwise_cons.1 hs).2
    have hdis : ∀ i ∈ NT.idx t, i ∉ flat (s :: L) := by
      simp only [flat, List.flatMap_cons] at hn ⊢
      intro i hi hj; exact (List.nodup_append.1 hn).2.2 i hi i hj rfl
    have fr : ∀ i ∈ NT.idx t, h1 i = h i := by
      intro i hi
      have := hdis i hi
      simp only [flat, List.flatMap_cons, NT.idx, List.cons_append, List.mem_cons, List.mem_append, not_or] at this
      exact ok1.frame i this.1 this.2.1 (by simpa [flat] using this.2.2)
    have T := ht t (by simp)
    have hfr : h1 t.1 = h t.1 := fr t.1 (by simp [NT.idx])
    have nodup : (t.1 :: t.2.idx ++ s.1 :: K1.idx).Nodup := by
      have hp : (t.1 :: t.2.idx ++ s.1 :: K1.idx).Perm (flat (t :: s :: L)) := by
        simp only [flat, List.flatMap_cons, NT.idx, List.cons_append]
        refine List.Perm.cons _ ((List.Perm.append_left _ (List.Perm.cons _ ?_)))
        simpa [flat] using ok1.perm
      exact hp.nodup_iff.2 hn
    obtain ⟨h2, K2, e2, ok2⟩ := P h1 t.1 t.2 s.1 K1
      (T.node.congr (by rw [hfr]) (by rw [hfr]) (fun j hj => fr j (by simp [NT.idx, hj]))) ok1.node nodup
      (by rw [(ok1.keeps _).1, (ok1.keeps _).1]; exact (List.pairwise_cons.1 hs).1 s (by simp))
      (by rw [ok1.keeps.e, (ok1.keeps _).1]; exact T.ord) (by rw [ok1.keeps.e, (ok1.keeps _).1]; exact ok1.ord) T.fuel
    refine ⟨h2, K2, ?_, ?_⟩
    · simp only [List.map_cons] at e1 ⊢
      simp only [chain, e1, Option.bind_some, e2]
    · have hp2 : (s.1 :: K1.idx).Perm (flat (s :: L)) := by
        simp only [flat, List.flatMap_cons, NT.idx, List.cons_append]
        exact List.Perm.cons _ (by simpa [flat] using ok1.perm)
      refine ⟨ok2.node, ok2.perm.trans (List.Perm.append_left _ hp2), ?_, ?_, by rw [ok2.up, hfr], by rw [ok2.upi, hfr],
        ok1.keeps.trans ok2.keeps⟩
      · have := ok2.ord; rw [ok1.keeps.e, (ok1.keeps _).1] at this; exact this
      · intro i h1' h2' h3'
        rw [ok2.frame i h1' h2' (fun hm => h3' (hp2.mem_iff.1 hm))]
        have := h3'
        simp only [flat, List.flatMap_cons, NT.idx, List.cons_append, List.mem_cons, List.mem_append, not_or] at this
        exact ok1.frame i this.1 this.2.1 (by simpa [flat] using this.2.2)

/-- Sorting four. -/
theorem order4_ok (e : Nat → Int) (a b c d : NT) :
    ∃ a' b' c' d' : NT, order4 e a.1 b.1 c.1 d.1 = (a'.1, b'.1, c'.1, d'.1) ∧
      [a', b', c', d'].Perm [a, b, c, d] ∧ [a', b', c', d'].Pairwise (fun x y => e x.1 ≤ e y.1) := by
  classical
  unfold order4
  by_cases h1 : e b.1 < e a.1 <;> by_cases h2 : e c.1 < e a.1 <;> by_cases h3 : e c.1 < e b.1 <;>
    by_cases h4 : e d.1 < e a.1 <;> by_cases h5 : e d.1 < e b.1 <;> by_cases h6 : e d.1 < e c.1 <;>
    simp only [h1, h2, h3, h4, h5, h6, if_true, if_false] <;>
    refine ⟨_, _, _, _, rfl, ?_, ?_⟩ <;>
    first
    | exact List.Perm.refl _
    | (rw [List.perm_iff_count]; intro x; simp only [List.count_cons, List.count_nil]; omega)
    | (simp only [List.pairwise_cons, List.mem_cons, List.not_mem_nil, or_false, forall_eq_or_imp, forall_eq,
        false_imp_iff, implies_true, List.Pairwise.nil, and_true]; omega)

theorem order3_ok (e : Nat → Int) (a b c : NT) :
    ∃ a' b' c' : NT, order3 e a.1 b.1 c.1 = (a'.1, b'.1, c'.1) ∧
      [a', b', c'].Perm [a, b, c] ∧ [a', b', c'].Pairwise (fun x y => e x.1 ≤ e y.1) := by
  classical
  unfold order3
  by_cases h1 : e b.1 < e a.1 <;> by_cases h2 : e c.1 < e a.1 <;> by_cases h3 : e c.1 < e b.1 <;>
    simp only [h1, h2, h3, if_true, if_false] <;>
    refine ⟨_, _, _, rfl, ?_, ?_⟩ <;>
    first
    | exact List.Perm.refl _
    | (rw [List.perm_iff_count]; intro x; simp only [List.count_cons, List.count_nil]; omega)
    | (simp only [List.pairwise_cons, List.mem_cons, List.not_mem_nil, or_false, forall_eq_or_imp, forall_eq,
        false_imp_iff, implies_true, List.Pairwise.nil, and_true]; omega)

def Forest.trees : Forest → List NT
  | .nil => []
  | .cons i k r => (i, k) :: r.trees

theorem trees_flat (F : Forest) : flat F.trees = F.idx := by
  induction F with
  | nil => rfl
  | cons i k r _ ih => simp only [flat, trees, List.flatMap_cons, NT.idx, idx] at *; simp [ih]

theorem trees_roots (F : Forest) : F.trees.map (·.1) = F.roots := by
  induction F with
  | nil => rfl
  | cons i k r _ ih => simp [trees, roots, ih]

theorem trees_length (F : Forest) : F.trees.length = F.len := by
  rw [← roots_length, ← trees_roots, List.length_map]

theorem frep_trees {h F} : ∀ {p k}, FRep h p k F → ∀ t ∈ F.trees, Node h t.1 t.2 ∧ (h t.1).up = p := by
  induction F with
  | nil => simp [trees]
  | cons i kids r _ ih =>
    intro p k H t ht
    rw [frep_cons] at H
    rcases List.mem_cons.1 ht with rfl | ht
    · exact ⟨H.2.2.1, H.1⟩
    · exact ih H.2.2.2 t ht

theorem ord_trees {e F} : ∀ {b : Int}, Ord e b F → ∀ t ∈ F.trees, Ord e (e t.1) t.2 ∧ b ≤ e t.1 := by
  induction F with
  | nil => simp [trees]
  | cons i kids r _ ih =>
    intro b H t ht
    rcases List.mem_cons.1 ht with rfl | ht
    · exact ⟨H.2.1, H.1⟩
    · exact ih H.2.2 t ht

theorem mem_flat {L : List NT} {t : NT} (h : t ∈ L) : t.1 ∈ flat L ∧ ∀ i ∈ t.2.idx, i ∈ flat L := by
  simp only [flat, List.mem_flatMap]
  exact ⟨⟨t, h, by simp [NT.idx]⟩, fun i hi => ⟨t, h, by simp [NT.idx, hi]⟩⟩

theorem mem_flat_length {L : List NT} {t : NT} (h : t ∈ L) : t.2.idx.length < (flat L).length := by
  obtain ⟨a, b, rfl⟩ := List.append_of_mem h
  simp only [flat, List.flatMap_append, List.flatMap_cons, List.length_append, NT.idx, List.length_cons]; omega

/-- What joining the children `ku` of the slot `p` into one tree (at `m`) achieves. -/
structure JoinOk (h h' : Slots) (p : Nat) (ku : Forest) (m : Nat) (K : Forest) : Prop where
  node : Node h' m K
  perm : (m :: K.idx).Perm ku.idx
  ord : Ord (fun i => (h i).e) (h m).e K
  frame : ∀ i, i ≠ p → i ∉ ku.idx → h' i = h i
  self : h' p = { h p with down := (h' p).down }
  mup : (h' m).up = p
  keeps : Keeps h h'

/-- Joining by a chain, after the child entries of `p` were rewritten. -/
theorem join_chain {f : Nat} (P : PutSpec f) {h : Slots} {p : Nat} {ku : Forest} (N : Node h p ku)
    (hn : (p :: ku.idx).Nodup) {b : Int} (O : Ord (fun i => (h i).e) b ku) (hf : ku.idx.length ≤ f)
    (t : NT) (L : List NT) (hp : (t :: L).Perm ku.trees)
    (hs : (t :: L).Pairwise (fun a b => (h a.1).e ≤ (h b.1).e)) (dn : List Nat) :
    ∃ h' K, chain (putUnder f) (upd h p { h p with down := dn }) ((t :: L).map (·.1)) = some h' ∧
      JoinOk h h' p ku t.1 K ∧ (h' p).down = dn := by
  have hk : Keeps h (upd h p { h p with down := dn }) := keeps_upd rfl rfl
  have hflat : (flat (t :: L)).Perm ku.idx := by rw [← trees_flat]; exact List.Perm.flatMap_right _ hp
  have hpn : p ∉ ku.idx := (List.nodup_cons.1 hn).1
  have hpi : ∀ i ∈ flat (t :: L), i ≠ p := fun i hi h' => hpn (h' ▸ hflat.mem_iff.1 hi)
  have T : ∀ s ∈ t :: L, Tree' (upd h p { h p with down := dn }) f s := by
    intro s hs'
    have hm := hp.mem_iff.1 hs'
    have hsi := mem_flat hs'
    refine ⟨?_, ?_, ?_⟩
    · exact (frep_trees N.2.2.2 s hm).1.congr (by rw [upd_ne (hpi _ hsi.1)]) (by rw [upd_ne (hpi _ hsi.1)])
        (fun j hj => upd_ne (hpi _ (hsi.2 j hj)))
    · rw [hk.e, (hk _).1]; exact (ord_trees O s hm).1
    · have := mem_flat_length hs'; rw [hflat.length_eq] at this; omega
  obtain ⟨h', K, e1, ok⟩ := chain_ok P _ L t T (hflat.nodup_iff.2 (List.nodup_cons.1 hn).2)
    (hs.imp fun {a b} hab => by rw [(hk _).1, (hk _).1]; exact hab)
  have hp1 : h' p = { h p with down := dn } := by
    rw [ok.frame p, upd_same]
    · intro h2; exact hpi t.1 (mem_flat (List.mem_cons_self ..)).1 h2.symm
    · intro h2; exact hpi p ((mem_flat (List.mem_cons_self ..)).2 p h2) rfl
    · intro h2; exact hpi p (by simp only [flat, List.flatMap_cons, List.mem_append]; right; exact h2) rfl
  refine ⟨h', K, e1, ⟨ok.node, ?_, ?_, ?_, by rw [hp1], ?_, hk.trans ok.keeps⟩, by rw [hp1]⟩
  · refine List.Perm.trans ?_ hflat
    simp only [flat, List.flatMap_cons, NT.idx, List.cons_append]
    exact List.Perm.cons _ ok.perm
  · have := ok.ord; rw [hk.e, (hk _).1] at this; exact this
  · intro i h1 h2
    have h3 : i ∉ flat (t :: L) := fun hi => h2 (hflat.mem_iff.1 hi)
    rw [ok.frame i, upd_ne h1]
    · intro h4; subst h4; exact h3 (mem_flat (List.mem_cons_self ..)).1
    · intro h4; exact h3 ((mem_flat (List.mem_cons_self ..)).2 i h4)
    · intro h4; exact h3 (by simp only [flat, List.flatMap_cons, List.mem_append]; right; exact h4)
  · rw [ok.up, upd_ne (hpi t.1 (mem_flat (List.mem_cons_self ..)).1)]
    exact (frep_trees N.2.2.2 t (hp.mem_iff.1 (List.mem_cons_self ..))).2

theorem upd_self (h : Slots) (p : Nat) (it : Item) (hi : it = h p) : upd h p it = h := by
  funext i; by_cases hi' : i = p
  · subst hi'; simp [hi]
  · simp [upd_ne hi']

theorem kid_pad {h : Slots} {p : Nat} {ku : Forest} (N : Node h p ku) (j : Nat) :
    (h p).kid j = (pad (ku.trees.map (·.1))).getD j 0 := by
  rw [Item.kid, N.2.2.1, trees_roots]

theorem sort4_ok {f : Nat} (P : PutSpec f) {h : Slots} {p : Nat} {ku : Forest} (N : Node h p ku)
    (hn : (p :: ku.idx).Nodup) {b : Int} (O : Ord (fun i => (h i).e) b ku) (hf : ku.idx.length ≤ f) (h4 : ku.len = 4) :
    ∃ h' m K, sort4 (putUnder f) h p = some h' ∧ (h' p).kid 0 = m ∧ JoinOk h h' p ku m K := by
  have hl := trees_length ku
  rw [h4] at hl
  obtain ⟨a, b, c, d, ht⟩ : ∃ a b c d, ku.trees = [a, b, c, d] := by
    match ku.trees, hl with
    | [a, b, c, d], _ => exact ⟨a, b, c, d, rfl⟩
  obtain ⟨a', b', c', d', ho, hp, hs⟩ := order4_ok (fun i => (h i).e) a b c d
  have k0 := kid_pad N 0
  have k1 := kid_pad N 1
  have k2 := kid_pad N 2
  have k3 := kid_pad N 3
  rw [ht] at k0 k1 k2 k3
  simp [pad] at k0 k1 k2 k3
  obtain ⟨h', K, e1, ok, hd⟩ := join_chain P N hn O hf a' [b', c', d'] (by rw [ht]; exact hp) hs [a'.1, b'.1, c'.1, d'.1]
  refine ⟨h', a'.1, K, ?_, by rw [Item.kid, hd]; rfl, ok⟩
  simp only [sort4, k0, k1, k2, k3, ho]
  simp only [List.map_cons, List.map_nil, chain, Option.bind_some, Option.bind_assoc] at e1
  exact e1

def Forest.snoc : Forest → Nat → Forest → Forest
  | .nil, d, kd => .cons d kd .nil
  | .cons i k r, d, kd => .cons i k (r.snoc d kd)

theorem snoc_idx (F d kd) : (Forest.snoc F d kd).idx = F.idx ++ d :: kd.idx := by
  induction F with
  | nil => simp [snoc, idx]
  | cons i k r _ ih => simp [snoc, idx, ih]

theorem snoc_roots (F d kd) : (Forest.snoc F d kd).roots = F.roots ++ [d] := by
  induction F with
  | nil => simp [snoc, roots]
  | cons i k r _ ih => simp [snoc, roots, ih]

theorem snoc_len (F d kd) : (Forest.snoc F d kd).len = F.len + 1 := by
  induction F with
  | nil => simp [snoc, len]
  | cons i k r _ ih => simp [snoc, len, ih]

theorem snoc_frep {h F d kd} : ∀ {p k}, FRep h p k F → (h d).up = p → (h d).upi = k + F.len → Node h d kd →
    FRep h p k (F.snoc d kd) := by
  induction F with
  | nil =>
    intro p k _ h1 h2 h3
    rw [snoc, frep_cons]; exact ⟨h1, by simpa [len] using h2, h3, trivial⟩
  | cons i kids r _ ih =>
    intro p k H h1 h2 h3
    rw [frep_cons] at H
    rw [snoc, frep_cons]
    exact ⟨H.1, H.2.1, H.2.2.1, ih H.2.2.2 h1 (by simp only [len] at h2; omega) h3⟩

theorem snoc_ord {e F d kd} : ∀ {b : Int}, Ord e b F → b ≤ e d → Ord e (e d) kd → Ord e b (F.snoc d kd) := by
  induction F with
  | nil => intro b _ h1 h2; exact ⟨h1, h2, trivial⟩
  | cons i kids r _ ih => intro b H h1 h2; exact ⟨H.1, H.2.1, ih H.2.2 h1 h2⟩

theorem pad_set (l : List Nat) (d : Nat) (h : l.length < 4) : (pad l).set l.length d = pad (l ++ [d]) := by
  match l, h with
  | [], _ => rfl
  | [_], _ => rfl
  | [_, _], _ => rfl
  | [_, _, _], _ => rfl

theorem put_ok : ∀ f, PutSpec f := by
  intro f
  induction f with
  | zero => intro h u ku d kd _ _ _ _ _ _ hf; omega
  | succ f P =>
    intro h u ku d kd Nu Nd hn hle Ou Od hf
    have hud : u ≠ d := by
      intro e; subst e; simp at hn
    have hu1 : u ∉ ku.idx := by intro hh; simp [hh] at hn
    have hu2 : u ∉ kd.idx := by intro hh; simp [hh] at hn
    have hd1 : d ∉ ku.idx := by
      intro hh
      have := (List.nodup_append.1 hn).2.2 d (by simp [hh]) d (by simp)
      exact this rfl
    have hd2 : d ∉ kd.idx := by
      intro hh
      have := (List.nodup_append.1 hn).2.1
      simp [hh] at this
    have hdis : ∀ i ∈ ku.idx, i ∉ kd.idx := by
      intro i hi hj
      exact (List.nodup_append.1 hn).2.2 i (by simp [hi]) i (by simp [hj]) rfl
    have hnu : (u :: ku.idx).Nodup := (List.nodup_append.1 hn).1
    have hk1 : Keeps h (upd h d { h d with up := u }) := keeps_upd rfl rfl
    have e1 : upd h d { h d with up := u } u = h u := upd_ne hud
    have N1 : Node (upd h d { h d with up := u }) u ku :=
      Nu.congr (by rw [e1]) (by rw [e1]) (fun j hj => upd_ne (fun e => hd1 (e ▸ hj)))
    by_cases h4 : (h u).downl = 4
    · have hlen : ku.len = 4 := by rw [← Nu.1, h4]
      obtain ⟨h2, m, K, es, hm, J⟩ := sort4_ok P N1 hnu (b := (h u).e) (by rw [hk1.e]; exact Ou) (by omega) hlen
      have hmk : m ∈ ku.idx := J.perm.mem_iff.1 (by simp)
      have hKk : ∀ i ∈ K.idx, i ∈ ku.idx := fun i hi => J.perm.mem_iff.1 (by simp [hi])
      have hmK : m ∉ K.idx := (List.nodup_cons.1 (J.perm.nodup_iff.2 (List.nodup_cons.1 hnu).2)).1
      have hmu : m ≠ u := fun e => hu1 (e ▸ hmk)
      have hmd : m ≠ d := fun e => hd1 (e ▸ hmk)
      have hd : h2 d = { h d with up := u } := by rw [J.frame d (Ne.symm hud) hd1, upd_same]
      let h' : Slots := fun i =>
        if i = u then { h2 u with down := [m, d, 0, 0], downl := 2 }
        else if i = m then { h2 m with upi := 0 } else if i = d then { h2 d with upi := 1 } else h2 i
      have hu' : h' u = { h2 u with down := [m, d, 0, 0], downl := 2 } := by simp [h']
      have hm' : h' m = { h2 m with upi := 0 } := by simp [h', hmu]
      have hd' : h' d = { h2 d with upi := 1 } := by simp [h', Ne.symm hud, Ne.symm hmd]
      have ho' : ∀ i, i ≠ u → i ≠ m → i ≠ d → h' i = h2 i := by intro i a b c; simp [h', a, b, c]
      have hk2 : Keeps h2 h' := by
        intro i; simp only [h']; split
        · subst i; exact ⟨rfl, rfl⟩
        · split
          · subst i; exact ⟨rfl, rfl⟩
          · split
            · subst i; exact ⟨rfl, rfl⟩
            · exact ⟨rfl, rfl⟩
      have hk : Keeps h h' := hk1.trans (J.keeps.trans hk2)
      have hself : h2 u = { h u with down := (h2 u).down } := by have := J.self; rw [e1] at this; exact this
      refine ⟨h', .cons m K (.cons d kd .nil), ?_, ⟨?_, ?_, ?_, ?_, ?_, ?_, hk⟩⟩
      · simp only [putUnder, e1, h4, if_true, es, Option.bind_some, hm]
        congr 1
        funext i
        simp only [upd, h']
        by_cases a : i = u
        · subst a; simp [hud, Ne.symm hmu]
        · by_cases b : i = m
          · subst b; simp [a, hmd]
          · by_cases c : i = d
            · subst c; simp [a, b, Ne.symm hmd]
            · simp [a, b, c]
      · refine ⟨by rw [hu']; rfl, by simp [len], by rw [hu']; rfl, ?_⟩
        rw [frep_cons]
        refine ⟨by rw [hm']; exact J.mup, by rw [hm'], ?_, ?_⟩
        · refine J.node.congr (by rw [hm']) (by rw [hm']) (fun j hj => ho' j ?_ ?_ ?_)
          · intro e; exact hu1 (e ▸ hKk j hj)
          · intro e; exact hmK (e ▸ hj)
          · intro e; exact hd1 (e ▸ hKk j hj)
        · rw [frep_cons]
          refine ⟨by rw [hd', hd], by rw [hd'], ?_, trivial⟩
          refine Nd.congr (by rw [hd', hd]) (by rw [hd', hd]) (fun j hj => ?_)
          have ju : j ≠ u := fun e => hu2 (e ▸ hj)
          have jd : j ≠ d := fun e => hd2 (e ▸ hj)
          have jk : j ∉ ku.idx := fun h' => hdis j h' hj
          rw [ho' j ju (fun e => jk (e ▸ hmk)) jd, J.frame j ju jk, upd_ne jd]
      · simp only [idx, List.append_nil]
        rw [← List.cons_append]
        exact List.Perm.append_right _ J.perm
      · have hm0 : (h u).e ≤ (h m).e := Ou.le m hmk
        have := J.ord; rw [hk1.e, (hk1 _).1] at this
        exact ⟨hm0, this, hle, Od, trivial⟩
      · intro i iu ik id'
        simp only [List.mem_cons, not_or] at id'
        rw [ho' i iu (fun e => ik (e ▸ hmk)) id'.1, J.frame i iu ik, upd_ne id'.1]
      · rw [hu', hself]
      · rw [hu', hself]
    · have hl : ku.len < 4 := by have h1 := Nu.1; have h2 := Nu.2.1; omega
      let h' : Slots := fun i =>
        if i = u then { h u with down := (h u).down.set ku.len d, downl := ku.len + 1 }
        else if i = d then { h d with up := u, upi := ku.len } else h i
      have hu' : h' u = { h u with down := (h u).down.set ku.len d, downl := ku.len + 1 } := by simp [h']
      have hd' : h' d = { h d with up := u, upi := ku.len } := by simp [h', Ne.symm hud]
      have ho' : ∀ i, i ≠ u → i ≠ d → h' i = h i := by intro i a b; simp [h', a, b]
      have hk : Keeps h h' := by
        intro i; simp only [h']; split
        · subst i; exact ⟨rfl, rfl⟩
        · split
          · subst i; exact ⟨rfl, rfl⟩
          · exact ⟨rfl, rfl⟩
      refine ⟨h', ku.snoc d kd, ?_, ⟨?_, ?_, ?_, ?_, ?_, ?_, hk⟩⟩
      · have h4' : ¬ ku.len = 4 := by omega
        simp only [putUnder, e1, Nu.1, h4', if_false]
        congr 1
        funext i
        simp only [upd, h']
        by_cases a : i = u
        · subst a; simp [hud]
        · by_cases c : i = d
          · subst c; simp [a]
          · simp [a, c]
      · refine ⟨by rw [hu', snoc_len], by rw [snoc_len]; omega, ?_, ?_⟩
        · rw [hu', snoc_roots, Nu.2.2.1, ← roots_length]; exact pad_set _ _ (by rw [roots_length]; exact hl)
        · refine snoc_frep (Nu.2.2.2.congr (fun i hi => ho' i (fun e => hu1 (e ▸ hi)) (fun e => hd1 (e ▸ hi))))
            (by rw [hd']) (by rw [hd']; simp) (Nd.congr (by rw [hd']) (by rw [hd']) ?_)
          exact fun i hi => ho' i (fun e => hu2 (e ▸ hi)) (fun e => hd2 (e ▸ hi))
      · rw [snoc_idx]
      · exact snoc_ord Ou hle Od
      · intro i iu ik id'
        simp only [List.mem_cons, not_or] at id'
        exact ho' i iu id'.1
      · rw [hu']
      · rw [hu']

/-- `join` on a node with children. -/
theorem join_ok {f : Nat} {h : Slots} {p : Nat} {ku : Forest} (N : Node h p ku)
    (hn : (p :: ku.idx).Nodup) {b : Int} (O : Ord (fun i => (h i).e) b ku) (hf : ku.idx.length ≤ f) (h0 : ku.len ≠ 0) :
    ∃ h' m K, join f h p = some (h', m) ∧ JoinOk h h' p ku m K := by
  have P := put_ok f
  have hl := trees_length ku
  have hlen := N.1
  have hle := N.2.1
  have k0 := kid_pad N 0
  have k1 := kid_pad N 1
  have k2 := kid_pad N 2
  have hsame : upd h p { h p with down := (h p).down } = h := upd_self _ _ _ rfl
  match ht : ku.trees with
  | [] => rw [ht] at hl; simp at hl; omega
  | [a] =>
    rw [ht] at hl k0; simp at hl; simp [pad] at k0
    obtain ⟨h', K, e1, ok, hd⟩ := join_chain P N hn O hf a [] (by rw [ht]) (by simp) (h p).down
    rw [hsame] at e1
    refine ⟨h', a.1, K, ?_, ok⟩
    simp only [List.map_cons, List.map_nil, chain, Option.some.injEq] at e1
    have : (h p).downl = 1 := by omega
    simp [join, this, k0, ← e1]
  | [a, c] =>
    rw [ht] at hl k0 k1; simp at hl; simp [pad] at k0 k1
    have h2 : (h p).downl = 2 := by omega
    by_cases hc : (h a.1).e ≤ (h c.1).e
    · obtain ⟨h', K, e1, ok, hd⟩ := join_chain P N hn O hf a [c] (by rw [ht]) (by simpa using hc) (h p).down
      rw [hsame] at e1
      refine ⟨h', a.1, K, ?_, ok⟩
      simp only [List.map_cons, List.map_nil, chain, Option.bind_some] at e1
      simp [join, h2, k0, k1, hc, e1]
    · obtain ⟨h', K, e1, ok, hd⟩ := join_chain P N hn O hf c [a] (by rw [ht]; exact List.Perm.swap ..) (by simp; omega) (h p).down
      rw [hsame] at e1
      refine ⟨h', c.1, K, ?_, ok⟩
      simp only [List.map_cons, List.map_nil, chain, Option.bind_some] at e1
      simp [join, h2, k0, k1, hc, e1]
  | [a, c, d] =>
    rw [ht] at hl k0 k1 k2; simp at hl; simp [pad] at k0 k1 k2
    have h3 : (h p).downl = 3 := by omega
    obtain ⟨a', c', d', ho, hp, hs⟩ := order3_ok (fun i => (h i).e) a c d
    obtain ⟨h', K, e1, ok, hd⟩ := join_chain P N hn O hf a' [c', d'] (by rw [ht]; exact hp) hs [a'.1, c'.1, d'.1, (h p).kid 3]
    refine ⟨h', a'.1, K, ?_, ok⟩
    simp only [List.map_cons, List.map_nil, chain, Option.bind_some] at e1
    simp only [join, h3, k0, k1, k2, ho]
    cases e2 : putUnder f (upd h p { h p with down := [a'.1, c'.1, d'.1, (h p).kid 3] }) c'.1 d'.1 with
    | none => rw [e2] at e1; simp at e1
    | some g => rw [e2] at e1; simp only [Option.bind_some] at e1
                simp only [h3] at e2; simp [e2, e1]
  | a :: c :: d :: g :: r =>
    rw [ht] at hl; simp at hl
    obtain ⟨h', m, K, es, hm, J⟩ := sort4_ok P N hn O hf (by omega)
    refine ⟨h', m, K, ?_, J⟩
    have h4 : (h p).downl = 4 := by omega
    simp [join, h4, es, hm]

end Verif.Timer
