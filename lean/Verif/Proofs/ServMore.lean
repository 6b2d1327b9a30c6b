import Verif.Proofs.Serv
/-!
Further invariants of a server connection: counts, the two closes, blocked handlers.
-/
namespace Verif.Serv

theorem has_del (l : List (Nat × Nat)) (id j : Nat) : has (del l id) j = (has l j && decide (j ≠ id)) := by
  unfold has del
  induction l with
  | nil => simp
  | cons p l ih =>
    rw [List.filter_cons]
    by_cases h : p.1 = id
    · simp only [h, ne_eq, not_true_eq_false, decide_false, Bool.false_eq_true, if_false, ih, List.any_cons]
      by_cases hj : id = j
      · simp [hj]
      · simp [hj]
    · simp only [ne_eq, h, not_false_eq_true, decide_true, if_true, List.any_cons, ih]
      by_cases hj : p.1 = j
      · subst hj; simp [h]
      · simp [hj]

theorem has_cons (p : Nat × Nat) (l : List (Nat × Nat)) (j : Nat) : has (p :: l) j = (decide (p.1 = j) || has l j) := by
  unfold has
  simp

theorem has_nil (j : Nat) : has [] j = false := rfl

/-- The write loop only passes things on. -/
theorem wl_same {s s' : St} (hb : s.buf = []) (hs : stepW s = some s') :
    flow s' = flow s ∧ s'.inFly = s.inFly ∧ s'.lock = s.lock ∧ s'.fresh = s.fresh ∧ s'.idOf = s.idOf ∧ s'.n = s.n ∧
      s'.pings = s.pings ∧ s'.rp = s.rp := by
  unfold stepW at hs
  (repeat' split at hs) <;> cases hs <;> simp_all [flow, held]

/-- An error loses at most what the write loop holds. -/
theorem wErr_less {s s' : St} (hs : step1 s .wErr = some s') :
    (flow s').Sublist (flow s) ∧ s'.inFly = s.inFly ∧ s'.lock = s.lock ∧ s'.fresh = s.fresh ∧ s'.idOf = s.idOf ∧ s'.n = s.n ∧
      s'.pings = s.pings ∧ s'.rp = s.rp := by
  simp only [step1] at hs
  split at hs <;> cases hs <;> simp_all [flow, held]

theorem ids_sub {a b : List Item} (h : a.Sublist b) : (ids a).Sublist (ids b) := by
  induction h with
  | slnil => exact .slnil
  | @cons l1 l2 m _ ih =>
    cases m
    · exact ih
    · exact .cons _ ih
  | @cons_cons l1 l2 m _ ih =>
    cases m
    · exact ih
    · exact .cons_cons _ ih

/-- `Respond` for a request with this id is about to send. -/
def busy (s : St) (id : Nat) : Nat :=
  match s.lock with
  | some k => if s.idOf k = id then 1 else 0
  | none => 0

def Cnt (s : St) : Prop :=
  ∀ id, (ids (flow s)).count id + (if has s.inFly id then 1 else 0) + busy s id ≤ s.fresh.count id

attribute [grind =] ids_append ids has_del has_cons has_nil List.count_append List.count_cons

theorem cnt_init : Cnt init := by
  intro id
  simp [init, flow, held, ids, has, busy]

set_option maxHeartbeats 4000000 in
theorem cnt_step {s s' : St} {c : Choice} (i : Inv s) (h : Cnt s) (hs : step s c = some s') : Cnt s' := by
  intro j
  have hj := h j
  have i1 := i.buf
  have i2 := i.new
  have i3 := i.lock1
  have i4 := i.lock2
  unfold step at hs
  split at hs
  · cases hs
  · cases c with
    | rl =>
      simp only [step1, stepR] at hs
      (repeat' split at hs) <;> cases hs <;> simp only [flow, busy] at * <;> grind
    | wl =>
      obtain ⟨g1, g2, g3, g4, g5, -⟩ := wl_same i1 hs
      unfold busy at *
      rw [g1, g2, g3, g4, g5]
      exact hj
    | wErr =>
      obtain ⟨g1, g2, g3, g4, g5, -⟩ := wErr_less hs
      have := (ids_sub g1).count_le j
      unfold busy at *
      rw [g2, g3, g4, g5]
      omega
    | ctl =>
      simp only [step1, stepC, closeOut] at hs
      (repeat' split at hs) <;> cases hs <;> simp only [flow, busy] at * <;> grind
    | begin k =>
      simp only [step1, beginRespond] at hs
      (repeat' split at hs) <;> cases hs <;> simp only [flow, busy] at * <;> grind
    | _ =>
      simp only [step1] at hs
      (repeat' split at hs) <;> cases hs <;> simp only [flow, busy] at * <;> grind

theorem cnt_run {cs : List Choice} {s s' : St} (i : Inv s) (h : Cnt s) (hs : run s cs = some s') : Cnt s' := by
  induction cs generalizing s with
  | nil => cases hs; exact h
  | cons c cs ih =>
    simp only [run] at hs
    cases e : step s c with
    | none => rw [e] at hs; cases hs
    | some s1 =>
      rw [e] at hs
      exact ih (inv_step i e) (cnt_step i h e) hs

/-- Everything that can get into `out` comes from a request or a ping. -/
def Len (s : St) : Prop :=
  (flow s).length + s.inFly.length + (match s.lock with | some _ => 1 | none => 0) + (match s.rp with | .pong _ => 1 | _ => 0) ≤
    s.n + s.pings.length

theorem del_le (l : List (Nat × Nat)) (id : Nat) : (del l id).length ≤ l.length := List.length_filter_le _ _

theorem del_lt {l : List (Nat × Nat)} {id : Nat} (h : has l id = true) : (del l id).length < l.length := by
  induction l with
  | nil => cases h
  | cons p l ih =>
    rw [has_cons] at h
    unfold del at *
    rw [List.filter_cons]
    by_cases hp : p.1 = id
    · have := List.length_filter_le (fun p : Nat × Nat => decide (p.1 ≠ id)) l
      simp only [ne_eq, hp, not_true_eq_false, decide_false, Bool.false_eq_true, if_false, List.length_cons]
      simp only [ne_eq] at this
      omega
    · simp only [hp, decide_false, Bool.false_or] at h
      have := ih h
      simp only [ne_eq, hp, not_false_eq_true, decide_true, if_true, List.length_cons]
      simp only [ne_eq] at this
      omega

theorem len_init : Len init := by
  simp [Len, init, flow, held]

set_option maxHeartbeats 4000000 in
theorem len_step {s s' : St} {c : Choice} (i : Inv s) (h : Len s) (hs : step s c = some s') : Len s' := by
  have i1 := i.buf
  have i4 := i.lock2
  unfold step at hs
  split at hs
  · cases hs
  · cases c with
    | rl =>
      have := del_le s.inFly
      simp only [step1, stepR] at hs
      (repeat' split at hs) <;> cases hs <;> simp only [Len, flow] at * <;> grind
    | wl =>
      obtain ⟨g1, g2, g3, g4, g5, g6, g7, g8⟩ := wl_same i1 hs
      unfold Len at *
      rw [g1, g2, g3, g6, g7, g8]
      exact h
    | wErr =>
      obtain ⟨g1, g2, g3, g4, g5, g6, g7, g8⟩ := wErr_less hs
      have := g1.length_le
      unfold Len at *
      rw [g2, g3, g6, g7, g8]
      omega
    | ctl =>
      simp only [step1, stepC, closeOut] at hs
      (repeat' split at hs) <;> cases hs <;> simp only [Len, flow] at * <;> grind
    | begin k =>
      have h1 : has s.inFly (s.idOf k) = true → (del s.inFly (s.idOf k)).length < s.inFly.length := del_lt
      simp only [step1, beginRespond] at hs
      (repeat' split at hs) <;> cases hs <;> simp only [Len, flow] at * <;> grind
    | _ =>
      simp only [step1] at hs
      (repeat' split at hs) <;> cases hs <;> simp only [Len, flow] at * <;> grind

theorem len_run {cs : List Choice} {s s' : St} (i : Inv s) (h : Len s) (hs : run s cs = some s') : Len s' := by
  induction cs generalizing s with
  | nil => cases hs; exact h
  | cons c cs ih =>
    simp only [run] at hs
    cases e : step s c with
    | none => rw [e] at hs; cases hs
    | some s1 =>
      rw [e] at hs
      exact ih (inv_step i e) (len_step i h e) hs

/-- The channel is closed and will be closed again, or was. -/
def Danger (s : St) : Prop := s.panicked = true ∨ s.outClosed = true ∧ (s.wp = .lk ∨ s.wp = .empty ∨ .inFlyEmpty ∈ s.q)

set_option maxHeartbeats 4000000 in
theorem danger_step {s s' : St} {c : Choice} (i : Inv s) (h : ¬ Danger s) (hs : step s c = some s') (h' : Danger s') :
    c = .ctl ∧ s.cp = .rlock ∧ s.wp = .lk := by
  unfold Danger at *
  obtain ⟨⟩ := i
  unfold step at hs
  split at hs
  · cases hs
  · cases c with
    | rl =>
      simp only [step1, stepR] at hs
      (repeat' split at hs) <;> cases hs <;> grind
    | wl =>
      simp only [step1, stepW] at hs
      (repeat' split at hs) <;> cases hs <;> grind
    | ctl =>
      simp only [step1, stepC, closeOut] at hs
      (repeat' split at hs) <;> cases hs <;> grind
    | begin k =>
      simp only [step1, beginRespond] at hs
      (repeat' split at hs) <;> cases hs <;> grind
    | _ =>
      simp only [step1] at hs
      (repeat' split at hs) <;> cases hs <;> grind

/-- The order of the notifications of the write loop. -/
structure Ord (s : St) : Prop where
  pw : s.q.Pairwise fun a b => ¬ (a = .writeClosed ∧ b = .inFlyEmpty)
  wr : .inFlyEmpty ∈ s.q → s.wrClosed = false

theorem ord_init : Ord init := by
  constructor <;> simp [init]

set_option maxHeartbeats 4000000 in
theorem ord_step {s s' : St} {c : Choice} (i : Inv s) (h : Ord s) (hs : step s c = some s') : Ord s' := by
  obtain ⟨h1, h2⟩ := h
  have h3 : ∀ q, s.q = .writeClosed :: q → .inFlyEmpty ∉ q := by
    intro q e hm
    rw [e] at h1
    exact (List.pairwise_cons.mp h1).1 _ hm ⟨rfl, rfl⟩
  have i1 := i.empq
  have i2 := i.wr1
  have i3 := i.wr2
  have i4 := i.emp
  unfold step at hs
  split at hs
  · cases hs
  · cases c with
    | rl =>
      simp only [step1, stepR] at hs
      (repeat' split at hs) <;> cases hs <;> constructor <;> dsimp only <;> first | assumption | grind
    | wl =>
      simp only [step1, stepW] at hs
      (repeat' split at hs) <;> cases hs <;> constructor <;> dsimp only <;> first | assumption | grind
    | ctl =>
      simp only [step1, stepC, closeOut] at hs
      (repeat' split at hs) <;> cases hs <;> constructor <;> dsimp only <;> first | assumption | grind
    | begin k =>
      simp only [step1, beginRespond] at hs
      (repeat' split at hs) <;> cases hs <;> constructor <;> dsimp only <;> first | assumption | grind
    | _ =>
      simp only [step1] at hs
      (repeat' split at hs) <;> cases hs <;> constructor <;> dsimp only <;> first | assumption | grind

theorem ord_run {cs : List Choice} {s s' : St} (i : Inv s) (h : Ord s) (hs : run s cs = some s') : Ord s' := by
  induction cs generalizing s with
  | nil => cases hs; exact h
  | cons c cs ih =>
    simp only [run] at hs
    cases e : step s c with
    | none => rw [e] at hs; cases hs
    | some s1 =>
      rw [e] at hs
      exact ih (inv_step i e) (ord_step i h e) hs

set_option maxHeartbeats 4000000 in
/-- A second close cannot be avoided any more. -/
theorem danger_stays {s s' : St} {c : Choice} (i : Inv s) (o : Ord s) (h : Danger s) (hs : step s c = some s') : Danger s' := by
  unfold Danger at *
  obtain ⟨⟩ := i
  obtain ⟨⟩ := o
  unfold step at hs
  split at hs
  · cases hs
  · cases c with
    | rl =>
      simp only [step1, stepR] at hs
      (repeat' split at hs) <;> cases hs <;> grind
    | wl =>
      simp only [step1, stepW] at hs
      (repeat' split at hs) <;> cases hs <;> grind
    | ctl =>
      simp only [step1, stepC, closeOut] at hs
      (repeat' split at hs) <;> cases hs <;> grind
    | begin k =>
      simp only [step1, beginRespond] at hs
      (repeat' split at hs) <;> cases hs <;> grind
    | _ =>
      simp only [step1] at hs
      (repeat' split at hs) <;> cases hs <;> grind

set_option maxHeartbeats 4000000 in
theorem blocked_step {s s' : St} {c : Choice} {k : Nat} (i : Inv s) (hl : s.lock = some k) (hf : cap ≤ s.out.length)
    (hw : s.wp = .lk ∨ (∃ e, s.wp = .fin e) ∨ ∃ e, s.wp = .done e) (hs : step s c = some s') :
    s'.lock = some k ∧ s'.out = s.out ∧ (s'.wp = .lk ∨ (∃ e, s'.wp = .fin e) ∨ ∃ e, s'.wp = .done e) ∧
      (s.cp = .wlock → s'.cp = .wlock) := by
  obtain ⟨⟩ := i
  unfold step at hs
  split at hs
  · cases hs
  · cases c with
    | rl =>
      simp only [step1, stepR] at hs
      (repeat' split at hs) <;> cases hs <;> grind
    | wl =>
      simp only [step1, stepW] at hs
      (repeat' split at hs) <;> cases hs <;> grind
    | ctl =>
      simp only [step1, stepC, closeOut] at hs
      (repeat' split at hs) <;> cases hs <;> grind
    | begin k =>
      simp only [step1, beginRespond] at hs
      (repeat' split at hs) <;> cases hs <;> grind
    | _ =>
      simp only [step1] at hs
      (repeat' split at hs) <;> cases hs <;> grind

theorem blocked_of {s : St} {k : Nat} (i : Inv s) (hl : s.lock = some k) (hf : cap ≤ s.out.length)
    (hw : s.wp = .lk ∨ (∃ e, s.wp = .fin e) ∨ ∃ e, s.wp = .done e) :
    ∀ ds s', run s ds = some s' → s'.lock = some k ∧ s'.rs k = .busy ∧ (s.cp = .wlock → s'.cp = .wlock) := by
  intro ds
  induction ds generalizing s with
  | nil => intro s' e; cases e; exact ⟨hl, i.lock1 k hl, fun h => h⟩
  | cons c ds ih =>
    intro s' e
    simp only [run] at e
    cases es : step s c with
    | none => rw [es] at e; cases e
    | some s1 =>
      rw [es] at e
      obtain ⟨h1, h2, h3, h4⟩ := blocked_step i hl hf hw es
      obtain ⟨a, b, c⟩ := ih (inv_step i es) h1 (by rw [h2]; exact hf) h3 s' e
      exact ⟨a, b, fun h => c (h4 h)⟩

end Verif.Serv
