import Verif.Proofs.CtxTree
/-! A tree of contexts: the end of `cancelAll`. -/
namespace Verif.CtxTree
open Verif.CtxReq (remove_eq adder_eq copy_done bind_some)
open Verif.CtxMulti (Plain plain_eq canc_eq refused_eq)

theorem run_append {par : Nat → Nat} {s : St} {cs ds : List Choice} : run par s (cs ++ ds) = (run par s cs).bind fun s => run par s ds := by
  induction cs generalizing s with
  | nil => rfl
  | cons c cs ih =>
    simp only [List.cons_append, run]
    cases step par s c with
    | none => rfl
    | some t => simp only [Option.bind_some]; exact ih

theorem one_run {par : Nat → Nat} {s s' : St} {c : Choice} (h : step par s c = some s') : run par s [c] = some s' := by simp [run, h]

/-- What a step does to one context. -/
structure Does (s : St) (q : Nat) (c : Choice) (d : Context.Choice) : Prop where
  add : ∀ x, d = .add x → c = .make x
  cancel : ∀ e, d = .cancel e → c = .cancel q e ∨ (e = false ∧ ∃ x l, c = .canc x ∧ (s.cx x).cp = .calling (q :: l) ∧ s.inside x = false)
  remove : ∀ x, d = .remove x → c = .done x

theorem cx_step {par : Nat → Nat} (ht : Tree par) {s s' : St} {c : Choice} (I : Inv par s) (h : step par s c = some s') (q : Nat) :
    s'.cx q = s.cx q ∨ (∃ d, Context.step (s.cx q) d = some (s'.cx q) ∧ Does s q c d) ∨ (s.cx q = Context.init ∧ s'.cx q = closed) := by
  cases kind h with
  | plain p d k hd hx hh hk hc e =>
    subst e
    by_cases hq : q = p
    · subst hq
      refine .inr (.inl ⟨d, by simpa using hk, fun x e => (hx x e).1, fun e he => .inl (hc e he), fun x e => ?_⟩)
      subst e; exact hd.elim
    · left; simp [hq]
  | @refused x k l hr hk hl e =>
    obtain ⟨hne, hi, hin, hnh⟩ := refused_new ht I hr
    rw [if_neg hne, hi, early_eq] at hl
    cases hl
    subst e
    by_cases hq : q = x
    · subst hq; exact .inr (.inr ⟨hi, by simp⟩)
    · by_cases hp : q = par x
      · subst hp
        exact .inr (.inl ⟨.adder x, by simpa [hq] using hk, by simp, by simp, by simp⟩)
      · left; simp [hq, hp]
  | @removed x k _ _ _ hk e =>
    subst e
    by_cases hq : q = par x
    · subst hq; exact .inr (.inl ⟨_, by simpa using hk, by simp, by simp, by simp⟩)
    · left; simp [hq]
  | @begins x y l k hl hb _ hk e =>
    subst e
    by_cases hq : q = y
    · subst hq; exact .inr (.inl ⟨_, by simpa using hk, by simp, fun e he => by cases he; exact .inr ⟨rfl, x, l, rfl, hl, hb⟩, by simp⟩)
    · left; simp [hq]
  | @skips x y l k hl _ _ hk e =>
    subst e
    by_cases hq : q = x
    · subst hq; exact .inr (.inl ⟨_, by simpa using hk, by simp, by simp, by simp⟩)
    · left; simp [hq]
  | @ends x y l k hl _ _ hk e =>
    subst e
    by_cases hq : q = x
    · subst hq; exact .inr (.inl ⟨_, by simpa using hk, by simp, by simp, by simp⟩)
    · left; simp [hq]

/-! ### Under `Unraced` -/

theorem along_last {par : Nat → Nat} {P : St → Prop} {s s' : St} {cs : List Choice} (ha : Along par P s cs) (h : run par s cs = some s') : P s' := by
  induction cs generalizing s with
  | nil => cases h; exact ha
  | cons c cs ih =>
    obtain ⟨s1, h1, h2⟩ := bind_some h
    exact ih (ha.2 s1 h1) h2

theorem along_head {par : Nat → Nat} {P : St → Prop} {s : St} {cs : List Choice} (ha : Along par P s cs) : P s := by
  cases cs with
  | nil => exact ha
  | cons => exact ha.1

theorem along_split {par : Nat → Nat} {P : St → Prop} {s s' : St} {cs ds : List Choice} (ha : Along par P s (cs ++ ds)) (h : run par s cs = some s') : Along par P s cs ∧ Along par P s' ds := by
  induction cs generalizing s with
  | nil => cases h; exact ⟨along_head ha, ha⟩
  | cons c cs ih =>
    obtain ⟨s1, h1, h2⟩ := bind_some h
    refine ⟨⟨ha.1, fun t ht => ?_⟩, (ih (ha.2 s1 h1) h2).2⟩
    rw [h1] at ht; cases ht
    exact (ih (ha.2 s1 h1) h2).1

theorem can_step {par : Nat → Nat} (ht : Tree par) {s s' : St} {c : Choice} (I : Inv par s) (C : ∀ p, Context.Cancelled (s.cx p)) (hc : ∀ p, Context.Clear (s.cx p))
    (h : step par s c = some s') (hc' : ∀ p, Context.Clear (s'.cx p)) (p : Nat) : Context.Cancelled (s'.cx p) := by
  rcases cx_step ht I h p with h1 | ⟨d, h1, _⟩ | ⟨_, h1⟩
  · rw [h1]; exact C p
  · exact Context.cancelled_step _ _ _ (I.cx p) (C p) (hc p) trivial h1 (hc' p)
  · rw [h1]; constructor <;> simp [closed, Context.init]

theorem can_run {par : Nat → Nat} (ht : Tree par) {s s' : St} {cs : List Choice} (I : Inv par s) (C : ∀ p, Context.Cancelled (s.cx p)) (ha : Unraced par s cs)
    (h : run par s cs = some s') : ∀ p, Context.Cancelled (s'.cx p) := by
  induction cs generalizing s with
  | nil => cases h; exact C
  | cons c cs ih =>
    obtain ⟨s1, h1, h2⟩ := bind_some h
    exact ih (inv_step ht I h1) (can_step ht I C ha.1 h1 (along_head (ha.2 s1 h1))) (ha.2 s1 h1) h2

theorem can_init (p : Nat) : Context.Cancelled (init.cx p) := by
  constructor <;> simp [init, Context.init]

theorem exit_gone {s : Context.St} {x : Nat} (I : Context.Inv s) (C : Context.Cancelled s) (he : s.cp = .exit) (ha : s.ap x = .done true) : s.gone x = true := by
  have hm := C.exit he
  cases hg : s.gone x with
  | true => rfl
  | false =>
    have := (I.stored x).2 ⟨ha, hg⟩
    have hn := I.n
    rw [hm.2] at hn
    unfold Context.one at hn
    rcases this with h1 | h1 | h1
    · rw [h1] at hn; simp at hn; omega
    · rw [h1] at hn; simp at hn; omega
    · rw [hm.1] at h1; cases h1

theorem keep_run {par : Nat → Nat} (ht : Tree par) {s s' : St} {cs : List Choice} (I : Inv par s) (h : run par s cs = some s') : Keep par s s' := by
  induction cs generalizing s with
  | nil => cases h; exact ⟨fun _ _ _ h => h, fun _ _ => rfl, fun _ _ h => h, fun _ h => h⟩
  | cons c cs ih =>
    obtain ⟨s1, h1, h2⟩ := bind_some h
    have A := keep_step ht I h1
    have B := ih (inv_step ht I h1) h2
    refine ⟨fun p x b h => B.done _ _ _ (A.done _ _ _ h), fun p h => ?_, fun p x h => B.gone _ _ (A.gone _ _ h), fun p h => B.exit _ (A.exit _ h)⟩
    have := A.state p h
    exact (B.state p (by rw [this]; exact h)).trans this

/-! ### Going on -/

/-- Nothing is made with a number from `N` on. -/
structure W (par : Nat → Nat) (N : Nat) (s : St) : Prop where
  tree : Tree par
  inv : Inv par s
  can : ∀ p, Context.Cancelled (s.cx p)
  clear : ∀ p, Context.Clear (s.cx p)
  pos : 0 < N
  bound : ∀ x, N ≤ x → (s.cx (par x)).ap x = .idle

theorem ap_keep {par : Nat → Nat} (ht : Tree par) {s s' : St} {c : Choice} (I : Inv par s) (h : step par s c = some s') {p x : Nat} (hc : c ≠ .make x) (ha : (s.cx p).ap x = .idle) :
    (s'.cx p).ap x = .idle := by
  rcases cx_step ht I h p with h1 | ⟨d, h1, hd⟩ | ⟨_, h1⟩
  · rw [h1]; exact ha
  · by_cases e : (s'.cx p).ap x = .idle
    · exact e
    · rcases ap_step h1 e with e | e
      · exact absurd ha e
      · exact absurd (hd.add x e) hc
  · rw [h1]; rfl

theorem bound_run {par : Nat → Nat} (ht : Tree par) {s : St} {cs : List Choice} {N : Nat} (I : Inv par s) (hb : ∀ x, N ≤ x → (s.cx (par x)).ap x = .idle)
    {s' : St} (h : run par s cs = some s') : ∃ N', N ≤ N' ∧ ∀ x, N' ≤ x → (s'.cx (par x)).ap x = .idle := by
  induction cs generalizing s N with
  | nil => cases h; exact ⟨N, Nat.le_refl _, hb⟩
  | cons c cs ih =>
    obtain ⟨s1, h1, h2⟩ := bind_some h
    obtain ⟨M, hM⟩ : ∃ M, ∀ x, M ≤ x → c ≠ .make x := by
      cases c with
      | make y => exact ⟨y + 1, fun x hx e => by cases e; omega⟩
      | _ => exact ⟨0, fun _ _ e => by cases e⟩
    obtain ⟨N', h3, h4⟩ := ih (N := N + M) (inv_step ht I h1) (fun x hx => ap_keep ht I h1 (hM x (by omega)) (hb x (by omega))) h2
    exact ⟨N', by omega, h4⟩

theorem w_of {par : Nat → Nat} (ht : Tree par) {cs : List Choice} {s : St} (hu : Unraced par init cs) (h : run par init cs = some s) : ∃ N, W par N s := by
  obtain ⟨N, h1, h2⟩ := bound_run ht (N := 1) (inv_init par) (fun x _ => rfl) h
  exact ⟨N, ht, inv_run ht (inv_init par) h, can_run ht (inv_init par) can_init hu h, along_last hu h, by omega, h2⟩

/-- By polite steps, such a state can be reached. -/
def Can (par : Nat → Nat) (s : St) (P : St → Prop) : Prop := ∃ ds s', Goes par s ds ∧ run par s ds = some s' ∧ P s'

theorem Can.now {par : Nat → Nat} {s : St} {P : St → Prop} (h : P s) : Can par s P := ⟨[], s, trivial, rfl, h⟩

theorem goes_append {par : Nat → Nat} {s s' : St} {cs ds : List Choice} (h1 : Goes par s cs) (h : run par s cs = some s') (h2 : Goes par s' ds) : Goes par s (cs ++ ds) := by
  induction cs generalizing s with
  | nil => cases h; exact h2
  | cons c cs ih =>
    obtain ⟨t, h3, h4⟩ := bind_some h
    refine ⟨h1.1, fun t' ht => ?_⟩
    rw [h3] at ht; cases ht
    exact ih (h1.2 t h3) h4

theorem Can.then {par : Nat → Nat} {s : St} {P Q : St → Prop} (h : Can par s P) (hq : ∀ s' ds, Goes par s ds → run par s ds = some s' → P s' → Can par s' Q) : Can par s Q := by
  obtain ⟨ds, s1, h1, h2, h3⟩ := h
  obtain ⟨es, s2, h4, h5, h6⟩ := hq s1 ds h1 h2 h3
  exact ⟨ds ++ es, s2, goes_append h1 h2 h4, by rw [run_append, h2]; exact h5, h6⟩

theorem Can.step {par : Nat → Nat} {s s' : St} {P : St → Prop} {c : Choice} (hg : Polite s c) (h : step par s c = some s') (k : Can par s' P) : Can par s P := by
  obtain ⟨ds, s1, h1, h2, h3⟩ := k
  refine ⟨c :: ds, s1, ⟨hg, fun t ht => ?_⟩, by simp only [run, h]; exact h2, h3⟩
  rw [h] at ht; cases ht
  exact h1

/-- Contexts below number `y` are untouched. -/
def Frame (y : Nat) (s s' : St) : Prop := ∀ q, q < y → s'.cx q = s.cx q ∧ s'.inside q = s.inside q

theorem Frame.refl {y : Nat} {s : St} : Frame y s s := fun _ _ => ⟨rfl, rfl⟩

theorem Frame.trans {y z : Nat} {a b c : St} (h : Frame y a b) (k : Frame z b c) (hyz : y ≤ z) : Frame y a c := fun q hq =>
  ⟨(k q (by omega)).1.trans (h q hq).1, (k q (by omega)).2.trans (h q hq).2⟩

theorem w_next {par : Nat → Nat} {N : Nat} {s s' : St} {c : Choice} (w : W par N s) (h : step par s c = some s') (hc : ∀ p, Context.Clear (s'.cx p)) (hm : ∀ x, c ≠ .make x) : W par N s' :=
  ⟨w.tree, inv_step w.tree w.inv h, can_step w.tree w.inv w.can w.clear h hc, hc, w.pos, fun x hx => ap_keep w.tree w.inv h (hm x) (w.bound x hx)⟩

theorem clear_step {s s' : Context.St} {d : Context.Choice} (hc : Context.Clear s) (h : Context.step s d = some s') (hd : ∀ e, d ≠ .cancel e) : Context.Clear s' := by
  intro h0 x hx
  have e0 := same_state h hd
  rw [e0] at h0
  cases d with
  | cancel e => exact hd e rfl
  | adder y =>
    obtain ⟨_, _, _, h4, h5⟩ := adder_eq h
    by_cases hy : x = y
    · subst hy
      simp only [Context.step, Context.stepAdder] at h
      cases e : s.ap x <;> rw [e] at h <;> dsimp only at h
      case locked =>
        rw [if_neg h0] at h
        cases h
        simp [Context.set] at hx
      all_goals
        (repeat' split at h) <;> cases h
      all_goals
        simp only [Context.set, if_pos, if_true] at hx
        try (split at hx)
      all_goals cases hx
    · rw [(h4 x hy).1] at hx
      exact hc h0 x hx
  | remove y => rw [(remove_eq h).1] at hx; exact hc h0 x hx
  | canc =>
    simp only [Context.step, Context.stepCancel] at h
    (repeat' split at h) <;> cases h <;> exact hc h0 x hx
  | add y =>
    simp only [Context.step] at h
    split at h <;> cases h
    simp only [Context.set] at hx
    split at hx
    · cases hx
    · exact hc h0 x hx
  | _ =>
    simp only [Context.step] at h
    (repeat' split at h) <;> cases h <;> exact hc h0 x hx

/-- One step of one context, other than `Cancel`. -/
theorem w_cx {par : Nat → Nat} {N : Nat} {s : St} {c : Choice} {p : Nat} {d : Context.Choice} {k : Context.St} {i : Nat → Bool} (w : W par N s)
    (h : step par s c = some { cx := fun q => if q = p then k else s.cx q, inside := i }) (hk : Context.step (s.cx p) d = some k) (hd : ∀ e, d ≠ .cancel e) (hm : ∀ x, c ≠ .make x) :
    W par N { cx := fun q => if q = p then k else s.cx q, inside := i } := by
  refine w_next w h (fun q => ?_) hm
  dsimp only
  split
  · rename_i e; subst e; exact clear_step (w.clear q) hk hd
  · exact w.clear q

theorem frame_cx {p : Nat} {s : St} {k : Context.St} : Frame p s { cx := fun q => if q = p then k else s.cx q, inside := s.inside } := fun q hq => by
  dsimp only
  rw [if_neg (by omega)]
  exact ⟨rfl, rfl⟩

/-- A goroutine inside `AddCanceler`. -/
theorem adder_go {par : Nat → Nat} {N : Nat} {s : St} {x : Nat} {k : Context.St} (w : W par N s) (hr : (s.cx (par x)).ap x ≠ .refused)
    (hk : Context.step (s.cx (par x)) (.adder x) = some k) :
    ∃ s', step par s (.maker x) = some s' ∧ W par N s' ∧ Frame (par x) s s' ∧ s'.cx (par x) = k ∧ s'.inside (par x) = s.inside (par x) := by
  have hs : step par s (.maker x) = some { cx := fun q => if q = par x then k else s.cx q, inside := s.inside } := by
    simp only [step, St.withCx, hk, Option.map_some]
  exact ⟨_, hs, w_cx w hs hk (by simp) (by simp), frame_cx, by simp, rfl⟩

/-- The context `z` as it was, with nobody inside its lock. -/
def Settled (par : Nat → Nat) (N z : Nat) (s s' : St) : Prop :=
  W par N s' ∧ Frame z s s' ∧ (s'.cx z).lock = none ∧ (s'.cx z).cp = (s.cx z).cp ∧ (s'.cx z).state = (s.cx z).state ∧ s'.inside z = s.inside z

theorem at_reg {par : Nat → Nat} {N : Nat} {s : St} {x : Nat} (w : W par N s) (hx : (s.cx (par x)).ap x = .reg) : Can par s (Settled par N (par x) s) := by
  obtain ⟨k, hk, hl⟩ : ∃ k, Context.step (s.cx (par x)) (.adder x) = some k ∧ k.lock = none := by
    simp only [Context.step, Context.stepAdder, hx]
    exact ⟨_, rfl, rfl⟩
  obtain ⟨h1, h2, _⟩ := adder_eq hk
  obtain ⟨s1, h3, w1, f1, e1, i1⟩ := adder_go w (by rw [hx]; simp) hk
  exact .step (c := .maker x) trivial h3 (.now ⟨w1, f1, by rw [e1]; exact hl, by rw [e1]; exact h2, by rw [e1]; exact h1, i1⟩)

theorem settle {par : Nat → Nat} {N : Nat} {s : St} (w : W par N s) (z : Nat) : Can par s (Settled par N z s) := by
  cases hl : (s.cx z).lock with
  | none => exact .now ⟨w, .refl, hl, rfl, rfl, rfl⟩
  | some x =>
    have hx := ((w.inv.cx z).lock x).1 hl
    obtain ⟨_, rfl⟩ := w.inv.own z x (by rcases hx with h | h <;> rw [h] <;> simp)
    rcases hx with hx | hx
    · by_cases h0 : (s.cx (par x)).state = 0
      · have hk : Context.step (s.cx (par x)) (.adder x) = some { s.cx (par x) with ap := Context.set (s.cx (par x)).ap x .reg } := by
          simp only [Context.step, Context.stepAdder, hx, if_pos h0]
        obtain ⟨s1, h3, w1, f1, e1, i1⟩ := adder_go w (by rw [hx]; simp) hk
        refine .step (c := .maker x) trivial h3 ((at_reg (x := x) w1 (by rw [e1]; simp [Context.set])).then fun s2 _ _ _ ⟨w2, f2, l2, c2, t2, i2⟩ => .now ⟨w2, f1.trans f2 (Nat.le_refl _), l2, ?_, ?_, i2.trans i1⟩)
        · rw [c2, e1]
        · rw [t2, e1]
      · have hk : Context.step (s.cx (par x)) (.adder x) = some { s.cx (par x) with lock := none, ap := Context.set (s.cx (par x)).ap x .refused } := by
          simp only [Context.step, Context.stepAdder, hx, if_neg h0]
        obtain ⟨s1, h3, w1, f1, e1, i1⟩ := adder_go w (by rw [hx]; simp) hk
        exact .step (c := .maker x) trivial h3 (.now ⟨w1, f1, by rw [e1], by rw [e1], by rw [e1], i1⟩)
    · exact at_reg w hx

/-- What is to be shown. -/
def Fin (par : Nat → Nat) (N y : Nat) (s s' : St) : Prop := W par N s' ∧ Frame y s s' ∧ (s'.cx y).cp = .exit

theorem Fin.from {par : Nat → Nat} {N y : Nat} {a b c : St} (h : Frame y a b) (g : Fin par N y b c) : Fin par N y a c := ⟨g.1, h.trans g.2.1 (Nat.le_refl _), g.2.2⟩

/-- A step of `cancelAll` outside its list. -/
theorem plain_go {par : Nat → Nat} {N y : Nat} {s : St} {k : Context.St} (w : W par N s) (hn : ∀ x l, (s.cx y).cp ≠ .calling (x :: l)) (hk : Context.step (s.cx y) .canc = some k) :
    ∃ s', step par s (.canc y) = some s' ∧ W par N s' ∧ Frame y s s' ∧ s'.cx y = k := by
  have hs : step par s (.canc y) = some { cx := fun q => if q = y then k else s.cx q, inside := s.inside } := by
    simp only [step, St.withCx, hk, Option.map_some]
  exact ⟨_, hs, w_cx w hs hk (by simp) (by simp), frame_cx, by simp⟩

theorem remove_can {s : Context.St} {x : Nat} (hl : s.lock = none) (ha : s.ap x = .done true ∨ s.ap x = .done false) :
    ∃ s', Context.step s (.remove x) = some s' ∧ s'.lock = none := by
  refine ⟨_, by simp only [Context.step]; rw [if_pos ⟨hl, ha⟩], ?_⟩
  unfold Context.signal Context.delete
  (repeat' split) <;> exact hl

/-- After a pass, `Done` of the children can be called. -/
theorem clear_out {par : Nat → Nat} {N y : Nat} (k : Nat) {s : St} (w : W par N s) (hc : (s.cx y).cp = .calling []) (hl : (s.cx y).lock = none) :
    Can par s fun s' => W par N s' ∧ Frame y s s' ∧ (s'.cx y).cp = .calling [] ∧ ∀ x, x < k → ¬ Context.Outstanding (s'.cx y) x := by
  suffices Can par s fun s' => W par N s' ∧ Frame y s s' ∧ (s'.cx y).cp = .calling [] ∧ (s'.cx y).lock = none ∧ ∀ x, x < k → ¬ Context.Outstanding (s'.cx y) x by
    exact this.then fun s' _ _ _ ⟨a, b, c, _, d⟩ => .now ⟨a, b, c, d⟩
  induction k with
  | zero => exact .now ⟨w, .refl, hc, hl, fun _ h => by omega⟩
  | succ k ih =>
    refine ih.then fun s1 _ _ _ ⟨w1, f1, c1, l1, o1⟩ => ?_
    by_cases ho : Context.Outstanding (s1.cx y) k
    · obtain ⟨h0, rfl⟩ := w1.inv.own y k (by rw [ho.1]; simp)
      obtain ⟨cx, h1, h2⟩ := remove_can l1 (.inl ho.1)
      obtain ⟨r1, r2, r3, r4, r5⟩ := remove_eq h1
      have hs : step par s1 (.done k) = some { cx := fun q => if q = par k then cx else s1.cx q, inside := s1.inside } := by
        simp only [step]
        rw [if_pos ⟨h0, .inr (.inl ho.1), ho.2⟩, h1]
        rfl
      have hcl : Cancelled s1 k := w1.inv.called _ k (((w1.can _).calling [] c1 k ho.1 ho.2).resolve_left (by simp))
      refine .step (c := .done k) hcl hs (.now ⟨w_cx w1 hs h1 (by simp) (by simp), f1.trans frame_cx (Nat.le_refl _), ?_, ?_, fun x hx => ?_⟩)
      · dsimp only; rw [if_pos rfl, r4]; exact c1
      · dsimp only; rw [if_pos rfl]; exact h2
      · dsimp only; rw [if_pos rfl]
        rintro ⟨a, b⟩
        rw [r1] at a
        rw [r2] at b
        simp only [Context.set] at b
        split at b
        · cases b
        · exact o1 x (by omega) ⟨a, b⟩
    · exact .now ⟨w1, f1, c1, l1, fun x hx => by
        by_cases e : x = k
        · subst e; exact ho
        · exact o1 x (by omega)⟩

theorem at_nil {par : Nat → Nat} {N y : Nat} {s : St} (w : W par N s) (hc : (s.cx y).cp = .calling []) : Can par s (Fin par N y s) := by
  refine (settle w y).then fun s1 _ _ _ ⟨w1, f1, l1, c1, _, _⟩ => ?_
  refine (clear_out N w1 (c1.trans hc) l1).then fun s2 _ _ _ ⟨w2, f2, c2, o2⟩ => ?_
  have hno : ∀ x, ¬ Context.Outstanding (s2.cx y) x := by
    intro x ho
    obtain ⟨_, rfl⟩ := w2.inv.own y x (by rw [ho.1]; simp)
    by_cases hx : x < N
    · exact o2 x hx ho
    · have := w2.bound x (by omega)
      rw [ho.1] at this; cases this
  have em : (s2.cx y).m = [] ∧ (s2.cx y).n = 0 := by
    have st := fun x h => hno x (((w2.inv.cx y).stored x).1 h)
    have e0 : (s2.cx y).s0 = none := by
      cases e : (s2.cx y).s0 with
      | none => rfl
      | some x => exact (st x (.inl e)).elim
    have e1 : (s2.cx y).s1 = none := by
      cases e : (s2.cx y).s1 with
      | none => rfl
      | some x => exact (st x (.inr (.inl e))).elim
    refine ⟨?_, by rw [(w2.inv.cx y).n, e0, e1]; rfl⟩
    cases e : (s2.cx y).m with
    | nil => rfl
    | cons x l => exact (st x (.inr (.inr (by rw [e]; exact List.mem_cons_self ..)))).elim
  obtain ⟨s3, h3, w3, f3, e3⟩ := plain_go w2 (k := { s2.cx y with passes := (s2.cx y).passes + 1, cp := .readM }) (by rw [c2]; simp)
    (by simp only [Context.step, Context.stepCancel, c2])
  obtain ⟨s4, h4, w4, f4, e4⟩ := plain_go w3 (y := y) (k := { s3.cx y with cp := .readN }) (by rw [e3]; simp)
    (by simp only [Context.step, Context.stepCancel, e3, em.1, List.length_nil, Nat.lt_irrefl, if_false])
  obtain ⟨s5, h5, w5, f5, e5⟩ := plain_go w4 (y := y) (k := { s4.cx y with cp := .exit }) (by rw [e4]; simp)
    (by simp [Context.step, Context.stepCancel, e3, e4, em.2])
  exact .step (c := .canc y) trivial h3 (.step (c := .canc y) trivial h4 (.step (c := .canc y) trivial h5 (.now ⟨w5, (((f1.trans f2 (Nat.le_refl _)).trans f3 (Nat.le_refl _)).trans f4 (Nat.le_refl _)).trans f5 (Nat.le_refl _), by rw [e5]⟩)))

/-- The goroutine comes to the end of its list. -/
theorem drain {par : Nat → Nat} {N y : Nat} (fin : ∀ z s, y < z → W par N s → (s.cx z).state ≠ 0 → Can par s (Fin par N z s)) (l : List Nat) {s : St} (w : W par N s)
    (hc : (s.cx y).cp = .calling l) : Can par s (Fin par N y s) := by
  induction l generalizing s with
  | nil => exact at_nil w hc
  | cons z l ih =>
    have hyz : ∀ {s : St}, W par N s → (s.cx y).cp = .calling (z :: l) → y < z := fun w hc =>
      (tree_ne w.tree w.inv (p := y) (x := z) (by rw [w.inv.list y _ hc z (List.mem_cons_self ..)]; simp)).1
    have hk : ∀ {s : St}, (s.cx y).cp = .calling (z :: l) → Context.step (s.cx y) .canc = some { s.cx y with called := Context.set (s.cx y).called z true, cp := .calling l } := by
      intro s hc; simp only [Context.step, Context.stepCancel, hc]
    have isIn : ∀ {s : St}, W par N s → (s.cx y).cp = .calling (z :: l) → s.inside y = true → Can par s (Fin par N y s) := by
      intro s w hc hb
      obtain ⟨z', l', b1, b2⟩ := w.inv.ins y hb
      rw [hc] at b1; cases b1
      refine (fin z s (hyz w hc) w b2).then fun s1 _ _ _ ⟨w1, f1, c1⟩ => ?_
      obtain ⟨g1, g2⟩ := f1 y (hyz w hc)
      have hc1 : (s1.cx y).cp = .calling (z :: l) := by rw [g1]; exact hc
      have hs : step par s1 (.canc y) = some { cx := fun q => if q = y then { s1.cx y with called := Context.set (s1.cx y).called z true, cp := .calling l } else s1.cx q, inside := fun q => if q = y then false else s1.inside q } := by
        simp only [step, hc1, g2, hb, if_true, c1, St.set, St.withCx, hk hc1, Option.map_some]
      have w2 := w_cx w1 hs (hk hc1) (by simp) (by simp)
      refine .step (c := .canc y) trivial hs ((ih w2 (by simp)).then fun s3 _ _ _ g => .now (g.from fun q hq => ?_))
      have := f1 q (by have := hyz w hc; omega)
      dsimp only
      rw [if_neg (by omega), if_neg (by omega)]
      exact this
    cases hb : s.inside y with
    | true => exact isIn w hc hb
    | false =>
      by_cases h0 : (s.cx z).state = 0
      · refine (settle w z).then fun s1 _ _ _ ⟨w1, f1, l1, c1, t1, i1⟩ => ?_
        have hlt := hyz w hc
        obtain ⟨g1, g2⟩ := f1 y hlt
        have hc1 : (s1.cx y).cp = .calling (z :: l) := by rw [g1]; exact hc
        have h01 := t1.trans h0
        have hkz : Context.step (s1.cx z) (.cancel false) = some { s1.cx z with state := 1, cp := .readM } := by
          simp only [Context.step, h01, if_true, Bool.false_eq_true, if_false]
        have hs : step par s1 (.canc y) = some { cx := fun q => if q = z then { s1.cx z with state := 1, cp := .readM } else s1.cx q, inside := fun q => if q = y then true else s1.inside q } := by
          simp only [step, hc1, g2, hb, Bool.false_eq_true, if_false, h01, if_true, St.set, St.withCx, hkz, Option.map_some]
        have w2 : W par N { cx := fun q => if q = z then { s1.cx z with state := 1, cp := .readM } else s1.cx q, inside := fun q => if q = y then true else s1.inside q } := by
          refine w_next w1 hs (fun q => ?_) (by simp)
          dsimp only
          split
          · intro _ x hx
            have := ((w1.inv.cx z).lock x).2 (.inr hx)
            rw [l1] at this; cases this
          · exact w1.clear q
        refine .step (c := .canc y) trivial hs ((isIn w2 ?_ (by simp)).then fun s3 _ _ _ g => .now (g.from fun q hq => ?_))
        · dsimp only; rw [if_neg (by omega)]; exact hc1
        · have := f1 q (by omega)
          dsimp only
          rw [if_neg (by omega), if_neg (by omega)]
          exact this
      · have hs : step par s (.canc y) = some { cx := fun q => if q = y then { s.cx y with called := Context.set (s.cx y).called z true, cp := .calling l } else s.cx q, inside := s.inside } := by
          simp only [step, hc, hb, Bool.false_eq_true, if_false, h0, St.withCx, hk hc, Option.map_some]
        exact .step (c := .canc y) trivial hs ((ih (w_cx w hs (hk hc) (by simp) (by simp)) (by simp)).then fun s3 _ _ _ g => .now (g.from frame_cx))

theorem finish {par : Nat → Nat} {N : Nat} (k : Nat) {y : Nat} {s : St} (hk : N ≤ y + k) (w : W par N s) (h0 : (s.cx y).state ≠ 0) : Can par s (Fin par N y s) := by
  induction k generalizing y s with
  | zero =>
    have := w.pos
    have hn : ¬ Has par s y := by
      rintro (h | h | h)
      · omega
      · rw [w.bound y (by omega)] at h; cases h
      · rw [w.bound y (by omega)] at h; cases h
    rw [(w.inv.new y hn).1] at h0
    exact absurd rfl h0
  | succ k ih =>
    have dr := fun (l : List Nat) (s : St) (w : W par N s) (hc : (s.cx y).cp = .calling l) => drain (y := y) (fun z s hz w h0 => ih (y := z) (by omega) w h0) l w hc
    have snap : ∀ s, W par N s → (s.cx y).cp = .snap → Can par s (Fin par N y s) := by
      intro s w hc
      refine (settle w y).then fun s1 _ _ _ ⟨w1, f1, l1, c1, _, _⟩ => ?_
      have hc1 := c1.trans hc
      obtain ⟨s2, h2, w2, f2, e2⟩ := plain_go w1 (y := y) (k := { s1.cx y with cp := .calling (Context.copy (s1.cx y)) }) (by rw [hc1]; simp)
        (by simp only [Context.step, Context.stepCancel, hc1, l1, if_true])
      exact .step (c := .canc y) trivial h2 ((dr _ s2 w2 (by rw [e2])).then fun s3 _ _ _ g => .now (g.from (f1.trans f2 (Nat.le_refl _))))
    have readN : ∀ s, W par N s → (s.cx y).cp = .readN → Can par s (Fin par N y s) := by
      intro s w hc
      obtain ⟨s2, h2, w2, f2, e2⟩ := plain_go w (y := y) (k := { s.cx y with cp := if 0 < (s.cx y).n then .snap else .exit }) (by rw [hc]; simp)
        (by simp only [Context.step, Context.stepCancel, hc])
      refine .step (c := .canc y) trivial h2 ?_
      by_cases hp : 0 < (s.cx y).n
      · exact (snap s2 w2 (by rw [e2, if_pos hp])).then fun s3 _ _ _ g => .now (g.from f2)
      · exact .now ⟨w2, f2, by rw [e2, if_neg hp]⟩
    cases hc : (s.cx y).cp with
    | idle => exact absurd hc ((w.can y).some h0)
    | exit => exact .now ⟨w, .refl, hc⟩
    | calling l => exact dr l s w hc
    | snap => exact snap s w hc
    | readN => exact readN s w hc
    | readM =>
      obtain ⟨s2, h2, w2, f2, e2⟩ := plain_go w (y := y) (k := { s.cx y with cp := if 0 < (s.cx y).m.length then .snap else .readN }) (by rw [hc]; simp)
        (by simp only [Context.step, Context.stepCancel, hc])
      refine .step (c := .canc y) trivial h2 ?_
      by_cases hp : 0 < (s.cx y).m.length
      · exact (snap s2 w2 (by rw [e2, if_pos hp])).then fun s3 _ _ _ g => .now (g.from f2)
      · exact (readN s2 w2 (by rw [e2, if_neg hp])).then fun s3 _ _ _ g => .now (g.from f2)

/-! ### Everything below -/

theorem gone_step {par : Nat → Nat} (ht : Tree par) {s s' : St} {c : Choice} (I : Inv par s) (h : step par s c = some s') {p x : Nat} (hc : c ≠ .done x) (hg : (s.cx p).gone x = false) :
    (s'.cx p).gone x = false := by
  rcases cx_step ht I h p with h1 | ⟨d, h1, hd⟩ | ⟨_, h1⟩
  · rw [h1]; exact hg
  · cases d with
    | remove y =>
      rw [(remove_eq h1).2.1]
      simp only [Context.set]
      split
      · rename_i e; subst e; exact absurd (hd.remove x rfl) hc
      · exact hg
    | adder y => rw [(adder_eq h1).2.2.1]; exact hg
    | canc =>
      simp only [Context.step, Context.stepCancel] at h1
      revert h1
      (repeat' split) <;> intro h1 <;> first | cases h1; done | (have := Option.some.inj h1; rw [← this]; exact hg)
    | _ =>
      simp only [Context.step] at h1
      revert h1
      (repeat' split) <;> intro h1 <;> first | cases h1; done | (have := Option.some.inj h1; rw [← this]; exact hg)
  · rw [h1]; rfl

theorem open_step {par : Nat → Nat} (ht : Tree par) {s s' : St} {c : Choice} (I : Inv par s) (h : step par s c = some s') {x : Nat} (hc : c ≠ .done x) (ho : Open par s x) : Open par s' x :=
  ⟨ho.1, (keep_step ht I h).done _ _ _ ho.2.1, gone_step ht I h hc ho.2.2⟩

theorem open_goes {par : Nat → Nat} (ht : Tree par) {s s' : St} {cs : List Choice} (I : Inv par s) (hg : Goes par s cs) (h : run par s cs = some s') {x : Nat}
    (ho : Open par s x ∨ Cancelled s x) : Open par s' x ∨ Cancelled s' x := by
  induction cs generalizing s with
  | nil => cases h; exact ho
  | cons c cs ih =>
    obtain ⟨s1, h1, h2⟩ := bind_some h
    refine ih (inv_step ht I h1) (hg.2 s1 h1) h2 ?_
    have K := keep_step ht I h1
    have up : Cancelled s x → Cancelled s1 x := fun h => by
      unfold Cancelled at *
      rw [K.state x h]; exact h
    rcases ho with ho | ho
    · by_cases e : c = .done x
      · subst e; exact .inr (up hg.1)
      · exact .inl (open_step ht I h1 e ho)
    · exact .inr (up ho)

theorem sweep {par : Nat → Nat} {N p : Nat} {s : St} (w : W par N s) (h0 : Cancelled s p) (k : Nat) :
    Can par s fun s' => W par N s' ∧ ∀ d, d < k → Under par s p d → Cancelled s' d ∧ Ended s' d := by
  suffices ∃ ds s', Goes par s ds ∧ run par s ds = some s' ∧ W par N s' ∧ ∀ d, d < k → Under par s p d → Cancelled s' d ∧ Ended s' d from this
  induction k with
  | zero => exact ⟨[], s, trivial, rfl, w, fun _ h => by omega⟩
  | succ k ih =>
    obtain ⟨ds, s1, g1, h1, w1, u1⟩ := ih
    by_cases hu : Under par s p k
    · have hc : Cancelled s1 k := by
        cases hu with
        | refl =>
          have := (keep_run w.tree w.inv h1).state p h0
          unfold Cancelled at *
          rw [this]; exact h0
        | child hp o =>
          have hlt := w.tree k o.1
          have he := (u1 (par k) hlt hp).2
          rcases open_goes w.tree w.inv g1 h1 (.inl o) with ho | ho
          · have := exit_gone (w1.inv.cx _) (w1.can _) he ho.2.1
            rw [ho.2.2] at this; cases this
          · exact ho
      obtain ⟨es, s2, g2, h2, w2, f2, c2⟩ := finish N (by omega) w1 hc
      have K := keep_run w.tree w1.inv h2
      refine ⟨ds ++ es, s2, goes_append g1 h1 g2, by rw [run_append, h1]; exact h2, w2, fun d hd hu' => ?_⟩
      by_cases e : d = k
      · subst e; exact ⟨exit_state w2.inv c2, c2⟩
      · obtain ⟨a, b⟩ := u1 d (by omega) hu'
        exact ⟨exit_state w2.inv (K.exit d b), K.exit d b⟩
    · exact ⟨ds, s1, g1, h1, w1, fun d hd hu' => u1 d (by
        by_cases e : d = k
        · subst e; exact absurd hu' hu
        · omega) hu'⟩

theorem under_bound {par : Nat → Nat} {N p d : Nat} {s : St} (w : W par N s) (h : Under par s p d) : d < N + p + 1 := by
  cases h with
  | refl => omega
  | child _ o =>
    by_cases hd : d < N
    · omega
    · have := w.bound d (by omega)
      rw [o.2.1] at this; cases this

end Verif.CtxTree
