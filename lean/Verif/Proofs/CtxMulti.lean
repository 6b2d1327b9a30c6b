import Verif.Spec.CtxMulti
import Verif.Proofs.MultiTimer
import Verif.Proofs.Context
import Verif.Proofs.CtxReq
/-! A context with its multi-requests: invariants. -/
namespace Verif.CtxMulti
open Verif.MultiTimer (M m_req full_req cp_req CFirst Full Past m_init)
open Verif.CtxReq (remove_eq adder_eq copy_done bind_some)

theorem withCx_some {s s' : St} {o : Option Context.St} (h : s.withCx o = some s') : ∃ cx, o = some cx ∧ s' = { s with cx } := by
  cases o with
  | none => cases h
  | some cx => cases h; exact ⟨cx, rfl, rfl⟩

theorem withQ_some {s s' : St} {x : Nat} {o : Option MultiReq.St} (h : s.withQ x o = some s') :
    ∃ q, o = some q ∧ s' = { s with q := fun y => if y = x then q else s.q y } := by
  cases o with
  | none => cases h
  | some q => cases h; exact ⟨q, rfl, rfl⟩

/-! ### What a step is -/

/-- The context does one step, other than one of `cancelAll` in its list, of `RemoveCanceler`, or of a refused `NewMulti`. -/
def Plain (s : Context.St) : Context.Choice → Prop
  | .remove _ => False
  | .canc => ∀ x l, s.cp ≠ .calling (x :: l)
  | .adder x => s.ap x ≠ .refused
  | _ => True

inductive Kind (s s' : St) : Choice → Prop
  | plain {c} (d : Context.Choice) (cx : Context.St) (hd : Plain s.cx d) (h : Context.step s.cx d = some cx) (e : s' = { s with cx }) : Kind s s' c
  | refused {c} (x : Nat) (cx : Context.St) (q : MultiReq.St) (hr : s.cx.ap x = .refused) (h : Context.step s.cx (.adder x) = some cx) (hq : MultiReq.run (s.q x) early = some q)
      (e : s' = { s with cx, q := fun y => if y = x then q else s.q y }) : Kind s s' c
  | begins {f} (x : Nat) (l : List Nat) (q : MultiReq.St) (hc : s.cx.cp = .calling (x :: l)) (hb : s.busy = false)
      (hq : MultiReq.step (s.q x) (.multi (.cancel (2 * s.calls + 2) false f)) = some q)
      (e : s' = { s with busy := true, calls := s.calls + 1, q := fun y => if y = x then q else s.q y }) : Kind s s' (.canc f)
  | ends {c} (x : Nat) (l : List Nat) (b : Bool) (cx : Context.St) (hc : s.cx.cp = .calling (x :: l)) (hb : s.busy = true) (hk : (s.q x).m.cp (2 * s.calls) = .done b)
      (h : Context.step s.cx .canc = some cx) (e : s' = { s with busy := false, cx }) : Kind s s' c
  | multi {c} (x : Nat) (d : MultiReq.Choice) (q : MultiReq.St) (ha : s.cx.ap x = .done true ∨ s.cx.ap x = .done false) (hr : reserved d = false) (hm : removes (s.q x).m d = false)
      (hq : MultiReq.step (s.q x) d = some q) (e : s' = { s with q := fun y => if y = x then q else s.q y }) : Kind s s' c
  | removed {c} (x : Nat) (d : MultiReq.Choice) (cx : Context.St) (q : MultiReq.St) (ha : s.cx.ap x = .done true ∨ s.cx.ap x = .done false) (hr : reserved d = false)
      (hm : removes (s.q x).m d = true) (h : Context.step s.cx (.remove x) = some cx)
      (hq : MultiReq.step (s.q x) d = some q) (e : s' = { s with cx, q := fun y => if y = x then q else s.q y }) : Kind s s' c

theorem kind {s s' : St} {c : Choice} (h : step s c = some s') : Kind s s' c := by
  have pl : ∀ {c : Choice} d, Plain s.cx d → s.withCx (Context.step s.cx d) = some s' → Kind s s' c := by
    intro c d hd h
    obtain ⟨cx, h1, h2⟩ := withCx_some h
    exact .plain d cx hd h1 h2
  cases c <;> simp only [step] at h
  case add x => exact pl (.add x) trivial h
  case cancel b => exact pl (.cancel b) trivial h
  case wait w => exact pl (.wait w) trivial h
  case goRet x => exact pl (.goRet x) trivial h
  case adder x =>
    split at h
    · rename_i hr
      obtain ⟨s1, h1, h2⟩ := bind_some h
      obtain ⟨cx, h3, rfl⟩ := withCx_some h1
      obtain ⟨q, h4, h5⟩ := withQ_some h2
      exact .refused x cx q hr h3 h4 h5
    · rename_i hn
      exact pl (.adder x) (fun e => hn e) h
  case canc f =>
    split at h
    · rename_i x l hc
      split at h
      · rename_i hb
        split at h
        · rename_i b hk
          obtain ⟨cx, h1, h2⟩ := withCx_some h
          exact .ends x l b cx hc hb hk h1 h2
        · cases h
      · rename_i hb
        obtain ⟨q, h1, h2⟩ := withQ_some h
        exact .begins x l q hc (by simpa using hb) h1 h2
    · rename_i hn
      exact pl .canc (fun x l e => hn x l e) h
  case q x c =>
    split at h
    · rename_i ha
      unfold qStep at h
      split at h
      · cases h
      · rename_i hr
        split at h
        · rename_i hm
          obtain ⟨s1, h1, h2⟩ := bind_some h
          obtain ⟨cx, h3, rfl⟩ := withCx_some h1
          obtain ⟨q, h4, h5⟩ := withQ_some h2
          exact .removed x c cx q ha (by simpa using hr) hm h3 h4 h5
        · rename_i hm
          obtain ⟨q, h4, h5⟩ := withQ_some h
          exact .multi x c q ha (by simpa using hr) (by simpa using hm) h4 h5
    · cases h

theorem cx_step {s s' : St} {c : Choice} (h : step s c = some s') : s'.cx = s.cx ∨ ∃ d, Context.step s.cx d = some s'.cx := by
  cases kind h with
  | plain d cx _ hh e => subst e; exact .inr ⟨d, hh⟩
  | refused x cx q _ hh _ e => subst e; exact .inr ⟨_, hh⟩
  | begins x l q _ _ _ e => subst e; exact .inl rfl
  | ends x l b cx _ _ _ hh e => subst e; exact .inr ⟨_, hh⟩
  | multi x d q _ _ _ _ e => subst e; exact .inl rfl
  | removed x d cx q _ _ _ hh _ e => subst e; exact .inr ⟨_, hh⟩

theorem q_step {s s' : St} {c : Choice} (h : step s c = some s') (y : Nat) : ∃ ds, MultiReq.run (s.q y) ds = some (s'.q y) := by
  have one : ∀ {q q' : MultiReq.St} c, MultiReq.step q c = some q' → MultiReq.run q [c] = some q' := by
    intro m m' c h; simp [MultiReq.run, h]
  have up : ∀ {x q}, (∃ ds, MultiReq.run (s.q x) ds = some q) → ∃ ds, MultiReq.run (s.q y) ds = some (if y = x then q else s.q y) := by
    intro x q h
    split
    · rename_i e; subst e; exact h
    · exact ⟨[], rfl⟩
  cases kind h with
  | plain d cx _ hh e => subst e; exact ⟨[], rfl⟩
  | refused x cx q _ _ hh e => subst e; exact up ⟨_, hh⟩
  | begins x l q _ _ hh e => subst e; exact up ⟨_, one _ hh⟩
  | ends x l b cx _ _ _ hh e => subst e; exact ⟨[], rfl⟩
  | multi x d q _ _ _ hh e => subst e; exact up ⟨_, one _ hh⟩
  | removed x d cx q _ _ _ _ hh e => subst e; exact up ⟨_, one _ hh⟩

theorem q_run {s s' : St} {cs : List Choice} (h : run s cs = some s') (y : Nat) : ∃ ds, MultiReq.run (s.q y) ds = some (s'.q y) := by
  induction cs generalizing s with
  | nil => cases h; exact ⟨[], rfl⟩
  | cons c cs ih =>
    obtain ⟨t, h1, h2⟩ := bind_some h
    obtain ⟨ds, h3⟩ := q_step h1 y
    obtain ⟨es, h4⟩ := ih h2
    exact ⟨ds ++ es, by rw [MultiReq.run_append, h3]; exact h4⟩

/-! ### Invariant -/

theorem m_run {q q' : MultiReq.St} {ds : List MultiReq.Choice} (h : MultiReq.run q ds = some q') (I : M q.m) : M q'.m := by
  induction ds generalizing q with
  | nil => cases h; exact I
  | cons c ds ih =>
    obtain ⟨t, h1, h2⟩ := bind_some h
    exact ih h2 (m_req h1 I)

theorem full_run {q q' : MultiReq.St} {ds : List MultiReq.Choice} (h : MultiReq.run q ds = some q') (I : M q.m) (hf : Full q.m) : Full q'.m := by
  induction ds generalizing q with
  | nil => cases h; exact hf
  | cons c ds ih =>
    obtain ⟨t, h1, h2⟩ := bind_some h
    exact ih h2 (m_req h1 I) (full_req h1 I hf)

/-- A goroutine that calls `RemoveCanceler` has seen all requests counted. -/
theorem removes_full {m : Multi.St} {d : MultiReq.Choice} (I : M m) (h : removes m d = true) : Full m := by
  unfold removes at h
  split at h
  · have h : m.own = .rTake := by simpa using h
    exact ⟨by rw [h]; trivial, I.inv.takes h⟩
  · rename_i i
    have h : m.rp i = .remove := by simpa using h
    exact I.full (.inr h)
  · cases h

structure Inv (s : St) : Prop where
  cx : Context.Inv s.cx
  m : ∀ x, M (s.q x).m
  gone : ∀ x, s.cx.gone x = true → Full (s.q x).m
  idle : s.cx.state = 0 → s.cx.cp = .idle
  list : ∀ l, s.cx.cp = .calling l → ∀ x ∈ l, s.cx.ap x = .done true
  busy : s.busy = true → ∃ x l, s.cx.cp = .calling (x :: l) ∧ (s.q x).m.cp (2 * s.calls) ≠ .idle
  new : ∀ x k, s.cx.ap x ≠ .done true → s.cx.ap x ≠ .done false → (s.q x).m.cp k = .idle ∧ (s.q x).m.c = 0 ∧ (s.q x).m.r = 0
  free : ∀ x k, k % 2 = 0 → 2 * s.calls < k → (s.q x).m.cp k = .idle

theorem inv_init (msg : Nat → Nat → UInt32) : Inv (init msg) where
  cx := Context.inv_init
  m _ := m_init
  gone := by simp [init, Context.init]
  idle := by simp [init, Context.init]
  list := by simp [init, Context.init]
  busy := by simp [init]
  new := by simp [init, MultiReq.init, Multi.init]
  free := by simp [init, MultiReq.init, Multi.init]

/-- What a plain step of the context keeps. -/
theorem plain_eq {s s' : Context.St} {d : Context.Choice} (hd : Plain s d) (h : Context.step s d = some s') (I : Context.Inv s) (hi : s.state = 0 → s.cp = .idle) :
    s'.gone = s.gone ∧ s'.called = s.called ∧ (∀ x b, s.ap x = .done b → s'.ap x = .done b) ∧
    (∀ x l, s.cp = .calling (x :: l) → s'.cp = s.cp) ∧ (s'.state = 0 → s'.cp = .idle) ∧
    (∀ l, s'.cp = .calling l → s.cp = .calling l ∨ ∀ x ∈ l, s.ap x = .done true) := by
  have ic : ∀ x l, s.cp = .calling (x :: l) → s.state ≠ 0 := fun x l h1 h2 => by rw [hi h2] at h1; cases h1
  cases d
  case remove x => cases hd
  case adder x =>
    obtain ⟨h1, h2, h3, h4, h5⟩ := adder_eq h
    refine ⟨h3, ?_, ?_, fun _ _ _ => h2, by rw [h1, h2]; exact hi, fun l h => .inl (h2 ▸ h)⟩
    · funext y
      by_cases e : y = x
      · subst e
        have : s.ap y ≠ .refused := hd
        cases e : s.ap y <;> simp only [e] at h5 <;> first | exact h5.2 | exact h5.elim | exact absurd e this
      · exact (h4 y e).2
    · intro y b hy
      by_cases e : y = x
      · subst e; rw [hy] at h5; exact h5.elim
      · rw [(h4 y e).1]; exact hy
  case canc =>
    simp only [Context.step] at h
    unfold Context.stepCancel at h
    have := copy_done I
    split at h <;> rename_i e <;> (repeat' split at h) <;> cases h <;>
      first
        | (refine ⟨rfl, rfl, fun _ _ h => h, fun x l h => absurd h (hd x l), fun h => absurd (hi h) (by rw [e]; simp), fun l h => ?_⟩
           first
             | (split at h <;> cases h; done)
             | (cases h; done)
             | (cases h; exact .inr this))
        | exact absurd e (hd _ _)
  case add x =>
    simp only [Context.step] at h
    split at h <;> cases h
    refine ⟨rfl, rfl, fun y b hy => ?_, fun _ _ _ => rfl, hi, fun _ => .inl⟩
    simp only [Context.set]; split
    · rename_i e _; subst_vars; simp_all
    · exact hy
  case cancel b =>
    simp only [Context.step] at h
    split at h <;> cases h
    · rename_i h0
      refine ⟨rfl, rfl, fun _ _ h => h, fun x l h => absurd h0 (ic x l h), fun h => ?_, fun l h => by cases h⟩
      revert h; dsimp only; split <;> intro h <;> cases h
    · exact ⟨rfl, rfl, fun _ _ h => h, fun _ _ _ => rfl, hi, fun _ => .inl⟩
  case wait w =>
    simp only [Context.step] at h
    (repeat' split at h) <;> cases h <;> exact ⟨rfl, rfl, fun _ _ h => h, fun _ _ _ => rfl, hi, fun _ => .inl⟩
  case goRet x =>
    simp only [Context.step] at h
    (repeat' split at h) <;> cases h <;> exact ⟨rfl, rfl, fun _ _ h => h, fun _ _ _ => rfl, hi, fun _ => .inl⟩

/-- The end of a call of `cancelAll`. -/
theorem canc_eq {s s' : Context.St} {x : Nat} {l : List Nat} (hc : s.cp = .calling (x :: l)) (h : Context.step s .canc = some s') :
    s' = { s with called := Context.set s.called x true, cp := .calling l } := by
  simp only [Context.step, Context.stepCancel, hc] at h
  cases h; rfl

theorem refused_eq {s s' : Context.St} {x : Nat} (hr : s.ap x = .refused) (h : Context.step s (.adder x) = some s') :
    s' = { s with called := Context.set s.called x true, ap := Context.set s.ap x (.done false) } := by
  simp only [Context.step, Context.stepAdder, hr] at h
  cases h; rfl

theorem early_cp {q q' : MultiReq.St} (h : MultiReq.run q early = some q') (hi : q.m.cp 0 = .idle) (hc : q.m.c = q.m.r) :
    q'.m.cp 0 = .done true ∧ ∀ k, k ≠ 0 → q'.m.cp k = q.m.cp k := by
  simp only [early, MultiReq.run, MultiReq.step, MultiReq.multiStep, Multi.step, hi, if_true, MultiReq.St.withM, Option.map_some, Option.bind_some, Multi.set, if_pos,
    Multi.stepCancel, Bool.false_eq_true, if_false, Option.some.injEq] at h
  subst h
  refine ⟨by simp [hc, Multi.set], fun k hk => ?_⟩
  simp [hk, Multi.set]

theorem inv_step {s s' : St} {c : Choice} (I : Inv s) (h : step s c = some s') : Inv s' := by
  have one : ∀ {q q' : MultiReq.St} c, MultiReq.step q c = some q' → MultiReq.run q [c] = some q' := by
    intro m m' c h; simp [MultiReq.run, h]
  have hm : ∀ x, M (s'.q x).m := fun x => by
    obtain ⟨ds, h1⟩ := q_step h x
    exact m_run h1 (I.m x)
  have hf : ∀ x, s.cx.gone x = true → Full (s'.q x).m := fun x hx => by
    obtain ⟨ds, h1⟩ := q_step h x
    exact full_run h1 (I.m x) (I.gone x hx)
  cases kind h with
  | plain d cx hd hh e =>
    obtain ⟨a1, a2, a3, a4, a5, a6⟩ := plain_eq hd hh I.cx I.idle
    subst e
    refine ⟨Context.inv_step I.cx hh, hm, fun x hx => hf x (a1 ▸ hx), a5, fun l hl x hx => ?_, fun hb => ?_, fun x k h1 h2 => ?_, I.free⟩
    · exact a3 x _ ((a6 l hl).elim (fun h => I.list l h x hx) fun h => h x hx)
    · obtain ⟨x, l, b1, b2⟩ := I.busy hb
      exact ⟨x, l, (a4 x l b1).trans b1, b2⟩
    · exact I.new x k (fun h => h1 (a3 x _ h)) fun h => h2 (a3 x _ h)
  | refused x cx q hr hh hq e =>
    have hx := refused_eq hr hh
    have nd : s.cx.ap x ≠ .done true ∧ s.cx.ap x ≠ .done false := by rw [hr]; simp
    obtain ⟨n1, n2, n3⟩ := I.new x 0 nd.1 nd.2
    obtain ⟨e1, e2⟩ := early_cp hq n1 (by rw [n2, n3])
    have hi := Context.inv_step I.cx hh
    subst e hx
    refine ⟨hi, hm, hf, I.idle, fun l hl y hy => ?_, fun hb => ?_, fun y k h1 h2 => ?_, fun y k h1 h2 => ?_⟩
    · have := I.list l hl y hy
      simp only [Context.set]; split
      · rename_i e; subst e; exact absurd this nd.1
      · exact this
    · obtain ⟨y, l, b1, b2⟩ := I.busy hb
      refine ⟨y, l, b1, ?_⟩
      have := I.list _ b1 y (List.mem_cons_self ..)
      dsimp only
      rw [if_neg (by rintro rfl; exact nd.1 this)]
      exact b2
    · simp only [Context.set] at h1 h2
      split at h1
      · rename_i e; exact absurd (if_pos e) h2
      · rename_i e
        rw [if_neg e] at h2
        dsimp only
        rw [if_neg e]
        exact I.new y k h1 h2
    · dsimp only
      split
      · rename_i e; subst e
        rw [e2 k (by omega)]
        exact I.free _ k h1 h2
      · exact I.free _ k h1 h2
  | begins x l q hc hb hq e =>
    have hl := I.list _ hc x (List.mem_cons_self ..)
    have oth : ∀ k, k ≠ 2 * s.calls + 2 → ((s.q x).m.cp k = .idle → q.m.cp k = .idle) := fun k hk h0 =>
      (cp_req k hq (by rintro e f h; cases h; exact hk rfl)).1.2 h0
    subst e
    refine ⟨I.cx, hm, hf, I.idle, I.list, fun _ => ⟨x, l, hc, ?_⟩, fun y k h1 h2 => ?_, fun y k h1 h2 => ?_⟩
    · dsimp only
      rw [if_pos rfl]
      simp only [MultiReq.step, MultiReq.multiStep] at hq
      obtain ⟨m, h1, rfl⟩ := MultiReq.withM_some hq
      simp only [Multi.step] at h1
      split at h1 <;> cases h1
      dsimp only [Bool.false_eq_true, if_false]
      simp only [Multi.set]
      rw [if_pos (by omega)]
      split <;> simp
    · dsimp only
      rw [if_neg (by rintro rfl; exact h1 hl)]
      exact I.new y k h1 h2
    · dsimp only at h2 ⊢
      split
      · rename_i e; subst e
        exact oth k (by omega) (I.free _ k h1 (by omega))
      · exact I.free _ k h1 (by omega)
  | ends x l b cx hc hb hk hh e =>
    have hx := canc_eq hc hh
    have hi := Context.inv_step I.cx hh
    subst e hx
    refine ⟨hi, hm, hf, fun h => ?_, fun l' hl y hy => ?_, (fun hb => by cases hb), I.new, I.free⟩
    · have := I.idle h; rw [hc] at this; cases this
    · cases hl
      exact I.list _ hc y (List.mem_cons_of_mem _ hy)
  | multi x d q ha hr hm' hq e =>
    have ev : ∀ k, k % 2 = 0 → ∀ a b, d ≠ .multi (.cancel k a b) := by
      rintro k hk a b rfl
      simp [reserved, hk] at hr
    subst e
    refine ⟨I.cx, hm, hf, I.idle, I.list, fun hb => ?_, fun y k h1 h2 => ?_, fun y k h1 h2 => ?_⟩
    · obtain ⟨y, l, b1, b2⟩ := I.busy hb
      refine ⟨y, l, b1, ?_⟩
      dsimp only
      split
      · rename_i e; subst e
        exact fun h => b2 ((cp_req _ hq (ev _ (by omega))).1.1 h)
      · exact b2
    · dsimp only
      rw [if_neg (by rintro rfl; exact ha.elim h1 h2)]
      exact I.new y k h1 h2
    · dsimp only
      split
      · rename_i e; subst e
        exact (cp_req _ hq (ev _ h1)).1.2 (I.free _ k h1 h2)
      · exact I.free _ k h1 h2
  | removed x d cx q ha hr hm' hh hq e =>
    have ev : ∀ k, k % 2 = 0 → ∀ a b, d ≠ .multi (.cancel k a b) := by
      rintro k hk a b rfl
      simp [reserved, hk] at hr
    obtain ⟨r1, r2, r3, r4, r5⟩ := remove_eq hh
    subst e
    refine ⟨Context.inv_step I.cx hh, hm, fun y hy => ?_, by rw [r4, r5]; exact I.idle, by rw [r1, r4]; exact I.list, fun hb => ?_, fun y k h1 h2 => ?_, fun y k h1 h2 => ?_⟩
    · rw [r2] at hy
      simp only [Context.set] at hy
      split at hy
      · rename_i e; subst e
        obtain ⟨ds, h1⟩ := q_step h y
        exact full_run h1 (I.m y) (removes_full (I.m y) hm')
      · exact hf y hy
    · obtain ⟨y, l, b1, b2⟩ := I.busy hb
      refine ⟨y, l, r4.trans b1, ?_⟩
      dsimp only
      split
      · rename_i e; subst e
        exact fun h => b2 ((cp_req _ hq (ev _ (by omega))).1.1 h)
      · exact b2
    · dsimp only at h1 h2 ⊢
      rw [r1] at h1 h2
      rw [if_neg (by rintro rfl; exact ha.elim h1 h2)]
      exact I.new y k h1 h2
    · dsimp only
      split
      · rename_i e; subst e
        exact (cp_req _ hq (ev _ h1)).1.2 (I.free _ k h1 h2)
      · exact I.free _ k h1 h2

theorem inv_run {s s' : St} {cs : List Choice} (I : Inv s) (h : run s cs = some s') : Inv s' := by
  induction cs generalizing s with
  | nil => cases h; exact I
  | cons c cs ih =>
    obtain ⟨t, h1, h2⟩ := bind_some h
    exact ih (inv_step I h1) h2

end Verif.CtxMulti
