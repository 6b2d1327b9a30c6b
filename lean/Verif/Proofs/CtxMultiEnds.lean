import Verif.Proofs.CtxMulti
import Verif.Props.MultiReq
/-! A context with its multi-requests: the end of `cancelAll`'s calls, and of `Results`. -/
namespace Verif.CtxMulti
open Verif.MultiTimer (M m_req full_req cp_req CFirst Full Past m_init inner_cancel)
open Verif.CtxReq (remove_eq adder_eq copy_done bind_some)
open Verif.MultiReq (Got Coll C120_cancel_partial C120_cancel_ends C120_results_end)

theorem run_append {s : St} {cs ds : List Choice} : run s (cs ++ ds) = (run s cs).bind fun s => run s ds := by
  induction cs generalizing s with
  | nil => rfl
  | cons c cs ih =>
    simp only [List.cons_append, run]
    cases step s c with
    | none => rfl
    | some t => simp only [Option.bind_some]; exact ih

theorem reach_q {msg : Nat → Nat → UInt32} {cs : List Choice} {s : St} (h : run (init msg) cs = some s) (x : Nat) :
    ∃ ds, MultiReq.run (MultiReq.init (msg x)) ds = some (s.q x) := q_run h x

theorem full_answered {msg : Nat → Nat → UInt32} {cs : List Choice} {s : St} {x : Nat} (h : run (init msg) cs = some s) (hf : Full (s.q x).m) : Answered s x := by
  intro i hi
  have I := ((inv_run (inv_init msg) h).m x).inv
  obtain ⟨ds, h1⟩ := reach_q h x
  have hr : (s.q x).m.ret = (s.q x).m.r := by
    refine (I.quiet ?_).2
    have := hf.1
    cases e : (s.q x).m.own <;> rw [e] at this <;> first | rfl | cases this
  have hl := I.all.2 hf.2 i (by omega)
  have hc := (I.logMem i).1 hl
  obtain ⟨x, hx, _⟩ := MultiReq.got_of h1 (i := i) fun e => by rw [(I.code i).1 e] at hc; cases hc
  exact ⟨x, hx⟩

theorem keep_q {msg : Nat → Nat → UInt32} {cs ds : List Choice} {s s' : St} (h : run (init msg) cs = some s) (h' : run s ds = some s') (x : Nat) :
    MultiReq.Keep (s.q x).m (s'.q x).m := by
  obtain ⟨as, h1⟩ := reach_q h x
  obtain ⟨bs, h2⟩ := q_run h' x
  exact MultiReq.keeps (MultiReq.prog_run (MultiReq.prog_init _) h1) h2

/-! ### Order of the reads -/

/-- `cancelAll` has read `w.c` first in all its calls. -/
structure First (s : St) : Prop where
  called : ∀ x, s.cx.called x = true → ∃ k, (s.q x).m.cp k = .done true
  busy : s.busy = true → ∀ x l, s.cx.cp = .calling (x :: l) → CFirst ((s.q x).m.cp (2 * s.calls))

/-- A refused multi-request is cancelled. -/
def Late (s : St) : Prop := ∀ x, s.cx.ap x = .done false → (s.q x).m.cp 0 = .done true

theorem begins_cp {q q' : MultiReq.St} {k : Nat} {f : Bool} (h : MultiReq.step q (.multi (.cancel k false f)) = some q') :
    q'.m.cp k = if f then .readC false else .readR' false := by
  simp only [MultiReq.step, MultiReq.multiStep] at h
  obtain ⟨m, h1, rfl⟩ := MultiReq.withM_some h
  simp only [Multi.step] at h1
  split at h1 <;> cases h1
  simp [Multi.set]

theorem one_run {s s' : St} {c : Choice} (h : step s c = some s') : run s [c] = some s' := by simp [run, h]

theorem first_step {msg : Nat → Nat → UInt32} {cs : List Choice} {s s' : St} {c : Choice} (hr : run (init msg) cs = some s) (I : First s) (h : step s c = some s')
    (hc : c ≠ .canc false) : First s' := by
  have V := inv_run (inv_init msg) hr
  have kp : ∀ x, (∃ k, (s.q x).m.cp k = .done true) → ∃ k, (s'.q x).m.cp k = .done true := fun x ⟨k, hk⟩ => ⟨k, (keep_q hr (one_run h) x).cp k true hk⟩
  cases kind h with
  | plain d cx hd hh e =>
    obtain ⟨a1, a2, a3, a4, a5, a6⟩ := plain_eq hd hh V.cx V.idle
    subst e
    refine ⟨fun x hx => kp x (I.called x (a2 ▸ hx)), fun hb x l hl => ?_⟩
    obtain ⟨y, l', b1, _⟩ := V.busy hb
    dsimp only at hl hb
    rw [a4 y l' b1] at hl
    exact I.busy hb x l hl
  | refused x cx q hr hh hq e =>
    have hx := refused_eq hr hh
    have nd : s.cx.ap x ≠ .done true ∧ s.cx.ap x ≠ .done false := by rw [hr]; simp
    obtain ⟨n1, n2, n3⟩ := V.new x 0 nd.1 nd.2
    obtain ⟨e1, e2⟩ := early_cp hq n1 (by rw [n2, n3])
    subst e hx
    refine ⟨fun y hy => ?_, fun hb y l hl => ?_⟩
    · simp only [Context.set] at hy
      split at hy
      · rename_i e; subst e
        exact ⟨0, by dsimp only; rw [if_pos rfl]; exact e1⟩
      · exact kp y (I.called y hy)
    · have := V.list _ hl y (List.mem_cons_self ..)
      dsimp only
      rw [if_neg (by rintro rfl; exact nd.1 this)]
      exact I.busy hb y l hl
  | begins x l q hl hb hq e =>
    rename_i f
    have hf : f = true := by cases f with
      | false => exact absurd rfl hc
      | true => rfl
    subst hf
    have := begins_cp hq
    subst e
    refine ⟨fun y hy => kp y (I.called y hy), fun _ y l' hl' => ?_⟩
    dsimp only at hl' ⊢
    rw [hl] at hl'
    cases hl'
    rw [if_pos rfl, Nat.mul_add, this]
    trivial
  | ends x l b cx hl hb hk hh e =>
    have hx := canc_eq hl hh
    have hb' := I.busy hb x l hl
    rw [hk] at hb'
    have : b = true := by cases b with
      | false => exact hb'.elim
      | true => rfl
    subst this
    subst e hx
    refine ⟨fun y hy => ?_, fun hb => by cases hb⟩
    simp only [Context.set] at hy
    split at hy
    · rename_i e; subst e
      exact ⟨_, hk⟩
    · exact I.called y hy
  | multi x d q ha hr' hm' hq e =>
    have ev : ∀ k, k % 2 = 0 → ∀ a b, d ≠ .multi (.cancel k a b) := by
      rintro k hk a b rfl
      simp [reserved, hk] at hr'
    subst e
    refine ⟨fun y hy => kp y (I.called y hy), fun hb y l hl => ?_⟩
    have := I.busy hb y l hl
    dsimp only
    split
    · rename_i e; subst e
      exact (cp_req _ hq (ev _ (by omega))).2 this
    · exact this
  | removed x d cx q ha hr' hm' hh hq e =>
    have ev : ∀ k, k % 2 = 0 → ∀ a b, d ≠ .multi (.cancel k a b) := by
      rintro k hk a b rfl
      simp [reserved, hk] at hr'
    obtain ⟨r1, r2, r3, r4, r5⟩ := remove_eq hh
    subst e
    refine ⟨fun y hy => kp y (I.called y (r3 ▸ hy)), fun hb y l hl => ?_⟩
    have := I.busy hb y l (r4 ▸ hl)
    dsimp only
    split
    · rename_i e; subst e
      exact (cp_req _ hq (ev _ (by omega))).2 this
    · exact this

theorem late_step {msg : Nat → Nat → UInt32} {cs : List Choice} {s s' : St} {c : Choice} (hr : run (init msg) cs = some s) (I : Late s) (h : step s c = some s') : Late s' := by
  have V := inv_run (inv_init msg) hr
  have kp : ∀ x, (s.q x).m.cp 0 = .done true → (s'.q x).m.cp 0 = .done true := fun x hk => (keep_q hr (one_run h) x).cp 0 true hk
  cases kind h with
  | plain d cx hd hh e =>
    subst e
    intro x hx
    refine kp x (I x ?_)
    dsimp only at hx
    cases d with
    | adder y =>
      obtain ⟨_, _, _, h4, h5⟩ := adder_eq hh
      by_cases hy : x = y
      · subst hy
        have : s.cx.ap x ≠ .refused := hd
        cases e : s.cx.ap x <;> simp only [e, hx] at h5 <;> first | exact absurd e this | (split at h5 <;> simp at h5; done) | simp at h5
      · rw [← (h4 x hy).1]; exact hx
    | remove y => cases hd
    | canc =>
      simp only [Context.step, Context.stepCancel] at hh
      (repeat' split at hh) <;> cases hh <;> exact hx
    | _ =>
      simp only [Context.step] at hh
      (repeat' split at hh) <;> cases hh <;> first | exact hx | (simp only [Context.set] at hx; grind)
  | refused x cx q hr hh hq e =>
    have hx := refused_eq hr hh
    have nd : s.cx.ap x ≠ .done true ∧ s.cx.ap x ≠ .done false := by rw [hr]; simp
    obtain ⟨n1, n2, n3⟩ := V.new x 0 nd.1 nd.2
    obtain ⟨e1, e2⟩ := early_cp hq n1 (by rw [n2, n3])
    subst e hx
    intro y hy
    simp only [Context.set] at hy
    split at hy
    · rename_i e; subst e
      dsimp only; rw [if_pos rfl]; exact e1
    · exact kp y (I y hy)
  | begins x l q hl hb hq e => subst e; exact fun y hy => kp y (I y hy)
  | ends x l b cx hl hb hk hh e =>
    have hx := canc_eq hl hh
    subst e hx
    exact I
  | multi x d q ha hr' hm' hq e => subst e; exact fun y hy => kp y (I y hy)
  | removed x d cx q ha hr' hm' hh hq e =>
    have := (remove_eq hh).1
    subst e
    exact fun y hy => kp y (I y (this ▸ hy))

theorem snoc {P : St → Prop} {msg : Nat → Nat → UInt32} {Q : Choice → Prop} (h0 : P (init msg))
    (hs : ∀ cs s c s', run (init msg) cs = some s → P s → Q c → step s c = some s' → P s') {cs : List Choice} (hq : ∀ c ∈ cs, Q c) {s : St} (h : run (init msg) cs = some s) : P s := by
  have key : ∀ (cs ds : List Choice) (s s' : St), run (init msg) ds = some s → P s → (∀ c ∈ cs, Q c) → run s cs = some s' → P s' := by
    intro cs
    induction cs with
    | nil => intro ds s s' _ hp _ h; cases h; exact hp
    | cons c cs ih =>
      intro ds s s' hd hp hq h
      obtain ⟨t, h1, h2⟩ := bind_some h
      exact ih (ds ++ [c]) t s' (by rw [run_append, hd]; exact one_run h1) (hs ds s c t hd hp (hq c (List.mem_cons_self ..)) h1)
        (fun c hc => hq c (List.mem_cons_of_mem _ hc)) h2
  exact key cs [] _ _ rfl h0 hq h

theorem first_run {msg : Nat → Nat → UInt32} {cs : List Choice} {s : St} (h : run (init msg) cs = some s) (hc : .canc false ∉ cs) : First s := by
  refine snoc (Q := fun c => c ≠ .canc false) ⟨by simp [init, Context.init], by simp [init]⟩ (fun cs s c s' hr hp hq hs => first_step hr hp hs hq) ?_ h
  rintro c hm rfl
  exact hc hm

theorem late_run {msg : Nat → Nat → UInt32} {cs : List Choice} {s : St} (h : run (init msg) cs = some s) : Late s := by
  refine snoc (Q := fun _ => True) (fun x => by simp [init, Context.init]) (fun cs s c s' hr hp _ hs => late_step hr hp hs) (fun _ _ => trivial) h

/-! ### Under `Unraced` -/

theorem along_last {P : St → Prop} {s s' : St} {cs : List Choice} (ha : Along P s cs) (h : run s cs = some s') : P s' := by
  induction cs generalizing s with
  | nil => cases h; exact ha
  | cons c cs ih =>
    obtain ⟨s1, h1, h2⟩ := bind_some h
    exact ih (ha.2 s1 h1) h2

theorem along_head {P : St → Prop} {s : St} {cs : List Choice} (ha : Along P s cs) : P s := by
  cases cs with
  | nil => exact ha
  | cons => exact ha.1

theorem can_step {s s' : St} {c : Choice} (I : Inv s) (C : Context.Cancelled s.cx) (hc : Context.Clear s.cx) (h : step s c = some s') (hc' : Context.Clear s'.cx) :
    Context.Cancelled s'.cx := by
  rcases cx_step h with h1 | ⟨d, h1⟩
  · rw [h1]; exact C
  · exact Context.cancelled_step _ _ _ I.cx C hc trivial h1 hc'

theorem can_run {s s' : St} {cs : List Choice} (I : Inv s) (C : Context.Cancelled s.cx) (ha : Along (fun s => Context.Clear s.cx) s cs) (h : run s cs = some s') :
    Context.Cancelled s'.cx := by
  induction cs generalizing s with
  | nil => cases h; exact C
  | cons c cs ih =>
    obtain ⟨s1, h1, h2⟩ := bind_some h
    exact ih (inv_step I h1) (can_step I C ha.1 h1 (along_head (ha.2 s1 h1))) (ha.2 s1 h1) h2

theorem can_init (msg : Nat → Nat → UInt32) : Context.Cancelled (init msg).cx := by
  constructor <;> simp [init, Context.init]

theorem exit_gone {s : Context.St} {x : Nat} (I : Context.Inv s) (C : Context.Cancelled s) (he : s.cp = .exit) (ha : s.ap x = .done true) : s.gone x = true := by
  have hm := C.exit he
  cases hg : s.gone x with
  | true => rfl
  | false =>
    have := (I.stored x).2 ⟨ha, hg⟩
    have hn := I.n
    rw [hm.2] at hn
    unfold Context.one at hn
    rcases this with h1 | h1 | h1
    · rw [h1] at hn; simp at hn; omega
    · rw [h1] at hn; simp at hn; omega
    · rw [hm.1] at h1; cases h1

/-! ### Going on -/

/-- The context is cancelled, and nobody holds its lock. -/
structure W (msg : Nat → Nat → UInt32) (s : St) : Prop where
  reach : ∃ cs, run (init msg) cs = some s
  can : Context.Cancelled s.cx
  clear : Context.Clear s.cx
  st : s.cx.state ≠ 0
  lock : s.cx.lock = none

/-- By steps of goroutines that are inside something, a good state or a panic can be reached. -/
def Can (s : St) (P : St → Prop) : Prop := ∃ ds s', (∀ c ∈ ds, Goes c) ∧ run s ds = some s' ∧ (P s' ∨ Panicked s')

theorem Can.now {s : St} {P : St → Prop} (h : P s) : Can s P := ⟨[], s, by simp, rfl, .inl h⟩

theorem Can.then {s : St} {P Q : St → Prop} (h : Can s P) (hq : ∀ s' ds, run s ds = some s' → P s' → Can s' Q) : Can s Q := by
  obtain ⟨ds, s1, h1, h2, h3 | h3⟩ := h
  · obtain ⟨es, s2, h4, h5, h6⟩ := hq s1 ds h2 h3
    refine ⟨ds ++ es, s2, ?_, by rw [run_append, h2]; exact h5, h6⟩
    intro c hc
    rcases List.mem_append.1 hc with hc | hc
    · exact h1 c hc
    · exact h4 c hc
  · exact ⟨ds, s1, h1, h2, .inr h3⟩

theorem Can.step {s s' : St} {P : St → Prop} {c : Choice} (hg : Goes c) (h : step s c = some s') (k : Can s' P) : Can s P := by
  obtain ⟨ds, s1, h1, h2, h3⟩ := k
  refine ⟨c :: ds, s1, ?_, by simp only [run, h]; exact h2, h3⟩
  intro d hd
  rcases List.mem_cons.1 hd with rfl | hd
  · exact hg
  · exact h1 d hd

theorem inv_w {msg : Nat → Nat → UInt32} {s : St} (w : W msg s) : Inv s := by
  obtain ⟨cs, h⟩ := w.reach
  exact inv_run (inv_init msg) h

theorem w_next {msg : Nat → Nat → UInt32} {s s' : St} {c : Choice} (w : W msg s) (h : step s c = some s') (h1 : s'.cx.ap = s.cx.ap) (h2 : s'.cx.state = s.cx.state)
    (h3 : s'.cx.lock = s.cx.lock) : W msg s' := by
  obtain ⟨cs, hr⟩ := w.reach
  have hc : Context.Clear s'.cx := by
    intro _ x
    rw [h1]
    exact w.clear w.st x
  exact ⟨⟨cs ++ [c], by rw [run_append, hr]; exact one_run h⟩, can_step (inv_w w) w.can w.clear h hc, hc, by rw [h2]; exact w.st, by rw [h3]; exact w.lock⟩

/-- What the steps of one multi-request leave. -/
structure Same (s s' : St) : Prop where
  ap : s'.cx.ap = s.cx.ap
  cp : s'.cx.cp = s.cx.cp
  gone : ∀ x, s.cx.gone x = true → s'.cx.gone x = true
  calls : s'.calls = s.calls
  busy : s'.busy = s.busy

theorem remove_can {s : Context.St} {x : Nat} (hl : s.lock = none) (ha : s.ap x = .done true ∨ s.ap x = .done false) :
    ∃ s', Context.step s (.remove x) = some s' ∧ s'.lock = none := by
  refine ⟨_, by simp only [Context.step]; rw [if_pos ⟨hl, ha⟩], ?_⟩
  unfold Context.signal Context.delete
  (repeat' split) <;> exact hl

theorem q_go {msg : Nat → Nat → UInt32} {s : St} {x : Nat} {c : MultiReq.Choice} {q : MultiReq.St} (w : W msg s) (ha : s.cx.ap x = .done true ∨ s.cx.ap x = .done false)
    (hi : MultiReq.Inner c) (h : MultiReq.step (s.q x) c = some q) : ∃ s', step s (.q x c) = some s' ∧ W msg s' ∧ s'.q x = q ∧ Same s s' := by
  have hr : reserved c = false := by
    unfold reserved
    split
    · exact absurd rfl (inner_cancel hi _ _ _)
    · rfl
  by_cases hm : removes (s.q x).m c = true
  · obtain ⟨cx, h1, h2⟩ := remove_can w.lock ha
    have hs : step s (.q x c) = some { s with cx, q := fun y => if y = x then q else s.q y } := by
      simp only [step, if_pos ha, qStep, hr, hm, Bool.false_eq_true, if_false, if_true, h1, h, St.withCx, St.withQ, Option.map_some, Option.bind_some]
    obtain ⟨r1, r2, r3, r4, r5⟩ := remove_eq h1
    refine ⟨_, hs, w_next w hs r1 r5 (h2.trans w.lock.symm), by simp, r1, r4, fun y hy => ?_, rfl, rfl⟩
    dsimp only
    rw [r2]
    simp only [Context.set]; split
    · rfl
    · exact hy
  · have hs : step s (.q x c) = some { s with q := fun y => if y = x then q else s.q y } := by
      simp only [step, if_pos ha, qStep, hr, hm, Bool.false_eq_true, if_false, h, St.withQ, Option.map_some]
    exact ⟨_, hs, w_next w hs rfl rfl rfl, by simp, rfl, rfl, fun _ h => h, rfl, rfl⟩

theorem lift {msg : Nat → Nat → UInt32} {s : St} {x : Nat} {q : MultiReq.St} {ds : List MultiReq.Choice} (w : W msg s) (ha : s.cx.ap x = .done true ∨ s.cx.ap x = .done false)
    (hi : ∀ c ∈ ds, MultiReq.Inner c) (h : MultiReq.run (s.q x) ds = some q) : ∃ s', run s (ds.map (.q x)) = some s' ∧ W msg s' ∧ s'.q x = q ∧ Same s s' := by
  induction ds generalizing s with
  | nil => cases h; exact ⟨s, rfl, w, rfl, rfl, rfl, fun _ h => h, rfl, rfl⟩
  | cons c ds ih =>
    simp only [MultiReq.run] at h
    cases e : MultiReq.step (s.q x) c with
    | none => rw [e] at h; cases h
    | some t =>
      rw [e] at h
      obtain ⟨s1, h1, w1, rfl, k1⟩ := q_go w ha (hi c (List.mem_cons_self ..)) e
      obtain ⟨s2, h2, w2, h3, k2⟩ := ih w1 (by rw [k1.ap]; exact ha) (fun d hd => hi d (List.mem_cons_of_mem _ hd)) h
      exact ⟨s2, by simp only [List.map_cons, run, h1]; exact h2, w2, h3, k2.ap.trans k1.ap, k2.cp.trans k1.cp, fun y hy => k2.gone y (k1.gone y hy),
        k2.calls.trans k1.calls, k2.busy.trans k1.busy⟩

theorem lift_can {msg : Nat → Nat → UInt32} {s : St} {x : Nat} {P : MultiReq.St → Prop} (w : W msg s) (ha : s.cx.ap x = .done true ∨ s.cx.ap x = .done false)
    (h : ∃ ds q, (∀ c ∈ ds, MultiReq.Inner c) ∧ MultiReq.run (s.q x) ds = some q ∧ (P q ∨ Multi.Panicked q.m)) :
    Can s fun s' => P (s'.q x) ∧ W msg s' ∧ Same s s' := by
  obtain ⟨ds, q, h1, h2, h3⟩ := h
  obtain ⟨s', h4, w', rfl, k⟩ := lift w ha h1 h2
  refine ⟨_, s', ?_, h4, h3.imp (fun h => ⟨h, w', k⟩) fun h => ⟨x, h⟩⟩
  intro c hc
  obtain ⟨d, hd, rfl⟩ := List.mem_map.1 hc
  exact h1 d hd

/-- A step of `cancelAll` itself leaves what the context has registered. -/
theorem canc_w {msg : Nat → Nat → UInt32} {s : St} {cx : Context.St} {b : Bool} (w : W msg s) (h : Context.step s.cx .canc = some cx)
    (hs : ∀ f, step s (.canc f) = some { s with cx, busy := b }) : W msg { s with cx, busy := b } ∧ cx.ap = s.cx.ap ∧ cx.gone = s.cx.gone := by
  have : cx.ap = s.cx.ap ∧ cx.state = s.cx.state ∧ cx.lock = s.cx.lock ∧ cx.gone = s.cx.gone := by
    simp only [Context.step, Context.stepCancel] at h
    (repeat' split at h) <;> cases h <;> exact ⟨rfl, rfl, rfl, rfl⟩
  exact ⟨w_next w (hs true) this.1 this.2.1 this.2.2.1, this.1, this.2.2.2⟩

/-- What goes on from one round of `cancelAll` to the next. -/
structure Rel (s s' : St) : Prop where
  ap : s'.cx.ap = s.cx.ap
  gone : ∀ x, s.cx.gone x = true → s'.cx.gone x = true

theorem Rel.trans {a b c : St} (h : Rel a b) (k : Rel b c) : Rel a c := ⟨k.ap.trans h.ap, fun x hx => k.gone x (h.gone x hx)⟩

/-- The goroutine in `cancelAll` comes to the end of the call it is in. -/
theorem finish {msg : Nat → Nat → UInt32} {s : St} {y : Nat} {l : List Nat} (w : W msg s) (hc : s.cx.cp = .calling (y :: l)) (hb : s.busy = true) :
    Can s fun s' => W msg s' ∧ Rel s s' ∧ s'.cx.cp = .calling l ∧ s'.busy = false ∧ (CFirst ((s.q y).m.cp (2 * s.calls)) → (s'.q y).m.cp (2 * s.calls) = .done true) := by
  have I := inv_w w
  obtain ⟨cs, hr⟩ := w.reach
  obtain ⟨as, hq⟩ := reach_q hr y
  have hn : (s.q y).m.cp (2 * s.calls) ≠ .idle := by
    obtain ⟨z, l', b1, b2⟩ := I.busy hb
    rw [hc] at b1
    cases b1
    exact b2
  have ha := I.list _ hc y (List.mem_cons_self ..)
  have e1 : ∃ ds q, (∀ c ∈ ds, MultiReq.Inner c) ∧ MultiReq.run (s.q y) ds = some q ∧
      ((∃ b, q.m.cp (2 * s.calls) = .done b ∧ (CFirst ((s.q y).m.cp (2 * s.calls)) → b = true)) ∨ Multi.Panicked q.m) := by
    obtain ⟨ds, q, h1, h2, h3⟩ := C120_cancel_ends hq hn
    refine ⟨ds, q, h1, h2, h3.imp_left fun ⟨b, hb⟩ => ⟨b, hb, fun hf => ?_⟩⟩
    have key : ∀ (ds : List MultiReq.Choice) (a b : MultiReq.St), (∀ c ∈ ds, MultiReq.Inner c) → MultiReq.run a ds = some b → CFirst (a.m.cp (2 * s.calls)) → CFirst (b.m.cp (2 * s.calls)) := by
      intro ds
      induction ds with
      | nil => intro a b _ h hf; cases h; exact hf
      | cons c ds ih =>
        intro a b hi h hf
        simp only [MultiReq.run] at h
        cases e : MultiReq.step a c with
        | none => rw [e] at h; cases h
        | some t =>
          rw [e] at h
          exact ih t b (fun d hd => hi d (List.mem_cons_of_mem _ hd)) h ((cp_req _ e (inner_cancel (hi c (List.mem_cons_self ..)) _)).2 hf)
    have := key ds _ _ h1 h2 hf
    rw [hb] at this
    cases b with
    | false => exact this.elim
    | true => rfl
  refine (lift_can w (.inl ha) e1).then fun s1 _ _ ⟨⟨b, h1, h2⟩, w1, k1⟩ => ?_
  have hc1 := k1.cp.trans hc
  have hb1 := k1.busy.trans hb
  have hk1 : (s1.q y).m.cp (2 * s1.calls) = .done b := by rw [k1.calls]; exact h1
  have hx : Context.step s1.cx .canc = some { s1.cx with called := Context.set s1.cx.called y true, cp := .calling l } := by
    simp only [Context.step, Context.stepCancel, hc1]
  have hs : ∀ f, step s1 (.canc f) = some { s1 with cx := { s1.cx with called := Context.set s1.cx.called y true, cp := .calling l }, busy := false } := by
    intro f
    simp only [step, hc1, hb1, if_true, hk1, hx, St.withCx, Option.map_some]
  obtain ⟨w2, a1, a2⟩ := canc_w w1 hx hs
  refine .step (c := .canc true) rfl (hs true) (.now ⟨w2, ⟨k1.ap, k1.gone⟩, rfl, rfl, fun hf => ?_⟩)
  rw [h2 hf] at h1
  exact h1

/-- It calls `Cancel` of the next one. -/
theorem call {msg : Nat → Nat → UInt32} {s : St} {y : Nat} {l : List Nat} (w : W msg s) (hc : s.cx.cp = .calling (y :: l)) (hb : s.busy = false) :
    Can s fun s' => W msg s' ∧ Rel s s' ∧ s'.cx.cp = .calling l ∧ s'.busy = false ∧ ∃ k, (s'.q y).m.cp k = .done true := by
  have I := inv_w w
  have hi := I.free y (2 * s.calls + 2) (by omega) (by omega)
  obtain ⟨q, hq⟩ : ∃ q, MultiReq.step (s.q y) (.multi (.cancel (2 * s.calls + 2) false true)) = some q := by
    simp only [MultiReq.step, MultiReq.multiStep, Multi.step, hi, if_pos, MultiReq.St.withM, Option.map_some]
    exact ⟨_, rfl⟩
  have hs : step s (.canc true) = some { s with busy := true, calls := s.calls + 1, q := fun z => if z = y then q else s.q z } := by
    simp only [step, hc, hb, Bool.false_eq_true, if_false, hq, St.withQ, Option.map_some]
  have w1 := w_next w hs rfl rfl rfl
  refine .step (c := .canc true) rfl hs ?_
  refine (finish w1 hc rfl).then fun s2 _ _ ⟨w2, r, h1, h2, h3⟩ => .now ⟨w2, ⟨r.ap, r.gone⟩, h1, h2, _, h3 ?_⟩
  dsimp only
  rw [if_pos rfl, Nat.mul_add, begins_cp hq]
  trivial

/-- Multi-request `x` has been cancelled with `w.c` read first, or has removed itself. -/
def Over (x : Nat) (s : St) : Prop := (∃ k, (s.q x).m.cp k = .done true) ∨ s.cx.gone x = true

theorem over_run {msg : Nat → Nat → UInt32} {s s' : St} {ds : List Choice} {x : Nat} (w : W msg s) (h : run s ds = some s') (r : Rel s s') (ho : Over x s) : Over x s' := by
  obtain ⟨cs, hr⟩ := w.reach
  exact ho.imp (fun ⟨k, hk⟩ => ⟨k, (keep_q hr h x).cp k _ hk⟩) (r.gone x)

/-- It comes to the end of its list. -/
theorem drain {msg : Nat → Nat → UInt32} {x : Nat} (l : List Nat) {s : St} (w : W msg s) (hc : s.cx.cp = .calling l) :
    Can s fun s' => W msg s' ∧ Rel s s' ∧ s'.cx.cp = .calling [] ∧ s'.busy = false ∧ (s.busy = false → x ∈ l ∨ Over x s → Over x s') := by
  induction l generalizing s with
  | nil =>
    have hb : s.busy = false := by
      cases e : s.busy with
      | false => rfl
      | true =>
        obtain ⟨y, l, h, _⟩ := (inv_w w).busy e
        rw [hc] at h; cases h
    exact .now ⟨w, ⟨rfl, fun _ h => h⟩, hc, hb, fun _ h => h.resolve_left (by simp)⟩
  | cons y l ih =>
    cases hb : s.busy with
    | true =>
      refine (finish w hc hb).then fun s1 _ _ ⟨w1, r1, c1, b1, _⟩ => ?_
      refine (ih w1 c1).then fun s2 _ _ ⟨w2, r2, c2, b2, _⟩ => .now ⟨w2, r1.trans r2, c2, b2, (fun h => by cases h)⟩
    | false =>
      refine (call w hc hb).then fun s1 ds h1 ⟨w1, r1, c1, b1, k1⟩ => ?_
      refine (ih w1 c1).then fun s2 _ _ ⟨w2, r2, c2, b2, k2⟩ => .now ⟨w2, r1.trans r2, c2, b2, fun _ hx => k2 b1 ?_⟩
      rcases hx with hx | hx
      · rcases List.mem_cons.1 hx with rfl | hx
        · exact .inr (.inl k1)
        · exact .inl hx
      · exact .inr (over_run w h1 r1 hx)

/-- A step of `cancelAll` outside its list. -/
theorem plain_go {msg : Nat → Nat → UInt32} {s : St} {cx : Context.St} (w : W msg s) (hn : ∀ x l, s.cx.cp ≠ .calling (x :: l)) (h : Context.step s.cx .canc = some cx) :
    ∃ s', step s (.canc true) = some s' ∧ W msg s' ∧ Rel s s' ∧ s'.cx = cx ∧ s'.busy = s.busy := by
  have hs : ∀ f, step s (.canc f) = some { s with cx } := by
    intro f
    simp only [step, h, St.withCx, Option.map_some]
  obtain ⟨w1, a1, a2⟩ := canc_w (b := s.busy) w h hs
  exact ⟨_, hs true, w1, ⟨a1, fun x hx => by rw [a2]; exact hx⟩, rfl, rfl⟩

theorem idle_busy {msg : Nat → Nat → UInt32} {s : St} (w : W msg s) (hn : ∀ x l, s.cx.cp ≠ .calling (x :: l)) : s.busy = false := by
  cases e : s.busy with
  | false => rfl
  | true =>
    obtain ⟨y, l, h, _⟩ := (inv_w w).busy e
    exact absurd h (hn _ _)

/-- The goal: `x` is over. -/
def Goal (msg : Nat → Nat → UInt32) (x : Nat) (s s' : St) : Prop := W msg s' ∧ Rel s s' ∧ Over x s'

theorem Goal.from {msg : Nat → Nat → UInt32} {x : Nat} {a b c : St} (r : Rel a b) (g : Goal msg x b c) : Goal msg x a c := ⟨g.1, r.trans g.2.1, g.2.2⟩

theorem at_snap {msg : Nat → Nat → UInt32} {x : Nat} {s : St} (w : W msg s) (ha : s.cx.ap x = .done true) (hc : s.cx.cp = .snap) : Can s (Goal msg x s) := by
  have hn : ∀ x l, s.cx.cp ≠ .calling (x :: l) := by rw [hc]; simp
  obtain ⟨s1, h1, w1, r1, e1, b1⟩ := plain_go w hn (cx := { s.cx with cp := .calling (Context.copy s.cx) }) (by simp only [Context.step, Context.stepCancel, hc, if_pos w.lock])
  refine .step (c := .canc true) rfl h1 ((drain (x := x) (Context.copy s.cx) w1 (by rw [e1])).then fun s2 ds h2 ⟨w2, r2, _, _, k⟩ => .now ⟨w2, r1.trans r2, k (b1.trans (idle_busy w hn)) ?_⟩)
  cases hg : s.cx.gone x with
  | true => exact .inr (.inr (r1.gone x hg))
  | false => exact .inl (Context.copy_mem (inv_w w).cx ha hg)

theorem at_exit {msg : Nat → Nat → UInt32} {x : Nat} {s : St} (w : W msg s) (ha : s.cx.ap x = .done true) (hc : s.cx.cp = .exit) : Can s (Goal msg x s) :=
  .now ⟨w, ⟨rfl, fun _ h => h⟩, .inr (exit_gone (inv_w w).cx w.can hc ha)⟩

theorem at_readN {msg : Nat → Nat → UInt32} {x : Nat} {s : St} (w : W msg s) (ha : s.cx.ap x = .done true) (hc : s.cx.cp = .readN) : Can s (Goal msg x s) := by
  have hn : ∀ x l, s.cx.cp ≠ .calling (x :: l) := by rw [hc]; simp
  obtain ⟨s1, h1, w1, r1, e1, b1⟩ := plain_go w hn (cx := { s.cx with cp := if 0 < s.cx.n then .snap else .exit }) (by simp only [Context.step, Context.stepCancel, hc])
  have ha1 : s1.cx.ap x = .done true := by rw [r1.ap]; exact ha
  refine .step (c := .canc true) rfl h1 (Can.then (P := Goal msg x s1) ?_ fun s2 _ _ g => .now (g.from r1))
  by_cases h0 : 0 < s.cx.n
  · exact at_snap w1 ha1 (by rw [e1, if_pos h0])
  · exact at_exit w1 ha1 (by rw [e1, if_neg h0])

theorem at_readM {msg : Nat → Nat → UInt32} {x : Nat} {s : St} (w : W msg s) (ha : s.cx.ap x = .done true) (hc : s.cx.cp = .readM) : Can s (Goal msg x s) := by
  have hn : ∀ x l, s.cx.cp ≠ .calling (x :: l) := by rw [hc]; simp
  obtain ⟨s1, h1, w1, r1, e1, b1⟩ := plain_go w hn (cx := { s.cx with cp := if 0 < s.cx.m.length then .snap else .readN }) (by simp only [Context.step, Context.stepCancel, hc])
  have ha1 : s1.cx.ap x = .done true := by rw [r1.ap]; exact ha
  refine .step (c := .canc true) rfl h1 (Can.then (P := Goal msg x s1) ?_ fun s2 _ _ g => .now (g.from r1))
  by_cases h0 : 0 < s.cx.m.length
  · exact at_snap w1 ha1 (by rw [e1, if_pos h0])
  · exact at_readN w1 ha1 (by rw [e1, if_neg h0])

theorem can_over {msg : Nat → Nat → UInt32} {x : Nat} {s : St} (w : W msg s) (ha : s.cx.ap x = .done true) : Can s (Goal msg x s) := by
  cases hc : s.cx.cp with
  | idle => exact absurd hc (w.can.some w.st)
  | readM => exact at_readM w ha hc
  | readN => exact at_readN w ha hc
  | snap => exact at_snap w ha hc
  | exit => exact at_exit w ha hc
  | calling l =>
    refine (drain (x := x) l w hc).then fun s1 _ _ ⟨w1, r1, c1, _, _⟩ => ?_
    obtain ⟨s2, h2, w2, r2, e2, _⟩ := plain_go w1 (by rw [c1]; simp) (cx := { s1.cx with passes := s1.cx.passes + 1, cp := .readM }) (by simp only [Context.step, Context.stepCancel, c1])
    refine .step (c := .canc true) rfl h2 ((at_readM w2 (by rw [r2.ap, r1.ap]; exact ha) (by rw [e2])).then fun s3 _ _ g => .now ((g.from r2).from r1))

/-- Whoever holds the lock of a cancelled context lets it go. -/
theorem unlocked {msg : Nat → Nat → UInt32} {cs : List Choice} {s : St} (h : run (init msg) cs = some s) (hu : Unraced msg cs) (hs : s.cx.state ≠ 0) :
    Can s fun s' => W msg s' ∧ s'.q = s.q ∧ (∀ x b, s.cx.ap x = .done b → s'.cx.ap x = .done b) ∧ ∀ x, s'.cx.ap x = .done true → s.cx.ap x = .done true := by
  have C := can_run (inv_init msg) (can_init msg) hu h
  have I := inv_run (inv_init msg) h
  have hc : Context.Clear s.cx := along_last hu h
  cases hl : s.cx.lock with
  | none => exact .now ⟨⟨⟨cs, h⟩, C, hc, hs, hl⟩, rfl, fun _ _ h => h, fun _ h => h⟩
  | some y =>
    have hy : s.cx.ap y = .locked := ((I.cx.lock y).1 hl).resolve_right (hc hs y)
    have hx : step s (.adder y) = some { s with cx := { s.cx with lock := none, ap := Context.set s.cx.ap y .refused } } := by
      simp only [step, hy, Context.step, Context.stepAdder, if_neg hs, St.withCx, Option.map_some]
    have hc' : Context.Clear { s.cx with lock := none, ap := Context.set s.cx.ap y .refused } := by
      intro _ z
      simp only [Context.set]; split
      · simp
      · exact hc hs z
    refine .step (c := .adder y) trivial hx (.now ⟨⟨⟨cs ++ [.adder y], by rw [run_append, h]; exact one_run hx⟩, can_step I C hc hx hc', hc', hs, rfl⟩, rfl, fun z b hz => ?_, fun z hz => ?_⟩)
    · simp only [Context.set]; split
      · rename_i e; subst e; rw [hy] at hz; cases hz
      · exact hz
    · simp only [Context.set] at hz; split at hz
      · cases hz
      · exact hz

theorem over_answered {msg : Nat → Nat → UInt32} {s : St} {x : Nat} (w : W msg s) (ho : Over x s) : Answered s x := by
  obtain ⟨cs, hr⟩ := w.reach
  rcases ho with ⟨k, hk⟩ | hg
  · obtain ⟨ds, hq⟩ := reach_q hr x
    exact fun i hi => C120_cancel_partial hq hk hi
  · exact full_answered hr ((inv_w w).gone x hg)

/-- Every multi-request made from a cancelled context comes to have its answers. -/
theorem can_answer {msg : Nat → Nat → UInt32} {cs : List Choice} {s : St} {x : Nat} {b : Bool} (h : run (init msg) cs = some s) (hu : Unraced msg cs) (hs : s.cx.state ≠ 0)
    (ha : s.cx.ap x = .done b) : Can s fun s' => W msg s' ∧ s'.cx.ap x = .done b ∧ Answered s' x := by
  refine (unlocked h hu hs).then fun s1 _ _ ⟨w1, _, a1, _⟩ => ?_
  have ha1 := a1 x b ha
  cases b with
  | true => exact (can_over w1 ha1).then fun s2 _ _ ⟨w2, r2, o2⟩ => .now ⟨w2, by rw [r2.ap]; exact ha1, over_answered w2 o2⟩
  | false =>
    obtain ⟨ds, hr⟩ := w1.reach
    exact .now ⟨w1, ha1, over_answered w1 (.inl ⟨0, late_run hr x ha1⟩)⟩

/-- And `Results` of it returns. -/
theorem can_results {msg : Nat → Nat → UInt32} {cs : List Choice} {s : St} {x : Nat} {b : Bool} (h : run (init msg) cs = some s) (hu : Unraced msg cs) (hs : s.cx.state ≠ 0)
    (ha : s.cx.ap x = .done b) (ho : MultiReq.Collecting (s.q x).m.own) : Can s fun s' => (s'.q x).m.own = .fin .results := by
  refine (can_answer h hu hs ha).then fun s1 ds h1 ⟨w1, ha1, an⟩ => ?_
  obtain ⟨k, _⟩ := (keep_q h h1 x).coll (.inl ho)
  obtain ⟨es, hr⟩ := w1.reach
  obtain ⟨fs, hq⟩ := reach_q hr x
  rcases k with k | k | k
  · exact (lift_can (P := fun q => q.m.own = .fin .results) w1 (by cases b <;> simp [ha1]) (C120_results_end hq k an)).then fun s2 _ _ ⟨h2, _⟩ => .now h2
  · exact .now k
  · exact ⟨[], s1, by simp, rfl, .inr ⟨x, .inl k⟩⟩

/-! ### The end of `cancelAll` -/

theorem fin_step {m m' : Multi.St} {c : Multi.Choice} (h : Multi.step m c = some m') (hn : m.own ≠ .fin .results) (hf : m'.own = .fin .results) : c = .owner ∧ m.own = .rTake := by
  cases c
  case owner =>
    refine ⟨rfl, ?_⟩
    simp only [Multi.step] at h
    unfold Multi.stepOwner at h
    split at h <;> rename_i e <;> (repeat' split at h) <;> cases h <;>
      first | exact e | (cases hf; done) | (rw [show (Multi.answer ..).own = _ from hf] at *; simp_all; done) | (revert hf; dsimp only; split <;> intro hf <;> cases hf) | skip
  case resp i =>
    exfalso
    simp only [Multi.step, Multi.stepResp] at h
    (repeat' split at h) <;> cases h <;> revert hf <;> (try split) <;> intro hf <;> first | exact hn hf | cases hf
  case canc k =>
    exfalso
    simp only [Multi.step] at h
    unfold Multi.stepCancel at h
    (repeat' split at h) <;> cases h <;> first | exact hn hf | exact hn ((Multi.answer_own ..).symm.trans hf)
  case answer i x =>
    exfalso
    simp only [Multi.step] at h
    split at h <;> cases h
    exact hn ((Multi.answer_own ..).symm.trans hf)
  case cancel k e f =>
    exfalso
    simp only [Multi.step] at h
    split at h <;> cases h
    cases e <;> exact hn hf
  all_goals
    exfalso
    simp only [Multi.step] at h
    (repeat' split at h) <;> cases h <;> first | exact hn hf | cases hf

theorem fin_req {q q' : MultiReq.St} {c : MultiReq.Choice} (I : MultiReq.Inv q) (h : MultiReq.step q c = some q') (hn : q.m.own ≠ .fin .results) (hf : q'.m.own = .fin .results) :
    c = .multi .owner ∧ q.m.own = .rTake := by
  have same : ∀ {i o}, q.withReq i o = some q' → False := by
    intro i o h
    obtain ⟨r, h1, rfl⟩ := MultiReq.withReq_some h
    exact hn hf
  have idle : ∀ i, q.m.own = .rTake → (q.r i).pc 0 = .idle := by
    intro i e
    have := I.act i 0 (.inl rfl)
    simp only [MultiReq.actOf, if_true, e] at this
    exact this
  cases c with
  | multi c =>
    have out : q.withM (Multi.step q.m c) = some q' → MultiReq.Choice.multi c = .multi .owner ∧ q.m.own = .rTake := by
      intro h
      obtain ⟨m, h1, rfl⟩ := MultiReq.withM_some h
      obtain ⟨rfl, h2⟩ := fin_step h1 hn hf
      exact ⟨rfl, h2⟩
    simp only [MultiReq.step] at h
    cases c <;> simp only [MultiReq.multiStep] at h <;> (try split at h) <;> first | exact (same h).elim | exact out h | (cases h; done)
  | req i c =>
    exfalso
    simp only [MultiReq.step] at h
    cases c <;> simp only [MultiReq.reqStep] at h
    case call => split at h <;> first | exact same h | (cases h; done)
    case bookmark => split at h <;> first | exact same h | (cases h; done)
    case responder t acts =>
      split at h
      · cases h
      · split at h
        · obtain ⟨s1, h1, h2⟩ := bind_some h
          obtain ⟨r', h3, rfl⟩ := MultiReq.withReq_some h1
          obtain ⟨m, h4, rfl⟩ := MultiReq.withM_some h2
          obtain ⟨h5, h6⟩ := fin_step h4 hn hf
          unfold MultiReq.enter at h5
          split at h5
          · rename_i e; subst e
            simp [Request.step, idle i h6, Request.enterResponder, Request.St.ownStep] at h3
          · split at h5 <;> cases h5
        · cases h
    case go t =>
      split at h
      · split at h <;> first | exact same h | (cases h; done)
      · obtain ⟨s1, h1, h2⟩ := bind_some h
        obtain ⟨r', h3, rfl⟩ := MultiReq.withReq_some h1
        obtain ⟨m, h4, rfl⟩ := MultiReq.withM_some h2
        rename_i hp
        unfold MultiReq.leave at h4
        have two : ∀ {c d : Multi.Choice}, Multi.run q.m [c, d] = some m → (∀ t, Multi.step q.m c = some t → t.own ≠ .rTake ∧ t.own ≠ .fin .results) → False := by
          intro c d h k
          simp only [Multi.run] at h
          obtain ⟨t, h1, h2⟩ := bind_some h
          obtain ⟨u, h3, h4⟩ := bind_some h2
          cases h4
          exact (k t h1).1 (fin_step h3 (k t h1).2 hf).2
        split at h4
        · rename_i e; subst e
          split at h4
          · rename_i e
            dsimp only at e
            refine two h4 fun t ht => ?_
            simp only [Multi.step, Multi.stepOwner, e] at ht
            cases ht
            simp
          · rename_i e
            dsimp only at e
            refine two h4 fun t ht => ?_
            simp only [Multi.step, Multi.stepOwner, e] at ht
            cases ht
            simp
          · have := idle i (fin_step h4 hn hf).2
            rw [hp] at this; cases this
        · split at h4
          · split at h4
            · rename_i e
              dsimp only at e
              simp only [Multi.run] at h4
              obtain ⟨u, h5, h6⟩ := bind_some h4
              obtain ⟨v, h7, h8⟩ := bind_some h6
              cases h8
              by_cases hu : u.own = .fin .results
              · cases (fin_step h5 hn hu).1
              · cases (fin_step h7 hu hf).1
            · cases (fin_step h4 hn hf).1
          · cases h4; exact hn hf
      · exact same h

/-- Whoever has got the results has removed the multi-request from the context. -/
theorem got_gone {msg : Nat → Nat → UInt32} {cs : List Choice} {s : St} (h : run (init msg) cs = some s) : ∀ x, (s.q x).m.own = .fin .results → s.cx.gone x = true := by
  refine snoc (P := fun s => ∀ x, (s.q x).m.own = .fin .results → s.cx.gone x = true) (Q := fun _ => True) (fun x => by simp [init, MultiReq.init, Multi.init]) ?_ (fun _ _ => trivial) h
  clear h
  intro cs s c s' hr hp _ h x hf
  have I := inv_run (inv_init msg) hr
  have up : ∀ {d q'}, MultiReq.step (s.q x) d = some q' → q'.m.own = .fin .results → s.cx.gone x = true ∨ removes (s.q x).m d = true := by
    intro d q' hq hf
    obtain ⟨ds, h1⟩ := reach_q hr x
    by_cases hn : (s.q x).m.own = .fin .results
    · exact .inl (hp x hn)
    · obtain ⟨rfl, h2⟩ := fin_req (MultiReq.prog_run (MultiReq.prog_init _) h1).inv hq hn hf
      exact .inr (by simp [removes, h2])
  cases kind h with
  | plain d cx hd hh e =>
    obtain ⟨a1, _⟩ := plain_eq hd hh I.cx I.idle
    subst e
    dsimp only at hf ⊢
    rw [a1]; exact hp x hf
  | refused y cx q hy hh hq e =>
    have hx := refused_eq hy hh
    subst e hx
    dsimp only at hf ⊢
    split at hf
    · rename_i e; subst e
      have nd : s.cx.ap x ≠ .done true ∧ s.cx.ap x ≠ .done false := by rw [hy]; simp
      obtain ⟨n1, n2, n3⟩ := I.new x 0 nd.1 nd.2
      refine hp x ?_
      simp only [early, MultiReq.run, MultiReq.step, MultiReq.multiStep, Multi.step, n1, if_true, MultiReq.St.withM, Option.map_some, Option.bind_some, Multi.set, if_pos,
        Multi.stepCancel, Bool.false_eq_true, if_false, Option.some.injEq] at hq
      rw [← hq] at hf
      exact hf
    · exact hp x hf
  | begins y l q hl hb hq e =>
    subst e
    dsimp only at hf ⊢
    split at hf
    · rename_i e; subst e
      exact (up hq hf).resolve_right (by simp [removes])
    · exact hp x hf
  | ends y l b cx hl hb hk hh e =>
    have hx := canc_eq hl hh
    subst e hx
    exact hp x hf
  | multi y d q ha hr' hm' hq e =>
    subst e
    dsimp only at hf ⊢
    split at hf
    · rename_i e; subst e
      exact (up hq hf).resolve_right (by simp [hm'])
    · exact hp x hf
  | removed y d cx q ha hr' hm' hh hq e =>
    have := (remove_eq hh).2.1
    subst e
    dsimp only at hf ⊢
    rw [this]
    simp only [Context.set]
    split
    · rfl
    · rename_i hne
      rw [if_neg hne] at hf
      exact hp x hf

theorem empty {s : Context.St} (I : Context.Inv s) (hg : ∀ x, s.ap x = .done true → s.gone x = true) : s.n = 0 ∧ s.m = [] := by
  have key : ∀ x, ¬ (s.s0 = some x ∨ s.s1 = some x ∨ x ∈ s.m) := by
    intro x h
    obtain ⟨h1, h2⟩ := (I.stored x).1 h
    rw [hg x h1] at h2
    cases h2
  refine ⟨?_, ?_⟩
  · rw [I.n]
    have h0 : s.s0 = none := by
      cases e : s.s0 with
      | none => rfl
      | some x => exact absurd (.inl e) (key x)
    have h1 : s.s1 = none := by
      cases e : s.s1 with
      | none => rfl
      | some x => exact absurd (.inr (.inl e)) (key x)
    rw [h0, h1]; rfl
  · cases e : s.m with
    | nil => rfl
    | cons x l => exact absurd (.inr (.inr (by rw [e]; exact List.mem_cons_self ..))) (key x)

theorem can_exit {msg : Nat → Nat → UInt32} {s : St} (w : W msg s) (hg : ∀ x, s.cx.ap x = .done true → s.cx.gone x = true) : Can s fun s' => s'.cx.cp = .exit := by
  have atN : ∀ {s : St}, W msg s → (∀ x, s.cx.ap x = .done true → s.cx.gone x = true) → s.cx.cp = .readN → Can s fun s' => s'.cx.cp = .exit := by
    intro s w hg hc
    obtain ⟨s1, h1, w1, r1, e1, b1⟩ := plain_go w (by rw [hc]; simp) (cx := { s.cx with cp := if 0 < s.cx.n then .snap else .exit }) (by simp only [Context.step, Context.stepCancel, hc])
    refine .step (c := .canc true) rfl h1 (.now ?_)
    rw [e1, (empty (inv_w w).cx hg).1]; rfl
  have atM : ∀ {s : St}, W msg s → (∀ x, s.cx.ap x = .done true → s.cx.gone x = true) → s.cx.cp = .readM → Can s fun s' => s'.cx.cp = .exit := by
    intro s w hg hc
    obtain ⟨s1, h1, w1, r1, e1, b1⟩ := plain_go w (by rw [hc]; simp) (cx := { s.cx with cp := if 0 < s.cx.m.length then .snap else .readN }) (by simp only [Context.step, Context.stepCancel, hc])
    refine .step (c := .canc true) rfl h1 (atN w1 (fun x hx => r1.gone x (hg x (by rw [← r1.ap]; exact hx))) ?_)
    rw [e1, (empty (inv_w w).cx hg).2]; rfl
  have atC : ∀ {s : St} l, W msg s → (∀ x, s.cx.ap x = .done true → s.cx.gone x = true) → s.cx.cp = .calling l → Can s fun s' => s'.cx.cp = .exit := by
    intro s l w hg hc
    refine (drain (x := 0) l w hc).then fun s1 _ _ ⟨w1, r1, c1, _, _⟩ => ?_
    obtain ⟨s2, h2, w2, r2, e2, _⟩ := plain_go w1 (by rw [c1]; simp) (cx := { s1.cx with passes := s1.cx.passes + 1, cp := .readM }) (by simp only [Context.step, Context.stepCancel, c1])
    have r := r1.trans r2
    exact .step (c := .canc true) rfl h2 (atM w2 (fun x hx => r.gone x (hg x (by rw [← r.ap]; exact hx))) (by rw [e2]))
  cases hc : s.cx.cp with
  | idle => exact absurd hc (w.can.some w.st)
  | readM => exact atM w hg hc
  | readN => exact atN w hg hc
  | snap =>
    obtain ⟨s1, h1, w1, r1, e1, b1⟩ := plain_go w (by rw [hc]; simp) (cx := { s.cx with cp := .calling (Context.copy s.cx) }) (by simp only [Context.step, Context.stepCancel, hc, if_pos w.lock])
    exact .step (c := .canc true) rfl h1 (atC _ w1 (fun x hx => r1.gone x (hg x (by rw [← r1.ap]; exact hx))) (by rw [e1]))
  | exit => exact .now hc
  | calling l => exact atC l w hg hc

end Verif.CtxMulti
