import Verif.Proofs.Served
import Verif.Spec.Served
/-!
A stuck connection, and one that is not.
-/
namespace Verif.Serv

/-- On a connection that is stuck nobody comes out of `Respond`. -/
theorem stuck_step {x x' : St} {ch : Choice} {k : Nat} (hb : Blocked x k) (h : step x ch = some x') :
    Blocked x' k ∧ ∀ j, x.rs j = .called ∨ x.rs j = .busy → x'.rs j = .called ∨ x'.rs j = .busy := by
  have h0 := (hb [] x rfl).1
  have h1 : Blocked x' k := fun ds s' hs => hb (ch :: ds) s' (by simp only [run, h, Option.bind_some]; exact hs)
  have h2 := (h1 [] x' rfl).1
  refine ⟨h1, fun j hj => ?_⟩
  unfold step at h
  split at h
  · cases h
  cases ch <;> simp only [step1, stepR, stepW, stepC, closeOut, beginRespond] at h
  all_goals (repeat' split at h) <;> cases h <;> first | exact hj | grind [set]

/-- Steps inside `Respond`. -/
def BS (c : Choice) : Prop := ∃ k, c = .begin k ∨ c = .send k

/-- On a connection with few requests the lock becomes free. -/
theorem free {x : St} (h : ∃ cs, run init cs = some x) (hp : x.panicked = false) (hf : x.n + x.pings.length ≤ cap) :
    ∃ ds x', run x ds = some x' ∧ (∀ c ∈ ds, BS c) ∧ x'.lock = none ∧ x'.panicked = false ∧ x'.n = x.n ∧ x'.pings = x.pings ∧
      ∀ j, x.rs j ≠ .busy → x'.rs j = x.rs j := by
  obtain ⟨cs, h⟩ := h
  cases hl : x.lock with
  | none => exact ⟨[], x, rfl, by simp, hl, hp, rfl, rfl, fun _ _ => rfl⟩
  | some k =>
    have hb := (inv_run inv_init h).lock1 k hl
    obtain ⟨x', h1, h2, h3⟩ := Props.C58_few_partial h hf hp hb
    refine ⟨[.send k], x', run_one.trans h1, by simp [BS], h3, ?_⟩
    simp only [step, hp, Bool.false_eq_true, if_false, step1, hb, if_true] at h1
    split at h1
    · cases h1; simp [hb] at h2
    · split at h1 <;> cases h1
      refine ⟨rfl, rfl, rfl, fun j hj => ?_⟩
      simp only [set]
      split
      · subst_vars; exact absurd hb hj
      · rfl

/-- One who holds the lock does not go back. -/
theorem called_busy {x x' : St} {k : Nat} {ds : List Choice} (i : Inv x) (hk : x.rs k = .busy ∨ x.rs k = .done) (h : run x ds = some x')
    (hd : ∀ c ∈ ds, BS c) : x'.rs k ≠ .called := by
  induction ds generalizing x with
  | nil => cases h; rcases hk with e | e <;> rw [e] <;> simp
  | cons c ds ih =>
    simp only [run, Option.bind_eq_some_iff] at h
    obtain ⟨x1, h1, h2⟩ := h
    refine ih (inv_step i h1) ?_ h2 fun c hc => hd c (List.mem_cons_of_mem _ hc)
    obtain ⟨j, e⟩ := hd c (List.mem_cons_self ..)
    unfold step at h1
    split at h1
    · cases h1
    rcases e with rfl | rfl <;> simp only [step1, beginRespond] at h1 <;> (repeat' split at h1) <;> cases h1 <;> grind [set]

/-- ... and `Respond` returns. -/
theorem unlock {x : St} (h : ∃ cs, run init cs = some x) (hp : x.panicked = false) (hf : x.n + x.pings.length ≤ cap) (k : Nat) :
    ∃ ds x', run x ds = some x' ∧ (∀ c ∈ ds, BS c) ∧ x'.rs k ≠ .called ∧ x'.rs k ≠ .busy ∧ x'.panicked = false ∧ x'.n = x.n ∧
      x'.pings = x.pings := by
  have reach : ∀ (x x' : St) ds, (∃ cs, run init cs = some x) → run x ds = some x' → ∃ cs, run init cs = some x' := by
    intro x x' ds ⟨cs, h⟩ hs
    exact ⟨cs ++ ds, by rw [run_append, h]; exact hs⟩
  obtain ⟨d1, x1, a1, a2, a3, a4, a5, a6, a7⟩ := free h hp hf
  have r1 := reach _ _ _ h a1
  by_cases hc : x1.rs k = .called
  · have hs : step x1 (.begin k) = some (beginRespond x1 k) := by
      simp [step, step1, a4, hc, a3]
    have r2 := reach _ _ _ r1 (run_one.trans hs)
    have i2 : (beginRespond x1 k).panicked = false ∧ (beginRespond x1 k).n = x1.n ∧ (beginRespond x1 k).pings = x1.pings ∧
        ((beginRespond x1 k).rs k = .done ∨ (beginRespond x1 k).rs k = .busy) := by
      unfold beginRespond
      (repeat' split) <;> simp [a4, set]
    obtain ⟨i2, i3, i4, i5⟩ := i2
    obtain ⟨d3, x3, b1, b2, b3, b4, b5, b6, b7⟩ := free r2 i2 (by rw [i3, i4, a5, a6]; exact hf)
    have i6 := inv_run inv_init (reach _ _ _ r2 b1).choose_spec
    have h3 : x3.rs k ≠ .called := by
      intro e
      obtain ⟨cs2, r2⟩ := r2
      exact called_busy (inv_run inv_init r2) i5.symm b1 b2 e
    refine ⟨d1 ++ .begin k :: d3, x3, ?_, ?_, h3, fun e => ?_, b4, by rw [b5, i3, a5], by rw [b6, i4, a6]⟩
    · rw [run_append, a1]
      simp only [Option.bind_some, run, hs]
      exact b1
    · intro c hc
      simp only [List.mem_append, List.mem_cons] at hc
      rcases hc with hc | rfl | hc
      · exact a2 c hc
      · exact ⟨k, .inl rfl⟩
      · exact b2 c hc
    · have := i6.lock2 k e
      rw [b3] at this
      cases this
  · refine ⟨d1, x1, a1, a2, hc, fun e => ?_, a4, a5, a6⟩
    have := (inv_run inv_init r1.choose_spec).lock2 k e
    rw [a3] at this
    cases this

end Verif.Serv

namespace Verif.Served

theorem live_lt {n : Nat} {s : St} (i : Inv n s) {r : Nat} (h : Parallel.Live s.p r) : r < s.m := by
  apply Classical.byContradiction
  intro hn
  exact h.1 (i.pi.fresh r (i.new r (by omega)))

theorem wedged_par {n : Nat} {s : St} {p : Parallel.St} {ch : Parallel.Choice} (i : Inv n s) (w : Wedged s)
    (hi : s.inside ch = false) (h : Parallel.step s.p ch = some p) :
    p.sema = 0 ∧ Parallel.holds p.d = 0 ∧ p.h = s.p.h := by
  have w1 := w.slots
  have w2 := w.disp
  have hl : ∀ r, Parallel.Live s.p r → s.ins r = true ∧ s.locked r = true ∧ Late (s.p.h r) := by
    intro r hr
    obtain ⟨a, b, _⟩ := w.live r hr
    refine ⟨a, ?_, (i.ins r a).2.1⟩
    unfold St.locked St.resp
    rcases b with b | b <;> simp [b]
  have hf : ∀ src x code, (Parallel.respondFail s.p src x code).sema = s.p.sema ∧ (Parallel.respondFail s.p src x code).d = s.p.d ∧
      (Parallel.respondFail s.p src x code).h = s.p.h := by
    intro src x code
    unfold Parallel.respondFail Parallel.chainResponse
    (repeat' split) <;> exact ⟨rfl, rfl, rfl⟩
  have hr : ∀ src x code, (Parallel.respond s.p src x code).sema = s.p.sema ∧ (Parallel.respond s.p src x code).d = s.p.d ∧
      (Parallel.respond s.p src x code).h = s.p.h := by
    intro src x code
    unfold Parallel.respond Parallel.chainResponse
    (repeat' split) <;> exact ⟨rfl, rfl, rfl⟩
  cases ch with
  | hand r =>
    have hn : ¬ Parallel.Live s.p r := by
      intro hlr
      obtain ⟨a, b, _⟩ := hl r hlr
      simp [St.inside, a, b] at hi
    have : s.p.h r = .idle ∨ s.p.h r = .ended := by
      apply Classical.byContradiction
      intro hc
      exact hn ⟨fun e => hc (.inl e), fun e => hc (.inr e)⟩
    simp only [Parallel.step, Parallel.stepHand] at h
    rcases this with e | e <;> simp [e] at h
  | result r o =>
    simp only [Parallel.step] at h
    split at h
    · rename_i e
      obtain ⟨_, _, c⟩ := hl r ⟨by rw [e]; simp, by rw [e]; simp⟩
      rw [e] at c
      simp [Late] at c
    · cases h
  | send r =>
    simp only [Parallel.step] at h
    split at h <;> cases h <;> exact ⟨w1, w2, rfl⟩
  | fail r code =>
    simp only [Parallel.step] at h
    cases h
    obtain ⟨a, b, c⟩ := hf .other r code
    exact ⟨by rw [a, w1], by rw [b, w2], c⟩
  | answer r code =>
    simp only [Parallel.step] at h
    cases h
    obtain ⟨a, b, c⟩ := hr .other r code
    exact ⟨by rw [a, w1], by rw [b, w2], c⟩
  | stop =>
    simp only [Parallel.step] at h
    split at h <;> cases h
    exact ⟨w1, w2, rfl⟩
  | disp =>
    simp only [Parallel.step, Parallel.stepDisp, Parallel.leave] at h
    (repeat' split at h) <;> cases h
    all_goals first
      | exact ⟨w1, rfl, rfl⟩
      | exact ⟨(hf _ _ _).1.trans w1, rfl, (hf _ _ _).2.2⟩
      | exact ⟨(hr _ _ _).1.trans w1, rfl, (hr _ _ _).2.2⟩
      | (simp_all [Parallel.holds]; done)
      | omega
  | dispExit =>
    simp only [Parallel.step, Parallel.stepDispExit, Parallel.leave] at h
    (repeat' split at h) <;> cases h
    all_goals first
      | exact ⟨w1, rfl, rfl⟩
      | exact ⟨(hf _ _ _).1.trans w1, rfl, (hf _ _ _).2.2⟩

/-- It is enough that the handlers stay where they are. -/
theorem wedged_keep {s s' : St} (w : Wedged s) (h1 : s'.p.sema = 0) (h2 : Parallel.holds s'.p.d = 0) (h3 : s'.p.h = s.p.h)
    (h4 : ∀ r, Parallel.Live s.p r → s'.conn r = s.conn r ∧ s'.key r = s.key r ∧ (s.ins r = true → s'.ins r = true))
    (h5 : ∀ i, s'.c i = s.c i ∨ ∃ ch, Serv.step (s.c i) ch = some (s'.c i)) : Wedged s' := by
  refine ⟨h1, h2, fun r hr => ?_⟩
  have hr' : Parallel.Live s.p r := by unfold Parallel.Live at hr ⊢; rwa [h3] at hr
  obtain ⟨a, b, k, c⟩ := w.live r hr'
  obtain ⟨e1, e2, e3⟩ := h4 r hr'
  refine ⟨e3 a, ?_⟩
  unfold InRespond Stuck
  rw [e1, e2]
  rcases h5 (s.conn r) with e | ⟨ch, e⟩
  · rw [e]; exact ⟨b, k, c⟩
  · obtain ⟨d1, d2⟩ := Serv.stuck_step c e
    exact ⟨d2 _ b, k, d1⟩

theorem net_c {s s' : St} {i : Nat} {ch : Serv.Choice} (h : s.net i ch = some s') :
    (∀ j, s'.c j = s.c j ∨ ∃ ch, Serv.step (s.c j) ch = some (s'.c j)) ∧ s'.p = s.p ∧ s'.conn = s.conn ∧ s'.key = s.key ∧
      s'.ins = s.ins := by
  unfold St.net at h
  simp only [Option.map_eq_some_iff] at h
  obtain ⟨x, hx, rfl⟩ := h
  refine ⟨fun j => ?_, rfl, rfl, rfl, rfl⟩
  by_cases e : j = i
  · subst e; exact .inr ⟨ch, by simp [set, hx]⟩
  · exact .inl (by simp [set, e])

theorem wedged_net {s s' : St} {i : Nat} {ch : Serv.Choice} (w : Wedged s) (h : s.net i ch = some s') :
    Wedged s' ∧ s'.p.h = s.p.h := by
  obtain ⟨a, b, c, d, e⟩ := net_c h
  refine ⟨wedged_keep w (by rw [b]; exact w.slots) (by rw [b]; exact w.disp) (by rw [b]) (fun r _ => ?_) a, by rw [b]⟩
  rw [c, d, e]
  exact ⟨rfl, rfl, id⟩

theorem wedged_step {n : Nat} {s s' : St} {ch : Choice} (i : Inv n s) (w : Wedged s) (h : step s ch = some s') :
    Wedged s' ∧ s'.p.h = s.p.h := by
  unfold step at h
  split at h
  · cases h
  split at h
  · -- the read loop goes on
    split at h
    · unfold St.reg at h
      simp only [Option.map_eq_some_iff] at h
      obtain ⟨s1, h1, rfl⟩ := h
      obtain ⟨a, b, c, d, e⟩ := net_c h1
      refine ⟨wedged_keep w (by simp only [b]; exact w.slots) (by simp only [b]; exact w.disp) (by simp only [b]) (fun r hr => ?_) a,
        by simp only [b]⟩
      have := live_lt i hr
      have hne : r ≠ s.m := by omega
      simp [set, hne, e]
    · exact wedged_net w h
  · split at h
    · exact wedged_net w h
    · cases h
  · split at h
    · exact wedged_net w h
    · cases h
  · split at h
    · exact wedged_net w h
    · cases h
  · split at h
    · unfold St.cancel at h
      split at h
      · simp only [Option.bind_eq_some_iff] at h
        obtain ⟨p, h1, h2⟩ := h
        obtain ⟨q1, q2, q3⟩ := wedged_par i w (by rfl) h1
        have w1 : Wedged { s with p } := wedged_keep w q1 q2 q3 (fun r _ => ⟨rfl, rfl, id⟩) (fun _ => .inl rfl)
        obtain ⟨w2, e⟩ := wedged_net w1 h2
        exact ⟨w2, e.trans q3⟩
      · exact wedged_net w h
    · exact wedged_net w h
  · cases h
  · exact wedged_net w h
  · split at h
    · simp only [Option.map_eq_some_iff] at h
      obtain ⟨p, h1, rfl⟩ := h
      obtain ⟨q1, q2, q3⟩ := wedged_par i w (by rfl) h1
      exact ⟨wedged_keep w q1 q2 q3 (fun r _ => ⟨rfl, rfl, id⟩) (fun _ => .inl rfl), q3⟩
    · cases h
  · rename_i ch
    unfold St.svc at h
    split at h
    · rename_i hk
      simp only [Bool.and_eq_true, Bool.not_eq_true'] at hk
      have key : ∀ p, Parallel.step s.p ch = some p → Wedged { s with p } ∧ p.h = s.p.h := by
        intro p h1
        obtain ⟨q1, q2, q3⟩ := wedged_par i w hk.2 h1
        exact ⟨wedged_keep w q1 q2 q3 (fun r _ => ⟨rfl, rfl, id⟩) (fun _ => .inl rfl), q3⟩
      split at h
      · simp only [Option.map_eq_some_iff] at h
        obtain ⟨p, h1, rfl⟩ := h
        exact key p h1
      · split at h
        · cases h
        · simp only [Option.bind_eq_some_iff] at h
          obtain ⟨p, h1, h2⟩ := h
          obtain ⟨w1, e1⟩ := key p h1
          split at h2
          · simp only [Option.map_eq_some_iff] at h2
            obtain ⟨s1, h2, rfl⟩ := h2
            obtain ⟨w2, e2⟩ := wedged_net w1 h2
            have e2 := e2.trans e1
            cases ch <;> simp only [St.enter] <;> first
              | exact ⟨w2, e2⟩
              | (refine ⟨wedged_keep w2 w2.slots w2.disp rfl (fun r _ => ⟨rfl, rfl, fun h => ?_⟩) (fun _ => .inl rfl), e2⟩
                 first | exact h | (simp only [set]; split <;> first | rfl | exact h))
          · cases h2
            exact ⟨w1, e1⟩
    · cases h

theorem wedged_run {n : Nat} {s s' : St} {ds : List Choice} (i : Inv n s) (w : Wedged s) (h : run s ds = some s') :
    Wedged s' ∧ s'.p.h = s.p.h := by
  induction ds generalizing s with
  | nil => cases h; exact ⟨w, rfl⟩
  | cons c ds ih =>
    simp only [run, Option.bind_eq_some_iff] at h
    obtain ⟨s1, hs, hr⟩ := h
    obtain ⟨w1, e1⟩ := wedged_step i w hs
    obtain ⟨w2, e2⟩ := ih (inv_step i hs) w1 hr
    exact ⟨w2, e2.trans e1⟩

/-! ### The way back -/

/-- A connection makes steps inside `Respond`. -/
theorem lift {s : St} {i : Nat} {x : Serv.St} {ds : List Serv.Choice} (hd : s.dead = false) (h : Serv.run (s.c i) ds = some x)
    (hb : ∀ c ∈ ds, Serv.BS c) (hx : x.panicked = false) :
    ∃ s', run s (ds.map (.net i)) = some s' ∧ s'.c i = x ∧ s'.p = s.p ∧ s'.conn = s.conn ∧ s'.key = s.key ∧ s'.dead = false := by
  induction ds generalizing s with
  | nil => cases h; exact ⟨s, rfl, rfl, rfl, rfl, rfl, hd⟩
  | cons c ds ih =>
    simp only [Serv.run, Option.bind_eq_some_iff] at h
    obtain ⟨x1, h1, h2⟩ := h
    have hp : x1.panicked = false := by
      cases ds with
      | nil => cases h2; exact hx
      | cons c ds =>
        cases e : x1.panicked with
        | false => rfl
        | true => simp [Serv.run, Serv.step, e] at h2
    obtain ⟨s', a, b, c', d, e, f⟩ := ih (s := { s with c := set s.c i x1, dead := x1.panicked }) hp
      (by simp only [set, if_true]; exact h2) fun c hc => hb c (List.mem_cons_of_mem _ hc)
    refine ⟨s', ?_, b, c', d, e, f⟩
    simp only [List.map_cons, run, Option.bind_eq_some_iff]
    refine ⟨_, ?_, a⟩
    obtain ⟨k, e⟩ := hb c (List.mem_cons_self ..)
    rcases e with rfl | rfl <;> simp [step, hd, St.net, h1]

/-- What is kept up on the way. -/
structure Way (n i r : Nat) (s : St) : Prop where
  inv : Inv n s
  live : s.dead = false
  few : Few s i
  conn : s.conn r = i
  lt : r < s.m

/-- `Respond` for `r` returns. -/
theorem way_unlock {n i r : Nat} {s : St} (w : Way n i r s) : ∃ ds s', run s ds = some s' ∧
    (∀ c ∈ ds, ∃ k, c = .net i (.begin k) ∨ c = .net i (.send k)) ∧ Way n i r s' ∧ s'.locked r = false ∧ s'.p = s.p := by
  obtain ⟨ds, x, h1, h2, h3, h4, h5, h6, h7⟩ := Serv.unlock (w.inv.con i) (w.inv.alive w.live i) w.few (s.key r)
  obtain ⟨s', a, b, c, d, e, f⟩ := lift w.live h1 h2 h5
  have hi := inv_run w.inv a
  refine ⟨_, s', a, ?_, ⟨hi, f, ?_, by rw [d]; exact w.conn, ?_⟩, ?_, c⟩
  · intro c hc
    simp only [List.mem_map] at hc
    obtain ⟨y, hy, rfl⟩ := hc
    obtain ⟨k, e⟩ := h2 y hy
    exact ⟨k, by rcases e with rfl | rfl <;> simp⟩
  · unfold Few; rw [b, h6, h7]; exact w.few
  · have := w.inv.lt1 r w.lt
    have hm : ∀ (ds : List Serv.Choice) (s s' : St), (∀ c ∈ ds, Serv.BS c) → run s (ds.map (.net i)) = some s' → s'.m = s.m := by
      intro ds
      induction ds with
      | nil => intro s s' _ h; cases h; rfl
      | cons c ds ih =>
        intro s s' hb h
        simp only [List.map_cons, run, Option.bind_eq_some_iff] at h
        obtain ⟨s1, h1, h2⟩ := h
        rw [ih _ _ (fun c hc => hb c (List.mem_cons_of_mem _ hc)) h2]
        obtain ⟨k, e⟩ := hb c (List.mem_cons_self ..)
        unfold step at h1
        split at h1
        · cases h1
        rcases e with rfl | rfl <;> simp only [St.net, Option.map_eq_some_iff] at h1 <;> obtain ⟨x, _, rfl⟩ := h1 <;> rfl
    rw [hm _ _ _ h2 a]
    exact w.lt
  · unfold St.locked St.resp
    rw [d, e, w.conn, b]
    simp [h3, h4]

/-- The handler goroutine makes a step. -/
theorem way_hand {n i r : Nat} {s : St} {p : Parallel.St} (w : Way n i r s) (hl : s.locked r = false)
    (hp : Parallel.step s.p (.hand r) = some p) : ∃ s', step s (.svc (.hand r)) = some s' ∧ Way n i r s' ∧ s'.p = p := by
  have key : ∃ s', s.svc (.hand r) = some s' ∧ s'.dead = false ∧ Few s' i ∧ s'.conn = s.conn ∧ s'.m = s.m ∧ s'.p = p := by
    unfold St.svc
    have h1 : s.known (.hand r) = true := rfl
    have h2 : s.inside (.hand r) = false := by simp [St.inside, hl]
    simp only [h1, h2, Bool.not_false, Bool.and_self, if_true]
    cases hk : locks s.p (.hand r) with
    | none => exact ⟨{ s with p }, by simp only [hp, Option.map_some], w.live, w.few, rfl, rfl, rfl⟩
    | some x =>
      obtain ⟨rfl, -⟩ := late_hand hp hk
      simp only [hl, Bool.false_eq_true, if_false, hp, Option.bind_some]
      split
      · rename_i ha
        have hr := (w.inv.link x w.lt).1 ha.1
        have hc : ∃ y, Serv.step (s.c (s.conn x)) (.call (s.key x)) = some y ∧ y.panicked = false ∧ y.n = (s.c (s.conn x)).n ∧
            y.pings = (s.c (s.conn x)).pings := by
          have hr' : (s.c (s.conn x)).rs (s.key x) = .sent := hr
          have ha := w.inv.alive w.live (s.conn x)
          refine ⟨{ s.c (s.conn x) with rs := Serv.set (s.c (s.conn x)).rs (s.key x) .called }, ?_, ha, rfl, rfl⟩
          simp [Serv.step, Serv.step1, ha, hr']
        obtain ⟨y, hc, y1, y2, y3⟩ := hc
        refine ⟨({ s with p, c := set s.c (s.conn x) y, dead := y.panicked } : St).enter x (.hand x),
          by simp only [St.net, hc, Option.map_some], y1, ?_, rfl, rfl, rfl⟩
        unfold Few
        simp only [St.enter, set]
        split
        · subst_vars; rw [y2, y3, w.conn]; exact w.few
        · exact w.few
      · exact ⟨_, rfl, w.live, w.few, rfl, rfl, rfl⟩
  obtain ⟨s', h1, h2, h3, h4, h5, h6⟩ := key
  have hs : step s (.svc (.hand r)) = some s' := by simp [step, w.live, h1]
  exact ⟨s', hs, ⟨inv_step w.inv hs, h2, h3, by rw [h4]; exact w.conn, by rw [h5]; exact w.lt⟩, h6⟩

theorem run_append {s : St} {a b : List Choice} : run s (a ++ b) = (run s a).bind fun s => run s b := by
  induction a generalizing s with
  | nil => rfl
  | cons c a ih =>
    simp only [List.cons_append, run]
    cases step s c with
    | none => rfl
    | some s1 => exact ih

/-- ... after waiting for the lock. -/
theorem way_adv {n i r : Nat} {s : St} {p : Parallel.St} (o : Parallel.Outcome) (w : Way n i r s)
    (hp : Parallel.step s.p (.hand r) = some p) :
    ∃ ds s', run s ds = some s' ∧ (∀ c ∈ ds, Own i r o c) ∧ Way n i r s' ∧ s'.p = p := by
  obtain ⟨ds, s1, h1, h2, w1, h3, h4⟩ := way_unlock w
  obtain ⟨s2, h5, w2, h6⟩ := way_hand w1 h3 (p := p) (by rw [h4]; exact hp)
  refine ⟨ds ++ [.svc (.hand r)], s2, ?_, ?_, w2, h6⟩
  · rw [run_append, h1]; simp [run, h5]
  · intro c hc
    simp only [List.mem_append, List.mem_singleton] at hc
    rcases hc with hc | rfl
    · exact .inr (.inr (h2 c hc))
    · exact .inl rfl

/-- The handler goroutine comes to its end. -/
theorem way_end {n i r : Nat} (o : Parallel.Outcome) {s : St} (w : Way n i r s) (hl : Parallel.Live s.p r) :
    ∃ ds s', run s ds = some s' ∧ (∀ c ∈ ds, Own i r o c) ∧ s'.p.h r = .ended ∧ s'.dead = false := by
  have comp : ∀ {s s1 : St} {ds : List Choice}, run s ds = some s1 → (∀ c ∈ ds, Own i r o c) →
      (∃ ds s', run s1 ds = some s' ∧ (∀ c ∈ ds, Own i r o c) ∧ s'.p.h r = .ended ∧ s'.dead = false) →
      ∃ ds s', run s ds = some s' ∧ (∀ c ∈ ds, Own i r o c) ∧ s'.p.h r = .ended ∧ s'.dead = false := by
    intro s s1 ds h1 h2 ⟨ds', s', h3, h4, h5⟩
    refine ⟨ds ++ ds', s', by rw [run_append, h1]; exact h3, fun c hc => ?_, h5⟩
    rcases List.mem_append.1 hc with hc | hc
    · exact h2 c hc
    · exact h4 c hc
  have A : ∀ s, Way n i r s → s.p.h r = .release →
      ∃ ds s', run s ds = some s' ∧ (∀ c ∈ ds, Own i r o c) ∧ s'.p.h r = .ended ∧ s'.dead = false := by
    intro s w h
    obtain ⟨cs, hc⟩ := w.inv.par
    obtain ⟨p, hp, -⟩ := (Props.C48_slot_returns hc).1 r h
    obtain ⟨ds, s', a, b, c, d⟩ := way_adv o w hp
    refine ⟨ds, s', a, b, ?_, c.live⟩
    rw [d]
    simp only [Parallel.step, Parallel.stepHand, h] at hp
    split at hp <;> cases hp
    simp [Parallel.set]
  have B : ∀ s, Way n i r s → s.p.h r = .fin →
      ∃ ds s', run s ds = some s' ∧ (∀ c ∈ ds, Own i r o c) ∧ s'.p.h r = .ended ∧ s'.dead = false := by
    intro s w h
    have hp : ∃ p, Parallel.step s.p (.hand r) = some p ∧ p.h r = .release := by
      simp only [Parallel.step, Parallel.stepHand, h]
      exact ⟨_, rfl, by simp [Parallel.set]⟩
    obtain ⟨p, hp, hr⟩ := hp
    obtain ⟨ds, s', a, b, c, d⟩ := way_adv o w hp
    exact comp a b (A s' c (by rw [d]; exact hr))
  have C : ∀ s, Way n i r s → (∃ code, s.p.h r = .answer code) →
      ∃ ds s', run s ds = some s' ∧ (∀ c ∈ ds, Own i r o c) ∧ s'.p.h r = .ended ∧ s'.dead = false := by
    intro s w ⟨code, h⟩
    have hp : ∃ p, Parallel.step s.p (.hand r) = some p ∧ p.h r = .fin := by
      simp only [Parallel.step, Parallel.stepHand, h]
      exact ⟨_, rfl, by simp [Parallel.set]⟩
    obtain ⟨p, hp, hr⟩ := hp
    obtain ⟨ds, s', a, b, c, d⟩ := way_adv o w hp
    exact comp a b (B s' c (by rw [d]; exact hr))
  have D : ∀ s, Way n i r s → s.p.h r = .running →
      ∃ ds s', run s ds = some s' ∧ (∀ c ∈ ds, Own i r o c) ∧ s'.p.h r = .ended ∧ s'.dead = false := by
    intro s w h
    have hp : ∃ p, Parallel.step s.p (.result r o) = some p ∧ ((∃ code, p.h r = .answer code) ∨ p.h r = .fin) := by
      simp only [Parallel.step, h, if_true]
      cases o with
      | returned code => exact ⟨_, rfl, .inl ⟨code, by simp [Parallel.set]⟩⟩
      | panicked => exact ⟨_, rfl, .inr (by simp [Parallel.set])⟩
    obtain ⟨p, hp, hr⟩ := hp
    have hs : step s (.svc (.result r o)) = some { s with p } := by
      simp [step, w.live, St.svc, St.known, St.inside, locks, hp]
    have w' : Way n i r { s with p } := ⟨inv_step w.inv hs, w.live, w.few, w.conn, w.lt⟩
    refine comp (ds := [.svc (.result r o)]) (s1 := { s with p }) (by simp [run, hs]) ?_ ?_
    · intro c hc
      simp only [List.mem_singleton] at hc
      exact .inr (.inl hc)
    · rcases hr with hr | hr
      · exact C _ w' hr
      · exact B _ w' hr
  cases h : s.p.h r with
  | idle => exact absurd h hl.1
  | ended => exact absurd h hl.2
  | release => exact A s w h
  | fin => exact B s w h
  | answer code => exact C s w ⟨code, h⟩
  | running => exact D s w h
  | look =>
    have hp : ∃ p, Parallel.step s.p (.hand r) = some p ∧ (p.h r = .running ∨ p.h r = .fin) := by
      simp only [Parallel.step, Parallel.stepHand, h]
      refine ⟨_, rfl, ?_⟩
      simp only [Parallel.set, if_true]
      split <;> simp
    obtain ⟨p, hp, hr⟩ := hp
    obtain ⟨ds, s', a, b, c, d⟩ := way_adv o w hp
    refine comp a b ?_
    rcases hr with hr | hr
    · exact D s' c (by rw [d]; exact hr)
    · exact B s' c (by rw [d]; exact hr)

/-! ### Requests that were not handed over -/

/-- A request that was not handed over is in the hands of the read loop, which has only one. -/
structure Fresh (s : St) : Prop where
  new : ∀ r, r < s.m → s.p.rs r = .new → s.rd (s.conn r) = some r
  reg : ∀ i id, (s.c i).rp = .reg id → s.rd i = none

theorem new_back {p p' : Parallel.St} {ch : Parallel.Choice} (h : Parallel.step p ch = some p') {x : Nat} (hx : p'.rs x = .new) :
    p.rs x = .new := by
  have hchain : ∀ src y code, (Parallel.chainResponse p src y code).rs x = .new → p.rs x = .new := by
    intro src y code
    unfold Parallel.chainResponse
    (repeat' split) <;> simp only [Parallel.set] <;> split <;> simp
  have hf : ∀ src y code, (Parallel.respondFail p src y code).rs x = .new → p.rs x = .new := by
    intro src y code
    unfold Parallel.respondFail
    split
    · exact id
    · exact hchain _ _ _
  have hr : ∀ src y code, (Parallel.respond p src y code).rs x = .new → p.rs x = .new := by
    intro src y code
    unfold Parallel.respond
    split
    · exact hchain _ _ _
    · exact id
  cases ch <;> simp only [Parallel.step, Parallel.stepDisp, Parallel.stepDispExit, Parallel.stepHand, Parallel.leave] at h
  all_goals (repeat' split at h) <;> cases h
  all_goals first
    | exact hx
    | exact hf _ _ _ hx
    | exact hr _ _ _ hx
    | (simp only [Parallel.set] at hx; split at hx <;> first | cases hx; done | exact hx)
    | skip
  all_goals
    simp only at hx
    split at hx
    · exact hf _ _ _ hx
    · exact hx

/-- Only receiving lets the read loop have a request to register. -/
theorem reg_back {x x' : Serv.St} {ch : Serv.Choice} (h : Serv.step x ch = some x') {id : Nat} (hx : x'.rp = .reg id) :
    (∃ id, ch = .recv id) ∨ ch ≠ .rl ∧ x.rp = .reg id := by
  unfold Serv.step at h
  split at h
  · cases h
  cases ch <;> simp only [Serv.step1, Serv.stepR, Serv.stepW, Serv.stepC, Serv.closeOut, Serv.beginRespond] at h
  case recv id => exact .inl ⟨_, rfl⟩
  all_goals (repeat' split at h) <;> cases h <;> simp_all

theorem fresh_net {s s' : St} {i : Nat} {ch : Serv.Choice} (f : Fresh s) (h : s.net i ch = some s')
    (hr : (∃ id, ch = .recv id) → s.rd i = none) : Fresh s' := by
  unfold St.net at h
  simp only [Option.map_eq_some_iff] at h
  obtain ⟨x, hx, rfl⟩ := h
  refine ⟨f.new, fun j id e => ?_⟩
  simp only [set] at e
  split at e
  · subst_vars
    rcases reg_back hx e with e | ⟨_, e⟩
    · exact hr e
    · exact f.reg _ _ e
  · exact f.reg _ _ e

theorem fresh_par {s : St} {p : Parallel.St} {ch : Parallel.Choice} (f : Fresh s) (h : Parallel.step s.p ch = some p) :
    Fresh { s with p } :=
  ⟨fun r hr e => f.new r hr (new_back h e), f.reg⟩

theorem fresh_step {n : Nat} {s s' : St} {ch : Choice} (i : Inv n s) (f : Fresh s) (h : step s ch = some s') : Fresh s' := by
  unfold step at h
  split at h
  · cases h
  split at h
  · split at h
    · rename_i j _ id he
      unfold St.reg at h
      simp only [Option.map_eq_some_iff] at h
      obtain ⟨s1, h1, rfl⟩ := h
      have f1 := fresh_net f h1 (by simp)
      unfold St.net at h1
      simp only [Option.map_eq_some_iff] at h1
      obtain ⟨x, hx, rfl⟩ := h1
      refine ⟨fun r hr e => ?_, fun k id e => ?_⟩
      · simp only at hr e
        by_cases hm : r = s.m
        · subst hm; simp [set]
        · have := f.new r (by omega) e
          have hj : s.conn r ≠ j := by
            intro q
            rw [q, f.reg _ _ he] at this
            cases this
          simp [set, hm, hj, this]
      · simp only at e
        by_cases hk : k = j
        · subst hk
          simp only [set, if_true] at e
          rcases reg_back hx e with ⟨_, e⟩ | ⟨e, _⟩
          · cases e
          · exact absurd rfl e
        · simp only [set, hk, if_false] at e ⊢
          exact f.reg _ _ e
    · exact fresh_net f h (by simp)
  · split at h
    · rename_i e; exact fresh_net f h fun _ => e
    · cases h
  · split at h
    · exact fresh_net f h (by simp)
    · cases h
  · split at h
    · exact fresh_net f h (by simp)
    · cases h
  · split at h
    · unfold St.cancel at h
      split at h
      · simp only [Option.bind_eq_some_iff] at h
        obtain ⟨p, h1, h2⟩ := h
        exact fresh_net (fresh_par f h1) h2 (by simp)
      · exact fresh_net f h (by simp)
    · exact fresh_net f h (by simp)
  · cases h
  · refine fresh_net f h ?_
    rintro ⟨id, rfl⟩
    simp_all
  · split at h
    · rename_i j _ r e
      simp only [Option.map_eq_some_iff] at h
      obtain ⟨p, h1, rfl⟩ := h
      have f1 := fresh_par f h1
      refine ⟨fun x hx q => ?_, fun k id q => ?_⟩
      · have h2 := f1.new x hx q
        have hne : x ≠ r := by
          rintro rfl
          simp only [Parallel.step] at h1
          split at h1 <;> cases h1 <;> simp_all [Parallel.set]
        have hj : s.conn x ≠ j := by
          intro q
          simp only [q, e, Option.some.injEq] at h2
          exact hne h2.symm
        simp only [set, hj, if_false]
        exact h2
      · simp only [set]
        split
        · rfl
        · exact f.reg _ _ q
    · cases h
  · rename_i ch
    unfold St.svc at h
    split at h
    · split at h
      · simp only [Option.map_eq_some_iff] at h
        obtain ⟨p, h1, rfl⟩ := h
        exact fresh_par f h1
      · split at h
        · cases h
        · simp only [Option.bind_eq_some_iff] at h
          obtain ⟨p, h1, h2⟩ := h
          split at h2
          · simp only [Option.map_eq_some_iff] at h2
            obtain ⟨s1, h2, rfl⟩ := h2
            have := fresh_net (fresh_par f h1) h2 (by simp)
            cases ch <;> exact ⟨this.new, this.reg⟩
          · cases h2
            exact fresh_par f h1
    · cases h

theorem fresh_run {n : Nat} {s s' : St} {cs : List Choice} (i : Inv n s) (f : Fresh s) (h : run s cs = some s') : Fresh s' := by
  induction cs generalizing s with
  | nil => cases h; exact f
  | cons c cs ih =>
    simp only [run, Option.bind_eq_some_iff] at h
    obtain ⟨s1, hs, hr⟩ := h
    exact ih (inv_step i hs) (fresh_step i f hs) hr

end Verif.Served
