import Verif.Model.Served
import Verif.Props.Parallel
import Verif.Props.Serv
/-!
Invariants of a server in front of a parallel service.
-/
namespace Verif.Parallel

theorem run_append' {s : St} {a b : List Choice} : run s (a ++ b) = (run s a).bind fun s => run s b := by
  induction a generalizing s with
  | nil => rfl
  | cons c a ih =>
    simp only [List.cons_append, run]
    cases step s c with
    | none => rfl
    | some s1 => exact ih

theorem run_one {s : St} {c : Choice} : run s [c] = step s c := by
  simp only [run]
  cases step s c <;> rfl

end Verif.Parallel

namespace Verif.Serv

theorem run_one {s : St} {c : Choice} : run s [c] = step s c := by
  simp only [run]
  cases step s c <;> rfl

/-- A step which neither registers a request nor calls `Respond`. -/
theorem quiet {x x' : St} {ch : Choice} (h : step x ch = some x') (h1 : ∀ k, ch ≠ .call k)
    (h2 : ch = .rl → ∀ id, x.rp ≠ .reg id) (h3 : ch = .ctl → ∀ k ks, x.cp = .cancel (k :: ks) → x.rs k ≠ .sent) :
    x'.n = x.n ∧ ∀ k, x'.rs k = .sent ↔ x.rs k = .sent := by
  unfold step at h
  split at h
  · cases h
  cases ch <;> simp only [step1, stepR, stepW, stepC, closeOut, beginRespond] at h
  case call k => exact absurd rfl (h1 k)
  all_goals (repeat' split at h) <;> cases h <;> refine ⟨?_, fun k => ?_⟩ <;> first | rfl | grind [set]

/-- The read loop registers a request. -/
theorem registers {x x' : St} {id : Nat} (h : step x .rl = some x') (hr : x.rp = .reg id) :
    x'.n = x.n + 1 ∧ x'.rs = set x.rs x.n .sent ∧ x'.panicked = false := by
  unfold step at h
  split at h
  · cases h
  simp only [step1, stepR, hr] at h
  split at h <;> cases h
  grind

/-- `Respond` is called. -/
theorem calls {x x' : St} {k : Nat} (h : step x (.call k) = some x') :
    x.rs k = .sent ∧ x' = { x with rs := set x.rs k .called } ∧ x'.panicked = false := by
  unfold step at h
  split at h
  · cases h
  simp only [step1] at h
  split at h <;> cases h
  grind

/-- The control loop calls it. -/
theorem cancels {x x' : St} {k : Nat} {ks : List Nat} (h : step x .ctl = some x') (hc : x.cp = .cancel (k :: ks))
    (hk : x.rs k = .sent) : x' = { x with rs := set x.rs k .called, cp := .cancelIn k ks } ∧ x'.panicked = false := by
  unfold step at h
  split at h
  · cases h
  simp only [step1, stepC, hc, hk, if_true] at h
  cases h
  grind

end Verif.Serv

namespace Verif.Served


/-- A step of the service answers no request but the one whose lock it takes. -/
theorem ans_other {p p' : Parallel.St} {ch : Parallel.Choice} (h : Parallel.step p ch = some p') {x : Nat}
    (hx : locks p ch ≠ some x) : p'.ans x = p.ans x := by
  have hchain : ∀ src y code, y ≠ x → (Parallel.chainResponse p src y code).ans x = p.ans x := by
    intro src y code hne
    unfold Parallel.chainResponse
    (repeat' split) <;> simp [Parallel.set, Ne.symm hne]
  have hf : ∀ src y code, y ≠ x → (Parallel.respondFail p src y code).ans x = p.ans x := by
    intro src y code hne
    unfold Parallel.respondFail
    split
    · rfl
    · exact hchain _ _ _ hne
  have hr : ∀ src y code, y ≠ x → (Parallel.respond p src y code).ans x = p.ans x := by
    intro src y code hne
    unfold Parallel.respond
    split
    · exact hchain _ _ _ hne
    · rfl
  cases ch <;> simp only [Parallel.step, Parallel.stepDisp, Parallel.stepDispExit, Parallel.stepHand, Parallel.leave] at h
  all_goals (repeat' split at h) <;> cases h
  all_goals first
    | rfl
    | (apply hf; intro e; subst e; simp_all [locks]; done)
    | (apply hr; intro e; subst e; simp_all [locks]; done)
    | skip
  all_goals
    split
    · apply hf
      intro e
      subst e
      simp_all [locks]
    · rfl

/-- A step of the service changes the states of no request but the one whose lock it takes (sending aside). -/
theorem rs_other {p p' : Parallel.St} {ch : Parallel.Choice} (h : Parallel.step p ch = some p') {x : Nat}
    (hx : locks p ch ≠ some x) (hs : ch ≠ .send x) : p'.rs x = p.rs x := by
  have hchain : ∀ src y code, y ≠ x → (Parallel.chainResponse p src y code).rs x = p.rs x := by
    intro src y code hne
    unfold Parallel.chainResponse
    (repeat' split) <;> simp [Parallel.set, Ne.symm hne]
  have hf : ∀ src y code, y ≠ x → (Parallel.respondFail p src y code).rs x = p.rs x := by
    intro src y code hne
    unfold Parallel.respondFail
    split
    · rfl
    · exact hchain _ _ _ hne
  have hr : ∀ src y code, y ≠ x → (Parallel.respond p src y code).rs x = p.rs x := by
    intro src y code hne
    unfold Parallel.respond
    split
    · exact hchain _ _ _ hne
    · rfl
  cases ch <;> simp only [Parallel.step, Parallel.stepDisp, Parallel.stepDispExit, Parallel.stepHand, Parallel.leave] at h
  all_goals (repeat' split at h) <;> cases h
  all_goals first
    | rfl
    | (apply hf; intro e; subst e; simp_all [locks]; done)
    | (apply hr; intro e; subst e; simp_all [locks]; done)
    | (simp only [Parallel.set]; split <;> simp_all [locks]; done)
    | skip
  all_goals
    split
    · apply hf
      intro e
      subst e
      simp_all [locks]
    · rfl

/-- The handler goroutine is past the handler. -/
def Late (h : Parallel.HPc) : Prop := h = .fin ∨ h = .release ∨ h = .ended

theorem fail_h (p : Parallel.St) (src : Parallel.Src) (r code : Nat) : (Parallel.respondFail p src r code).h = p.h := by
  unfold Parallel.respondFail Parallel.chainResponse
  (repeat' split) <;> rfl

theorem respond_h (p : Parallel.St) (src : Parallel.Src) (r code : Nat) : (Parallel.respond p src r code).h = p.h := by
  unfold Parallel.respond Parallel.chainResponse
  (repeat' split) <;> rfl

theorem late_stays {p p' : Parallel.St} {ch : Parallel.Choice} (h : Parallel.step p ch = some p') {x : Nat}
    (hi : Parallel.Inv p) (hl : Late (p.h x)) : Late (p'.h x) := by
  have hc : p.d ≠ .claim x := by
    intro e
    have := hi.reqIdle x (by rw [e]; rfl)
    rw [this] at hl
    unfold Late at hl
    simp at hl
  unfold Late at *
  cases ch <;> simp only [Parallel.step, Parallel.stepDisp, Parallel.stepDispExit, Parallel.stepHand, Parallel.leave] at h
  all_goals (repeat' split at h) <;> cases h
  all_goals try simp only [fail_h, respond_h]
  all_goals grind [Parallel.set, fail_h]

/-- The handler goroutine that answers comes past the handler. -/
theorem late_hand {p p' : Parallel.St} {r x : Nat} (h : Parallel.step p (.hand r) = some p') (hl : locks p (.hand r) = some x) :
    x = r ∧ Late (p'.h r) := by
  simp only [Parallel.step, Parallel.stepHand] at h
  unfold Late
  (repeat' split at h) <;> cases h <;> simp_all [locks, Parallel.set]

/-- Sending answers nothing. -/
theorem send_ans {p p' : Parallel.St} {r : Nat} (h : Parallel.step p (.send r) = some p') :
    p'.ans = p.ans ∧ p'.h = p.h ∧ ∀ x, x ≠ r → p'.rs x = p.rs x := by
  simp only [Parallel.step] at h
  split at h <;> cases h <;> simp +contextual [Parallel.set]

structure Inv (n : Nat) (s : St) : Prop where
  par : ∃ cs, Parallel.run (Parallel.init n) cs = some s.p
  con : ∀ i, ∃ cs, Serv.run Serv.init cs = some (s.c i)
  lt1 : ∀ r, r < s.m → s.key r < (s.c (s.conn r)).n ∧ s.num (s.conn r) (s.key r) = r
  lt2 : ∀ i k, k < (s.c i).n → s.num i k < s.m ∧ s.conn (s.num i k) = i ∧ s.key (s.num i k) = k
  link : ∀ r, r < s.m → (s.p.ans r = none ↔ s.resp r = .sent)
  new : ∀ r, s.m ≤ r → s.p.rs r = .new
  rd : ∀ i r, s.rd i = some r → r < s.m ∧ s.conn r = i
  ins : ∀ r, s.ins r = true → r < s.m ∧ Late (s.p.h r) ∧ s.p.ans r ≠ none
  dis : ∀ r, s.dis = some r → r < s.m
  alive : s.dead = false → ∀ i, (s.c i).panicked = false

theorem inv_init (n : Nat) : Inv n (init n) := by
  constructor
  case par => exact ⟨[], rfl⟩
  case con => exact fun _ => ⟨[], rfl⟩
  all_goals simp [init, Serv.init, Parallel.init]

theorem Inv.pi {n : Nat} {s : St} (h : Inv n s) : Parallel.Inv s.p := by
  obtain ⟨cs, hp⟩ := h.par
  exact (Parallel.good hp).1

theorem Inv.ci {n : Nat} {s : St} (h : Inv n s) (i : Nat) : Serv.Inv (s.c i) := by
  obtain ⟨cs, hp⟩ := h.con i
  exact Serv.inv_run Serv.inv_init hp

theorem par_step {n : Nat} {p p' : Parallel.St} {ch : Parallel.Choice}
    (h : ∃ cs, Parallel.run (Parallel.init n) cs = some p) (hs : Parallel.step p ch = some p') :
    ∃ cs, Parallel.run (Parallel.init n) cs = some p' := by
  obtain ⟨cs, hr⟩ := h
  exact ⟨cs ++ [ch], by rw [Parallel.run_append', hr]; exact Parallel.run_one.trans hs⟩

theorem con_step {x x' : Serv.St} {ch : Serv.Choice}
    (h : ∃ cs, Serv.run Serv.init cs = some x) (hs : Serv.step x ch = some x') :
    ∃ cs, Serv.run Serv.init cs = some x' := by
  obtain ⟨cs, hr⟩ := h
  exact ⟨cs ++ [ch], by rw [Serv.run_append, hr]; exact Serv.run_one.trans hs⟩

/-- A connection makes a step of no concern to the service. -/
theorem inv_net {n : Nat} {s s' : St} {i : Nat} {ch : Serv.Choice} (h : Inv n s) (hd : s.dead = false)
    (hs : s.net i ch = some s') (h1 : ∀ k, ch ≠ .call k) (h2 : ch = .rl → ∀ id, (s.c i).rp ≠ .reg id)
    (h3 : ch = .ctl → ∀ k ks, (s.c i).cp = .cancel (k :: ks) → (s.c i).rs k ≠ .sent) : Inv n s' := by
  unfold St.net at hs
  simp only [Option.map_eq_some_iff] at hs
  obtain ⟨x, hx, rfl⟩ := hs
  obtain ⟨q1, q2⟩ := Serv.quiet hx h1 h2 h3
  have hn : ∀ j, (set s.c i x j).n = (s.c j).n := by
    intro j; unfold set; split <;> simp_all
  have hr : ∀ j k, (set s.c i x j).rs k = .sent ↔ (s.c j).rs k = .sent := by
    intro j; unfold set; split <;> simp_all
  constructor
  case con =>
    intro j
    show ∃ cs, Serv.run Serv.init cs = some (set s.c i x j)
    unfold set
    split
    · subst j; exact con_step (h.con i) hx
    · exact h.con j
  case par => exact h.par
  case lt1 => intro r hr; simp only [hn]; exact h.lt1 r hr
  case lt2 => intro j k; simp only [hn]; exact h.lt2 j k
  case link => intro r hr1; exact (h.link r hr1).trans (hr _ _).symm
  case new => exact h.new
  case rd => exact h.rd
  case ins => exact h.ins
  case dis => exact h.dis
  case alive =>
    intro hx j
    show (set s.c i x j).panicked = false
    unfold set
    split
    · exact hx
    · exact h.alive hd j

/-- The service makes a step which answers nothing. -/
theorem inv_par {n : Nat} {s : St} {p : Parallel.St} {ch : Parallel.Choice} (h : Inv n s)
    (hs : Parallel.step s.p ch = some p) (ha : p.ans = s.p.ans) (hn : ∀ r, s.m ≤ r → p.rs r = .new) : Inv n { s with p } := by
  constructor
  case par => exact par_step h.par hs
  case con => exact h.con
  case lt1 => exact h.lt1
  case lt2 => exact h.lt2
  case link => intro r hr; rw [show ({ s with p } : St).p.ans = s.p.ans from ha]; exact h.link r hr
  case new => exact hn
  case rd => exact h.rd
  case ins =>
    intro r hr
    obtain ⟨a, b, c⟩ := h.ins r hr
    exact ⟨a, late_stays hs h.pi b, by rw [show ({ s with p } : St).p.ans = s.p.ans from ha]; exact c⟩
  case dis => exact h.dis
  case alive => exact h.alive

/-- The request whose lock is taken was received. -/
theorem locks_lt {n : Nat} {s : St} {ch : Parallel.Choice} {r : Nat} (h : Inv n s) (hk : s.known ch = true)
    (hl : locks s.p ch = some r) : r < s.m := by
  apply Classical.byContradiction
  intro hn
  have hr := h.new r (by omega)
  have hi := h.pi
  have h1 : s.p.d.req ≠ some r := by
    intro e
    have := hi.reqNew r e
    rw [hr] at this
    simp at this
  have h2 := hi.fresh r hr
  cases ch <;> simp only [locks] at hl <;> (repeat' split at hl) <;> simp_all [St.known, Parallel.DPc.req] <;> omega

/-- The service answers a request, `Respond` is called. -/
theorem inv_call {n : Nat} {s : St} {p : Parallel.St} {x : Serv.St} {ch : Parallel.Choice} {sc : Serv.Choice} {r : Nat} (h : Inv n s)
    (hr : r < s.m) (hd : s.dead = false) (hs : Parallel.step s.p ch = some p) (hsc : Serv.step (s.c (s.conn r)) sc = some x)
    (ha : ∀ y, y ≠ r → p.ans y = s.p.ans y) (ha2 : p.ans r ≠ none) (hn : ∀ r, s.m ≤ r → p.rs r = .new)
    (hx1 : x.rs = Serv.set (s.c (s.conn r)).rs (s.key r) .called) (hx2 : x.n = (s.c (s.conn r)).n) (hx3 : x.panicked = false) :
    Inv n { s with p, c := set s.c (s.conn r) x, dead := x.panicked } := by
  have hnn : ∀ j, (set s.c (s.conn r) x j).n = (s.c j).n := by
    intro j; unfold set; split <;> simp_all
  constructor
  case con =>
    intro j
    show ∃ cs, Serv.run Serv.init cs = some (set s.c (s.conn r) x j)
    unfold set
    split
    · subst j; exact con_step (h.con _) hsc
    · exact h.con j
  case par => exact par_step h.par hs
  case lt1 => intro r hr; simp only [hnn]; exact h.lt1 r hr
  case lt2 => intro j k; simp only [hnn]; exact h.lt2 j k
  case link =>
    intro y hy
    by_cases e : y = r
    · subst e
      simp [St.resp, set, hx1, Serv.set, ha2]
    · have := h.link y hy
      show p.ans y = none ↔ (set s.c (s.conn r) x (s.conn y)).rs (s.key y) = .sent
      rw [ha y e, this]
      unfold set
      split
      · rename_i e1
        have : s.key y ≠ s.key r := by
          intro e2
          have q1 := (h.lt1 y hy).2
          have q2 := (h.lt1 r hr).2
          rw [e1, e2, q2] at q1
          exact e q1.symm
        simp [St.resp, hx1, Serv.set, this, e1]
      · rfl
  case new => exact hn
  case rd => exact h.rd
  case ins =>
    intro y hy
    obtain ⟨a, b, c⟩ := h.ins y hy
    refine ⟨a, late_stays hs h.pi b, ?_⟩
    by_cases e : y = r
    · subst e; exact ha2
    · show p.ans y ≠ none
      rw [ha y e]; exact c
  case dis => exact h.dis
  case alive =>
    intro _ j
    show (set s.c (s.conn r) x j).panicked = false
    unfold set
    split
    · exact hx3
    · exact h.alive hd j

theorem inv_enter {n : Nat} {s : St} {r : Nat} {ch : Parallel.Choice} (h : Inv n s) (hr : r < s.m) (ha : s.p.ans r ≠ none)
    (hl : ∀ x, ch = .hand x → x = r ∧ Late (s.p.h r)) : Inv n (s.enter r ch) := by
  cases ch <;> simp only [St.enter]
  case hand x =>
    obtain ⟨rfl, h1⟩ := hl x rfl
    refine { h with ins := ?_ }
    intro y hy
    simp only [set] at hy
    split at hy
    · subst y; exact ⟨hr, h1, ha⟩
    · exact h.ins y hy
  case disp => exact { h with dis := fun y e => by cases e; exact hr }
  case dispExit => exact { h with dis := fun y e => by cases e; exact hr }
  all_goals exact h

theorem inv_svc {n : Nat} {s s' : St} {ch : Parallel.Choice} (h : Inv n s) (hd : s.dead = false) (hs : s.svc ch = some s') :
    Inv n s' := by
  unfold St.svc at hs
  split at hs
  case isFalse => cases hs
  rename_i hk
  simp only [Bool.and_eq_true] at hk
  have hsend : ∀ x, ch ≠ .send x := by
    intro x e
    subst e
    simp [St.known] at hk
  have hnew : ∀ p, Parallel.step s.p ch = some p → ∀ r, s.m ≤ r → p.rs r = .new := by
    intro p hp r hr
    rw [rs_other hp (x := r) ?_ (hsend r)]
    · exact h.new r hr
    · intro e
      have := locks_lt h hk.1 e
      omega
  split at hs
  · rename_i hl
    simp only [Option.map_eq_some_iff] at hs
    obtain ⟨p, hp, rfl⟩ := hs
    exact inv_par h hp (funext fun x => ans_other hp (by rw [hl]; simp)) (hnew p hp)
  · rename_i r hl
    have hr := locks_lt h hk.1 hl
    split at hs
    · cases hs
    simp only [Option.bind_eq_some_iff] at hs
    obtain ⟨p, hp, hs⟩ := hs
    have ho : ∀ y, y ≠ r → p.ans y = s.p.ans y := fun y e => ans_other hp (by rw [hl]; intro e1; cases e1; exact e rfl)
    split at hs
    · rename_i ha
      simp only [Option.map_eq_some_iff, St.net] at hs
      obtain ⟨s1, ⟨x, hx, rfl⟩, rfl⟩ := hs
      obtain ⟨c1, c2, c3⟩ := Serv.calls hx
      apply inv_enter (inv_call h hr hd hp hx ho ha.2 (hnew p hp) (by rw [c2]) (by rw [c2]) c3) hr ha.2
      intro y e
      subst e
      have := late_hand hp hl
      obtain ⟨rfl, q⟩ := this
      exact ⟨rfl, q⟩
    · rename_i ha
      cases hs
      refine inv_par h hp (funext fun x => ?_) (hnew p hp)
      by_cases e : x = r
      · subst e
        cases ea : s.p.ans x with
        | none =>
          apply Classical.byContradiction
          intro hne
          exact ha ⟨ea, hne⟩
        | some a =>
          obtain ⟨cs, hc⟩ := h.par
          exact Props.C49_once hc ea hp
      · exact ho x e

theorem inv_reg {n : Nat} {s s' : St} {i id : Nat} (h : Inv n s) (hd : s.dead = false) (hr : (s.c i).rp = .reg id)
    (hs : s.reg i = some s') : Inv n s' := by
  unfold St.reg St.net at hs
  simp only [Option.map_eq_some_iff] at hs
  obtain ⟨s1, ⟨x, hx, rfl⟩, rfl⟩ := hs
  obtain ⟨q1, q2, q3⟩ := Serv.registers hx hr
  have hnm : s.p.ans s.m = none := by
    apply Classical.byContradiction
    intro hne
    have := (h.pi.perf s.m).2 hne
    rw [h.new s.m (Nat.le_refl _)] at this
    cases this
  have l1 : ∀ r, r < s.m → s.conn r = i → s.key r < (s.c i).n := fun r hr e => e ▸ (h.lt1 r hr).1
  constructor
  case con =>
    intro j
    show ∃ cs, Serv.run Serv.init cs = some (set s.c i x j)
    unfold set
    split
    · subst j; exact con_step (h.con _) hx
    · exact h.con j
  case par => exact h.par
  case lt1 =>
    have := h.lt1
    intro r hr
    simp only at hr ⊢
    by_cases e : r = s.m
    · subst e; simp [set, q1]
    · have hlt : r < s.m := by omega
      have h1 := this r hlt
      have h2 := l1 r hlt
      simp only [set, e, if_false]
      split
      · rename_i e1
        have := h2 e1
        rw [q1, set, if_neg (by omega), ← e1]
        exact ⟨by rw [e1]; omega, h1.2⟩
      · exact h1
  case lt2 =>
    have := h.lt2
    intro j k hk
    simp only [set] at hk ⊢
    by_cases e : j = i
    · subst e
      simp only [if_true, q1] at hk ⊢
      by_cases e2 : k = (s.c j).n
      · simp [e2, set]
      · have := this j k (by omega)
        simp only [set, e2, if_false]
        have h3 : s.num j k ≠ s.m := by omega
        simp only [h3, if_false]
        exact ⟨by omega, this.2⟩
    · simp only [e, if_false] at hk ⊢
      have := this j k hk
      have h3 : s.num j k ≠ s.m := by omega
      simp only [h3, if_false]
      exact ⟨by omega, this.2⟩
  case link =>
    intro r hr
    simp only at hr ⊢
    by_cases e : r = s.m
    · subst e; simp [hnm, St.resp, set, q2, Serv.set]
    · have hlt : r < s.m := by omega
      rw [h.link r hlt]
      simp only [St.resp, set, e, if_false]
      split
      · rename_i e1
        have := l1 r hlt e1
        rw [q2, e1]
        simp only [Serv.set]
        rw [if_neg (by omega)]
      · rfl
  case new => intro r hr; exact h.new r (by simp only at hr; omega)
  case rd =>
    intro j r hj
    simp only [set] at hj ⊢
    split at hj
    · cases hj
      subst j
      simp
    · have := h.rd j r hj
      have h3 : r ≠ s.m := by omega
      simp only [h3, if_false]
      exact ⟨by omega, this.2⟩
  case ins => intro r hr; have := h.ins r hr; exact ⟨Nat.lt_succ_of_lt this.1, this.2⟩
  case dis => intro r hr; exact Nat.lt_succ_of_lt (h.dis r hr)
  case alive =>
    intro _ j
    show (set s.c i x j).panicked = false
    unfold set
    split
    · exact q3
    · exact h.alive hd j

theorem inv_cancel {n : Nat} {s s' : St} {i k : Nat} {ks : List Nat} (h : Inv n s) (hd : s.dead = false)
    (hc : (s.c i).cp = .cancel (k :: ks)) (hs : s.cancel i k = some s') : Inv n s' := by
  unfold St.cancel at hs
  split at hs
  · rename_i hk
    simp only [Option.bind_eq_some_iff, St.net, Option.map_eq_some_iff] at hs
    obtain ⟨p, hp, x, hx, rfl⟩ := hs
    obtain ⟨e1, e2⟩ := Serv.cancels hx hc hk
    have hkn : k < (s.c i).n := by
      apply Classical.byContradiction
      intro hn
      have := (h.ci i).new k (by omega)
      rw [hk] at this
      cases this
    obtain ⟨l1, l2, l3⟩ := h.lt2 i k hkn
    have ho : ∀ y, y ≠ s.num i k → p.ans y = s.p.ans y :=
      fun y e => ans_other hp (by simp only [locks]; intro e1; cases e1; exact e rfl)
    have hn : ∀ r, s.m ≤ r → p.rs r = .new := by
      intro r hr
      rw [rs_other hp (by simp only [locks]; intro e; cases e; omega) (by simp)]
      exact h.new r hr
    have := inv_call (ch := .fail (s.num i k) Parallel.rcCanceled) (sc := .ctl) (x := x) h l1 hd hp (by rw [l2]; exact hx) ho ?_ hn
      (by rw [e1, l2, l3]) (by rw [e1, l2]) e2
    · rw [l2] at this
      exact this
    · simp only [Parallel.step, Option.some.injEq] at hp
      subst hp
      simp only [Parallel.respondFail, Parallel.chainResponse]
      split
      · rename_i hp
        exact (h.pi.perf _).1 hp
      · split
        · rw [if_neg (by decide)]; simp [Parallel.set]
        · simp [Parallel.set]
  · rename_i hk
    refine inv_net h hd hs (by simp) (by simp) ?_
    intro _ k' ks' e
    rw [hc] at e
    cases e
    exact hk

theorem inv_step {n : Nat} {s s' : St} {ch : Choice} (h : Inv n s) (hs : step s ch = some s') : Inv n s' := by
  unfold step at hs
  split at hs
  · cases hs
  rename_i hd
  simp only [Bool.not_eq_true] at hd
  split at hs
  case h_1 i =>
    split at hs
    · rename_i id hr
      exact inv_reg h hd hr hs
    · rename_i hr
      exact inv_net h hd hs (by simp) (fun _ id e => hr id e) (by simp)
  case h_2 => split at hs <;> first | exact inv_net h hd hs (by simp) (by simp) (by simp) | cases hs
  case h_3 => split at hs <;> first | exact inv_net h hd hs (by simp) (by simp) (by simp) | cases hs
  case h_4 => split at hs <;> first | exact inv_net h hd hs (by simp) (by simp) (by simp) | cases hs
  case h_5 i =>
    split at hs
    · rename_i k ks hc
      exact inv_cancel h hd hc hs
    · rename_i hc
      exact inv_net h hd hs (by simp) (by simp) (fun _ k ks e => absurd e (hc k ks))
  case h_6 => cases hs
  case h_7 i ch a1 a2 a3 a4 a5 a6 =>
    refine inv_net h hd hs (fun k e => ?_) (fun e => ?_) (fun e => ?_)
    · subst e; simp_all
    · subst e; simp_all
    · subst e; simp_all
  case h_8 i =>
    split at hs
    · rename_i r hr
      simp only [Option.map_eq_some_iff] at hs
      obtain ⟨p, hp, rfl⟩ := hs
      obtain ⟨h1, h2, h3⟩ := send_ans hp
      have hlt := (h.rd i r hr).1
      have := inv_par h hp h1 (fun x hx => by rw [h3 x (by omega)]; exact h.new x hx)
      refine { this with rd := ?_ }
      intro j y hy
      simp only [set] at hy
      split at hy
      · cases hy
      · exact h.rd j y hy
    · cases hs
  case h_9 => exact inv_svc h hd hs

theorem inv_run {n : Nat} {s s' : St} {cs : List Choice} (h : Inv n s) (hr : run s cs = some s') : Inv n s' := by
  induction cs generalizing s with
  | nil => cases hr; exact h
  | cons c cs ih =>
    simp only [run, Option.bind_eq_some_iff] at hr
    obtain ⟨s1, hs, hr⟩ := hr
    exact ih (inv_step h hs) hr

end Verif.Served
