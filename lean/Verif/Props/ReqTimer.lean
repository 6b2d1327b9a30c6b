import Verif.Model.ReqTimer
import Verif.Proofs.RequestSteps

/-! C107: the timeout of a request. -/
namespace Verif.ReqTimer
open Verif.Request (Data Pc Ev Q1 H1 rules1 Rules casPending casInFly own lockedStep doAct enterBookmark enterResponder H11 rules11 I11 Ans kinds log_mono performed_step ans_step own_eq)

/-! ### With the timer -/

structure Inv (s : St) : Prop where
  req : I11 s.r
  stopped : s.tm = .stopped → s.r.d.rs = .performed
  fired : s.tm = .fired → Ev.reset ∉ s.r.d.log → s.r.d.rs = .performed ∨ Ans (s.r.pc 0)
  off : s.set = true → s.arming = none → s.tm ≠ .off
  clear : s.set = false → s.arming = none ∧ s.tm = .off
  arming : s.arming ≠ none → s.tm = .off

theorem inv_init (id msg resp) : Inv (init id msg resp) := by
  refine ⟨?_, by simp [init], by simp [init], by simp [init], by simp [init], by simp [init]⟩
  exact Request.inv_reach (ok := fun _ => True) rules11 (cs := []) (by simp [Request.init, Q1, Request.deliveries]) (by simp) rfl

theorem ends_performed {s s' : Request.St} {c} (h : Request.step s c = some s') (e : ends s c = true) : s'.d.rs = .performed := by
  cases c with
  | go t =>
    simp only [ends] at e
    split at e
    · rename_i op hp
      simp only [Request.step, hp, own, Request.St.ownStep, Option.some.injEq] at h
      rw [← h]
    · cases e
  | _ => cases e

theorem req_step {s s' : St} {c} (h : step s (.req c) = some s') : Request.step s.r c = some s'.r ∧ s'.set = s.set ∧ s'.arming = s.arming ∧
    s'.tm = (if ends s.r c then s.tm.stop else s.tm) := by
  have : ∀ x, (Request.step s.r c).map x = some s' → x = (fun r => { s with r, tm := if ends s.r c then s.tm.stop else s.tm }) →
      Request.step s.r c = some s'.r ∧ s'.set = s.set ∧ s'.arming = s.arming ∧ s'.tm = (if ends s.r c then s.tm.stop else s.tm) := by
    intro x hx ex
    cases hq : Request.step s.r c with
    | none => rw [hq] at hx; cases hx
    | some r => rw [hq] at hx; subst ex; cases hx; exact ⟨rfl, rfl, rfl, rfl⟩
  unfold step at h
  split at h
  · cases h
  · rename_i c' hn e
    cases e
    exact this _ h rfl
  all_goals simp_all

theorem inv_step (s s' : St) (c : Choice) (h : step s c = some s') (i : Inv s) : Inv s' := by
  obtain ⟨i1, i2, i3, i4, i5, i6⟩ := i
  cases c with
  | req c =>
    obtain ⟨h1, h2, h3, h4⟩ := req_step h
    refine ⟨Request.inv_step rules11 i1 trivial h1, ?_, ?_, ?_, ?_, ?_⟩
    · intro ht
      by_cases he : ends s.r c = true
      · exact ends_performed h1 he
      · rw [h4, if_neg he] at ht
        exact performed_step _ _ c i1 h1 (i2 ht)
    · intro ht hr
      have ht' : s.tm = .fired := by
        rw [h4] at ht
        split at ht
        · cases hx : s.tm <;> simp_all [Tm.stop]
        · exact ht
      rcases i3 ht' (fun hm => hr (log_mono _ _ c h1 _ hm)) with hp | hp
      · exact .inl (performed_step _ _ c i1 h1 hp)
      · exact ans_step 0 _ _ c i1 h1 hp hr
    · intro hs ha ht
      rw [h2] at hs; rw [h3] at ha
      rw [h4] at ht
      have := i4 hs ha
      split at ht
      · cases hx : s.tm <;> simp_all [Tm.stop]
      · exact this ht
    · intro hs
      rw [h2] at hs
      obtain ⟨a, b⟩ := i5 hs
      rw [h3, h4, a, b]
      simp [Tm.stop]
    · intro ha
      rw [h3] at ha
      have := i6 ha
      rw [h4, this]
      simp [Tm.stop]
  | setTimeout t =>
    simp only [step] at h
    split at h <;> cases h
    · exact ⟨i1, i2, i3, i4, i5, i6⟩
    · rename_i hs
      exact ⟨i1, i2, i3, by simp, by simp, fun _ => (i5 (by simpa using hs)).2⟩
  | arm t =>
    simp only [step] at h
    split at h <;> cases h
    rename_i ha
    refine ⟨i1, by simp, by simp, by simp, ?_, by simp⟩
    intro hs
    have := (i5 hs).1
    rw [ha] at this
    cases this
  | fire =>
    simp only [step] at h
    split at h
    · rename_i ht
      cases hq : Request.step s.r (.call 0 (.fail Misc.RcTimeout)) with
      | none => rw [hq] at h; cases h
      | some r =>
        rw [hq] at h
        cases h
        refine ⟨Request.inv_step rules11 i1 trivial hq, by simp, ?_, by simp, ?_, ?_⟩
        · intro _ _
          right
          simp only [Request.step] at hq
          split at hq <;> cases hq
          simp [Request.setPc, Ans]
        · intro hs
          have := (i5 hs).2
          rw [ht] at this; cases this
        · intro ha
          have := i6 ha
          rw [ht] at this; cases this
    · cases h

theorem inv_run (s s' : St) (cs : List Choice) (h : run s cs = some s') (i : Inv s) : Inv s' := by
  induction cs generalizing s with
  | nil => cases h; exact i
  | cons c cs ih =>
    simp only [run] at h
    split at h
    · cases h
    · rename_i s1 h1
      exact ih s1 h (inv_step s s1 c h1 i)

/-- C107 (partial: requests that a bookmark or the Responder never reset). Once a timeout is set, the request is answered, or its
timer is armed, or the goroutine of the timer is busy answering it. -/
theorem C107_answered_partial (id msg resp) (cs : List Choice) (s : St) (h : run (init id msg resp) cs = some s)
    (hr : Ev.reset ∉ s.r.d.log) (hs : s.set = true) (ha : s.arming = none) :
    s.r.d.rs = .performed ∨ s.tm = .armed ∨ s.r.pc 0 ≠ .idle := by
  have i := inv_run _ _ cs h (inv_init id msg resp)
  cases ht : s.tm with
  | off => exact absurd ht (i.off hs ha)
  | armed => exact .inr (.inl rfl)
  | fired =>
    rcases i.fired ht hr with hp | hp
    · exact .inl hp
    · refine .inr (.inr fun e => ?_)
      rw [e] at hp; exact hp
  | stopped => exact .inl (i.stopped ht)

/-- The timer fires at most once in the life of a request, whoever sets timeouts afterwards: -/
theorem C107_once_violated (id msg resp) (cs : List Choice) (s : St) (h : run (init id msg resp) cs = some s) (ht : s.tm = .fired)
    (later : List Choice) (s' : St) (h' : run s later = some s') : s'.tm = .fired := by
  have i := inv_run _ _ cs h (inv_init id msg resp)
  clear h
  induction later generalizing s with
  | nil => cases h'; exact ht
  | cons c cs ih =>
    simp only [run] at h'
    split at h'
    · cases h'
    · rename_i s1 h1
      refine ih s1 ?_ h' (inv_step s s1 c h1 i)
      cases c with
      | req c =>
        obtain ⟨_, _, _, h4⟩ := req_step h1
        rw [h4, ht]; simp [Tm.stop]
      | setTimeout t => simp only [step] at h1; split at h1 <;> cases h1 <;> exact ht
      | arm t =>
        simp only [step] at h1
        split at h1 <;> cases h1
        rename_i ha
        have := i.arming (by simp [ha])
        rw [ht] at this; cases this
      | fire => simp [step, ht] at h1

theorem finish_only {s s' : Request.St} {c} (h : Request.step s c = some s') (he : ¬ ends s c = true) (hp : s'.d.rs = .performed) :
    s.d.rs = .performed := by
  cases c with
  | call t op => simp only [Request.step] at h; split at h <;> cases h; exact hp
  | go t =>
    simp only [Request.step] at h
    split at h
    · rename_i op hw
      cases op <;> simp only [Request.St.begin, Request.St.lockStep] at h
      · cases h; simp only [Data.note, casPending] at hp; grind
      · cases h; simp only [Data.note, casInFly] at hp; grind
      all_goals (split at h <;> cases h; exact hp)
    · obtain ⟨p, h1, _⟩ := own_eq h
      simp only [ends] at he
      generalize s.pc t = q at h1 he
      generalize s'.d = d' at h1 hp
      unfold Request.own at h1
      split at h1
      case h_3 op => simp only [Option.some.injEq] at h1; cases op <;> simp only [lockedStep, Data.note] at h1 <;> grind
      case h_10 a acts => cases a <;> simp only [doAct, casPending, casInFly] at h1 <;> grind
      case h_13 a acts => cases a <;> simp only [doAct, casPending, casInFly] at h1 <;> grind
      all_goals grind [Data.note]
  | bookmark t acts =>
    obtain ⟨p, h1, _⟩ := own_eq h
    generalize s.pc t = q at h1
    generalize s'.d = d' at h1 hp
    unfold enterBookmark at h1
    split at h1
    · split at h1 <;> grind [Data.note]
    · cases h1
  | responder t acts =>
    obtain ⟨p, h1, _⟩ := own_eq h
    generalize s.pc t = q at h1
    generalize s'.d = d' at h1 hp
    unfold enterResponder at h1
    split at h1
    · split at h1 <;> grind [Data.note]
    · cases h1

/-- If the timer was armed before the request was performed, it is not armed afterwards. -/
theorem C107_stopped_partial (id msg resp) (cs : List Choice) (s : St) (h : run (init id msg resp) cs = some s) (ht : s.tm = .armed)
    (hp : s.r.d.rs ≠ .performed) (later : List Choice) (s' : St) (h' : run s later = some s') (hp' : s'.r.d.rs = .performed) :
    s'.tm ≠ .armed := by
  have i := inv_run _ _ cs h (inv_init id msg resp)
  clear h
  have key : ∀ (later : List Choice) (s : St), Inv s → s.set = true → s.arming = none → (s.tm = .armed → s.r.d.rs ≠ .performed) → run s later = some s' →
      s'.tm = .armed → s'.r.d.rs ≠ .performed := by
    intro later
    induction later with
    | nil => intro s _ _ _ hk h'; cases h'; exact hk
    | cons c cs ih =>
      intro s i hs ha hk h'
      simp only [run] at h'
      split at h'
      · cases h'
      · rename_i s1 h1
        have i1 := inv_step s s1 c h1 i
        cases c with
        | req c =>
          obtain ⟨q1, q2, q3, q4⟩ := req_step h1
          refine ih s1 i1 (by rw [q2]; exact hs) (by rw [q3]; exact ha) ?_ h'
          intro ht1 hp1
          rw [q4] at ht1
          split at ht1
          · cases hx : s.tm <;> simp_all [Tm.stop]
          · rename_i he
            have := hk ht1
            exact this (finish_only q1 he hp1)
        | setTimeout t =>
          simp only [step, hs, if_true, Option.some.injEq] at h1
          subst h1
          exact ih s i hs ha hk h'
        | arm t => simp [step, ha] at h1
        | fire =>
          simp only [step] at h1
          split at h1
          · rename_i ht
            cases hq : Request.step s.r (.call 0 (.fail Misc.RcTimeout)) with
            | none => rw [hq] at h1; cases h1
            | some r => rw [hq] at h1; cases h1; exact ih _ i1 hs ha (by simp) h'
          · cases h1
  intro ht'
  exact key later s i (by
    cases hx : s.set with
    | true => rfl
    | false => have := (i.clear hx).2; rw [ht] at this; cases this) (by
    cases hx : s.arming with
    | none => rfl
    | some t => have := i.arming (by simp [hx]); rw [ht] at this; cases this) (fun _ => hp) h' ht' hp'

/-- `Send` marks the request as pending, somebody cancels it, and then `Send` arms the timer of the finished request (service.go:132-140):
it stays armed. -/
theorem C107_late_violated : ((run (init 7 1 none) [.req (.call 1 .setPending), .req (.go 1), .setTimeout 1, .req (.call 2 (.fail 0xff01)),
      .req (.go 2), .req (.go 2), .req (.go 2), .req (.go 2), .req (.responder 2 []), .req (.go 2), .req (.go 2), .req (.go 2), .arm 1]).map
    fun s => (s.r.d.rs, s.tm, s.r.lock)) = some (.performed, .armed, none) := by
  decide +kernel

def resent : List Choice :=
  [.setTimeout 1, .arm 1, .req (.call 1 (.chain 5)), .req (.go 1), .req (.go 1), .req (.go 1), .req (.call 1 .setPending), .req (.go 1),
    .fire, .req (.go 0), .req (.go 0), .req (.go 0), .req (.go 0), .req (.bookmark 0 [.resetNew]), .req (.go 0), .req (.go 0), .req (.go 0),
    .req (.go 0), .setTimeout 1, .req (.call 1 .setPending), .req (.go 1)]

/-- The timer fires, a bookmark resets the request and it is sent again, with a new `SetTimeout`: it waits, all goroutines are idle, and
there is no timer; by `C107_once_violated` there will never be one. -/
theorem C107_resent_violated : ∃ (cs : List Choice) (s : St), run (init 7 1 none) cs = some s ∧ s.r.d.rs = .pending ∧ s.r.lock = none ∧
    (∀ t, s.r.pc t = .idle) ∧ ∀ later s', run s later = some s' → s'.tm = .fired := by
  refine ⟨resent, _, rfl, rfl, rfl, ?_, ?_⟩
  · intro t
    simp [Request.setPc, init, Request.init]
    grind
  · intro later s' h
    exact C107_once_violated 7 1 none resent _ rfl rfl later s' h

/-- A request that times out. -/
example : ((run (init 7 1 none) [.setTimeout 1, .arm 1, .req (.call 1 .setPending), .req (.go 1), .fire, .req (.go 0), .req (.go 0), .req (.go 0),
      .req (.go 0), .req (.responder 0 []), .req (.go 0), .req (.go 0), .req (.go 0)]).map
    fun s => (s.r.d.rs, s.tm, s.r.d.resp.map (·.code))) = some (.performed, .fired, some 0xfd03) := by
  decide +kernel

end Verif.ReqTimer
