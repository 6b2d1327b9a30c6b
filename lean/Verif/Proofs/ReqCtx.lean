import Verif.Proofs.CtxReq
import Verif.Spec.ReqCtx

/-! Invariants of a served request with its context. -/
namespace Verif.ReqCtx
open Verif.Request (Data Pc Ev casPending casInFly own lockedStep doAct enterBookmark enterResponder I11 setPc)
open Verif.CtxReq (map_some bind_some)

/-! ### The request -/

/-- Only the owner of the mutex changes the chain and the owner. -/
theorem react_keep {r r' : Request.St} {c : Request.Choice} {t : Nat} (i : I11 r) (h : Request.step r c = some r') (hl : r.lock = some t)
    (hp : ∃ op acts, r.pc t = .react op acts) (hc : c ≠ .go t) : r'.lock = some t ∧ r'.pc t = r.pc t ∧ r'.d.chain = r.d.chain := by
  obtain ⟨op, acts, hp⟩ := hp
  have only : ∀ u, (r.pc u).crit = true → u = t := by
    intro u hu
    have := i.mutex u hu
    rw [hl] at this
    exact (Option.some.inj this).symm
  have other : ∀ u q, u ≠ t → setPc r.pc u q t = r.pc t := by
    intro u q hu
    simp only [setPc, if_neg (Ne.symm hu)]
  cases c with
  | call u op =>
    simp only [Request.step] at h
    split at h <;> cases h
    rename_i hi
    exact ⟨hl, other _ _ (by rintro rfl; rw [hp] at hi; cases hi), rfl⟩
  | go u =>
    have hu : u ≠ t := by rintro rfl; exact hc rfl
    simp only [Request.step] at h
    split at h
    · rename_i op _
      cases op <;> simp only [Request.St.begin, Request.St.lockStep, hl] at h
      · cases h; exact ⟨rfl, other _ _ hu, by simp only [casPending, Data.note]; grind⟩
      · cases h; exact ⟨rfl, other _ _ hu, by simp only [casInFly, Data.note]; grind⟩
      all_goals split at h <;> first | (rename_i h1; cases h1; done) | cases h
    · obtain ⟨p, h1, h2⟩ := Request.own_eq h
      exact absurd (only u (Request.own_crit h1)) hu
  | bookmark u acts =>
    obtain ⟨p, h1, h2⟩ := Request.own_eq h
    have hcr : (r.pc u).crit = true := by
      unfold enterBookmark at h1
      split at h1
      · rename_i e; rw [e]; rfl
      · cases h1
    have := only u hcr
    subst this
    rw [hp] at h1; cases h1
  | responder u acts =>
    obtain ⟨p, h1, h2⟩ := Request.own_eq h
    have hcr : (r.pc u).crit = true := by
      unfold enterResponder at h1
      split at h1
      · rename_i e; rw [e]; rfl
      · cases h1
    have := only u hcr
    subst this
    rw [hp] at h1; cases h1

theorem own_notified {d t p d' p' b v} (h : own d t p = some (d', p')) (hn : Ev.notified b v ∈ d'.log) : Ev.notified b v ∈ d.log := by
  unfold Request.own at h
  split at h
  case h_3 op =>
    simp only [Option.some.injEq] at h
    cases op <;> simp only [lockedStep] at h <;> grind [Data.note]
  case h_10 a acts => cases a <;> simp only [doAct, casPending, casInFly] at h <;> grind
  case h_13 a acts => cases a <;> simp only [doAct, casPending, casInFly] at h <;> grind
  all_goals grind [Data.note]

/-- Bookmarks are told at the head of the chain only. -/
theorem notified_step {r r' : Request.St} {c : Request.Choice} {b : Nat} {v : Request.Resp} (h : Request.step r c = some r')
    (hn : Ev.notified b v ∈ r'.d.log) : Ev.notified b v ∈ r.d.log ∨ ∃ t acts, c = .bookmark t acts ∧ r.d.chain.head? = some b ∧ r.d.resp = some v := by
  cases c with
  | call u op =>
    simp only [Request.step] at h
    split at h <;> cases h
    exact .inl hn
  | go u =>
    refine .inl ?_
    simp only [Request.step] at h
    split at h
    · rename_i op _
      cases op <;> simp only [Request.St.begin, Request.St.lockStep] at h
      · cases h; simp only [casPending, Data.note] at hn; grind
      · cases h; simp only [casInFly, Data.note] at hn; grind
      all_goals split at h <;> cases h <;> exact hn
    · obtain ⟨p, h1, h2⟩ := Request.own_eq h
      exact own_notified h1 hn
  | bookmark u acts =>
    obtain ⟨p, h1, h2⟩ := Request.own_eq h
    unfold enterBookmark at h1
    split at h1
    · split at h1
      · rename_i b' l v' e1 e2
        simp only [Option.some.injEq, Prod.mk.injEq] at h1
        rw [← h1.1] at hn
        simp only [Data.note, List.mem_cons, Ev.notified.injEq] at hn
        rcases hn with ⟨rfl, rfl⟩ | hn
        · exact .inr ⟨u, acts, rfl, by rw [e1]; rfl, e2⟩
        · exact .inl hn
      · cases h1
    · cases h1
  | responder u acts =>
    obtain ⟨p, h1, h2⟩ := Request.own_eq h
    unfold enterResponder at h1
    split at h1
    · split at h1
      · simp only [Option.some.injEq, Prod.mk.injEq] at h1
        rw [← h1.1] at hn
        simp only [Data.note, List.mem_cons, reduceCtorEq, false_or] at hn
        exact .inl hn
      · cases h1
    · cases h1

/-- A goroutine that enters a bookmark has the mutex, and is in the bookmark afterwards. -/
theorem enter_lock {r r' : Request.St} {t : Nat} {acts : List Request.Act} (i : I11 r) (h : Request.step r (.bookmark t acts) = some r') :
    r'.lock = some t ∧ (∃ op, r'.pc t = .react op acts) ∧ r'.d.chain = r.d.chain ∧ ∀ b v, r.d.chain.head? = some b → r.d.resp = some v →
      Ev.notified b v ∈ r'.d.log := by
  have i' := Request.inv_step Request.rules11 i trivial h
  obtain ⟨p, h1, h2⟩ := Request.own_eq h
  unfold enterBookmark at h1
  split at h1
  · split at h1
    · rename_i e1 e2
      simp only [Option.some.injEq, Prod.mk.injEq] at h1
      have hp : r'.pc t = p := by rw [h2]; simp [setPc]
      rw [← h1.2] at hp
      refine ⟨i'.mutex t (by rw [hp]; rfl), ⟨_, hp⟩, by rw [← h1.1]; rfl, ?_⟩
      intro b v hb hv
      rw [e1] at hb; rw [e2] at hv
      cases hb; cases hv
      rw [← h1.1]; simp [Data.note]
    · cases h1
  · cases h1

/-! ### The context -/

/-- Once the context is cancelled, it stays so, and once `cancelAll` has ended, it does not begin again. -/
theorem cx_mono {e : CtxReq.Env} {s s' : CtxReq.St} {c : CtxReq.Choice} (i : CtxReq.Inv e s) (h : CtxReq.step e s c = some s') :
    (s.cx.state ≠ 0 → s'.cx.state = s.cx.state) ∧ (s.cx.cp = .exit → s'.cx.cp = .exit) ∧
      ((∀ b, c ≠ .cancel b) → s'.cx.state = s.cx.state) := by
  have hst : s.cx.cp = .exit → s.cx.state ≠ 0 := by
    intro h1 h0
    rw [i.idle h0] at h1; cases h1
  have key : ∀ c cx, Context.step s.cx c = some cx → (s.cx.state ≠ 0 → cx.state = s.cx.state) ∧ (s.cx.cp = .exit → cx.cp = .exit) ∧
      ((∀ b, c ≠ .cancel b) → cx.state = s.cx.state) := by
    intro c cx h1
    cases c with
    | adder x =>
      obtain ⟨h2, h3, _⟩ := CtxReq.adder_eq h1
      rw [h2, h3]; simp
    | remove x =>
      obtain ⟨_, _, _, h2, h3⟩ := CtxReq.remove_eq h1
      rw [h2, h3]; simp
    | canc =>
      simp only [Context.step, Context.stepCancel] at h1
      (repeat' split at h1) <;> cases h1 <;> simp_all
    | _ =>
      simp only [Context.step] at h1
      (repeat' split at h1) <;> cases h1 <;> simp_all
  rcases CtxReq.cx_step_kind h with h1 | ⟨c', h1, h2, _⟩
  · rw [h1]; simp
  · obtain ⟨k1, k2, k3⟩ := key c' _ h1
    exact ⟨k1, k2, fun hc => k3 fun b e1 => hc b (h2 b e1)⟩

/-! ### The product -/

/-- `ReqContext.Respond` is running. -/
def At (o : Request.St) : Prop := ∃ t, o.lock = some t ∧ (∃ op acts, o.pc t = .react op acts) ∧ o.d.chain.head? = some 0

structure Inv (e : CtxReq.Env) (s : St) : Prop where
  o : I11 s.o
  c : CtxReq.Inv e s.c
  mine : s.mine = true → s.c.cx.state ≠ 0 ∧ (s.c.cx.cp = .exit ∨ At s.o)
  told : Told s Misc.RcCanceled ∨ Told s Misc.RcTimeout → s.c.cx.state ≠ 0

/-- What a step does. -/
inductive Kind (e : CtxReq.Env) (s s' : St) (c : Choice) : Prop
  | inner (c' : CtxReq.Choice) (hc : c = .inner c') (h : CtxReq.step e s.c c' = some s'.c) (ho : s'.o = s.o) (hm : s'.mine = s.mine)
  | plain (c' : Request.Choice) (hc : c = .outer c') (h : Request.step s.o c' = some s'.o) (hs : s'.c = s.c) (hm : s'.mine = s.mine)
      (hn : ∀ t acts, c' = .bookmark t acts → s.o.d.chain.head? = some 0 → ∀ r, s.o.d.resp = some r → r.code ≠ Misc.RcCanceled ∧ r.code ≠ Misc.RcTimeout)
      (hb : ∀ t, c' = .go t → blocked s t = false)
  | react (t : Nat) (acts : List Request.Act) (r : Request.Resp) (b : Bool) (hc : c = .outer (.bookmark t acts))
      (h : Request.step s.o (.bookmark t acts) = some s'.o) (h0 : s.o.d.chain.head? = some 0)
      (hr : s.o.d.resp = some r) (ha : acts = reaction r.code) (hcode : r.code = (if b then Misc.RcTimeout else Misc.RcCanceled))
      (hs : CtxReq.step e s.c (.cancel b) = some s'.c) (hm : s'.mine = (s.mine || decide (s.c.cx.state = 0)))

theorem kind {e : CtxReq.Env} {s s' : St} {c : Choice} (h : step e s c = some s') : Kind e s s' c := by
  have plain : ∀ c', c = .outer c' → s.withO (Request.step s.o c') = some s' →
      (∀ t acts, c' = .bookmark t acts → s.o.d.chain.head? = some 0 → ∀ r, s.o.d.resp = some r → r.code ≠ Misc.RcCanceled ∧ r.code ≠ Misc.RcTimeout) →
      (∀ t, c' = .go t → blocked s t = false) → Kind e s s' c := by
    intro c' hc h hn hb
    obtain ⟨o, h1, rfl⟩ := map_some h
    exact .plain c' hc h1 rfl rfl hn hb
  cases c with
  | inner c =>
    obtain ⟨c', h1, rfl⟩ := map_some h
    exact .inner c rfl h1 rfl rfl
  | outer c =>
    cases c with
    | call t op =>
      simp only [step] at h
      split at h
      · split at h
        · exact plain _ rfl h (by simp) (by simp)
        · cases h
      · exact plain _ rfl h (by simp) (by simp)
    | go t =>
      simp only [step] at h
      split at h
      · cases h
      · rename_i hb
        exact plain _ rfl h (by simp) (by intro u e1; cases e1; simpa using hb)
    | responder t acts => exact plain _ rfl h (by simp) (by simp)
    | bookmark t acts =>
      simp only [step] at h
      split at h
      · rename_i r h0 hr
        split at h
        · rename_i ha
          obtain ⟨s1, h1, h2⟩ := bind_some h
          obtain ⟨o, h3, rfl⟩ := map_some h1
          simp only [react, enter] at h2
          split at h2
          · rename_i hcode
            obtain ⟨c', h4, rfl⟩ := map_some h2
            exact .react t acts r false rfl h3 h0 hr ha hcode h4 rfl
          · split at h2
            · rename_i hcode
              obtain ⟨c', h4, rfl⟩ := map_some h2
              exact .react t acts r true rfl h3 h0 hr ha hcode h4 rfl
            · rename_i n1 n2
              cases h2
              refine plain _ rfl h1 ?_ (by simp)
              intro _ _ _ _ r' hr'
              rw [hr] at hr'; cases hr'
              exact ⟨n1, n2⟩
        · cases h
      · rename_i hn
        refine plain _ rfl h ?_ (by simp)
        intro _ _ _ h0 r hr
        exact (hn r h0 hr).elim

theorem inv_init (e : CtxReq.Env) (id msg resp) : Inv e (init e id msg resp) := by
  refine ⟨?_, CtxReq.inv_init e, by simp [init], ?_⟩
  · exact Request.inv_reach (ok := fun _ => True) Request.rules11 (cs := []) (by simp [Request.init, Request.Q1, Request.deliveries]) (by simp) rfl
  · simp [Told, init, Request.init]

theorem cancel_state {e : CtxReq.Env} {s s' : CtxReq.St} {b : Bool} (h : CtxReq.step e s (.cancel b) = some s') : s'.cx.state ≠ 0 := by
  obtain ⟨cx, h1, rfl⟩ := map_some h
  simp only [Context.step] at h1
  split at h1 <;> cases h1
  · simp only; split <;> simp
  · assumption

theorem inv_step {e : CtxReq.Env} {s s' : St} {c : Choice} (i : Inv e s) (h : step e s c = some s') : Inv e s' := by
  cases kind h with
  | inner c' hc h ho hm =>
    obtain ⟨k1, k2, _⟩ := cx_mono i.c h
    refine ⟨by rw [ho]; exact i.o, CtxReq.inv_step i.c h, ?_, ?_⟩
    · rw [hm, ho]
      intro h1
      obtain ⟨h2, h3⟩ := i.mine h1
      exact ⟨by rw [k1 h2]; exact h2, h3.imp k2 id⟩
    · intro h1
      have : s.c.cx.state ≠ 0 := i.told (by simp only [Told, ho] at h1; exact h1)
      rw [k1 this]; exact this
  | plain c' hc h hs hm hn hb =>
    refine ⟨Request.inv_step Request.rules11 i.o trivial h, by rw [hs]; exact i.c, ?_, ?_⟩
    · rw [hm, hs]
      intro h1
      obtain ⟨h2, h3⟩ := i.mine h1
      refine ⟨h2, ?_⟩
      rcases h3 with h3 | ⟨t, h3, h4, h5⟩
      · exact .inl h3
      · by_cases hg : c' = .go t
        · have := hb t hg
          obtain ⟨op, acts, h4⟩ := h4
          simp only [blocked, h1, h5, h4, Bool.true_and, decide_true, Bool.and_true, decide_eq_false_iff_not, ne_eq, Decidable.not_not] at this
          exact .inl this
        · obtain ⟨k1, k2, k3⟩ := react_keep i.o h h3 h4 hg
          exact .inr ⟨t, k1, by rw [k2]; exact h4, by rw [k3]; exact h5⟩
    · rw [hs]
      intro h1
      apply Classical.byContradiction
      intro h2
      have old := fun k => h2 (i.told k)
      rcases h1 with ⟨r, h1, h3⟩ | ⟨r, h1, h3⟩
      · rcases notified_step h h1 with h4 | ⟨t, acts, h4, h5, h6⟩
        · exact old (.inl ⟨r, h4, h3⟩)
        · exact (hn t acts h4 h5 r h6).1 h3
      · rcases notified_step h h1 with h4 | ⟨t, acts, h4, h5, h6⟩
        · exact old (.inr ⟨r, h4, h3⟩)
        · exact (hn t acts h4 h5 r h6).2 h3
  | react t acts r b hc h h0 hr ha hcode hs hm =>
    obtain ⟨k1, k2, k3, _⟩ := enter_lock i.o h
    refine ⟨Request.inv_step Request.rules11 i.o trivial h, CtxReq.inv_step i.c hs, ?_, fun _ => cancel_state hs⟩
    intro _
    obtain ⟨op, k2⟩ := k2
    exact ⟨cancel_state hs, .inr ⟨t, k1, ⟨op, acts, k2⟩, by rw [k3]; exact h0⟩⟩

theorem inv_run {e : CtxReq.Env} {s s' : St} {cs : List Choice} (i : Inv e s) (h : run e s cs = some s') : Inv e s' := by
  induction cs generalizing s with
  | nil => cases h; exact i
  | cons c cs ih =>
    obtain ⟨s1, h1, h2⟩ := bind_some h
    exact ih (inv_step i h1) h2

/-- Nobody else cancels the context. -/
structure Alone (s : St) : Prop where
  mine : s.c.cx.state ≠ 0 → s.mine = true
  why : s.c.cx.state ≠ 0 → Told s Misc.RcCanceled ∨ Told s Misc.RcTimeout

theorem alone_step {e : CtxReq.Env} {s s' : St} {c : Choice} (i : Inv e s) (a : Alone s) (h : step e s c = some s')
    (hc : ∀ b, c ≠ .inner (.cancel b)) : Alone s' := by
  have keep : (∀ v ∈ s.o.d.log, v ∈ s'.o.d.log) → Told s Misc.RcCanceled ∨ Told s Misc.RcTimeout → Told s' Misc.RcCanceled ∨ Told s' Misc.RcTimeout := by
    intro hl h
    exact h.imp (fun ⟨r, h1, h2⟩ => ⟨r, hl _ h1, h2⟩) (fun ⟨r, h1, h2⟩ => ⟨r, hl _ h1, h2⟩)
  cases kind h with
  | inner c' hc' h ho hm =>
    obtain ⟨_, _, k3⟩ := cx_mono i.c h
    have := k3 (by intro b e1; subst e1; exact hc b hc')
    exact ⟨by rw [this, hm]; exact a.mine, by rw [this]; intro h1; exact keep (by rw [ho]; simp) (a.why h1)⟩
  | plain c' hc' h hs hm hn hb =>
    exact ⟨by rw [hs, hm]; exact a.mine, by rw [hs]; intro h1; exact keep (fun v hv => Request.log_mono _ _ _ h v hv) (a.why h1)⟩
  | react t acts r b hc' h h0 hr ha hcode hs hm =>
    obtain ⟨k1, k2, k3, k4⟩ := enter_lock i.o h
    refine ⟨fun _ => ?_, fun _ => ?_⟩
    · rw [hm]
      by_cases h1 : s.c.cx.state = 0
      · simp [h1]
      · simp [a.mine h1]
    · have := k4 0 r h0 hr
      cases b
      · exact .inl ⟨r, this, hcode⟩
      · exact .inr ⟨r, this, hcode⟩

theorem alone_run {e : CtxReq.Env} {s s' : St} {cs : List Choice} (i : Inv e s) (a : Alone s) (h : run e s cs = some s') (hl : Left cs) : Alone s' := by
  induction cs generalizing s with
  | nil => cases h; exact a
  | cons c cs ih =>
    obtain ⟨s1, h1, h2⟩ := bind_some h
    refine ih (inv_step i h1) (alone_step i a h1 ?_) h2 ?_
    · intro b e1; exact hl b (by simp [e1])
    · intro b hb; exact hl b (by simp [hb])

/-- The context on its own. -/
theorem live_run {e : CtxReq.Env} {s s' : St} {cs : List Choice} (l : CtxReq.Live e s.c) (hu : Unraced e s cs) (h : run e s cs = some s') :
    CtxReq.Live e s'.c := by
  induction cs generalizing s with
  | nil => cases h; exact l
  | cons c cs ih =>
    obtain ⟨s1, h1, h2⟩ := bind_some h
    have h3 := hu.2 s1 h1
    have hc : Context.Clear s1.c.cx := by cases cs with | nil => exact h3 | cons => exact h3.1
    refine ih ?_ h3 h2
    cases kind h1 with
    | inner c' hc' h ho hm => exact CtxReq.live_step l h hu.1 hc
    | plain c' hc' h hs hm hn hb => rw [hs]; exact l
    | react t acts r b hc' h h0 hr ha hcode hs hm => exact CtxReq.live_step l hs hu.1 hc

/-! ### Timeouts -/

/-- What the context does to the request when it is told of a timeout. -/
def TH (d : Data) (p : Pc) : Prop := ∀ r, d.chain.head? = some 0 → d.resp = some r → r.code = Misc.RcTimeout → match p with
  | .react _ acts => acts = [.resetPending, .claim] ∧ d.rs = .prepared ∨ (acts = [.claim] ∨ acts = []) ∧ (d.rs = .pending ∨ d.rs = .inFly)
  | .check _ => d.rs = .pending ∨ d.rs = .inFly
  | _ => True

theorem th_cold {d : Data} {p : Pc} (h : p.crit = false) : TH d p := by
  intro _ _ _ _
  cases p <;> simp [Pc.crit] at h <;> trivial

theorem th_own {d d' : Data} {t : Nat} {p p' : Pc} (ht : TH d p) (h : own d t p = some (d', p')) : TH d' p' := by
  unfold TH at ht ⊢
  unfold Request.own at h
  split at h
  case h_3 op =>
    simp only [Option.some.injEq] at h
    cases op <;> simp only [lockedStep] at h <;> grind
  case h_10 a acts => cases a <;> simp only [doAct, casPending, casInFly] at h <;> grind
  case h_13 a acts => cases a <;> simp only [doAct, casPending, casInFly] at h <;> grind
  all_goals grind [Data.note]

theorem th_step {e : CtxReq.Env} {s s' : St} {c : Choice} (i : Inv e s) (ht : ∀ t, TH s.o.d (s.o.pc t)) (h : step e s c = some s') :
    ∀ t, TH s'.o.d (s'.o.pc t) := by
  have cold : ∀ {u} v, (s.o.pc u).crit = true → v ≠ u → (s.o.pc v).crit = false := by
    intro u v hu hv
    cases hc : (s.o.pc v).crit with
    | false => rfl
    | true =>
      have h1 := i.o.mutex u hu
      rw [i.o.mutex v hc] at h1
      exact absurd (Option.some.inj h1) hv
  have put : ∀ {u q d v}, (s.o.pc u).crit = true → TH d q → TH d (setPc s.o.pc u q v) := by
    intro u q d v hu hq
    simp only [setPc]
    split
    · exact hq
    · rename_i hv; exact th_cold (cold v hu hv)
  have book : ∀ u acts, Request.step s.o (.bookmark u acts) = some s'.o →
      (∀ r, s.o.d.chain.head? = some 0 → s.o.d.resp = some r → r.code = Misc.RcTimeout → acts = [.resetPending, .claim]) →
      ∀ t, TH s'.o.d (s'.o.pc t) := by
    intro u acts h ha t
    obtain ⟨p, h1, h2⟩ := Request.own_eq h
    have hw : ∃ op, s.o.pc u = .walk op := by
      unfold enterBookmark at h1
      split at h1
      · rename_i e1; exact ⟨_, e1⟩
      · cases h1
    obtain ⟨op, hw⟩ := hw
    have hcr : (s.o.pc u).crit = true := by rw [hw]; rfl
    have h11 := (i.o.owner u (i.o.mutex u hcr)).2.1
    rw [hw] at h11 h1
    rw [h2]
    refine put hcr ?_
    simp only [enterBookmark] at h1
    simp only [Request.H1] at h11
    unfold TH
    split at h1 <;> grind [Data.note]
  cases kind h with
  | inner c' hc h ho hm => rw [ho]; exact ht
  | react u acts r b hc h h0 hr ha hcode hs hm =>
    refine book u acts h ?_
    intro r' _ hr' ht'
    rw [hr] at hr'; cases hr'
    rw [ha]; simp [reaction, ht']
  | plain c' hc h hs hm hn hb =>
    cases c' with
    | bookmark u acts =>
      refine book u acts h ?_
      intro r h0 hr ht'
      exact ((hn u acts rfl h0 r hr).2 ht').elim
    | call u op =>
      simp only [Request.step] at h
      split at h
      · rename_i hi
        intro t
        simp only [Option.some.injEq] at h
        rw [← h]
        simp only [setPc]
        split
        · exact th_cold rfl
        · exact ht t
      · cases h
    | responder u acts =>
      intro t
      obtain ⟨p, h1, h2⟩ := Request.own_eq h
      have hw : ∃ op, s.o.pc u = .walk op := by
        unfold enterResponder at h1
        split at h1
        · rename_i e1; exact ⟨_, e1⟩
        · cases h1
      obtain ⟨op, hw⟩ := hw
      rw [h2]
      refine put (by rw [hw]; rfl) ?_
      rw [hw] at h1
      simp only [enterResponder] at h1
      unfold TH
      split at h1 <;> grind [Data.note]
    | go u =>
      intro t
      simp only [Request.step] at h
      split at h
      · rename_i op hw
        have lk : s.o.lockStep u op = some s'.o → TH s'.o.d (s'.o.pc t) := by
          intro h
          simp only [Request.St.lockStep] at h
          split at h
          · simp only [Option.some.injEq] at h
            rw [← h]
            simp only [setPc]
            split
            · intro _ _ _ _; trivial
            · exact ht t
          · cases h
        have h3 := ht t
        cases op <;> simp only [Request.St.begin] at h
        · simp only [Option.some.injEq] at h
          rw [← h]
          simp only [setPc]
          split
          · exact th_cold rfl
          · unfold TH at h3 ⊢
            simp only [casPending, Data.note]
            grind
        · simp only [Option.some.injEq] at h
          rw [← h]
          simp only [setPc]
          split
          · exact th_cold rfl
          · unfold TH at h3 ⊢
            simp only [casInFly, Data.note]
            grind
        all_goals exact lk h
      · obtain ⟨p, h1, h2⟩ := Request.own_eq h
        rw [h2]
        exact put (Request.own_crit h1) (th_own (ht u) h1)

theorem th_run {e : CtxReq.Env} {s s' : St} {cs : List Choice} (i : Inv e s) (ht : ∀ t, TH s.o.d (s.o.pc t)) (h : run e s cs = some s') :
    ∀ t, TH s'.o.d (s'.o.pc t) := by
  induction cs generalizing s with
  | nil => cases h; exact ht
  | cons c cs ih =>
    obtain ⟨s1, h1, h2⟩ := bind_some h
    exact ih (inv_step i h1) (th_step i ht h1) h2

theorem own_passed {d t p d' p'} (h : own d t p = some (d', p')) (h0 : Ev.passed 0 ∉ d.log) (h1 : Ev.passed 0 ∈ d'.log) :
    (∃ op, p = .check op) ∧ d.chain.head? = some 0 ∧ d.rs = .prepared := by
  unfold Request.own at h
  split at h
  case h_3 op =>
    simp only [Option.some.injEq] at h
    cases op <;> simp only [lockedStep] at h <;> grind [Data.note]
  case h_10 a acts => cases a <;> simp only [doAct, casPending, casInFly] at h <;> grind
  case h_13 a acts => cases a <;> simp only [doAct, casPending, casInFly] at h <;> grind
  all_goals grind [Data.note]

/-- Where the context lets an answer pass. -/
theorem passed_step {r r' : Request.St} {c : Request.Choice} (h : Request.step r c = some r') (h0 : Ev.passed 0 ∉ r.d.log) (h1 : Ev.passed 0 ∈ r'.d.log) :
    (∃ t op, r.pc t = .check op) ∧ r.d.chain.head? = some 0 ∧ r.d.rs = .prepared := by
  cases Request.kinds h with
  | call t op _ hd _ => rw [hd] at h1; exact (h0 h1).elim
  | lock t op _ _ hd _ => rw [hd] at h1; exact (h0 h1).elim
  | pend t _ hd _ => rw [hd] at h1; simp only [Data.note, casPending] at h1; grind
  | fly t _ hd _ => rw [hd] at h1; simp only [Data.note, casInFly] at h1; grind
  | own t p h _ =>
    obtain ⟨⟨op, k1⟩, k2⟩ := own_passed h h0 h1
    exact ⟨⟨t, op, k1⟩, k2⟩
  | bookmark t acts p h _ =>
    unfold enterBookmark at h
    split at h
    · split at h <;> grind [Data.note]
    · cases h
  | responder t acts p h _ =>
    unfold enterResponder at h
    split at h
    · split at h <;> grind [Data.note]
    · cases h

end Verif.ReqCtx
