import Verif.Proofs.ReqCtx
import Verif.Props.CtxReq

/-! C111, C112: a served request and the context of its handler. -/
namespace Verif.ReqCtx
open Verif.CtxReq (map_some bind_some)
open Verif.Request (setPc)

theorem start {e : CtxReq.Env} {id msg resp cs s} (h : run e (init e id msg resp) cs = some s) : Inv e s := inv_run (inv_init e id msg resp) h

theorem start_alone {e : CtxReq.Env} {id msg resp cs s} (h : run e (init e id msg resp) cs = some s) (hl : Left cs) : Alone s :=
  alone_run (inv_init e id msg resp) ⟨by simp [init, CtxReq.init, Context.init], by simp [init, CtxReq.init, Context.init]⟩ h hl

/-! ### Deciding `Unraced` for given runs -/

def alongB (e : CtxReq.Env) : St → List Choice → Bool
  | s, [] => CtxReq.clearB s.c
  | s, c :: cs => CtxReq.clearB s.c && match step e s c with
    | none => true
    | some s => alongB e s cs

theorem unraced_of {e : CtxReq.Env} {s : St} {cs : List Choice} (i : Inv e s) (h : alongB e s cs = true) : Unraced e s cs := by
  induction cs generalizing s with
  | nil => exact CtxReq.clear_of i.c h
  | cons c cs ih =>
    simp only [alongB, Bool.and_eq_true] at h
    refine ⟨CtxReq.clear_of i.c h.1, fun s' hs => ih (inv_step i hs) ?_⟩
    have := h.2
    rw [hs] at this
    exact this

/-! ### Runs -/

/-- Canceler 1 is a child context (or a multi-request), the others are requests. -/
def mixed : CtxReq.Env := ⟨fun x => x ≠ 1, fun _ => 7, fun _ => 1⟩

/-- The request is sent, and served with a context. -/
def serve : List Choice := [.outer (.call 1 .setPending), .outer (.go 1), .outer (.call 1 (.claimWith 0)), .outer (.go 1), .outer (.go 1),
  .outer (.go 1), .outer (.go 1), .outer (.go 1)]

/-- Goroutine 2 fails the request, up to the reaction of the context. -/
def end2 (code : UInt32) : List Choice := [.outer (.call 2 (.fail code)), .outer (.go 2), .outer (.go 2), .outer (.go 2), .outer (.go 2),
  .outer (.bookmark 2 (reaction code))]

/-- `cancelAll` of a context with request 0 alone. -/
def clean : List Choice := [.inner (.canc true), .inner (.canc true), .inner (.canc true)] ++ (CtxReq.cancelling 0).map .inner ++
  [.inner (.canc true), .inner (.canc true), .inner (.canc true)]

def cancelRun : List Choice := serve ++ (CtxReq.make 0).map .inner ++ end2 Misc.RcCanceled ++ clean ++
  [.outer (.go 2), .outer (.go 2), .outer (.responder 2 []), .outer (.go 2), .outer (.go 2), .outer (.go 2)]

def expireRun : List Choice := serve ++ (CtxReq.make 0).map .inner ++ end2 Misc.RcTimeout ++ clean ++
  [.outer (.go 2), .outer (.go 2), .outer (.go 2), .outer (.go 2), .outer (.go 2)]

/-! ### C111 -/

/-- C111: when the context is told that its request was cancelled or that its time is over, the context is cancelled. -/
theorem C111_told {e : CtxReq.Env} {id msg resp cs s} (h : run e (init e id msg resp) cs = some s)
    (ht : Told s Misc.RcCanceled ∨ Told s Misc.RcTimeout) : s.c.cx.state ≠ 0 := (start h).told ht

/-- C111: nothing else cancels it (but its own `Cancel` and `Expire`). -/
theorem C111_cause {e : CtxReq.Env} {id msg resp cs s} (h : run e (init e id msg resp) cs = some s) (hl : Left cs)
    (hs : s.c.cx.state ≠ 0) : Told s Misc.RcCanceled ∨ Told s Misc.RcTimeout := (start_alone h hl).why hs

/-- C111, in part: when the call that cancelled the served request has returned, all requests made from the context are answered. -/
theorem C111_answered_partial {e : CtxReq.Env} {id msg resp cs s} (h : run e (init e id msg resp) cs = some s)
    (hu : Unraced e (init e id msg resp) cs) (hl : Left cs) (ht : Told s Misc.RcCanceled ∨ Told s Misc.RcTimeout) (hf : s.o.lock = none) :
    s.c.cx.cp = .exit ∧ ∀ x, e.isReq x = true → s.c.cx.ap x = .done true → CtxReq.Answered s.c x := by
  have i := start h
  have a := start_alone h hl
  have l := live_run (s := init e id msg resp) (CtxReq.live_init e) hu h
  have he : s.c.cx.cp = .exit := by
    rcases (i.mine (a.mine (i.told ht))).2 with h1 | ⟨t, h1, _⟩
    · exact h1
    · rw [hf] at h1; cases h1
  refine ⟨he, fun x hx ha => ?_⟩
  exact ((l.inv.mid x hx (by rw [ha]; trivial)).all.2 (CtxReq.exit_gone l he ha)).symm

/-- C111: the context lets an answer pass to the Responder only if it is not a timeout. -/
theorem C111_timeout_kept {e : CtxReq.Env} {id msg resp cs s s' c} {r : Request.Resp} (h : run e (init e id msg resp) cs = some s)
    (hs : step e s c = some s') (h0 : .passed 0 ∉ s.o.d.log) (h1 : .passed 0 ∈ s'.o.d.log) (hr : s.o.d.resp = some r) :
    r.code ≠ Misc.RcTimeout := by
  have i := start h
  have th := th_run (inv_init e id msg resp) (by intro t _ _ _ _; simp [init, Request.init]) h
  have key : ∀ c', Request.step s.o c' = some s'.o → r.code ≠ Misc.RcTimeout := by
    intro c' h2 hc
    obtain ⟨⟨t, op, h3⟩, h4, h5⟩ := passed_step h2 h0 h1
    have := th t r h4 hr hc
    rw [h3] at this
    simp only [h5] at this
    rcases this with k | k <;> cases k
  cases kind hs with
  | inner c' hc h2 ho hm => rw [ho] at h1; exact (h0 h1).elim
  | plain c' hc h2 _ _ _ _ => exact key _ h2
  | react t acts r' b hc h2 _ _ _ _ _ _ => exact key _ h2

/-- A cancelled request: request 0 of its context is answered, the context is cancelled, and the cancellation is delivered. -/
example : (run CtxReq.allReq (init CtxReq.allReq 9 1 none) cancelRun).any (fun s => s.o.lock = none ∧ s.c.cx.cp = .exit ∧
    s.c.cx.ap 0 = .done true ∧ (s.c.r 0).d.rs = .performed ∧ .notified 0 ⟨9, 1, Misc.RcCanceled, none⟩ ∈ s.o.d.log ∧
    s.o.d.rs = .performed ∧ .passed 0 ∈ s.o.d.log) = true := by rfl
/-- A request whose time is over: the same, but it is in flight again. -/
example : (run CtxReq.allReq (init CtxReq.allReq 9 1 none) expireRun).any (fun s => s.o.lock = none ∧ s.c.cx.cp = .exit ∧
    s.c.cx.ap 0 = .done true ∧ (s.c.r 0).d.rs = .performed ∧ .notified 0 ⟨9, 1, Misc.RcTimeout, none⟩ ∈ s.o.d.log ∧
    s.o.d.rs = .inFly ∧ s.o.d.chain = [0]) = true := by rfl
example : Unraced CtxReq.allReq (init CtxReq.allReq 9 1 none) cancelRun := unraced_of (inv_init _ _ _ _) (by rfl)
example : Left cancelRun := by unfold Left; decide +kernel

/-! ### C112 -/

/-- The goroutine that told the context waits for a canceler. -/
structure Stuck (s : St) (t x : Nat) : Prop where
  mine : s.mine = true
  out : Context.Outstanding s.c.cx x
  lock : s.o.lock = some t
  pc : ∃ op acts, s.o.pc t = .react op acts
  head : s.o.d.chain.head? = some 0

/-- A canceler that is no request is taken out by its owner only. -/
theorem out_step {e : CtxReq.Env} {s s' : CtxReq.St} {c : CtxReq.Choice} {x : Nat} (h : CtxReq.step e s c = some s') (hx : e.isReq x = false)
    (hc : c ≠ .remove x) (ho : Context.Outstanding s.cx x) : Context.Outstanding s'.cx x := by
  have keep : ∀ d cx, Context.step s.cx d = some cx → d ≠ .remove x → Context.Outstanding cx x := by
    intro d cx h1 hd
    obtain ⟨ha, hg⟩ := ho
    cases d with
    | adder y =>
      by_cases hy : x = y
      · subst hy; simp [Context.step, Context.stepAdder, ha] at h1
      · obtain ⟨_, _, h3, h4, h5⟩ := CtxReq.adder_eq h1
        exact ⟨by rw [(h4 x hy).1]; exact ha, by rw [h3]; exact hg⟩
    | remove y =>
      obtain ⟨h2, h3, _⟩ := CtxReq.remove_eq h1
      refine ⟨by rw [h2]; exact ha, ?_⟩
      rw [h3]
      simp only [Context.set]
      split
      · rename_i hy; subst hy; exact (hd rfl).elim
      · exact hg
    | canc =>
      simp only [Context.step, Context.stepCancel] at h1
      (repeat' split at h1) <;> cases h1 <;> exact ⟨ha, hg⟩
    | _ =>
      simp only [Context.step] at h1
      (repeat' split at h1) <;> cases h1 <;> first | exact ⟨ha, hg⟩ | (refine ⟨?_, hg⟩; simp only [Context.set]; grind)
  rcases CtxReq.cx_step_kind h with h1 | ⟨d, h1, _, h2⟩
  · rw [h1]; exact ho
  · refine keep d _ h1 ?_
    rintro rfl
    rcases h2 x rfl with h3 | h3
    · exact hc h3
    · rw [hx] at h3; cases h3

/-- Nothing but the mutex gets a goroutine further that waits for it. -/
theorem wait_step {r r' : Request.St} {c : Request.Choice} {t h : Nat} {code : UInt32} {body : Option (List UInt8)}
    (hs : Request.step r c = some r') (hl : r.lock = some t) (hw : r.pc h = .wait (.respond code body)) :
    r'.pc h = .wait (.respond code body) := by
  have put : ∀ u q, u ≠ h → setPc r.pc u q h = .wait (.respond code body) := by
    intro u q hu
    simp only [setPc, if_neg (Ne.symm hu)]; exact hw
  cases Request.kinds hs with
  | call u op hp _ hq => rw [hq]; exact put _ _ (by rintro rfl; rw [hw] at hp; cases hp)
  | lock u op _ hn _ _ => rw [hl] at hn; cases hn
  | pend u hp _ hq => rw [hq]; exact put _ _ (by rintro rfl; rw [hw] at hp; cases hp)
  | fly u hp _ hq => rw [hq]; exact put _ _ (by rintro rfl; rw [hw] at hp; cases hp)
  | own u p hp hq => rw [hq]; exact put _ _ (by rintro rfl; rw [hw] at hp; cases hp)
  | bookmark u acts p hp hq => rw [hq]; exact put _ _ (by rintro rfl; rw [hw] at hp; cases hp)
  | responder u acts p hp hq => rw [hq]; exact put _ _ (by rintro rfl; rw [hw] at hp; cases hp)

theorem not_exit {e : CtxReq.Env} {s : CtxReq.St} {x : Nat} (l : CtxReq.Live e s) (ho : Context.Outstanding s.cx x) : s.cx.cp ≠ .exit := by
  intro he
  have := CtxReq.exit_gone l he ho.1
  rw [ho.2] at this; cases this

theorem stuck_step {e : CtxReq.Env} {s s' : St} {c : Choice} {t x h : Nat} {code body} (i : Inv e s) (l : CtxReq.Live e s.c) (k : Stuck s t x)
    (hx : e.isReq x = false) (hw : s.o.pc h = .wait (.respond code body)) (hs : step e s c = some s') (hc : c ≠ .inner (.remove x)) :
    Stuck s' t x ∧ s'.o.pc h = .wait (.respond code body) := by
  have outer : ∀ c', Request.step s.o c' = some s'.o → c' ≠ .go t → s'.o.lock = some t ∧ (∃ op acts, s'.o.pc t = .react op acts) ∧
      s'.o.d.chain.head? = some 0 ∧ s'.o.pc h = .wait (.respond code body) := by
    intro c' h1 hg
    obtain ⟨k1, k2, k3⟩ := react_keep i.o h1 k.lock k.pc hg
    exact ⟨k1, by rw [k2]; exact k.pc, by rw [k3]; exact k.head, wait_step h1 k.lock hw⟩
  cases kind hs with
  | inner c' hc' h1 ho hm =>
    refine ⟨⟨by rw [hm]; exact k.mine, out_step h1 hx ?_ k.out, by rw [ho]; exact k.lock, by rw [ho]; exact k.pc, by rw [ho]; exact k.head⟩,
      by rw [ho]; exact hw⟩
    rintro rfl; exact hc hc'
  | plain c' hc' h1 hs' hm hn hb =>
    obtain ⟨k1, k2, k3, k4⟩ := outer c' h1 (by
      intro hg
      have := hb t hg
      obtain ⟨op, acts, hp⟩ := k.pc
      simp [blocked, k.mine, k.head, hp, not_exit l k.out] at this)
    exact ⟨⟨by rw [hm]; exact k.mine, by rw [hs']; exact k.out, k1, k2, k3⟩, k4⟩
  | react u acts r b hc' h1 h0 hr ha hcode hs' hm =>
    obtain ⟨k1, k2, k3, k4⟩ := outer _ h1 (by simp)
    exact ⟨⟨by rw [hm, k.mine]; rfl, out_step hs' hx (by simp) k.out, k1, k2, k3⟩, k4⟩

theorem stuck_run {e : CtxReq.Env} {s s' : St} {cs : List Choice} {t x h : Nat} {code body} (i : Inv e s) (l : CtxReq.Live e s.c) (k : Stuck s t x)
    (hx : e.isReq x = false) (hw : s.o.pc h = .wait (.respond code body)) (hs : run e s cs = some s') (hu : Unraced e s cs)
    (hc : .inner (.remove x) ∉ cs) : CtxReq.Live e s'.c ∧ Stuck s' t x ∧ s'.o.pc h = .wait (.respond code body) := by
  induction cs generalizing s with
  | nil => cases hs; exact ⟨l, k, hw⟩
  | cons c cs ih =>
    obtain ⟨s1, h1, h2⟩ := bind_some hs
    have h3 := hu.2 s1 h1
    have hcl : Context.Clear s1.c.cx := by cases cs with | nil => exact h3 | cons => exact h3.1
    obtain ⟨k1, k2⟩ := stuck_step i l k hx hw h1 (by rintro rfl; exact hc (by simp))
    exact ih (inv_step i h1) (live_run (cs := [c]) l ⟨hu.1, fun s2 h4 => by rw [h1] at h4; cases h4; exact hcl⟩ (by simp only [run, h1]; rfl))
      k1 k2 h2 h3 (fun hm => hc (by simp [hm]))

/-- C112: while a child context or a multi-request made from the context is outstanding, whoever cancelled the request stays inside the
context, with the mutex of the request. -/
theorem C112_mutex_held {e : CtxReq.Env} {id msg resp cs s x} (h : run e (init e id msg resp) cs = some s)
    (hu : Unraced e (init e id msg resp) cs) (hl : Left cs) (ht : Told s Misc.RcCanceled ∨ Told s Misc.RcTimeout)
    (ho : Context.Outstanding s.c.cx x) : s.o.lock ≠ none ∧ s.c.cx.cp ≠ .exit := by
  have i := start h
  have l := live_run (s := init e id msg resp) (CtxReq.live_init e) hu h
  refine ⟨?_, not_exit l ho⟩
  rcases (i.mine ((start_alone h hl).mine (i.told ht))).2 with h1 | ⟨t, h1, _⟩
  · exact (not_exit l ho h1).elim
  · rw [h1]; simp

/-- C112 does not hold: if the handler (goroutine `h`) is answering the request while it has a child context or a multi-request `x` that it
closes afterwards (`defer child.Done()`), and the request has been cancelled, the answering never returns, whatever all others do. -/
theorem C112_deadlock_violated {e : CtxReq.Env} {id msg resp cs s x h code body ds s'} (hr : run e (init e id msg resp) cs = some s)
    (hu : Unraced e (init e id msg resp) cs) (hl : Left cs) (ht : Told s Misc.RcCanceled ∨ Told s Misc.RcTimeout)
    (hx : e.isReq x = false) (ho : Context.Outstanding s.c.cx x) (hw : s.o.pc h = .wait (.respond code body))
    (hd : run e s ds = some s') (hu' : Unraced e s ds) (hn : .inner (.remove x) ∉ ds) :
    s'.o.pc h = .wait (.respond code body) ∧ s'.o.lock ≠ none ∧ s'.c.cx.cp ≠ .exit := by
  have i := start hr
  have l := live_run (s := init e id msg resp) (CtxReq.live_init e) hu hr
  have hm := (start_alone hr hl).mine (i.told ht)
  rcases (i.mine hm).2 with h1 | ⟨t, h1, h2, h3⟩
  · exact (not_exit l ho h1).elim
  · obtain ⟨l', k, hw'⟩ := stuck_run i l ⟨hm, ho, h1, h2, h3⟩ hx hw hd hu' hn
    exact ⟨hw', by rw [k.lock]; simp, not_exit l' k.out⟩

/-- The handler makes child 1 and request 0; the request is cancelled by goroutine 2 while the handler begins to answer it. -/
def deadRun : List Choice := serve ++ (CtxReq.make 0).map .inner ++ (CtxReq.make 1).map .inner ++ end2 Misc.RcCanceled ++
  [.outer (.call 1 (.respond 0 none))]

example : (run mixed (init mixed 9 1 none) deadRun).any (fun s => s.c.cx.ap 1 = .done true ∧ s.c.cx.gone 1 = false ∧
    s.o.pc 1 = .wait (.respond 0 none) ∧ .notified 0 ⟨9, 1, Misc.RcCanceled, none⟩ ∈ s.o.d.log) = true := by rfl
example : Unraced mixed (init mixed 9 1 none) deadRun := unraced_of (inv_init _ _ _ _) (by rfl)
example : Left deadRun := by unfold Left; decide +kernel

theorem inner_lift {e : CtxReq.Env} {s : St} {ds : List CtxReq.Choice} {c : CtxReq.St} (h : CtxReq.run e s.c ds = some c) :
    run e s (ds.map .inner) = some { s with c } := by
  induction ds generalizing s with
  | nil => cases h; rfl
  | cons d ds ih =>
    obtain ⟨c1, h1, h2⟩ := bind_some h
    have := ih (s := { s with c := c1 }) h2
    simp only [List.map_cons, run, step, St.withC, h1]
    exact this

theorem prog_run {e : CtxReq.Env} {s s' : St} {cs : List Choice} (p : CtxReq.Prog e s.c) (h : run e s cs = some s') : CtxReq.Prog e s'.c := by
  induction cs generalizing s with
  | nil => cases h; exact p
  | cons c cs ih =>
    obtain ⟨s1, h1, h2⟩ := bind_some h
    refine ih ?_ h2
    cases kind h1 with
    | inner c' hc' h ho hm => exact CtxReq.prog_step p h
    | plain c' hc' h hs hm hn hb => rw [hs]; exact p
    | react t acts r b hc' h h0 hr ha hcode hs hm => exact CtxReq.prog_step p hs

theorem unraced_last {e : CtxReq.Env} {s s' : St} {cs : List Choice} (ha : Unraced e s cs) (h : run e s cs = some s') : Context.Clear s'.c.cx := by
  induction cs generalizing s with
  | nil => cases h; exact ha
  | cons c cs ih =>
    obtain ⟨s1, h1, h2⟩ := bind_some h
    exact ih (ha.2 s1 h1) h2

/-- C112, in part: with requests only, whoever cancels the request can always go on, and leaves the context; the mutex of the request is
not needed for it. -/
theorem C112_returns_partial {e : CtxReq.Env} {id msg resp cs s t} (h : run e (init e id msg resp) cs = some s)
    (hu : Unraced e (init e id msg resp) cs) (hx : ∀ x, e.isReq x = true) (hon : ∀ x, CtxReq.Once s.c x)
    (hq : ∀ x t, CtxReq.Quiet ((s.c.r x).pc t)) (hc : s.c.cx.state ≠ 0) (hp : ∃ op acts, s.o.pc t = .react op acts) :
    ∃ (ds : List CtxReq.Choice) (s' s'' : St), (∀ c ∈ ds, CtxReq.Inner c) ∧ run e s (ds.map .inner) = some s' ∧ s'.c.cx.cp = .exit ∧
      step e s' (.outer (.go t)) = some s'' := by
  have p := prog_run (s := init e id msg resp) (CtxReq.prog_init e) h
  have l := live_run (s := init e id msg resp) (CtxReq.live_init e) hu h
  have hcl := unraced_last hu h
  obtain ⟨ds, c, h1, h2, h3⟩ := CtxReq.can_end p l hx hcl (fun x => ⟨hq x, hon x⟩) (l.can.some hc)
  obtain ⟨op, acts, hp⟩ := hp
  have hb : blocked { s with c } t = false := by simp [blocked, h3]
  have hg : ∃ o, Request.step s.o (.go t) = some o := by
    simp only [Request.step, hp]
    cases acts with
    | nil => exact ⟨_, rfl⟩
    | cons a acts =>
      simp only [Request.own]
      split <;> exact ⟨_, rfl⟩
  obtain ⟨o, hg⟩ := hg
  refine ⟨ds, { s with c }, { s with c, o }, h1, inner_lift h2, h3, ?_⟩
  simp [step, hb, St.withO, hg]

/-- Request 0 is outstanding while the served request is cancelled. -/
example : (run CtxReq.allReq (init CtxReq.allReq 9 1 none) (serve ++ (CtxReq.make 0).map .inner ++ end2 Misc.RcCanceled)).any
    (fun s => s.c.cx.state = 1 ∧ s.o.pc 2 = .react (.fail Misc.RcCanceled) [] ∧ blocked s 2 = true ∧ .reset ∉ (s.c.r 0).d.log ∧
      s.c.cx.gone 0 = false) = true := by rfl

end Verif.ReqCtx
