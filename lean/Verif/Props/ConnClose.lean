import Verif.Model.ConnClose
/-!
Theorems about the end of a client connection (C87, C88).
-/
namespace Verif.ConnClose

def Reach (s : St) : Prop := ∃ cs, run init cs = some s

theorem any_some {o : Option St} {p : St → Prop} [DecidablePred p] (h : (o.any fun s => p s) = true) :
    ∃ s, o = some s ∧ p s := by
  cases o with
  | none => cases h
  | some s => exact ⟨s, rfl, of_decide_eq_true h⟩

/-- What the connection does of itself, once its write loop does not take requests any more. -/
def own : List Choice := [.flush true, .tellW, .read, .look, .tellE, .readErr, .tellR, .recv, .eval]

/-- Nothing more happens unless the peer does something. -/
def Quiet (s : St) : Prop := ∀ c ∈ own, step s c = none

/-- The number of slots taken for requests that never got onto the wire. -/
def spare (s : St) : Nat :=
  (if s.held then 1 else 0) + (if s.lost then 1 else 0) + (if s.wp = .claimed then 1 else 0)

structure Inv (s : St) : Prop where
  got : s.got = s.written + spare s
  put : s.put + s.wire = s.sent
  sent : s.sent ≤ s.written
  lost : s.lost = true → s.wp = .notify ∨ s.wp = .ended
  toldW : s.wp = .ended → s.stW = true ∨ .writeClosed ∈ s.queue
  notYet : s.wp ≠ .ended → s.stW = false ∧ .writeClosed ∉ s.queue
  toldR : s.rp = .ended → s.stR = true ∨ .readClosed ∈ s.queue
  notYetR : s.rp ≠ .ended → s.stR = false ∧ .readClosed ∉ s.queue
  both : s.stW = true → s.stR = true → s.cp = .ended ∨ s.cp = .eval
  wake : s.stW = true → s.got ≤ s.put → s.called = false →
    s.queue ≠ [] ∨ s.rp = .check ∨ s.rp = .empty ∨ s.rp = .notify ∨ s.cp = .eval ∨ s.cp = .ended
  fin : s.cp = .ended → s.stW = true ∧ s.stR = true
  calledIf : s.called = true → s.stW = true ∧ s.got ≤ s.put
  cause : s.rp = .notify ∨ s.rp = .ended → s.called = true ∨ s.broken = true

theorem inv_init : Inv init := by
  constructor <;> simp [init, spare]

theorem inv_step {s s' : St} {c : Choice} (h : Inv s) (hs : step s c = some s') : Inv s' := by
  obtain ⟨h1, h2, h3, h4, h5, h6, h7, h8, h9, h10, h11, h12, h13⟩ := h
  unfold spare at h1
  cases c <;> simp only [step] at hs
  case recv =>
    split at hs
    · next a q hq =>
      split at hs <;> cases hs
      cases a <;> (constructor <;> simp only [act, spare] <;> grind)
    · cases hs
  case take p =>
    split at hs
    · cases p <;> simp only [if_true, Bool.false_eq_true, if_false] at hs <;> cases hs <;> cases hh : s.held <;>
        simp only [if_true, Bool.false_eq_true, if_false] <;> (constructor <;> simp only [spare] <;> grind)
    · cases hs
  case eval =>
    split at hs
    · next hc =>
      by_cases hq : s.stW = true ∧ s.called = false ∧ s.got - s.put = 0
      · simp only [hq, and_self, if_true] at hs
        split at hs <;> cases hs <;> (constructor <;> simp only [spare] <;> grind)
      · simp only [if_neg hq] at hs
        split at hs <;> cases hs <;> (constructor <;> simp only [spare] <;> grind)
    · cases hs
  all_goals
    (repeat' split at hs) <;> simp only [Option.some.injEq, reduceCtorEq] at hs <;> subst hs <;>
      (constructor <;> simp only [spare, ne_eq, List.append_eq_nil_iff, List.cons_ne_self, List.mem_append, List.mem_singleton] <;> grind)

theorem inv_run {cs : List Choice} : ∀ {s s' : St}, Inv s → run s cs = some s' → Inv s' := by
  induction cs with
  | nil => intro s s' h hr; cases hr; exact h
  | cons c cs ih =>
    intro s s' h hr
    unfold run at hr
    split at hr
    · cases hr
    · next s1 hs => exact ih (inv_step h hs) hr

theorem inv_reach {s : St} (h : Reach s) : Inv s := h.elim fun _ hr => inv_run inv_init hr

/-- What a quiet state looks like. -/
theorem quiet {s : St} (hi : Inv s) (hq : Quiet s) (hw : s.wp ≠ .loop) (hc : s.wp ≠ .claimed) :
    s.cp ≠ .eval ∧ (s.cp = .ended ∨ (s.queue = [] ∧ s.wp = .ended ∧ s.stW = true ∧ s.rp = .read ∧ s.wire = 0 ∧ s.called = false ∧
      s.broken = false)) := by
  simp only [Quiet, own, List.mem_cons, List.not_mem_nil, or_false, forall_eq_or_imp, forall_eq] at hq
  obtain ⟨q1, q2, q3, q4, q5, q6, q7, q8, q9⟩ := hq
  have he : s.cp ≠ .eval := by
    intro he
    simp only [step, he, if_true] at q9
    split at q9 <;> split at q9 <;> cases q9
  refine ⟨he, ?_⟩
  by_cases hd : s.cp = .ended
  · exact .inl hd
  have hr : s.cp = .recv := by cases h : s.cp <;> simp_all
  have hn : s.queue = [] := by
    cases h : s.queue with
    | nil => rfl
    | cons a q => simp [step, h, hr] at q8
  refine .inr ⟨hn, ?_⟩
  have hwe : s.wp = .ended := by
    cases h : s.wp <;> simp_all [step]
  have hst : s.stW = true := by
    have := hi.toldW hwe
    simp_all
  have hrp : s.rp = .read := by
    cases h : s.rp
    · rfl
    · simp only [step, h, if_true] at q4
      split at q4 <;> cases q4
    · simp [step, h, hn] at q5
    · simp [step, h, hn] at q7
    · have h1 := hi.toldR h
      have h2 := hi.both hst
      simp_all
  refine ⟨hwe, hst, hrp, ?_, ?_⟩
  · refine Classical.byContradiction fun h => ?_
    simp only [step, hrp, true_and] at q3
    rw [if_pos (by omega)] at q3
    cases q3
  · simp only [step, hrp, true_and] at q6
    split at q6
    · cases q6
    · next h => simp only [not_or, Bool.not_eq_true] at h; exact h

/-! ### C87: a stopped connection is closed when everything is answered -/

/-- The write loop has ended and the peer has answered everything that was written: if the write loop did not keep an id and no write
failed, then the connection does not wait for anything any more before its control loop has ended - whether the peer closes
the connection or not. -/
theorem C87_closes_partial {s : St} (h : Reach s) (hw : s.wp = .closing ∨ s.wp = .notify ∨ s.wp = .ended) (ha : s.sent = s.written)
    (hh : s.held = false) (hl : s.lost = false) (hq : Quiet s) : s.cp = .ended := by
  have hi := inv_reach h
  have hw1 : s.wp ≠ .loop ∧ s.wp ≠ .claimed := by rcases hw with h | h | h <;> simp [h]
  obtain ⟨h1, h2 | ⟨h2, h3, h4, h5, h6, h7, h8⟩⟩ := quiet hi hq hw1.1 hw1.2
  · exact h2
  · have hg := hi.got
    have hp := hi.put
    simp only [spare, hh, hl, h3, reduceCtorEq, Bool.false_eq_true, if_false] at hg
    have := hi.wake h4 (by omega) h7
    simp_all

/-- The condition is exact: if an id was kept or a write failed, the read side is not closed until the peer closes the connection. -/
theorem C87_exact {s : St} (h : Reach s) (hb : s.broken = false) (hk : s.held = true ∨ s.lost = true) :
    s.called = false ∧ s.cp ≠ .ended := by
  have hi := inv_reach h
  have hg := hi.got
  have hp := hi.put
  have hs := hi.sent
  have hc : s.called = false := by
    cases hc : s.called with
    | false => rfl
    | true =>
      have := (hi.calledIf hc).2
      simp only [spare] at hg
      rcases hk with hk | hk <;> rw [hk] at hg <;> simp only [if_true] at hg <;> omega
  refine ⟨hc, fun he => ?_⟩
  have hr : s.rp = .ended := by
    refine Classical.byContradiction fun hr => ?_
    have h1 := (hi.notYetR hr).1
    have h2 := (hi.fin he).2
    simp_all
  have := hi.cause (.inr hr)
  simp_all

/-- How many steps the connection makes of itself at most. -/
def budget (s : St) : Nat :=
  (match s.wp with | .closing => 4 | .notify => 3 | _ => 0) +
  (match s.rp with | .check => 8 | .empty => 7 | .notify => 3 | .read => 4 | .ended => 0) + 5 * s.wire +
  2 * s.queue.length + (match s.cp with | .eval => 1 | _ => 0)

theorem budget_step {s s' : St} {c : Choice} (hc : c ∈ own) (hs : step s c = some s') : budget s' < budget s := by
  simp only [own, List.mem_cons, List.not_mem_nil, or_false] at hc
  rcases hc with rfl | rfl | rfl | rfl | rfl | rfl | rfl | rfl | rfl <;> simp only [step] at hs
  case inr.inr.inr.inr.inr.inr.inr.inl =>
    split at hs
    · next a q hq =>
      split at hs
      · next hr => cases hs; cases a <;> simp [budget, act, hq, hr] <;> omega
      · cases hs
    · cases hs
  case inr.inr.inr.inr.inr.inr.inr.inr =>
    split at hs
    · next hr =>
      split at hs <;> split at hs <;> cases hs <;> simp [budget, hr]
    · cases hs
  all_goals
    (repeat' split at hs) <;> simp only [Option.some.injEq, reduceCtorEq] at hs <;> subst hs <;> simp_all [budget] <;> omega

/-- The connection's own steps come to an end, in whatever order they are made. -/
theorem C87_ends {cs : List Choice} : ∀ {s s' : St}, (∀ c ∈ cs, c ∈ own) → run s cs = some s' → cs.length ≤ budget s := by
  induction cs with
  | nil => intro s s' _ _; simp
  | cons c cs ih =>
    intro s s' hc hr
    unfold run at hr
    split at hr
    · cases hr
    · next s1 hs =>
      have h1 := ih (fun d hd => hc d (by simp [hd])) hr
      have h2 := budget_step (hc c (by simp)) hs
      simp only [List.length_cons]
      omega

/-- Once the write loop does not take requests any more, a kept id stays kept and a failed write stays failed. -/
theorem stays {s s' : St} {c : Choice} (hs : step s c = some s') (hw : s.wp ≠ .loop ∧ s.wp ≠ .claimed) (hc : c ≠ .hangUp) :
    (s'.wp ≠ .loop ∧ s'.wp ≠ .claimed) ∧ s'.held = s.held ∧ s'.lost = s.lost ∧ s'.broken = s.broken := by
  cases c <;> simp only [step] at hs
  case recv =>
    split at hs
    · next a q hq =>
      split at hs <;> cases hs
      cases a <;> exact ⟨hw, rfl, rfl, rfl⟩
    · cases hs
  case eval =>
    split at hs
    · split at hs <;> split at hs <;> cases hs <;> exact ⟨hw, rfl, rfl, rfl⟩
    · cases hs
  all_goals
    (repeat' split at hs) <;> simp only [Option.some.injEq, reduceCtorEq] at hs <;> subst hs <;> simp_all

theorem stuck {ds : List Choice} : ∀ {s s' : St}, Reach s → s.broken = false → (s.held = true ∨ s.lost = true) →
    s.wp ≠ .loop ∧ s.wp ≠ .claimed → .hangUp ∉ ds → run s ds = some s' → s'.called = false ∧ s'.cp ≠ .ended := by
  induction ds with
  | nil => intro s s' hr hb hk _ _ h; cases h; exact C87_exact hr hb hk
  | cons d ds ih =>
    intro s s' hr hb hk hw hd h
    unfold run at h
    split at h
    · cases h
    · next s1 hs =>
      obtain ⟨h1, h2, h3, h4⟩ := stays hs hw fun e => hd (by simp [e])
      refine ih ?_ (h4.trans hb) (by rw [h2, h3]; exact hk) h1 (fun e => hd (by simp [e])) h
      obtain ⟨cs, hr⟩ := hr
      refine ⟨cs ++ [d], ?_⟩
      have : ∀ (cs : List Choice) (s0 : St), run s0 cs = some s → run s0 (cs ++ [d]) = some s1 := by
        intro cs
        induction cs with
        | nil => intro s0 h0; cases h0; simp [run, hs]
        | cons e es ih =>
          intro s0 h0
          unfold run at h0
          rw [List.cons_append]
          unfold run
          split at h0
          · cases h0
          · next s2 h2 => exact ih s2 h0
      exact this cs init hr

/-- A request is answered, another one was cancelled before the write loop received it, then the connection is stopped. Everything that was
written is answered; but the id taken for the cancelled request counts as outstanding, and the read side is never closed, whatever happens,
unless the peer hangs up. -/
theorem C87_kept_id_violated : ∃ cs s, run init cs = some s ∧ s.shut = true ∧ s.sent = s.written ∧ s.put = s.written ∧ s.lost = false ∧
    ∀ ds s', .hangUp ∉ ds → run s ds = some s' → s'.called = false ∧ s'.cp ≠ .ended := by
  have h : (run init [.take true, .write true, .respond, .read, .look, .take false, .stop, .flush true, .tellW, .recv, .eval]).any
      (fun s => s.shut = true ∧ s.sent = s.written ∧ s.put = s.written ∧ s.lost = false ∧ s.broken = false ∧ s.held = true ∧
        s.wp = .ended) = true := by decide +kernel
  obtain ⟨s, h1, h2, h3, h4, h5, h6, h7, h8⟩ := any_some h
  exact ⟨_, s, h1, h2, h3, h4, h5, fun ds s' hd hr => stuck ⟨_, h1⟩ h6 (.inl h7) (by simp [h8]) hd hr⟩

/-- Two requests, the second of which is answered after the connection was stopped. -/
def usual : List Choice :=
  [.take true, .write true, .respond, .take false, .take true, .read, .look, .write true, .stop, .flush true, .tellW, .recv, .eval, .respond,
    .read, .look, .tellE, .recv, .eval, .readErr, .tellR, .recv, .eval]

example : (run init usual).any (fun s => s.cp = .ended ∧ s.sent = 2 ∧ s.written = 2 ∧ s.held = false ∧ s.lost = false ∧ s.broken = false ∧
    s.called = true) = true := by decide +kernel

/-! ### C88: a connection that cannot write is given up -/

/-- When writing a request fails, that request is not answered, nor is any other which the peer leaves unanswered: the
control loop, which would answer them, does not end unless the peer hangs up or reading times out. -/
theorem C88_write_error_violated : ∃ cs s, run init cs = some s ∧ s.lost = true ∧ s.got = 1 ∧ s.put = 0 ∧
    ∀ ds s', .hangUp ∉ ds → run s ds = some s' → s'.called = false ∧ s'.cp ≠ .ended := by
  have h : (run init [.take true, .write false]).any (fun s => s.lost = true ∧ s.got = 1 ∧ s.put = 0 ∧ s.broken = false ∧
      s.wp = .notify) = true := by decide +kernel
  obtain ⟨s, h1, h2, h3, h4, h5, h6⟩ := any_some h
  exact ⟨_, s, h1, h2, h3, h4, fun ds s' hd hr => stuck ⟨_, h1⟩ h5 (.inr h2) (by simp [h6]) hd hr⟩

/-- If the peer hangs up, or reading times out, the connection is given up. -/
theorem C88_hang_up_partial {s : St} (h : Reach s) (hw : s.wp = .closing ∨ s.wp = .notify ∨ s.wp = .ended) (hb : s.broken = true)
    (hq : Quiet s) : s.cp = .ended := by
  have hw1 : s.wp ≠ .loop ∧ s.wp ≠ .claimed := by rcases hw with h | h | h <;> simp [h]
  obtain ⟨h1, h2 | ⟨h2, h3, h4, h5, h6, h7, h8⟩⟩ := quiet (inv_reach h) hq hw1.1 hw1.2
  · exact h2
  · rw [hb] at h8; cases h8

example : (run init [.take true, .write false, .hangUp, .tellW, .readErr, .tellR, .recv, .eval, .recv, .eval]).any
    (fun s => s.cp = .ended ∧ s.lost = true ∧ s.broken = true) = true := by decide +kernel

end Verif.ConnClose
