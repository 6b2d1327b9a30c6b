import Verif.Proofs.CtxReq
import Verif.Proofs.CtxProgress

/-! C108, C109, C110: requests made from a context. -/
namespace Verif.CtxReq

/-! ### Deciding `Unraced` for given runs -/

def clearB (s : St) : Bool := s.cx.state = 0 || match s.cx.lock with
  | none => true
  | some x => s.cx.ap x ≠ .reg

def alongB (e : Env) : St → List Choice → Bool
  | s, [] => clearB s
  | s, c :: cs => clearB s && match step e s c with
    | none => true
    | some s => alongB e s cs

theorem clear_of {e : Env} {s : St} (i : Inv e s) (h : clearB s = true) : Context.Clear s.cx := by
  intro h0 x hx
  have hl := (i.cx.lock x).2 (.inr hx)
  simp [clearB, h0, hl, hx] at h

theorem along_of {e : Env} {s : St} {cs : List Choice} (i : Inv e s) (h : alongB e s cs = true) :
    Along (fun s => Context.Clear s.cx) e s cs := by
  induction cs generalizing s with
  | nil => exact clear_of i h
  | cons c cs ih =>
    simp only [alongB, Bool.and_eq_true] at h
    refine ⟨clear_of i h.1, fun s' hs => ih (inv_step i hs) ?_⟩
    have := h.2
    rw [hs] at this
    exact this

theorem unraced_of {e : Env} {cs : List Choice} (h : alongB e (init e) cs = true) : Unraced e cs := along_of (inv_init e) h

/-! ### Runs -/

def allReq : Env := ⟨fun _ => true, fun _ => 7, fun _ => 1⟩

/-- `NewRequest` on a live context. -/
def make (x : Nat) : List Choice := [.add x] ++ List.replicate 4 (.adder x)

/-- Goroutine `t` fails request `x`, up to the reaction of the context's bookmark. -/
def failing (t x : Nat) : List Choice :=
  [.req x (.call t (.fail 1)), .req x (.go t), .req x (.go t), .req x (.go t), .req x (.go t), .req x (.bookmark t [])]

/-- The rest of it: the context forgets the request, the response is delivered. -/
def failed (t x : Nat) : List Choice :=
  [.req x (.go t), .req x (.go t), .req x (.responder t []), .req x (.go t), .req x (.go t), .req x (.go t)]

/-- `cancelAll` cancels request `x`. -/
def cancelling (x : Nat) : List Choice :=
  [.canc true, .req x (.go 0), .req x (.go 0), .req x (.go 0), .req x (.go 0), .req x (.bookmark 0 [])] ++ failed 0 x ++ [.canc true]

/-! ### C108 -/

theorem exit_gone {e : Env} {s : St} {x : Nat} (l : Live e s) (he : s.cx.cp = .exit) (ha : s.cx.ap x = .done true) : s.cx.gone x = true := by
  have hm := l.can.exit he
  cases hg : s.cx.gone x with
  | true => rfl
  | false =>
    have := (l.inv.cx.stored x).2 ⟨ha, hg⟩
    have hn := l.inv.cx.n
    rw [hm.2] at hn
    unfold Context.one at hn
    rcases this with h1 | h1 | h1
    · rw [h1] at hn; simp at hn; omega
    · rw [h1] at hn; simp at hn; omega
    · rw [hm.1] at h1; cases h1

theorem added_run {e : Env} {s s' : St} {x : Nat} {b : Bool} {cs : List Choice} (h : run e s cs = some s') (ha : s.cx.ap x = .done b) :
    s'.cx.ap x = .done b := by
  induction cs generalizing s with
  | nil => cases h; exact ha
  | cons c cs ih =>
    obtain ⟨s1, h1, h2⟩ := bind_some h
    refine ih h2 ?_
    rcases cx_step h1 with h3 | ⟨c, h3⟩
    · rw [h3]; exact ha
    · generalize s1.cx = cx at h3
      cases c with
      | adder y =>
        obtain ⟨_, _, _, h4, h5⟩ := adder_eq h3
        by_cases hy : x = y
        · subst hy; rw [ha] at h5; exact h5.elim
        · rw [(h4 x hy).1]; exact ha
      | remove y => rw [(remove_eq h3).1]; exact ha
      | canc =>
        simp only [Context.step, Context.stepCancel] at h3
        (repeat' split at h3) <;> cases h3 <;> exact ha
      | _ =>
        simp only [Context.step] at h3
        (repeat' split at h3) <;> cases h3 <;> first | exact ha | (simp only [Context.set]; grind)

/-- C108, in part: when `cancelAll` has ended, every request made from the context is answered. -/
theorem C108_answered_partial {e : Env} {cs : List Choice} {s : St} {x : Nat} (h : run e (init e) cs = some s) (hu : Unraced e cs)
    (hx : e.isReq x = true) (ha : s.cx.ap x = .done true) (he : s.cx.cp = .exit) : Answered s x := by
  have l := live_run (live_init e) hu h
  exact ((l.inv.mid x hx (by rw [ha]; trivial)).all.2 (exit_gone l he ha)).symm

def endRun : List Choice := make 0 ++ make 1 ++ [.cancel false, .canc true, .canc true, .canc true] ++ cancelling 0 ++ cancelling 1 ++
  [.canc true, .canc true, .canc true]

example : (run allReq (init allReq) endRun).any (fun s => s.cx.cp = .exit ∧ s.cx.ap 0 = .done true ∧ s.cx.ap 1 = .done true ∧
    (s.r 0).d.rs = .performed ∧ (s.r 1).d.rs = .performed ∧ s.cx.passes = 1) = true := by rfl
example : Unraced allReq endRun := unraced_of (by rfl)

/-- C108: as soon as `cancelAll` has called `Cancel` of a request (that is not set back), the request is answered. -/
theorem C108_cancelled {e : Env} {cs : List Choice} {s : St} {x : Nat} (h : run e (init e) cs = some s) (hx : e.isReq x = true)
    (ha : s.cx.ap x = .done true) (hc : s.cx.called x = true) (ho : Once s x) : Answered s x := by
  have i := inv_reach h
  exact ((i.mid x hx (by rw [ha]; trivial)).all.2 (i.called x hx ha hc ho)).symm

/-- C108: a request made from a context that is cancelled already is answered before it is handed out. -/
theorem C108_refused {e : Env} {cs : List Choice} {s : St} {x : Nat} (h : run e (init e) cs = some s) (hx : e.isReq x = true)
    (ha : s.cx.ap x = .done false) (ho : Once s x) (hi : (s.r x).pc 1 = .idle) : (s.r x).d.rs = .performed := by
  rcases (inv_reach h).late x hx ha ho with h1 | h1
  · exact h1
  · rw [hi] at h1; cases h1

def refusedRun : List Choice := [.cancel false, .add 0, .adder 0, .adder 0, .req 0 (.go 1), .req 0 (.go 1), .req 0 (.go 1), .req 0 (.go 1),
  .req 0 (.responder 1 []), .req 0 (.go 1), .req 0 (.go 1), .req 0 (.go 1)]

example : (run allReq (init allReq) refusedRun).any (fun s => s.cx.ap 0 = .done false ∧ (s.r 0).pc 1 = .idle ∧
    Request.Ev.reset ∉ (s.r 0).d.log ∧ (s.r 0).d.rs = .performed ∧ Request.deliveries (s.r 0).d.log = 1) = true := by rfl

/-- Bookmark 5 sets the request back when it sees the answer of `cancelAll`. -/
def resetRun : List Choice := make 0 ++ [.req 0 (.call 2 (.chain 5)), .req 0 (.go 2), .req 0 (.go 2), .req 0 (.go 2), .cancel false,
  .canc true, .canc true, .canc true, .canc true, .req 0 (.go 0), .req 0 (.go 0), .req 0 (.go 0), .req 0 (.go 0),
  .req 0 (.bookmark 0 [.resetNew]), .req 0 (.go 0), .req 0 (.go 0), .req 0 (.go 0), .req 0 (.go 0), .canc true]

/-- C108 does not hold for a request that a bookmark sets back: it has been cancelled, and is not answered. -/
theorem C108_reset_violated : ∃ s, run allReq (init allReq) resetRun = some s ∧ s.cx.ap 0 = .done true ∧ s.cx.called 0 = true ∧
    ¬ Answered s 0 := by
  have : (run allReq (init allReq) resetRun).any (fun s => s.cx.ap 0 = .done true ∧ s.cx.called 0 = true ∧ (s.r 0).d.rs = .new) = true := by rfl
  cases h : run allReq (init allReq) resetRun with
  | none => rw [h] at this; cases this
  | some s =>
    rw [h] at this
    have := of_decide_eq_true this
    exact ⟨s, rfl, this.1, this.2.1, by unfold Answered; rw [this.2.2]; simp⟩

/-- C108, in part: a context with requests only (that are not set back) is cancelled in one round. -/
theorem C108_one_round_partial {e : Env} {cs : List Choice} {s : St} (h : run e (init e) cs = some s) (hu : Unraced e cs)
    (hq : ∀ x, e.isReq x = true) (ho : ∀ x, Once s x) : s.cx.passes ≤ 1 := by
  rcases (live_run (live_init e) hu h).one hq ho with h1 | h1 <;> omega

example : (run allReq (init allReq) endRun).any (fun s => Request.Ev.reset ∉ (s.r 0).d.log ∧ Request.Ev.reset ∉ (s.r 1).d.log ∧
    s.cx.passes = 1) = true := by rfl

/-! ### C109 -/

/-- C109, in part: when `WaitAll` returns, every request made from the context is answered. -/
theorem C109_waited_partial {e : Env} {cs : List Choice} {s s' : St} {w x : Nat} (h : run e (init e) cs = some s)
    (hs : step e s (.wait w) = some s') (hw : s'.cx.wp w = .done) (hx : e.isReq x = true) (ha : s.cx.ap x = .done true) : Answered s' x := by
  have i := inv_reach h
  obtain ⟨cx, h1, rfl⟩ := map_some hs
  have hg : s.cx.gone x = true := by
    cases hg : s.cx.gone x with
    | true => rfl
    | false =>
      have := (i.cx.stored x).2 ⟨ha, hg⟩
      have hn := i.cx.n
      unfold Context.one at hn
      simp only [Context.step] at h1
      split at h1
      · split at h1
        · cases h1; simp [Context.set] at hw
        · rename_i h2
          rcases this with h3 | h3 | h3
          · rw [h3] at hn; simp at hn; omega
          · rw [h3] at hn; simp at hn; omega
          · have := List.length_pos_of_mem h3; omega
      · cases h1
  exact ((i.mid x hx (by rw [ha]; trivial)).all.2 hg).symm

example : (run allReq (init allReq) (make 0 ++ failing 2 0 ++ failed 2 0 ++ [.wait 0])).any (fun s => s.cx.wp 0 = .done ∧
    s.cx.ap 0 = .done true ∧ (s.r 0).d.rs = .performed ∧ Request.deliveries (s.r 0).d.log = 1) = true := by rfl

def earlyRun : List Choice := make 0 ++ failing 2 0 ++ [.req 0 (.go 2), .wait 0]

/-- C109 does not hold for the responses: `WaitAll` may return before the response is in the channel of the request, since the bookmark
of the context reacts before the Responder is called (request.go:141-148). -/
theorem C109_early_violated : ∃ s, run allReq (init allReq) earlyRun = some s ∧ s.cx.wp 0 = .done ∧ s.cx.ap 0 = .done true ∧ ¬ Delivered s 0 := by
  have : (run allReq (init allReq) earlyRun).any (fun s => s.cx.wp 0 = .done ∧ s.cx.ap 0 = .done true ∧
    Request.deliveries (s.r 0).d.log = 0) = true := by rfl
  cases h : run allReq (init allReq) earlyRun with
  | none => rw [h] at this; cases this
  | some s =>
    rw [h] at this
    have := of_decide_eq_true this
    exact ⟨s, rfl, this.1, this.2.1, by unfold Delivered; omega⟩

/-! ### C110 -/

theorem along_last {P : St → Prop} {e : Env} {s s' : St} {cs : List Choice} (ha : Along P e s cs) (h : run e s cs = some s') : P s' := by
  induction cs generalizing s with
  | nil => cases h; exact ha
  | cons c cs ih =>
    obtain ⟨s1, h1, h2⟩ := bind_some h
    exact ih (ha.2 s1 h1) h2

/-- C110: whatever the goroutines are doing with the context and its requests, `cancelAll` can go on until it has been through with all it
found, or has ended; no mutex is in its way. (Provided that no bookmark is stuck.) -/
theorem C110_not_blocked {e : Env} {cs : List Choice} {s : St} (h : run e (init e) cs = some s) (hp : s.cx.cp ≠ .idle)
    (hq : ∀ x t, Quiet ((s.r x).pc t)) :
    ∃ ds s', (∀ c ∈ ds, Inner c) ∧ run e s ds = some s' ∧ (s'.cx.cp = .exit ∨ s'.cx.passes = s.cx.passes + 1) :=
  can_round (prog_run (prog_init e) h) hp hq

/-- C110, in part: with requests only, `cancelAll` can always go on to its end, and then every request is answered. -/
theorem C110_ends_partial {e : Env} {cs : List Choice} {s : St} (h : run e (init e) cs = some s) (hu : Unraced e cs)
    (hx : ∀ x, e.isReq x = true) (ho : ∀ x, Once s x) (hp : s.cx.cp ≠ .idle) (hq : ∀ x t, Quiet ((s.r x).pc t)) :
    ∃ ds s', (∀ c ∈ ds, Inner c) ∧ run e s ds = some s' ∧ s'.cx.cp = .exit ∧ ∀ x, s.cx.ap x = .done true → Answered s' x := by
  have p := prog_run (prog_init e) h
  have l := live_run (live_init e) hu h
  have hc := along_last hu h
  have ht : ∀ x, Tame (s.r x) := fun x => ⟨hq x, ho x⟩
  obtain ⟨ds, s', h1, h2, h3⟩ := can_end p l hx hc ht hp
  have hst : s.cx.state ≠ 0 := fun h => hp (p.inv.idle h)
  have l' := (inner_run h1 h2 l hst hc ht).1
  refine ⟨ds, s', h1, h2, h3, fun x ha => ?_⟩
  have ha' := added_run h2 ha
  exact ((l'.inv.mid x (hx x) (by rw [ha']; trivial)).all.2 (exit_gone l' h3 ha')).symm

/-- Request 0 is being failed by goroutine 2 (it holds the mutex of the request and is about to call the bookmark of the context), the
maker of request 1 holds the mutex of the context, and `cancelAll` waits for it. -/
def midRun : List Choice := make 0 ++ failing 2 0 ++ [.add 1, .adder 1, .adder 1, .cancel false, .canc true, .canc true]

example : (run allReq (init allReq) midRun).any (fun s => s.cx.cp = .snap ∧ s.cx.lock = some 1 ∧ (s.r 0).lock = some 2 ∧
    (s.r 0).pc 2 = .react (.fail 1) [] ∧ Request.Ev.reset ∉ (s.r 0).d.log) = true := by rfl
example : Unraced allReq midRun := unraced_of (by rfl)

end Verif.CtxReq
