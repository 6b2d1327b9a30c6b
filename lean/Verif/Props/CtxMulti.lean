import Verif.Proofs.CtxMultiEnds
/-! C131: multi-requests made from a context. -/
namespace Verif.CtxMulti
open Verif.MultiTimer (parts along Full Past)
open Verif.CtxReq (bind_some)

/-- The owner has not called `Results` or `Each`, if nobody chose it. -/
theorem past_q {q q' : MultiReq.St} {c : MultiReq.Choice} (h : MultiReq.step q c = some q') (hp : ¬ Past q.m.own) (h1 : c ≠ .multi .results) (h2 : c ≠ .multi .each) :
    ¬ Past q'.m.own := by
  obtain ⟨ds, h3, h4⟩ := parts h
  refine along (P := fun m => ¬ Past m.own) h3 hp ?_
  intro a d b hd ha hs
  cases d
  case results =>
    rcases h4 with ⟨d, rfl, rfl⟩ | h4
    · rw [List.mem_singleton] at hd; subst hd; exact absurd rfl h1
    · rcases h4 _ hd with h | ⟨_, h⟩ | ⟨_, _, h⟩ <;> cases h
  case each =>
    rcases h4 with ⟨d, rfl, rfl⟩ | h4
    · rw [List.mem_singleton] at hd; subst hd; exact absurd rfl h2
    · rcases h4 _ hd with h | ⟨_, h⟩ | ⟨_, _, h⟩ <;> cases h
  case owner =>
    simp only [Multi.step] at hs
    unfold Multi.stepOwner at hs
    split at hs <;> rename_i e <;> rw [e] at ha <;> (repeat' split at hs) <;> cases hs <;> first | exact absurd trivial ha | (intro h; cases h; done) | (dsimp only; split <;> exact id)
  case resp i =>
    simp only [Multi.step, Multi.stepResp] at hs
    (repeat' split at hs) <;> cases hs <;> (try split) <;> first | exact ha | (rename_i e; rw [show a.own = _ from e.2.2] at ha; exact absurd trivial ha)
  case canc k =>
    simp only [Multi.step] at hs
    unfold Multi.stepCancel at hs
    (repeat' split at hs) <;> cases hs <;> first | exact ha | (show ¬ Past (Multi.answer ..).own; rw [Multi.answer_own]; exact ha)
  case answer i x =>
    simp only [Multi.step] at hs
    split at hs <;> cases hs
    rw [Multi.answer_own]; exact ha
  case request b =>
    simp only [Multi.step] at hs
    (repeat' split at hs) <;> cases hs <;> exact id
  all_goals
    simp only [Multi.step] at hs
    (repeat' split at hs) <;> cases hs <;> exact ha

theorem past_step {s s' : St} {c : Choice} {x : Nat} (h : step s c = some s') (hp : ¬ Past (s.q x).m.own) (h1 : c ≠ .q x (.multi .results)) (h2 : c ≠ .q x (.multi .each)) :
    ¬ Past (s'.q x).m.own := by
  cases c with
  | q y d =>
    simp only [step, qStep] at h
    split at h
    · split at h
      · cases h
      · split at h
        · obtain ⟨s1, h3, h4⟩ := bind_some h
          obtain ⟨cx, _, rfl⟩ := withCx_some h3
          obtain ⟨q, h5, rfl⟩ := withQ_some h4
          dsimp only
          split
          · rename_i e; subst e; exact past_q h5 hp (fun e => h1 (by rw [e])) (fun e => h2 (by rw [e]))
          · exact hp
        · obtain ⟨q, h5, rfl⟩ := withQ_some h
          dsimp only
          split
          · rename_i e; subst e; exact past_q h5 hp (fun e => h1 (by rw [e])) (fun e => h2 (by rw [e]))
          · exact hp
    · cases h
  | adder y =>
    simp only [step] at h
    split at h
    · obtain ⟨s1, h3, h4⟩ := bind_some h
      obtain ⟨cx, _, rfl⟩ := withCx_some h3
      obtain ⟨q, h5, rfl⟩ := withQ_some h4
      dsimp only
      split
      · rename_i e; subst e
        have key : ∀ (ds : List MultiReq.Choice) (a b : MultiReq.St), (∀ c ∈ ds, c ≠ .multi .results ∧ c ≠ .multi .each) → MultiReq.run a ds = some b → ¬ Past a.m.own → ¬ Past b.m.own := by
          intro ds
          induction ds with
          | nil => intro a b _ h hf; cases h; exact hf
          | cons c ds ih =>
            intro a b hi h hf
            obtain ⟨t, e1, e2⟩ := bind_some h
            exact ih t b (fun d hd => hi d (List.mem_cons_of_mem _ hd)) e2 (past_q e1 hf (hi c (List.mem_cons_self ..)).1 (hi c (List.mem_cons_self ..)).2)
        exact key early _ _ (by simp [early]) h5 hp
      · exact hp
    · obtain ⟨cx, _, rfl⟩ := withCx_some h; exact hp
  | canc f =>
    simp only [step] at h
    split at h
    · split at h
      · split at h
        · obtain ⟨cx, _, rfl⟩ := withCx_some h; exact hp
        · cases h
      · obtain ⟨q, h5, rfl⟩ := withQ_some h
        dsimp only
        split
        · rename_i e; subst e; exact past_q h5 hp (by simp) (by simp)
        · exact hp
    · obtain ⟨cx, _, rfl⟩ := withCx_some h; exact hp
  | _ => obtain ⟨cx, _, rfl⟩ := withCx_some h; exact hp

theorem past_run {s s' : St} {cs : List Choice} {x : Nat} (h : run s cs = some s') (hp : ¬ Past (s.q x).m.own) (h1 : .q x (.multi .results) ∉ cs) (h2 : .q x (.multi .each) ∉ cs) :
    ¬ Past (s'.q x).m.own := by
  induction cs generalizing s with
  | nil => cases h; exact hp
  | cons c cs ih =>
    obtain ⟨t, h3, h4⟩ := bind_some h
    exact ih h4 (past_step h3 hp (fun e => h1 (by rw [e]; exact List.mem_cons_self ..)) (fun e => h2 (by rw [e]; exact List.mem_cons_self ..)))
      (fun h => h1 (List.mem_cons_of_mem _ h)) (fun h => h2 (List.mem_cons_of_mem _ h))

/-! ### Deciding `Unraced` for given runs -/

def clearB (s : St) : Bool := s.cx.state = 0 || match s.cx.lock with
  | none => true
  | some x => s.cx.ap x ≠ .reg

def alongB : St → List Choice → Bool
  | s, [] => clearB s
  | s, c :: cs => clearB s && match step s c with
    | none => true
    | some s => alongB s cs

theorem clear_of {s : St} (i : Inv s) (h : clearB s = true) : Context.Clear s.cx := by
  intro h0 x hx
  have hl := (i.cx.lock x).2 (.inr hx)
  simp [clearB, h0, hl, hx] at h

theorem along_of {s : St} {cs : List Choice} (i : Inv s) (h : alongB s cs = true) : Along (fun s => Context.Clear s.cx) s cs := by
  induction cs generalizing s with
  | nil => exact clear_of i h
  | cons c cs ih =>
    simp only [alongB, Bool.and_eq_true] at h
    refine ⟨clear_of i h.1, fun s' hs => ih (inv_step i hs) ?_⟩
    have := h.2
    rw [hs] at this
    exact this

theorem unraced_of {msg : Nat → Nat → UInt32} {cs : List Choice} (h : alongB (init msg) cs = true) : Unraced msg cs := along_of (inv_init msg) h

/-! ### Runs -/

open Verif.MultiReq (mk serve reps)

/-- `NewMulti` on a live context. -/
def make (x : Nat) : List Choice := [.add x] ++ List.replicate 4 (.adder x)

/-- Steps of multi-request `x`. -/
def on (x : Nat) (l : List MultiReq.Choice) : List Choice := l.map (.q x)

/-- `cancelAll`'s call number `n` cancels multi-request `x`, which has one request, not answered. -/
def cancels (n x : Nat) : List Choice :=
  [.canc true] ++ on x (reps 7 (.multi (.canc (2 * n))) ++ reps 4 (.req 0 (.go (4 * n + 1))) ++ [.req 0 (.responder (4 * n + 1) [])] ++ reps 6 (.multi (.resp 0)) ++
    reps 3 (.req 0 (.go (4 * n + 1))) ++ [.multi (.canc (2 * n))]) ++ [.canc true]

/-- Two multi-requests with one request each; the owner of the first is in `Results`; the context is cancelled. -/
def twoRun : List Choice :=
  make 0 ++ make 1 ++ on 0 (mk ++ [.multi .results] ++ reps 3 (.multi .owner)) ++ on 1 mk ++ [.cancel false, .canc true, .canc true, .canc true]

/-- `cancelAll`'s call number `n` finds all requests of multi-request `x` answered. -/
def again (n x : Nat) : List Choice := [.canc true] ++ on x (reps 2 (.multi (.canc (2 * n)))) ++ [.canc true]

/-- Both are cancelled; the owner of the first takes its responses; the second is called `Cancel` of in a second round. -/
def bothRun : List Choice := twoRun ++ cancels 1 0 ++ cancels 2 1 ++ on 0 (reps 2 (.multi .owner)) ++ [.canc true, .canc true, .canc true, .canc true] ++ again 3 1

/-- `NewMulti` on a cancelled context, with one request. -/
def lateRun : List Choice := [.cancel true, .add 0, .adder 0, .adder 0] ++ on 0 ([.multi (.request false)] ++ reps 4 (.multi .owner) ++ reps 4 (.req 0 (.go 0)) ++
  [.req 0 (.responder 0 [])] ++ reps 6 (.multi (.resp 0)) ++ reps 3 (.req 0 (.go 0)))

/-- `WaitAll` returns when nothing is registered. -/
theorem wait_gone {s s' : St} {w x : Nat} (I : Inv s) (hs : step s (.wait w) = some s') (hw : s'.cx.wp w = .done) (ha : s.cx.ap x = .done true) : s.cx.gone x = true ∧ s'.q = s.q := by
  obtain ⟨cx, h1, rfl⟩ := withCx_some hs
  refine ⟨?_, rfl⟩
  cases hg : s.cx.gone x with
  | true => rfl
  | false =>
    have := (I.cx.stored x).2 ⟨ha, hg⟩
    have hn := I.cx.n
    unfold Context.one at hn
    simp only [Context.step] at h1
    split at h1
    · split at h1
      · cases h1; simp [Context.set] at hw
      · rename_i h2
        rcases this with h3 | h3 | h3
        · rw [h3] at hn; simp at hn; omega
        · rw [h3] at hn; simp at hn; omega
        · have := List.length_pos_of_mem h3; omega
    · cases h1

end Verif.CtxMulti

namespace Verif.Props
open Verif.CtxMulti
open Verif.MultiReq (reps)

/-- C131, in part (`Cancel` reads `w.c` first, see C43): once `cancelAll`, or the `NewMulti` that was refused, has called `Cancel` of a multi-request, every request which its owner has got,
now or later, has been delivered exactly one response. -/
theorem C131_cancelled_partial {msg : Nat → Nat → UInt32} {cs : List Choice} {s : St} {x : Nat} (h : run (init msg) cs = some s) (hf : .canc false ∉ cs)
    (hc : s.cx.called x = true) : Answered s x := by
  obtain ⟨k, hk⟩ := (first_run h hf).called x hc
  obtain ⟨ds, hq⟩ := reach_q h x
  exact fun i hi => MultiReq.C120_cancel_partial hq hk hi

/-- C131: a multi-request made from a context that is cancelled already has its requests answered, whatever order the reads have. -/
theorem C131_refused {msg : Nat → Nat → UInt32} {cs : List Choice} {s : St} {x : Nat} (h : run (init msg) cs = some s) (ha : s.cx.ap x = .done false) : Answered s x := by
  obtain ⟨ds, hq⟩ := reach_q h x
  exact fun i hi => MultiReq.C120_cancel_partial hq (late_run h x ha) hi

/-- C131, in part (the race of C44): when `cancelAll` has ended, every request of every multi-request that was registered has been delivered exactly one response. -/
theorem C131_ended_partial {msg : Nat → Nat → UInt32} {cs : List Choice} {s : St} {x : Nat} (h : run (init msg) cs = some s) (hu : Unraced msg cs)
    (ha : s.cx.ap x = .done true) (he : s.cx.cp = .exit) : Answered s x := by
  have I := inv_run (inv_init msg) h
  exact full_answered h (I.gone x (exit_gone I.cx (can_run (inv_init msg) (can_init msg) hu h) he ha))

/-- C131: and so when `WaitAll` returns. -/
theorem C131_waited {msg : Nat → Nat → UInt32} {cs : List Choice} {s s' : St} {w x : Nat} (h : run (init msg) cs = some s) (hs : step s (.wait w) = some s')
    (hw : s'.cx.wp w = .done) (ha : s.cx.ap x = .done true) : Answered s' x := by
  have I := inv_run (inv_init msg) h
  obtain ⟨h1, h2⟩ := wait_gone I hs hw ha
  have := full_answered h (I.gone x h1)
  unfold Answered at this ⊢
  rw [h2]
  exact this

/-- C131, in part (the race of C44): after the cancellation of the context every request of every multi-request made from it comes to have its response, whatever servers do; or somebody panics. -/
theorem C131_answered_partial {msg : Nat → Nat → UInt32} {cs : List Choice} {s : St} {x : Nat} {b : Bool} (h : run (init msg) cs = some s) (hu : Unraced msg cs)
    (hs : s.cx.state ≠ 0) (ha : s.cx.ap x = .done b) : ∃ ds s', (∀ c ∈ ds, Goes c) ∧ run s ds = some s' ∧ (Answered s' x ∨ Panicked s') :=
  (can_answer h hu hs ha).then fun s' _ _ h => .now h.2.2

/-- C131, in part (as above): and `Results` returns. -/
theorem C131_results_end_partial {msg : Nat → Nat → UInt32} {cs : List Choice} {s : St} {x : Nat} {b : Bool} (h : run (init msg) cs = some s) (hu : Unraced msg cs)
    (hs : s.cx.state ≠ 0) (ha : s.cx.ap x = .done b) (ho : MultiReq.Collecting (s.q x).m.own) :
    ∃ ds s', (∀ c ∈ ds, Goes c) ∧ run s ds = some s' ∧ ((s'.q x).m.own = .fin .results ∨ Panicked s') :=
  can_results h hu hs ha ho

/-- C131, in part (the race of C44; see `C131_loop_violated`): when `Results` of every registered multi-request has returned, `cancelAll` comes to its end; or somebody panics. -/
theorem C131_ends_partial {msg : Nat → Nat → UInt32} {cs : List Choice} {s : St} (h : run (init msg) cs = some s) (hu : Unraced msg cs) (hs : s.cx.state ≠ 0)
    (hg : ∀ x, s.cx.ap x = .done true → (s.q x).m.own = .fin .results) : ∃ ds s', (∀ c ∈ ds, Goes c) ∧ run s ds = some s' ∧ (s'.cx.cp = .exit ∨ Panicked s') := by
  refine (unlocked h hu hs).then fun s1 ds h1 ⟨w1, hq, _, h3⟩ => can_exit w1 fun x hx => ?_
  obtain ⟨es, hr⟩ := w1.reach
  exact got_gone hr x (by rw [hq]; exact hg x (h3 x hx))

/-- C131 does not hold for the end of `cancelAll` and of `WaitAll`: as long as the owner of a multi-request that was registered calls neither `Results` nor `Each`, they do not return, though
all requests may be answered. -/
theorem C131_loop_violated {msg : Nat → Nat → UInt32} {cs : List Choice} {s : St} {x : Nat} (h : run (init msg) cs = some s) (hu : Unraced msg cs) (ha : s.cx.ap x = .done true)
    (h1 : .q x (.multi .results) ∉ cs) (h2 : .q x (.multi .each) ∉ cs) : s.cx.cp ≠ .exit ∧ ∀ w s', step s (.wait w) = some s' → s'.cx.wp w ≠ .done := by
  have I := inv_run (inv_init msg) h
  have hp := past_run h (x := x) (by intro h; cases h) h1 h2
  exact ⟨fun he => hp (I.gone x (exit_gone I.cx (can_run (inv_init msg) (can_init msg) hu h) he ha)).1, fun w s' hs hw => hp (I.gone x (wait_gone I hs hw ha).1).1⟩

/-! ### Examples -/

example : (run (init fun _ _ => 5) twoRun).any (fun s => s.cx.state = 1 ∧ s.cx.cp = .calling [0, 1] ∧ s.cx.ap 0 = .done true ∧ (s.q 0).m.own = .rWait false ∧
    (s.q 0).m.ret = 1 ∧ (s.q 1).m.ret = 1 ∧ Request.deliveries ((s.q 0).r 0).d.log = 0) = true := by decide +kernel
example : Unraced (fun _ _ => 5) twoRun := unraced_of (by decide +kernel)

example : (run (init fun _ _ => 5) bothRun).any (fun s => s.cx.called 0 = true ∧ s.cx.called 1 = true ∧ s.cx.gone 0 = true ∧ s.cx.gone 1 = false ∧ (s.q 0).m.own = .fin .results ∧
    s.cx.passes = 1 ∧ s.cx.cp = .calling [] ∧ s.calls = 3 ∧ Request.deliveries ((s.q 0).r 0).d.log = 1 ∧ Request.deliveries ((s.q 1).r 0).d.log = 1) = true := by decide +kernel
example : .canc false ∉ bothRun ∧ .q 1 (.multi .results) ∉ bothRun ∧ .q 1 (.multi .each) ∉ bothRun := by decide +kernel
example : Unraced (fun _ _ => 5) bothRun := unraced_of (by decide +kernel)

example : (run (init fun _ _ => 5) (bothRun ++ on 1 ([.multi .results] ++ reps 4 (.multi .owner)) ++ [.canc true, .canc true, .canc true, .wait 0])).any (fun s =>
    s.cx.cp = .exit ∧ s.cx.passes = 2 ∧ s.cx.gone 1 = true ∧ s.cx.wp 0 = .done) = true := by decide +kernel
example : (run (init fun _ _ => 5) (bothRun ++ on 1 ([.multi .results] ++ reps 4 (.multi .owner)))).any (fun s => s.cx.state = 1 ∧ s.cx.cp = .calling [] ∧
    (s.q 0).m.own = .fin .results ∧ (s.q 1).m.own = .fin .results) = true := by decide +kernel

example : (run (init fun _ _ => 5) lateRun).any (fun s => s.cx.ap 0 = .done false ∧ s.cx.called 0 = true ∧ (s.q 0).m.own = .idle ∧ (s.q 0).m.ret = 1 ∧
    Request.deliveries ((s.q 0).r 0).d.log = 1) = true := by decide +kernel

end Verif.Props
