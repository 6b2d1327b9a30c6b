import Verif.Spec.MultiTimer
import Verif.Proofs.MultiTimer
import Verif.Props.MultiReq
/-! C130: the timeout of a multi-request. -/
namespace Verif.MultiTimer
open Verif.MultiReq (withM_some Got)

theorem whole {msg : Nat → UInt32} {cs : List Choice} {s : St} (h : run (init msg) cs = some s) : ∃ ds, MultiReq.run (MultiReq.init msg) ds = some s.q := by
  obtain ⟨ds, h1, _⟩ := proj h
  exact ⟨ds, h1⟩

theorem full_answered {msg : Nat → UInt32} {cs : List Choice} {s : St} (h : run (init msg) cs = some s) (hf : Full s.q.m) : Answered s := by
  intro i hi
  have I := (inv_run (inv_init msg) h).m.inv
  obtain ⟨ds, h1⟩ := whole h
  have hr : s.q.m.ret = s.q.m.r := by
    refine (I.quiet ?_).2
    have := hf.1
    cases e : s.q.m.own <;> rw [e] at this <;> first | rfl | cases this
  have hl := I.all.2 hf.2 i (by omega)
  have hc := (I.logMem i).1 hl
  obtain ⟨x, hx, _⟩ := MultiReq.got_of h1 (i := i) fun e => by rw [(I.code i).1 e] at hc; cases hc
  exact ⟨x, hx⟩

theorem answered_code {s : St} (i : Inv s) (h : Answered s) : ∀ j, j < s.q.m.ret → s.q.m.code j ≠ none := by
  intro j hj
  obtain ⟨x, hx⟩ := h j hj
  rw [MultiReq.got_code i.prog.inv hx]
  simp

end Verif.MultiTimer

namespace Verif.MultiTimer
open Verif.MultiReq (mk serve reps)

theorem any_some {o : Option St} {p : St → Prop} [DecidablePred p] (h : (o.any fun s => p s) = true) : ∃ s, o = some s ∧ p s := by
  cases o with
  | none => cases h
  | some s => exact ⟨s, rfl, by simpa using h⟩

/-- Steps without the timer. -/
def qs (l : List MultiReq.Choice) : List Choice := l.map .q

/-- A timeout is set, one request is served, and then the answers are collected. -/
def leftRun (m : Multi.Choice) : List Choice :=
  .setTimeout :: qs (mk ++ serve 0 2 ++ [.multi m] ++ reps 4 (.multi .owner))

/-- Two requests with a timeout: the first is served, nobody answers the second, `Results` waits. -/
def waitRun : List Choice :=
  qs mk ++ [.setTimeout, .setTimeout] ++ qs (mk ++ serve 0 2 ++ [.multi .results] ++ reps 3 (.multi .owner))

/-- The timer fires and fails the second request. -/
def fireRun : List Choice :=
  .fire true :: qs (reps 8 (.multi (.canc 0)) ++ reps 4 (.req 1 (.go 1)) ++ [.req 1 (.responder 1 [])] ++ reps 6 (.multi (.resp 1)) ++ reps 3 (.req 1 (.go 1)) ++
    [.multi (.canc 0)])

/-- Two requests, the second is served while `Each` is read. -/
def eachRun : List Choice :=
  .setTimeout :: qs (mk ++ mk ++ serve 0 2 ++ [.multi .each] ++ reps 7 (.multi .owner))

end Verif.MultiTimer

namespace Verif.Props
open Verif.MultiTimer
open Verif.MultiReq (C120_cancel_partial C120_codes C120_cancel_ends C120_results_end)

/-- C130: a timer that was set is not forgotten: it is armed, or has called `Expire`, or every request has been delivered its response. -/
theorem C130_armed {msg : Nat → UInt32} {cs : List Choice} {s : St} (h : run (init msg) cs = some s) (hs : .setTimeout ∈ cs) :
    s.tm = .armed ∨ .fire true ∈ cs ∨ .fire false ∈ cs ∨ Answered s := by
  have I := inv_run (inv_init msg) h
  have hset : s.set = true := by
    have key : ∀ (cs : List Choice) (s s' : St), run s cs = some s' → s.set = true ∨ .setTimeout ∈ cs → s'.set = true := by
      intro cs
      induction cs with
      | nil => intro s s' h hs; cases h; simpa using hs
      | cons c cs ih =>
        intro s s' h hs
        simp only [run] at h
        cases e : step s c with
        | none => rw [e] at h; cases h
        | some t =>
          rw [e] at h
          refine ih t s' h ?_
          cases c with
          | q c => rw [(q_step e).2.1]; simpa using hs
          | fire f => rw [(fire_step e).2.2.1]; simpa using hs
          | setTimeout =>
            left
            simp only [step] at e
            (repeat' split at e) <;> cases e
            · assumption
            · rfl
    exact key cs _ _ h (.inr hs)
  cases e : s.tm with
  | off => exact absurd e (I.off hset)
  | armed => exact .inl rfl
  | stopped => exact .inr (.inr (.inr (full_answered h (I.stopped e))))
  | fired =>
    have key : ∀ (cs : List Choice) (s s' : St), run s cs = some s' → s'.tm = .fired → s.tm = .fired ∨ ∃ f, .fire f ∈ cs := by
      intro cs
      induction cs with
      | nil => intro s s' h hs; cases h; exact .inl hs
      | cons c cs ih =>
        intro s s' h hs
        simp only [run] at h
        cases e : step s c with
        | none => rw [e] at h; cases h
        | some t =>
          rw [e] at h
          rcases ih t s' h hs with h1 | ⟨f, hf⟩
          · cases c with
            | q c =>
              left
              have := (q_step e).2.2.1
              rw [h1] at this
              split at this
              · cases e : s.tm <;> rw [e] at this <;> first | rfl | cases this
              · exact this.symm
            | fire f => exact .inr ⟨f, List.mem_cons_self ..⟩
            | setTimeout =>
              left
              simp only [step] at e
              (repeat' split at e) <;> cases e
              · exact h1
              · cases h1
          · exact .inr ⟨f, List.mem_cons_of_mem _ hf⟩
    rcases key cs _ _ h e with h1 | ⟨f, hf⟩
    · cases h1
    · cases f
      · exact .inr (.inr (.inl hf))
      · exact .inr (.inl hf)

/-- C130, in part (`Expire` reads `w.c` first, see C43): when `Expire` that the timer called has returned, every request has been delivered its response. -/
theorem C130_expired_partial {msg : Nat → UInt32} {cs : List Choice} {s : St} (h : run (init msg) cs = some s) (he : Expired s) : Answered s := by
  intro i hi
  obtain ⟨ds, h1⟩ := whole h
  exact C120_cancel_partial h1 he hi

/-- C130: the responses have the codes that somebody answered the request with, or that of the cancellation, or `RcTimeout` after the timer fired or somebody else called `Expire`. -/
theorem C130_codes {msg : Nat → UInt32} {cs : List Choice} {s : St} {i : Nat} {x : Request.Resp} (h : run (init msg) cs = some s) (hx : MultiReq.Got s.q i x) :
    (∃ t op, MultiReq.code op = some x.code ∧ .q (.req i (.call t op)) ∈ cs) ∨
    (x.code = Multi.rcCanceled ∧ ∃ k f, .q (.multi (.cancel k false f)) ∈ cs) ∨
    (x.code = Multi.rcTimeout ∧ ((∃ f, .fire f ∈ cs) ∨ ∃ k f, .q (.multi (.cancel k true f)) ∈ cs)) := by
  obtain ⟨ds, h1, h2⟩ := proj h
  obtain ⟨es, h3, _⟩ := MultiReq.proj h1
  have key : ∀ (ds : List MultiReq.Choice) (q q' : MultiReq.St), MultiReq.run q ds = some q' →
      (q'.m.cancel = true → q.m.cancel = true ∨ ∃ k f, .multi (.cancel k false f) ∈ ds) ∧
      (q'.m.expire = true → q.m.expire = true ∨ ∃ k f, .multi (.cancel k true f) ∈ ds) := by
    intro ds
    induction ds with
    | nil => intro q q' h; cases h; exact ⟨.inl, .inl⟩
    | cons c ds ih =>
      intro q q' h
      simp only [MultiReq.run] at h
      cases e : MultiReq.step q c with
      | none => rw [e] at h; cases h
      | some t =>
        rw [e] at h
        obtain ⟨i1, i2⟩ := ih t q' h
        obtain ⟨fs, hf, hk⟩ := parts e
        have one : ∀ a d b, (∀ k e f, d = .cancel k e f → c = .multi d) → Multi.step a d = some b →
            (b.cancel = true → a.cancel = true ∨ ∃ k f, c = .multi (.cancel k false f)) ∧ (b.expire = true → a.expire = true ∨ ∃ k f, c = .multi (.cancel k true f)) := by
          intro a d b hd hs
          have ans : ∀ i x, (Multi.answer a i x).cancel = a.cancel ∧ (Multi.answer a i x).expire = a.expire := by
            intro i x; simp only [Multi.answer]; split <;> exact ⟨rfl, rfl⟩
          cases d
          case owner =>
            simp only [Multi.step] at hs
            unfold Multi.stepOwner at hs
            (repeat' split at hs) <;> cases hs <;> first | exact ⟨.inl, .inl⟩ | exact ⟨fun h => .inl ((ans _ _).1 ▸ h), fun h => .inl ((ans _ _).2 ▸ h)⟩
          case canc k =>
            simp only [Multi.step] at hs
            unfold Multi.stepCancel at hs
            (repeat' split at hs) <;> cases hs <;> first | exact ⟨.inl, .inl⟩ | exact ⟨fun h => .inl ((ans _ _).1 ▸ h), fun h => .inl ((ans _ _).2 ▸ h)⟩
          case resp k =>
            simp only [Multi.step, Multi.stepResp] at hs
            (repeat' split at hs) <;> cases hs <;> first | exact ⟨.inl, .inl⟩ | (split <;> exact ⟨.inl, .inl⟩)
          case answer i x =>
            simp only [Multi.step] at hs
            split at hs <;> cases hs
            exact ⟨fun h => .inl ((ans _ _).1 ▸ h), fun h => .inl ((ans _ _).2 ▸ h)⟩
          case cancel k e f =>
            have hc := hd k e f rfl
            cases e
            · simp only [Multi.step] at hs
              split at hs <;> cases hs
              exact ⟨fun _ => .inr ⟨k, f, hc⟩, .inl⟩
            · simp only [Multi.step] at hs
              split at hs <;> cases hs
              exact ⟨.inl, fun _ => .inr ⟨k, f, hc⟩⟩
          all_goals
            simp only [Multi.step] at hs
            (repeat' split at hs) <;> cases hs <;> exact ⟨.inl, .inl⟩
        have all := along (P := fun b => (b.cancel = true → q.m.cancel = true ∨ ∃ k f, c = .multi (.cancel k false f)) ∧ (b.expire = true → q.m.expire = true ∨ ∃ k f, c = .multi (.cancel k true f)))
          hf ⟨.inl, .inl⟩ fun a d b hd ha hs => by
            have hd' : ∀ k e f, d = .cancel k e f → c = .multi d := by
              rintro k e f rfl
              rcases hk with ⟨d', rfl, rfl⟩ | hk
              · rw [List.mem_singleton] at hd; rw [hd]
              · rcases hk _ hd with h | ⟨_, h⟩ | ⟨_, _, h⟩ <;> cases h
            obtain ⟨o1, o2⟩ := one a d b hd' hs
            exact ⟨fun h => (o1 h).elim ha.1 .inr, fun h => (o2 h).elim ha.2 .inr⟩
        refine ⟨fun h => ?_, fun h => ?_⟩
        · rcases i1 h with h | ⟨k, f, h⟩
          · rcases all.1 h with h | ⟨k, f, rfl⟩
            · exact .inl h
            · exact .inr ⟨k, f, List.mem_cons_self ..⟩
          · exact .inr ⟨k, f, List.mem_cons_of_mem _ h⟩
        · rcases i2 h with h | ⟨k, f, h⟩
          · rcases all.2 h with h | ⟨k, f, rfl⟩
            · exact .inl h
            · exact .inr ⟨k, f, List.mem_cons_self ..⟩
          · exact .inr ⟨k, f, List.mem_cons_of_mem _ h⟩
  obtain ⟨k1, k2⟩ := key ds _ _ h1
  rcases C120_codes h1 hx with ⟨t, op, h4, h5⟩ | ⟨h4, h5⟩ | ⟨h4, h5⟩
  · rcases h2 _ h5 with h6 | ⟨f, h6, _⟩
    · exact .inl ⟨t, op, h4, h6⟩
    · cases h6
  · rcases k1 h4 with h6 | ⟨k, f, h6⟩
    · cases h6
    · rcases h2 _ h6 with h7 | ⟨f', h7, _⟩
      · exact .inr (.inl ⟨h5, k, f, h7⟩)
      · cases h7
  · rcases k2 h4 with h6 | ⟨k, f, h6⟩
    · cases h6
    · rcases h2 _ h6 with h7 | ⟨f', _, h7⟩
      · exact .inr (.inr ⟨h5, .inr ⟨k, f, h7⟩⟩)
      · exact .inr (.inr ⟨h5, .inl ⟨f', h7⟩⟩)

/-- C130, in part (`Expire` of the timer reads `w.c` first): if a timeout is set, then whatever servers do or do not, the goroutines that are inside a method and
the timer bring about that every request has been delivered its response; or somebody panics (C42, C67). -/
theorem C130_answered_partial {msg : Nat → UInt32} {cs : List Choice} {s : St} (h : run (init msg) cs = some s) (hs : .setTimeout ∈ cs) (hf : .fire false ∉ cs) :
    ∃ ds s', (∀ c ∈ ds, Goes c) ∧ run s ds = some s' ∧ (Answered s' ∨ Multi.Panicked s'.q.m) := by
  have lastly : ∀ {cs : List Choice} {s : St}, run (init msg) cs = some s → .fire false ∉ cs → s.q.m.cp 0 ≠ .idle →
      ∃ ds s', (∀ c ∈ ds, Goes c) ∧ run s ds = some s' ∧ (Answered s' ∨ Multi.Panicked s'.q.m) := by
    intro cs s h hf hk
    obtain ⟨ds0, h0⟩ := whole h
    obtain ⟨ds, q, h1, h2, h3⟩ := C120_cancel_ends h0 hk
    obtain ⟨s', h4, rfl⟩ := lift h2 h1
    have hg : ∀ c ∈ ds.map Choice.q, Goes c := by
      intro c hc
      obtain ⟨d, hd, rfl⟩ := List.mem_map.1 hc
      exact h1 d hd
    refine ⟨_, s', hg, h4, ?_⟩
    rcases h3 with ⟨b, h3⟩ | h3
    · left
      have h5 : run (init msg) (cs ++ ds.map .q) = some s' := by rw [run_append, h]; exact h4
      have : CFirst (s'.q.m.cp 0) := first_run (s := init msg) trivial h5 fun hm => by
        rcases List.mem_append.1 hm with hm | hm
        · exact hf hm
        · obtain ⟨d, _, hd⟩ := List.mem_map.1 hm
          cases hd
      rw [h3] at this
      cases b
      · cases this
      · exact C130_expired_partial h5 h3
    · exact .inr h3
  have I := inv_run (inv_init msg) h
  rcases C130_armed h hs with h1 | h1 | h1 | h1
  · have h2 : s.q.m.cp 0 = .idle := by
      have := I.fired
      rw [h1] at this
      cases e : s.q.m.cp 0 <;> first | rfl | (rw [e] at this; simp at this)
    have h3 : ∃ s1, step s (.fire true) = some s1 := by
      simp only [step, if_pos h1, MultiReq.step, MultiReq.multiStep, Multi.step, if_pos h2, MultiReq.St.withM]
      exact ⟨_, rfl⟩
    obtain ⟨s1, h3⟩ := h3
    have h4 : run (init msg) (cs ++ [.fire true]) = some s1 := by rw [run_append, h]; simp [run, h3]
    obtain ⟨ds, s', h5, h6, h7⟩ := lastly h4 (fun hm => by
      rcases List.mem_append.1 hm with hm | hm
      · exact hf hm
      · simp at hm) (by rw [fire_cp (fire_step h3).2.1]; simp)
    refine ⟨.fire true :: ds, s', ?_, by simp only [run, h3]; exact h6, h7⟩
    intro c hc
    rcases List.mem_cons.1 hc with rfl | hc
    · rfl
    · exact h5 c hc
  · by_cases e : s.q.m.cp 0 = .idle
    · have ht : s.tm ≠ .fired := fun h => (I.fired.1 h) e
      -- the timer fired and `cp 0` is not idle any more
      exact absurd e (I.fired.1 (by
        have key : ∀ (cs : List Choice) (s s' : St), run s cs = some s' → s.tm = .fired ∨ .fire true ∈ cs → (s.set = true ∨ s.tm ≠ .fired) → Inv s → s'.tm = .fired := by
          intro cs
          induction cs with
          | nil => intro s s' h hs _ _; cases h; simpa using hs
          | cons c cs ih =>
            intro s s' h hs hx J
            simp only [run] at h
            cases e : step s c with
            | none => rw [e] at h; cases h
            | some t =>
              rw [e] at h
              have J' := inv_step J e
              refine ih t s' h ?_ ?_ J'
              · cases c with
                | q c =>
                  rcases hs with hs | hs
                  · left
                    rw [(q_step e).2.2.1, hs]
                    split <;> rfl
                  · simp at hs; exact .inr hs
                | fire f => exact .inl (fire_step e).2.2.2
                | setTimeout =>
                  rcases hs with hs | hs
                  · left
                    have : s.set = true := by
                      cases e' : s.set
                      · rw [J.clear e'] at hs; cases hs
                      · rfl
                    simp only [step, this, if_true] at e
                    split at e <;> cases e
                    exact hs
                  · simp at hs; exact .inr hs
              · cases e' : t.set
                · right; rw [J'.clear e']; simp
                · exact .inl rfl
        exact key cs _ _ h (.inr h1) (.inr (by simp [init])) (inv_init msg)))
    · exact lastly h hf e
  · exact absurd h1 hf
  · exact ⟨[], s, by simp, rfl, .inl h1⟩

/-- C130, in part (as above): with a timeout `Results` returns; or somebody panics. -/
theorem C130_results_end_partial {msg : Nat → UInt32} {cs : List Choice} {s : St} (h : run (init msg) cs = some s) (hs : .setTimeout ∈ cs) (hf : .fire false ∉ cs)
    (ho : MultiReq.Collecting s.q.m.own) :
    ∃ ds s', (∀ c ∈ ds, Goes c) ∧ run s ds = some s' ∧ (s'.q.m.own = .fin .results ∨ Multi.Panicked s'.q.m) := by
  obtain ⟨ds, s1, h1, h2, h3⟩ := C130_answered_partial h hs hf
  rcases h3 with h3 | h3
  · have h4 : run (init msg) (cs ++ ds) = some s1 := by rw [run_append, h]; exact h2
    obtain ⟨es, h5, _⟩ := proj h2
    obtain ⟨fs, h6⟩ := whole h4
    have p := (inv_run (inv_init msg) h).prog
    obtain ⟨k, _⟩ := (MultiReq.keeps p h5).coll (.inl ho)
    rcases k with k | k | k
    · obtain ⟨gs, q, g1, g2, g3⟩ := C120_results_end h6 k h3
      obtain ⟨s2, h7, rfl⟩ := lift g2 g1
      refine ⟨ds ++ gs.map .q, s2, ?_, by rw [run_append, h2]; exact h7, g3⟩
      intro c hc
      rcases List.mem_append.1 hc with hc | hc
      · exact h1 c hc
      · obtain ⟨d, hd, rfl⟩ := List.mem_map.1 hc
        exact g1 d hd
    · exact ⟨ds, s1, h1, h2, .inl k⟩
    · exact ⟨ds, s1, h1, h2, .inr (.inl k)⟩
  · exact ⟨ds, s1, h1, h2, .inr h3⟩

/-- C130, in part (`Results` has to wait; see `C130_left_violated`): when it has returned, the timer is not armed. -/
theorem C130_stopped_partial {s s' : St} {cs : List Choice} (hw : s.q.m.own = .rWait false) (h : run s cs = some s') (hr : s'.q.m.own = .fin .results) : s'.tm ≠ .armed := by
  obtain ⟨_, h2⟩ := waited_run (s := s) ⟨by rw [hw]; trivial, .inl hw⟩ h
  rcases h2 with h2 | h2
  · rw [hr] at h2; cases h2
  · exact h2

/-- C130, in part (the channel is open when `Each` returns): when the channel is closed, the timer is not armed. -/
theorem C130_each_stopped_partial {s s' : St} {cs : List Choice} (hw : s.q.m.own = .fin .each) (hc : s.q.m.closed = 0) (h : run s cs = some s')
    (hr : s'.q.m.closed ≠ 0) : s'.tm ≠ .armed :=
  (ranged_run ⟨hw, .inl hc⟩ h).2.resolve_left hr

/-- C130: if all responses came before `Results`, or before `Each`, nobody stops the timer; when it fires it has nothing to do any more. -/
theorem C130_left_violated : ∃ cs s, run (init fun _ => 5) cs = some s ∧ .setTimeout ∈ cs ∧ s.q.m.own = .fin .results ∧ s.tm = .armed := by
  have h : ((run (init fun _ => 5) (leftRun .results)).any fun s => s.q.m.own = .fin .results ∧ s.tm = .armed) = true := by decide +kernel
  obtain ⟨s, h1, h2⟩ := any_some h
  exact ⟨_, s, h1, List.mem_cons_self .., h2⟩

theorem C130_each_left_violated : ∃ cs s, run (init fun _ => 5) cs = some s ∧ .setTimeout ∈ cs ∧ s.q.m.own = .fin .each ∧ s.q.m.closed = 1 ∧ s.tm = .armed := by
  have h : ((run (init fun _ => 5) (leftRun .each ++ qs (MultiReq.reps 4 (.multi .owner)))).any fun s => s.q.m.own = .fin .each ∧ s.q.m.closed = 1 ∧ s.tm = .armed) = true := by decide +kernel
  obtain ⟨s, h1, h2⟩ := any_some h
  exact ⟨_, s, h1, List.mem_cons_self .., h2⟩

end Verif.Props

namespace Verif.MultiTimer
open Verif.MultiReq (mk serve reps)

example : (run (init fun _ => 5) waitRun).any (fun s => s.q.m.own = .rWait false ∧ s.set = true ∧ s.tm = .armed ∧ s.q.m.ret = 2 ∧ s.q.m.code 0 = some 7 ∧ s.q.m.code 1 = none) = true := by
  decide +kernel

example : (run (init fun _ => 5) (waitRun ++ fireRun)).any (fun s => s.q.m.cp 0 = .done true ∧ s.q.m.code 0 = some 7 ∧ s.q.m.code 1 = some Multi.rcTimeout ∧ s.tm = .fired ∧
    s.q.m.own = .rWait true) = true := by decide +kernel

example : (run (init fun _ => 5) (waitRun ++ fireRun ++ qs (reps 2 (.multi .owner)))).any (fun s => s.q.m.own = .fin .results ∧ s.q.m.got = some [0, 1]) = true := by
  decide +kernel

/-- The second answer comes in time. -/
example : (run (init fun _ => 5) (waitRun ++ qs (serve 1 2 ++ reps 2 (.multi .owner)))).any (fun s => s.q.m.own = .fin .results ∧ s.q.m.got = some [0, 1] ∧ s.tm = .stopped) = true := by
  decide +kernel

example : (run (init fun _ => 5) eachRun).any (fun s => s.q.m.own = .fin .each ∧ s.q.m.closed = 0 ∧ s.tm = .armed) = true := by decide +kernel

end Verif.MultiTimer
