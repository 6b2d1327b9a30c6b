import Verif.Model.Balancer
/-!
Theorems about `BalancerPoint` (C86).
-/
namespace Verif.Balancer

theorem any_some {o : Option St} {p : St → Prop} [DecidablePred p] (h : (o.any fun s => p s) = true) :
    ∃ s, o = some s ∧ p s := by
  cases o with
  | none => cases h
  | some s => exact ⟨s, rfl, of_decide_eq_true h⟩

/-- Children are added before `Run`, or between the launch of the others and `Stop`. -/
def gentle (s : St) : Choice → Prop
  | .add _ => s.ran = false ∨ (s.loop = .wait ∧ s.stopped = false)
  | .start => s.user = .idle
  | _ => True

/-- Executions in which every call is made at a good time. -/
inductive Gentle : St → St → Prop
  | nil (s : St) : Gentle s s
  | snoc {i s s' : St} {c : Choice} : Gentle i s → gentle s c → step s c = some s' → Gentle i s'

/-! ### C86: a balancer runs and stops each of its children once -/

/-- How often a child must have been run, and stopped, by now. -/
structure Inv (s : St) : Prop where
  nodup : s.children.Nodup
  calm : s.panicked = false
  off : s.ran = false → s.loop = .none ∧ s.stopped = false ∧ (∀ c, s.runs c = 0) ∧ ∀ c, s.stops c = 0
  on : s.ran = true → s.loop ≠ .none
  early : s.loop = .start → (∀ c, s.runs c = 0) ∧ ∀ c, s.stops c = 0
  launch : ∀ rest, s.loop = .launch rest → (∀ c, s.stops c = 0) ∧ ∃ fin, s.children = fin ++ rest ∧
    ∀ c, s.runs c = if c ∈ fin then 1 else 0
  wait : s.loop = .wait → (∀ c, s.stops c = 0) ∧
    ∀ c, s.runs c = if c ∈ s.children ∧ s.user ≠ .added c ∧ s.user ≠ .run c then 1 else 0
  halt : ∀ rest, s.loop = .halt rest → s.user = .idle ∧ s.stopped = true ∧ (∀ c, s.runs c = if c ∈ s.children then 1 else 0) ∧
    ∃ fin, s.children = fin ++ rest ∧ ∀ c, s.stops c = if c ∈ fin then 1 else 0
  done : s.loop = .ended → s.user = .idle ∧ s.stopped = true ∧ (∀ c, s.runs c = if c ∈ s.children then 1 else 0) ∧
    ∀ c, s.stops c = if c ∈ s.children then 1 else 0
  adding : ∀ c, s.user = .added c ∨ s.user = .run c → c ∈ s.children ∧ (s.ran = false ∨ s.loop = .wait)
  running : ∀ c, s.user = .run c → s.ran = true
  ending : s.user = .stopping → s.ran = true ∧ s.stopped = true

theorem inv_init : Inv init := by
  constructor <;> simp [init]

theorem inv_step {s s' : St} {c : Choice} (h : Inv s) (hg : gentle s c) (hs : step s c = some s') : Inv s' := by
  obtain ⟨h1, h2, h3, h4, h5, h6, h7, h8, h9, h10, h11, h12⟩ := h
  unfold step at hs
  rw [h2] at hs
  simp only [Bool.false_eq_true, if_false] at hs
  cases c with
  | add c =>
    simp only at hs
    split at hs <;> cases hs
    next hc =>
    simp only [gentle] at hg
    have hnd : (s.children ++ [c]).Nodup := by
      rw [List.nodup_append]; exact ⟨h1, by simp, by rintro a ha b hb rfl; simp at hb; exact hc.2 (hb ▸ ha)⟩
    constructor <;> simp only <;> first | exact hnd | grind
  | start =>
    simp only at hs
    split at hs <;> cases hs
    constructor <;> simp only <;> grind
  | stop =>
    simp only at hs
    split at hs <;> cases hs
    constructor <;> simp only <;> grind
  | user =>
    simp only [stepUser] at hs
    split at hs
    · cases hs
    · split at hs <;> cases hs
      · constructor <;> simp only <;> grind
      · constructor <;> simp only <;> grind
    · cases hs
      constructor <;> simp only <;> grind [bump]
    · cases hs
  | loop =>
    simp only [stepLoop] at hs
    split at hs
    · cases hs
    · next hl =>
      cases hs
      refine ⟨h1, h2, ?_, ?_, by simp, ?_, by simp, by simp, by simp, ?_, h11, h12⟩
      · grind
      · grind
      · intro rest hr
        cases hr
        exact ⟨(h5 hl).2, [], rfl, by simpa using (h5 hl).1⟩
      · grind
    · next hl =>
      cases hs
      obtain ⟨h13, fin, h14, h15⟩ := h6 [] hl
      constructor <;> simp only <;> grind
    · next c rest hl =>
      obtain ⟨h13, fin, h14, h15⟩ := h6 _ hl
      have hc : c ∉ fin := by
        rw [h14, List.nodup_append] at h1
        intro hm
        exact h1.2.2 c hm c (by simp) rfl
      have hz : s.runs c = 0 := by rw [h15, if_neg hc]
      simp only [hz, ne_eq, not_true_eq_false, if_false, Option.some.injEq] at hs
      subst hs
      refine ⟨h1, h2, ?_, ?_, by simp, ?_, by simp, by simp, by simp, ?_, h11, h12⟩
      · grind
      · grind
      · intro r hr
        cases hr
        refine ⟨h13, fin ++ [c], by rw [h14]; simp, fun d => ?_⟩
        simp only [bump]
        grind
      · grind
    · next hl =>
      split at hs <;> cases hs
      next hu =>
      refine ⟨h1, h2, ?_, ?_, by simp, by simp, by simp, ?_, by simp, by simp, by simp, by simp⟩
      · grind
      · grind
      · intro r hr
        cases hr
        refine ⟨rfl, (h12 hu).2, fun d => ?_, [], rfl, ?_⟩
        · rw [(h7 hl).2 d, hu]; simp
        · simpa using (h7 hl).1
    · next hl =>
      cases hs
      obtain ⟨h13, h16, h17, fin, h14, h15⟩ := h8 [] hl
      constructor <;> simp only <;> grind
    · next c rest hl =>
      cases hs
      obtain ⟨h13, h16, h17, fin, h14, h15⟩ := h8 _ hl
      have hc : c ∉ fin := by
        rw [h14, List.nodup_append] at h1
        intro hm
        exact h1.2.2 c hm c (by simp) rfl
      refine ⟨h1, h2, ?_, ?_, by simp, by simp, by simp, ?_, by simp, ?_, h11, h12⟩
      · grind
      · grind
      · intro r hr
        cases hr
        refine ⟨h13, h16, h17, fin ++ [c], by rw [h14]; simp, fun d => ?_⟩
        simp only [bump]
        grind
      · grind
    · cases hs

theorem inv_gentle {s : St} (h : Gentle init s) : Inv s := by
  induction h with
  | nil => exact inv_init
  | snoc _ hg hs ih => exact inv_step ih hg hs

/-- Used gently, a balancer does not panic and runs no child twice; while it waits for the end and the user is in no method, each child has
been run once and none was stopped. -/
theorem C86_runs_once_partial {s : St} (h : Gentle init s) : s.panicked = false ∧ (∀ c, s.runs c ≤ 1) ∧
    (s.loop = .wait → s.user = .idle → ∀ c, s.stops c = 0 ∧ s.runs c = if c ∈ s.children then 1 else 0) := by
  have hi := inv_gentle h
  refine ⟨hi.calm, fun c => ?_, fun hl hu c => ⟨(hi.wait hl).1 c, by rw [(hi.wait hl).2 c, hu]; simp⟩⟩
  cases hl : s.loop with
  | none =>
    cases hr : s.ran with
    | false => rw [(hi.off hr).2.2.1 c]; omega
    | true => exact absurd hl (hi.on hr)
  | start => rw [(hi.early hl).1 c]; omega
  | launch rest => obtain ⟨-, fin, -, h2⟩ := hi.launch rest hl; rw [h2 c]; split <;> omega
  | wait => rw [(hi.wait hl).2 c]; split <;> omega
  | halt rest => rw [(hi.halt rest hl).2.2.1 c]; split <;> omega
  | ended => rw [(hi.done hl).2.2.1 c]; split <;> omega

/-- ... and when its loop has ended after `Stop`, each child was run once and stopped once. -/
theorem C86_stops_once_partial {s : St} (h : Gentle init s) (hl : s.loop = .ended) (c : Nat) (hc : c ∈ s.children) :
    s.runs c = 1 ∧ s.stops c = 1 := by
  have hi := inv_gentle h
  obtain ⟨-, -, h1, h2⟩ := hi.done hl
  rw [h1 c, h2 c, if_pos hc]
  exact ⟨rfl, rfl⟩

/-- The loop never gets stuck: from any state in which `Stop` was called it ends after running, and stopping, at most the children. -/
theorem C86_stop_returns {s : St} (h : Gentle init s) (hu : s.user = .stopping) :
    ∃ n s', n ≤ 2 * s.children.length + 5 ∧ run s (List.replicate n .loop) = some s' ∧ s'.loop = .ended ∧ s'.user = .idle := by
  have halting : ∀ rest (s : St), s.panicked = false → s.loop = .halt rest → s.user = .idle →
      ∃ s', run s (List.replicate (rest.length + 1) .loop) = some s' ∧ s'.loop = .ended ∧ s'.user = .idle := by
    intro rest
    induction rest with
    | nil =>
      intro s hp hl hu
      exact ⟨{ s with loop := .ended }, by simp [run, step, stepLoop, hp, hl], rfl, hu⟩
    | cons c rest ih =>
      intro s hp hl hu
      obtain ⟨s', h1, h2⟩ := ih { s with stops := bump s.stops c, loop := .halt rest } hp rfl hu
      refine ⟨s', ?_, h2⟩
      rw [List.length_cons, List.replicate_succ]
      simp only [run, step, stepLoop, hp, hl, Bool.false_eq_true, if_false]
      simp only [hp, hu] at h1 ⊢
      exact h1
  have waiting : ∀ (s : St), s.panicked = false → s.loop = .wait → s.user = .stopping →
      ∃ s', run s (List.replicate (s.children.length + 2) .loop) = some s' ∧ s'.loop = .ended ∧ s'.user = .idle := by
    intro s hp hl hu
    obtain ⟨s', h1, h2⟩ := halting s.children { s with user := .idle, loop := .halt s.children } hp rfl rfl
    refine ⟨s', ?_, h2⟩
    rw [List.replicate_succ]
    simp only [run, step, stepLoop, hp, hl, hu, Bool.false_eq_true, if_false, if_true]
    simp only [hp] at h1 ⊢
    exact h1
  have launching : ∀ rest (s : St), s.panicked = false → s.loop = .launch rest → s.user = .stopping → rest.Nodup → (∀ c ∈ rest, s.runs c = 0) →
      ∃ s', run s (List.replicate (rest.length + 1 + (s.children.length + 2)) .loop) = some s' ∧ s'.loop = .ended ∧ s'.user = .idle := by
    intro rest
    induction rest with
    | nil =>
      intro s hp hl hu _ _
      obtain ⟨s', h1, h2⟩ := waiting { s with loop := .wait } hp rfl hu
      refine ⟨s', ?_, h2⟩
      rw [show [].length (α := Nat) + 1 + (s.children.length + 2) = (s.children.length + 2) + 1 by simp; omega, List.replicate_succ]
      simp only [run, step, stepLoop, hp, hl, Bool.false_eq_true, if_false]
      simp only [hp, hu] at h1 ⊢
      exact h1
    | cons c rest ih =>
      intro s hp hl hu hn hz
      rw [List.nodup_cons] at hn
      obtain ⟨s', h1, h2⟩ := ih { s with runs := bump s.runs c, loop := .launch rest } hp rfl hu hn.2 fun d hd => by
        have : d ≠ c := fun e => hn.1 (e ▸ hd)
        simp only [bump, if_neg this]
        exact hz d (by simp [hd])
      refine ⟨s', ?_, h2⟩
      have hc := hz c (by simp)
      rw [show (c :: rest).length + 1 + (s.children.length + 2) = (rest.length + 1 + (s.children.length + 2)) + 1 by simp; omega,
        List.replicate_succ]
      simp only [run, step, stepLoop, hp, hl, hc, Bool.false_eq_true, if_false, ne_eq, not_true_eq_false]
      simp only [hp, hu] at h1 ⊢
      exact h1
  have hi := inv_gentle h
  have hr := (hi.ending hu).1
  cases hl : s.loop with
  | none => exact absurd hl (hi.on hr)
  | start =>
    obtain ⟨s', h1, h2⟩ := launching s.children { s with loop := .launch s.children } hi.calm rfl hu hi.nodup fun c _ => (hi.early hl).1 c
    refine ⟨s.children.length + 1 + (s.children.length + 2) + 1, s', by omega, ?_, h2⟩
    rw [List.replicate_succ]
    simp only [run, step, stepLoop, hi.calm, hl, Bool.false_eq_true, if_false]
    simp only [hi.calm, hu] at h1 ⊢
    exact h1
  | launch rest =>
    obtain ⟨-, fin, h3, h4⟩ := hi.launch rest hl
    have hnd := hi.nodup
    rw [h3, List.nodup_append] at hnd
    obtain ⟨s', h1, h2⟩ := launching rest s hi.calm hl hu hnd.2.1 fun c hc => by
      rw [h4 c, if_neg]
      exact fun hm => hnd.2.2 c hm c hc rfl
    have : rest.length ≤ s.children.length := by rw [h3]; simp
    exact ⟨_, s', by omega, h1, h2⟩
  | wait =>
    obtain ⟨s', h1, h2⟩ := waiting s hi.calm hl hu
    exact ⟨_, s', by omega, h1, h2⟩
  | halt rest => have := (hi.halt rest hl).1; rw [hu] at this; cases this
  | ended => have := (hi.done hl).1; rw [hu] at this; cases this

/-- Two children before `Run`, one after the launch, then `Stop`. -/
def usual : List Choice :=
  [.add 1, .user, .add 2, .user, .start, .loop, .loop, .loop, .loop, .add 3, .user, .user, .stop, .loop, .loop, .loop, .loop, .loop]

example : (run init usual).any (fun s => s.loop = .ended ∧ s.children = [1, 2, 3] ∧ [1, 2, 3].map s.runs = [1, 1, 1] ∧
    [1, 2, 3].map s.stops = [1, 1, 1]) = true := by decide +kernel

/-- A child added right after `Run` crashes the program: `AddChild` runs it, then `Loop` starts, finds it among the children and panics. -/
theorem C86_add_after_run_violated : ∃ s, run init [.start, .add 1, .user, .user, .loop, .loop] = some s ∧ s.panicked = true := by
  have h : (run init [.start, .add 1, .user, .user, .loop, .loop]).any (fun s => s.panicked = true) = true := by decide +kernel
  exact any_some h

/-- ... or it is run twice, by both; two loops take requests from the channel then, and `Stop` ends only one of them. -/
theorem C86_run_twice_violated : ∃ cs s, run init cs = some s ∧ s.loop = .ended ∧ s.runs 1 = 2 ∧ s.stops 1 = 1 := by
  have h : (run init [.start, .add 1, .loop, .loop, .user, .loop, .user, .stop, .loop, .loop, .loop]).any
      (fun s => s.loop = .ended ∧ s.runs 1 = 2 ∧ s.stops 1 = 1) = true := by decide +kernel
  obtain ⟨s, h1, h2⟩ := any_some h
  exact ⟨_, s, h1, h2⟩

/-- A child added after `Stop` is run, and is never stopped whatever happens. -/
theorem C86_add_after_stop_violated : ∃ cs s, run init cs = some s ∧ s.runs 1 = 1 ∧
    ∀ ds s', run s ds = some s' → s'.stops 1 = 0 ∧ s'.runs 1 = 1 := by
  have h : (run init [.start, .loop, .loop, .stop, .loop, .loop, .add 1, .user, .user]).any
      (fun s => s.loop = .ended ∧ s.runs 1 = 1 ∧ s.stops 1 = 0 ∧ 1 ∈ s.children ∧ s.ran = true ∧ s.user = .idle) = true := by
    decide +kernel
  obtain ⟨s, h1, h2, h3, h4, h5, h6, h7⟩ := any_some h
  refine ⟨_, s, h1, h3, ?_⟩
  have key : ∀ ds (s s' : St), s.loop = .ended → s.runs 1 = 1 → s.stops 1 = 0 → 1 ∈ s.children → s.ran = true →
      s.user ≠ .added 1 → s.user ≠ .run 1 → run s ds = some s' → s'.stops 1 = 0 ∧ s'.runs 1 = 1 := by
    intro ds
    induction ds with
    | nil => intro s s' _ h3 h4 _ _ _ _ hr; cases hr; exact ⟨h4, h3⟩
    | cons d ds ih =>
      intro s s' h2 h3 h4 h5 h6 h7 h8 hr
      unfold run at hr
      split at hr
      · cases hr
      · next s1 hs =>
        refine ih s1 s' ?_ ?_ ?_ ?_ ?_ ?_ ?_ hr <;> clear ih hr
        all_goals
          cases d <;> simp only [step, stepUser, stepLoop, h2] at hs <;> (repeat' split at hs) <;>
            simp only [Option.some.injEq, reduceCtorEq] at hs <;> subst hs <;> grind [bump]
  intro ds s' hr
  exact key ds s s' h2 h3 h4 h5 h6 (by rw [h7]; simp) (by rw [h7]; simp) hr

end Verif.Balancer
