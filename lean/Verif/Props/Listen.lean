import Verif.Spec.Listen

/-! C156: every socket that `Accept` returns is served or closed, none is served after `Stop`, and those served are told. -/
namespace Verif.Listen
open Spec

theorem any_some {o : Option St} {p : St → Prop} [DecidablePred p] (h : (o.any fun s => p s) = true) :
    ∃ s, o = some s ∧ p s := by
  cases o with
  | none => cases h
  | some s => exact ⟨s, rfl, of_decide_eq_true h⟩

theorem fates_append (k : Nat) (a b : List Ev) : fates k (a ++ b) = fates k a + fates k b := by
  induction a with
  | nil => simp [fates]
  | cons e a ih => cases e <;> simp [fates, ih] <;> omega

theorem fates_told (k : Nat) (l : List Nat) : fates k (l.map .told) = 0 := by
  induction l with
  | nil => rfl
  | cons e a ih => simp [fates, ih]

theorem noneAfter_append {e : Ev} {a b : List Ev} (h : NoneAfter e a) (hb : ∀ k id, .started k id ∉ b) : NoneAfter e (a ++ b) := by
  intro x y k id he hm
  rcases List.append_eq_append_iff.1 he with ⟨z, h1, h2⟩ | ⟨z, h1, h2⟩
  · have : Ev.started k id ∈ b := by rw [h2]; simp [hm]
    exact hb k id this
  · cases z with
    | nil =>
      have : Ev.started k id ∈ b := by simp at h2; rw [← h2]; simp [hm]
      exact hb k id this
    | cons w z =>
      simp at h2
      obtain ⟨rfl, rfl⟩ := h2
      rcases List.mem_append.1 hm with hm | hm
      · exact h x z k id h1 hm
      · exact hb k id hm

theorem noneAfter_fresh {e f : Ev} {a : List Ev} (h : e ∉ a) (hf : f ≠ e) : NoneAfter e (a ++ [f]) := by
  intro x y k id he hm
  have : e ∈ a ++ [f] := by rw [he]; simp
  simp [h] at this
  exact hf this.symm

structure Inv (s : St) : Prop where
  acc : ∀ k, .accepted k ∈ s.log ↔ k < s.next
  got : ∀ k, s.pc = .got k → k + 1 = s.next
  fate : ∀ k, fates k s.log = if k < s.next ∧ s.pc ≠ .got k then 1 else 0
  ids : ∀ k id, .started k id ∈ s.log → 0 < id ∧ id ≤ s.cur
  apart : Apart s.log
  clos : s.closing = true ↔ .stopping ∈ s.log
  late : NoneAfter .stopping s.log
  conn : ∀ k id, .started k id ∈ s.log → id ∈ s.conns ∨ .gone id ∈ s.log
  known : ∀ id, id ∈ s.conns → ∃ k, .started k id ∈ s.log
  stop : s.stop ≠ 0 ∨ s.got = some .stop ∨ .handled ∈ s.log ∨ s.toClose ≠ 0 ∨ s.opened = false ∨ s.lock = true → s.closing = true
  one : s.stop ≤ 1
  told : .handled ∈ s.log → Told s.log
  over : .over ∈ s.log ↔ s.running = false
  empty : s.running = false → s.closing = true ∧ s.conns = []
  ended : s.pc = .ended → s.closing = true
  after : NoneAfter .over s.log
  room : s.lock = true ∨ s.toClose ≠ 0 ∨ s.opened = false ∨ s.closing = false

theorem inv_init : Inv init := by
  constructor <;> simp [init, fates, Apart, NoneAfter, Told]

theorem inv_step {x y : St} {c : Choice} (h : Inv x) (hs : step x c = some y) : Inv y := by
  obtain ⟨h1, h2, h3, h4, h5, h6, h7, h8, h9, h10, h11, h12, h13, h14, h15, h17, h16⟩ := h
  have late : ∀ l, y.log = x.log ++ l → (∀ k id, .started k id ∉ l) → NoneAfter .stopping y.log ∧ NoneAfter .over y.log := by
    intro l he hl; rw [he]; exact ⟨noneAfter_append h7 hl, noneAfter_append h17 hl⟩
  have same : y.log = x.log → NoneAfter .stopping y.log ∧ NoneAfter .over y.log := by intro he; rw [he]; exact ⟨h7, h17⟩
  have fresh : ∀ k id, x.closing = false → y.log = x.log ++ [.started k id] → NoneAfter .stopping y.log ∧ NoneAfter .over y.log := by
    intro k id hc he; rw [he]; exact ⟨noneAfter_fresh (by grind) (by simp), noneAfter_fresh (by grind) (by simp)⟩
  unfold Apart at h5
  unfold Told at h12
  cases c <;> simp only [step, listen, handle] at hs <;> (repeat' split at hs) <;>
    first
    | (cases hs; done)
    | (simp only [Option.some.injEq] at hs; subst hs
       refine ⟨?_, ?_, ?_, ?_, ?_, ?_, ?_, ?_, ?_, ?_, ?_, ?_, ?_, ?_, ?_, ?_, ?_⟩
       case refine_7 =>
         first
         | exact (fresh _ _ (by grind) rfl).1
         | exact (same rfl).1
         | refine (late _ rfl ?_).1; simp; done
         | refine (late _ (by simp only [List.append_assoc]; rfl) ?_).1; simp; done
       case refine_16 =>
         first
         | exact (fresh _ _ (by grind) rfl).2
         | exact (same rfl).2
         | refine (late _ rfl ?_).2; simp; done
         | refine (late _ (by simp only [List.append_assoc]; rfl) ?_).2; simp; done
       all_goals (clear late same fresh; simp only [fates_append, fates_told, fates, Apart, Told, List.mem_append, List.mem_map, List.mem_cons, List.mem_filter]
                  first | grind | (intro id hm; simp at hm ⊢; grind)))

theorem inv_run {cs : List Choice} : ∀ {x y : St}, Inv x → run x cs = some y → Inv y := by
  induction cs with
  | nil => intro x y h hr; cases hr; exact h
  | cons c cs ih =>
    intro x y h hr
    simp only [run] at hr
    cases hs : step x c with
    | none => simp [hs] at hr
    | some z => rw [hs] at hr; exact ih (inv_step h hs) hr

theorem reach {cs : List Choice} {s : St} (h : run init cs = some s) : Inv s := inv_run inv_init h

/-- A socket that `Accept` returned is served or closed, not both and not twice; two sockets never get the same id; when the loop is back
at `Accept`, or has ended, nothing is left undecided. -/
theorem C156_once {cs : List Choice} {s : St} (h : run init cs = some s) :
    Once s.log ∧ Apart s.log ∧
      (s.pc = .accept ∨ s.pc = .failed ∨ s.pc = .ended → ∀ k, .accepted k ∈ s.log → fates k s.log = 1) := by
  have i := reach h
  refine ⟨fun k => ?_, i.apart, fun hp k hk => ?_⟩
  · have := i.fate k
    have := i.acc k
    grind
  · have := i.fate k
    have := i.acc k
    grind

/-- No connection is started once a call of `Stop` has set `closing`; what `Accept` returns after that is closed. -/
theorem C156_none_late {cs : List Choice} {s : St} (h : run init cs = some s) : NoneAfter .stopping s.log := (reach h).late

/-- When the control loop has handled `Stop`, every connection that was ever started was told to stop, or has reported its end already;
later there are none (C156_none_late). -/
theorem C156_told {cs : List Choice} {s : St} (h : run init cs = some s) (hh : .handled ∈ s.log) : Told s.log := (reach h).told hh

/-- `Running` is closed only after a call of `Stop`, when every connection that was started has reported; none is started afterwards. -/
theorem C156_over {cs : List Choice} {s : St} (h : run init cs = some s) (hh : .over ∈ s.log) :
    .stopping ∈ s.log ∧ Gone s.log ∧ NoneAfter .over s.log := by
  have i := reach h
  have hr := i.over.1 hh
  refine ⟨i.clos.1 (i.empty hr).1, fun k id hk => ?_, i.after⟩
  have := i.conn k id hk
  rw [(i.empty hr).2] at this
  simpa using this

theorem closing_step {x y : St} {c : Choice} (hx : x.closing = true) (hs : step x c = some y) :
    y.closing = true ∧
      loops [c] + (match y.pc with | .accept => 2 | .failed => 1 | .got _ => 1 | .ended => 0) ≤
        (match x.pc with | .accept => 2 | .failed => 1 | .got _ => 1 | .ended => 0) := by
  cases c <;> simp only [step, listen, handle] at hs <;> (repeat' split at hs) <;>
    first
    | (cases hs; done)
    | (simp only [Option.some.injEq] at hs; subst hs; simp_all [loops]; done)
    | (simp only [Option.some.injEq] at hs; subst hs; simp_all [loops]; grind)

theorem loops_cons (c : Choice) (cs : List Choice) : loops (c :: cs) = loops [c] + loops cs := by
  cases c <;> simp [loops] <;> omega

theorem closing_run {cs : List Choice} : ∀ {x y : St}, x.closing = true → run x cs = some y →
    loops cs + (match y.pc with | .accept => 2 | .failed => 1 | .got _ => 1 | .ended => 0) ≤
        (match x.pc with | .accept => 2 | .failed => 1 | .got _ => 1 | .ended => 0) := by
  induction cs with
  | nil => intro x y h hr; cases hr; simp [loops]
  | cons c cs ih =>
    intro x y h hr
    simp only [run] at hr
    cases hs : step x c with
    | none => simp [hs] at hr
    | some z =>
      rw [hs] at hr
      have h1 := closing_step h hs
      have h2 := ih h1.1 hr
      rw [loops_cons]
      omega

theorem closing_stays {cs : List Choice} : ∀ {x y : St}, x.closing = true → run x cs = some y → y.closing = true := by
  induction cs with
  | nil => intro x y h hr; cases hr; exact h
  | cons c cs ih =>
    intro x y h hr
    simp only [run] at hr
    cases hs : step x c with
    | none => simp [hs] at hr
    | some z => rw [hs] at hr; exact ih (closing_step h hs).1 hr

/-- Once `closing` is set the loop makes two more steps at most, whatever else happens. When all calls of `Stop` have returned, the listener
is closed. The loop ends unless a call of `Stop` keeps the lock: as long as it has not ended, it can go on (`Accept` of a closed listener
returns an error). -/
theorem C156_ends_partial {cs ds : List Choice} {s s' : St} (h : run init cs = some s) (hs : .stopping ∈ s.log)
    (hr : run s ds = some s') :
    loops ds ≤ 2 ∧ (s'.lock = false → s'.toClose = 0 → s'.opened = false) ∧
      (s'.pc ≠ .ended → s'.lock = false → (step s' .fail).isSome ∨ (step s' .listen).isSome) := by
  have i := reach h
  have := closing_run (i.clos.2 hs) hr
  have j := inv_run i hr
  refine ⟨by grind, fun h1 h2 => ?_, fun hp hl => ?_⟩
  · have h3 : s'.closing = true := closing_stays (i.clos.2 hs) hr
    have := j.room
    simp_all
  simp only [step, listen, hl]
  cases hp : s'.pc <;> simp_all
  all_goals split <;> rfl

/-- Not so otherwise: calls of `Stop` beyond the second one may wait for ever, with the lock held; `listenLoop` then waits for the lock
for ever, and so does everybody else who needs it. -/
theorem C156_stuck_violated : ∃ s, run init [.stop, .close, .fail, .onStop, .handle, .stop, .stop] = some s ∧
    ∀ ds s', run s ds = some s' → s'.pc ≠ .ended ∧ s'.lock = true := by
  obtain ⟨s, h, h1, h2, h3, h4, h5⟩ : ∃ s, run init [.stop, .close, .fail, .onStop, .handle, .stop, .stop] = some s ∧
      s.lock = true ∧ s.stop = 1 ∧ s.running = false ∧ s.got = none ∧ s.pc = .failed := any_some (by decide +kernel)
  refine ⟨s, h, fun ds => ?_⟩
  clear h
  induction ds generalizing s with
  | nil => intro s' hr; cases hr; exact ⟨by simp [h5], h1⟩
  | cons c cs ih =>
    intro s' hr
    simp only [run] at hr
    cases hs : step s c with
    | none => simp [hs] at hr
    | some z =>
      rw [hs] at hr
      refine ih z ?_ ?_ ?_ ?_ ?_ s' hr <;>
        (cases c <;> simp only [step, listen, handle] at hs <;> grind)

/-- There is no pause after an error: while `Accept` fails (too many open files, say) the loop goes round, as often as the processor lets it,
with a line in the log each time. -/
theorem C156_spins_violated (n : Nat) :
    run init (List.replicate n [Choice.fail, .listen]).flatten = some { init with log := List.replicate n .failed } := by
  have : ∀ n l, run { init with log := l } (List.replicate n [Choice.fail, .listen]).flatten =
      some { init with log := l ++ List.replicate n .failed } := by
    intro n
    induction n with
    | zero => intro l; simp [run]
    | succ n ih =>
      intro l
      simp only [List.replicate_succ, List.flatten_cons, List.cons_append, List.nil_append, run]
      have := ih (l ++ [.failed])
      simp [step, listen, init] at this ⊢
      exact this
  simpa [init] using this n []

/-- Two connections are served and told to stop; the third is closed. -/
example : ∃ s, run init [.accept, .listen, .fail, .listen, .accept, .listen, .accept, .stop, .listen, .onStop, .handle, .close,
      .report 1, .handle, .report 2, .handle] = some s ∧
    s.log = [.accepted 0, .started 0 1, .failed, .accepted 1, .started 1 2, .accepted 2, .stopping, .shut 2, .told 2, .told 1, .handled,
      .gone 1, .gone 2, .over] ∧ s.pc = .ended := any_some (by decide +kernel)

/-- The hypotheses of C156_ends_partial: the loop is waiting in `Accept` when `Stop` is called. -/
example : ∃ s, run init [.accept, .listen, .stop, .close] = some s ∧ .stopping ∈ s.log ∧ s.pc = .accept ∧
    (run s [.fail, .listen]).any (·.pc = .ended) = true := any_some (by decide +kernel)

end Verif.Listen
