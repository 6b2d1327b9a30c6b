import Verif.Proofs.Timer
import Verif.Model.TimerLoop
/-!
Theorems about the timers (C34 to C38).
-/
namespace Verif.Props
open Verif.Timer

/-! ### C34, C35, C36: the heap -/

/-- C34/C35/C36. Every history of `After`, `Stop` and expirations on one heap: either all of it is as if on a plain
collection of armed timers, and at its end heap and timers hold exactly that collection with the earliest deadline on
top (`Holds`); or this is so up to a call of `After` on a timer that is armed at that time. -/
theorem C35_heap_is_the_armed_timers_partial (os : List Op) :
    (∃ s rs A, St.new.run os = some (s, rs) ∧ AllowedRun [] os rs A ∧ Holds s A) ∨
    (∃ pre x e post s rs A, os = pre ++ .after x e :: post ∧ St.new.run pre = some (s, rs) ∧
      AllowedRun [] pre rs A ∧ Holds s A ∧ isArmed A x) := by
  rcases run_ok os Inv.new with ⟨s, rs, F, fl, A, h1, h2, I⟩ | ⟨pre, x, e, post, s, rs, F, fl, A, h1, h2, h3, I, ha⟩
  · exact .inl ⟨s, rs, A, h1, h2, I.holds⟩
  · exact .inr ⟨pre, x, e, post, s, rs, A, h1, h2, h3, I.holds, ha⟩

/-- A history of arming only: no `After` on an armed timer. -/
def distinctTimers : List Op → Prop
  | [] => True
  | .after x _ :: os => (∀ e, Op.after x e ∉ os) ∧ distinctTimers os
  | _ :: os => distinctTimers os

theorem armed_from {A : Armed} {os rs B} (h : AllowedRun A os rs B) :
    ∀ x, isArmed B x → isArmed A x ∨ ∃ e, Op.after x e ∈ os := by
  induction h with
  | nil hp => rintro x ⟨e, h⟩; exact .inl ⟨e, hp.mem_iff.1 h⟩
  | @cons A B C o r os rs al _ ih =>
    intro x hx
    rcases ih x hx with ⟨e, h⟩ | ⟨e, h⟩
    · match o, r, al with
      | .after y f, .signal b, al =>
        rcases List.mem_cons.1 (al.1.mem_iff.1 h) with h | h
        · cases h; exact .inr ⟨e, by simp⟩
        · exact .inl ⟨e, h⟩
      | .stop y, .none, al => exact .inl ⟨e, (List.mem_filter.1 (al.mem_iff.1 h)).1⟩
      | .scan now, .none, al => exact .inl ⟨e, al.1.mem_iff.1 h⟩
      | .scan now, .expired y, al =>
        obtain ⟨f, _, _, _, hp⟩ := al
        exact .inl ⟨e, hp.mem_iff.2 (by simp [h])⟩
    · exact .inr ⟨e, by simp [h]⟩

theorem distinct_split : ∀ {pre : List Op} {x e post}, distinctTimers (pre ++ .after x e :: post) → ∀ f, Op.after x f ∉ pre
  | [], _, _, _, _ => by simp
  | o :: pre, x, e, post, h => by
    intro f hm
    have ht : distinctTimers (pre ++ .after x e :: post) := by
      cases o <;> first | exact h.2 | exact h
    rcases List.mem_cons.1 hm with rfl | hm
    · exact h.1 e (by simp)
    · exact distinct_split ht f hm

/-- C34/C35/C36. With every timer armed at most once (requests and multi-requests guard theirs by `timerSet`) no history can
go wrong. -/
theorem C35_one_shot_timers (os : List Op) (h : distinctTimers os) :
    ∃ s rs A, St.new.run os = some (s, rs) ∧ AllowedRun [] os rs A ∧ Holds s A := by
  rcases C35_heap_is_the_armed_timers_partial os with h' | ⟨pre, x, e, post, s, rs, A, rfl, _, h3, _, ha⟩
  · exact h'
  · rcases armed_from h3 x ha with ⟨_, h⟩ | ⟨f, hf⟩
    · simp at h
    · exact absurd hf (distinct_split h f)

/-- C34. The deadline at the top of the heap is the earliest of all that can be reached in it, and it is reached in
any non-empty heap. -/
theorem C34_top_is_earliest (os : List Op) (h : distinctTimers os) :
    ∃ s rs, St.new.run os = some (s, rs) ∧ (s.hp.size ≠ 0 → Reach s.hp s.hp.top) ∧
      ∀ i, Reach s.hp i → (s.hp.h s.hp.top).e ≤ (s.hp.h i).e := by
  obtain ⟨s, rs, A, h1, _, H⟩ := C35_one_shot_timers os h
  refine ⟨s, rs, h1, ?_, ?_⟩
  · intro hs
    refine .top fun ht => ?_
    rw [H.size] at hs
    obtain ⟨p, hp⟩ := List.exists_mem_of_length_pos (Nat.pos_of_ne_zero hs)
    have hr := (H.complete p.1 p.2 hp).1
    have : ∀ i, Reach s.hp i → False := by
      intro i hi
      induction hi with
      | top h => exact h ht
      | kid _ _ ih => exact ih
    exact this _ hr
  · intro i hi
    obtain ⟨x, _, _, hA⟩ := H.sound i hi
    exact H.top (List.ne_nil_of_mem hA) _ hA

/-- C36. `Stop` in a state where heap and timers hold `A`: the timer is gone, all others stay, with their deadlines;
a timer that is not armed is not touched. -/
theorem C36_stop_is_exact (os : List Op) (h : distinctTimers os) (x : Nat) :
    ∃ s rs A s' B, St.new.run os = some (s, rs) ∧ Holds s A ∧ s.step (.stop x) = some (s', .none) ∧ Holds s' B ∧
      (∀ y e, (y, e) ∈ B ↔ y ≠ x ∧ (y, e) ∈ A) ∧ (¬ isArmed A x → s' = s) := by
  have key : ∃ s rs F fl A, St.new.run os = some (s, rs) ∧ Inv s F fl A := by
    rcases run_ok os Inv.new with ⟨s, rs, F, fl, A, h1, h2, I⟩ | ⟨pre, y, e, post, s, rs, F, fl, A, rfl, h2, h3, I, ha⟩
    · exact ⟨s, rs, F, fl, A, h1, I⟩
    · rcases armed_from h3 y ha with ⟨_, h'⟩ | ⟨f, hf⟩
      · simp at h'
      · exact absurd hf (distinct_split h f)
  obtain ⟨s, rs, F, fl, A, h1, I⟩ := key
  obtain ⟨s', r, F', fl', B, e2, I', al⟩ := step_ok I (.stop x) (by intro _ _ h; cases h)
  have hr : r = .none := by cases r <;> first | rfl | exact al.elim
  subst hr
  refine ⟨s, rs, A, s', B, h1, I.holds, e2, I'.holds, ?_, ?_⟩
  · intro y e
    have hp : B.Perm (A.filter fun p => p.1 ≠ x) := al
    rw [hp.mem_iff, List.mem_filter]
    simp only [ne_eq, decide_not, Bool.not_eq_eq_eq_not, Bool.not_true, decide_eq_false_iff_not]
    exact And.comm
  · intro ha
    have hx : s.ti x = 0 := I.holds.unarmed x ha
    simp [St.step, hx] at e2
    exact e2.symm

/-- C35/C36 are false for timers armed twice: the first entry stays in the heap, `Stop` takes the second one out, and
the timer still expires. -/
theorem C36_rearmed_timer_violated :
    (St.new.run [.after 1 10, .after 1 20, .stop 1, .scan 15]).map (·.2) =
      some [.signal true, .signal false, .none, .expired 1] := by
  decide +kernel

/-- ... and after the first expiration the timer does not know that it is armed, so that it cannot be stopped. -/
theorem C36_rearmed_timer_cannot_be_stopped_violated :
    (St.new.run [.after 1 10, .after 1 20, .scan 15, .stop 1, .scan 25]).map (·.2) =
      some [.signal true, .signal false, .expired 1, .none, .expired 1] := by
  decide +kernel

/-- The hypothesis is met by a history that fills all four child places, splits them, reuses slots and takes out inner
nodes. -/
example : distinctTimers [.after 1 5, .after 2 9, .after 3 7, .after 4 8, .after 5 6, .after 6 10, .stop 5, .after 7 1,
    .scan 6, .scan 6, .stop 3, .after 8 2, .scan 9] := by
  simp [distinctTimers]

example : (St.new.run [.after 1 5, .after 2 9, .after 3 7, .after 4 8, .after 5 6, .after 6 10, .stop 5, .after 7 1,
    .scan 6, .scan 6, .stop 3, .after 8 2, .scan 9]).map (·.2) =
    some [.signal true, .signal false, .signal false, .signal false, .signal false, .signal false, .none, .signal true,
      .expired 7, .expired 1, .none, .signal true, .expired 8] := by
  decide +kernel

/-! ### C37: expiration -/

theorem drain_spec (now : Int) : ∀ (f : Nat) {s F fl A}, Inv s F fl A → A.length < f →
    ∃ s' F' fl' L B, s.drain now f = some (s', L.map (·.1)) ∧ Inv s' F' fl' B ∧ A.Perm (L ++ B) ∧
      L.Pairwise (fun p q => p.2 ≤ q.2) ∧ (∀ p ∈ L, p.2 < now) ∧ ∀ p ∈ B, now ≤ p.2 := by
  intro f
  induction f with
  | zero => intro s F fl A _ h; omega
  | succ f ih =>
    intro s F fl A I hl
    obtain ⟨s1, r, F1, fl1, B1, e1, I1, al⟩ := step_ok I (.scan now) (by intro _ _ h; cases h)
    match r, al with
    | .none, al =>
      refine ⟨s1, F1, fl1, [], B1, by simp [St.drain, e1], I1, al.1.symm, by simp, by simp, ?_⟩
      intro p hp; exact al.2 p (al.1.mem_iff.1 hp)
    | .expired x, al =>
      obtain ⟨e, hm, hlt, hmin, hp⟩ := al
      have := hp.length_eq
      simp at this
      obtain ⟨s', F', fl', L, B, e2, I', hp2, hs, hL, hB⟩ := ih I1 (by omega)
      refine ⟨s', F', fl', (x, e) :: L, B, by simp [St.drain, e1, e2], I', ?_, ?_, ?_, hB⟩
      · exact hp.trans (List.Perm.cons _ hp2)
      · refine List.pairwise_cons.2 ⟨fun q hq => hmin q (hp.mem_iff.2 ?_), hs⟩
        right; exact hp2.mem_iff.2 (by simp [hq])
      · intro q hq
        rcases List.mem_cons.1 hq with rfl | hq
        · exact hlt
        · exact hL q hq

/-- C37. A scan with the clock reading `now`: it expires timers in order of their deadlines, each with a deadline
before `now`, and stops when none of those left has one. -/
theorem C37_scan_in_order (os : List Op) (h : distinctTimers os) (now : Int) :
    ∃ s rs A s' L B, St.new.run os = some (s, rs) ∧ Holds s A ∧ s.drain now (s.hp.size + 1) = some (s', L.map (·.1)) ∧
      Holds s' B ∧ A.Perm (L ++ B) ∧ L.Pairwise (fun p q => p.2 ≤ q.2) ∧ (∀ p ∈ L, p.2 < now) ∧ ∀ p ∈ B, now ≤ p.2 := by
  rcases run_ok os Inv.new with ⟨s, rs, F, fl, A, h1, h2, I⟩ | ⟨pre, y, e, post, s, rs, F, fl, A, rfl, h2, h3, I, ha⟩
  · obtain ⟨s', F', fl', L, B, e1, I', r⟩ := drain_spec now (s.hp.size + 1) I (by rw [I.holds.size]; omega)
    exact ⟨s, rs, A, s', L, B, h1, I.holds, e1, I'.holds, r⟩
  · rcases armed_from h3 y ha with ⟨_, h'⟩ | ⟨f, hf⟩
    · simp at h'
    · exact absurd hf (distinct_split h f)

/-- C37. Whatever happens between the rounds of a scan: an expiration is always of an armed timer with a deadline
before the clock reading and before or with all others. -/
theorem C37_never_early (os : List Op) (h : distinctTimers os) (now : Int) :
    ∃ s rs A, St.new.run os = some (s, rs) ∧ Holds s A ∧ ∀ s' x, s.step (.scan now) = some (s', .expired x) →
      ∃ e, (x, e) ∈ A ∧ e < now ∧ ∀ p ∈ A, e ≤ p.2 := by
  rcases run_ok os Inv.new with ⟨s, rs, F, fl, A, h1, h2, I⟩ | ⟨pre, y, e, post, s, rs, F, fl, A, rfl, h2, h3, I, ha⟩
  · refine ⟨s, rs, A, h1, I.holds, fun s' x hs => ?_⟩
    obtain ⟨s1, r, F1, fl1, B1, e1, I1, al⟩ := step_ok I (.scan now) (by intro _ _ h; cases h)
    rw [hs] at e1
    cases e1
    obtain ⟨e, hm, hlt, hmin, _⟩ := al
    exact ⟨e, hm, hlt, hmin⟩
  · rcases armed_from h3 y ha with ⟨_, h'⟩ | ⟨f, hf⟩
    · simp at h'
    · exact absurd hf (distinct_split h f)

example : ((St.new.run [.after 1 5, .after 2 3, .after 3 9, .after 4 1]).bind fun p => p.1.drain 6 5).map (·.2) =
    some [4, 2, 1] := by
  decide +kernel

/-! ### C38: wake-ups -/

open Verif.TimerLoop in
/-- C38 is false: the runtime timer may fire between its `Reset` and the `Wait` of the goroutine. Then the goroutine
sleeps past a deadline and nothing is going to wake it up. -/
theorem C38_lost_wakeup_violated :
    ∃ cs s, TimerLoop.run TimerLoop.init cs = some s ∧ s.pc = .wait ∧ s.rt = none ∧ s.armed = [(1, 5)] ∧ s.now = 9 :=
  ⟨[.loop, .loop, .loop, .after 1 5, .loop, .loop, .loop, .tick 9, .timer, .loop], _, rfl, rfl, rfl, rfl, rfl⟩

open Verif.TimerLoop in
/-- C38 is false: ... and in such a state no passing of time and no step of the goroutine or of the runtime timer ever
makes the timer expire. -/
theorem C38_sleeps_forever_violated (s : TimerLoop.St) (hw : s.pc = .wait) (hr : s.rt = none) (cs : List Choice)
    (hc : ∀ c ∈ cs, c = .timer ∨ c = .loop ∨ ∃ d, c = .tick d) (s' : TimerLoop.St) (h : TimerLoop.run s cs = some s') :
    s'.pc = .wait ∧ s'.armed = s.armed ∧ s'.expired = s.expired := by
  induction cs generalizing s with
  | nil => simp [TimerLoop.run] at h; subst h; exact ⟨hw, rfl, rfl⟩
  | cons c cs ih =>
    simp only [TimerLoop.run] at h
    rcases hc c (by simp) with rfl | rfl | ⟨d, rfl⟩
    · simp [TimerLoop.step, hr] at h
    · simp [TimerLoop.step, hw] at h
    · simp only [TimerLoop.step, Option.bind_some] at h
      exact ih { s with now := s.now + d } hw hr (fun c hc' => hc c (by simp [hc'])) h

namespace TimerAux
open Verif.TimerLoop

theorem earliest_le : ∀ (A : List (Nat × Int)), (earliest A = none → A = []) ∧
    ∀ q, earliest A = some q → ∀ p ∈ A, q.2 ≤ p.2
  | [] => by simp [earliest]
  | p :: r => by
    have ih := earliest_le r
    cases h : earliest r with
    | none =>
      have := ih.1 h
      subst this
      simp [earliest]
    | some q =>
      have := ih.2 q h
      by_cases hp : p.2 ≤ q.2
      · simp only [earliest, h, hp, if_true]
        refine ⟨by simp, ?_⟩
        rintro _ ⟨⟩ s hs
        rcases List.mem_cons.1 hs with rfl | hs
        · exact Int.le_refl _
        · have := this s hs; omega
      · simp only [earliest, h, hp, if_false]
        refine ⟨by simp, ?_⟩
        rintro _ ⟨⟩ s hs
        rcases List.mem_cons.1 hs with rfl | hs
        · omega
        · exact this s hs

/-- Asleep or about to be: there is a wake-up for the earliest deadline. -/
def Covered (s : TimerLoop.St) : Prop :=
  s.pc = .sleep ∨ s.pc = .wait → ∀ p ∈ s.armed, ∃ t, s.rt = some t ∧ t ≤ p.2 + s.lag

theorem covered_step {s s' : TimerLoop.St} {c : Choice} (hc : ¬ (c = .timer ∧ s.pc = .sleep)) (h : Covered s)
    (hs : TimerLoop.step s c = some s') : Covered s' := by
  cases c with
  | tick d => simp [TimerLoop.step] at hs; subst hs; exact h
  | after x e =>
    simp only [TimerLoop.step] at hs
    split at hs
    · cases hs
    · next hl =>
      cases hs
      intro hp p hpm
      simp only at hp hpm ⊢
      by_cases htop : (s.armed.all fun p => e < p.2) = true
      · rw [if_pos htop] at hp
        cases hpc : s.pc <;> simp [hpc, Pc.locked, Pc.signal] at hl hp
      rw [if_neg htop] at hp
      have hpc : s.pc = .wait := by
        rcases hp with hp | hp
        · simp [hp, Pc.locked] at hl
        · exact hp
      simp at htop
      obtain ⟨a, b, hm, hle⟩ := htop
      obtain ⟨t, ht, hle'⟩ := h (.inr hpc) (a, b) hm
      rcases List.mem_cons.1 hpm with rfl | hpm
      · exact ⟨t, ht, by simp at hle' ⊢; omega⟩
      · exact h (.inr hpc) p hpm
  | stop x =>
    simp only [TimerLoop.step] at hs
    split at hs
    · cases hs
    · cases hs
      intro hp p hpm
      exact h hp p (List.mem_filter.1 hpm).1
  | timer =>
    simp only [TimerLoop.step] at hs
    split at hs
    · split at hs
      · cases hs
        intro hp
        cases hpc : s.pc <;> simp [hpc, Pc.signal] at hp hc
      · cases hs
    · cases hs
  | loop =>
    simp only [TimerLoop.step] at hs
    split at hs
    · cases hs; intro hp; simp at hp
    · next t0 re hpc =>
      split at hs
      · next he =>
        cases hs
        have := (earliest_le s.armed).1 he
        intro _ p hp
        simp [this] at hp
      · next x e he =>
        have hmin := (earliest_le s.armed).2 _ he
        split at hs
        · split at hs
          · cases hs; intro hp; simp at hp
          · cases hs
            intro _ p hp
            refine ⟨_, rfl, ?_⟩
            have := hmin p hp
            simp only at this ⊢
            omega
        · cases hs; intro hp; simp at hp
    · cases hs; intro hp; simp at hp
    · next hpc => cases hs; intro _; exact h (.inl hpc)
    · cases hs
    · cases hs; intro hp; simp at hp

end TimerAux

open Verif.TimerLoop in
/-- C38 (partial: only when the runtime timer never fires between its `Reset` and the `Wait`). Whenever the timer
goroutine sleeps, for every armed timer a wake-up is to come, at most the time between the clock reading and the `Reset`
after its deadline. -/
theorem C38_wakeup_to_come_partial (cs : List Choice) (s : TimerLoop.St) (hc : Calm TimerLoop.init cs)
    (h : TimerLoop.run TimerLoop.init cs = some s) (hw : s.pc = .wait) :
    ∀ p ∈ s.armed, ∃ t, s.rt = some t ∧ t ≤ p.2 + s.lag := by
  have key : ∀ (cs : List Choice) (a : TimerLoop.St), TimerAux.Covered a → Calm a cs → TimerLoop.run a cs = some s → TimerAux.Covered s := by
    intro cs
    induction cs with
    | nil => intro a ha _ hr; simp [TimerLoop.run] at hr; subst hr; exact ha
    | cons c cs ih =>
      intro a ha hcalm hr
      simp only [TimerLoop.run] at hr
      cases hs : TimerLoop.step a c with
      | none => simp [hs] at hr
      | some b =>
        rw [hs] at hr
        exact ih b (TimerAux.covered_step hcalm.1 ha hs) (hcalm.2 b hs) hr
  exact key cs TimerLoop.init (by intro h; simp [TimerLoop.init] at h) hc h (.inr hw)

open Verif.TimerLoop in
/-- A calm execution that sleeps with an armed timer. -/
example : ∃ s, TimerLoop.run TimerLoop.init [.loop, .loop, .loop, .after 1 5, .loop, .loop, .loop, .loop, .tick 9] = some s ∧
    s.pc = .wait ∧ s.armed = [(1, 5)] ∧ s.rt = some 5 := ⟨_, rfl, rfl, rfl, rfl⟩

end Verif.Props
