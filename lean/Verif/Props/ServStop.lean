import Verif.Proofs.ServStop
/-!
Theorems about the server (C77).
-/
namespace Verif.ServStop

theorem any_some {o : Option St} {p : St → Prop} [DecidablePred p] (h : (o.any fun s => p s) = true) :
    ∃ s, o = some s ∧ p s := by
  cases o with
  | none => cases h
  | some s => exact ⟨s, rfl, of_decide_eq_true h⟩

end Verif.ServStop

namespace Verif.Props

open Verif.ServStop

/-- C77 does not hold: the first report of a connection, made when its write side has ended, already removes it: `Running` is
closed while its read loop still receives requests. -/
theorem C77_still_reading_violated : ∃ s, ServStop.run ServStop.init [.accept, .stop, .onStop, .handle, .wEnd 0, .report 0, .handle] = some s ∧
    (s.running = false ∧ (s.con 0).reading = true) := by
  apply ServStop.any_some (p := fun s : ServStop.St => s.running = false ∧ (s.con 0).reading = true)
  decide +kernel

/-- C77, in part: `Running` is closed only after `Stop`, when the write loops of all connections have ended. -/
theorem C77_writes_ended_partial {cs : List ServStop.Choice} {s : ServStop.St} (h : ServStop.run ServStop.init cs = some s)
    (hr : s.running = false) : s.closing = true ∧ ∀ i, i < s.cur → (s.con i).w = .reported := by
  have i := ServStop.inv_run ServStop.inv_init h
  obtain ⟨h1, h2⟩ := i.ended hr
  refine ⟨h1, fun j hj => ?_⟩
  have := i.conns j hj
  rw [h2] at this
  simpa using this

/-- C77, in part: after `Stop`, once the write loops of all connections have ended, the control loop can end, and does so as soon as
it has received and handled what is waiting for it. Missing: a second call of `Stop` must not be waiting with the lock held. -/
theorem C77_ends_partial {cs : List ServStop.Choice} {s : ServStop.St} (h : ServStop.run ServStop.init cs = some s)
    (hc : s.closing = true) (hl : s.lock = false) (hw : ∀ i, i < s.cur → (s.con i).w ≠ .up) :
    ∃ ds s', ServStop.run s ds = some s' ∧ s'.running = false ∧
      ∀ d, d ∈ ds → d = .onStop ∨ d = .handle ∨ ∃ i, d = .report i ∧ i < s.cur := by
  have key : ∀ (n : Nat) (s : ServStop.St), ServStop.Inv s → s.closing = true → s.lock = false → s.got = none →
      (∀ i, i < s.cur → (s.con i).w ≠ .up) → s.conns.length ≤ n →
      ∃ ds s', ServStop.run s ds = some s' ∧ s'.running = false ∧
        ∀ d, d ∈ ds → d = .onStop ∨ d = .handle ∨ ∃ i, d = .report i ∧ i < s.cur := by
    intro n
    induction n with
    | zero =>
      intro s i hc hl hg hw hn
      have hn : s.conns = [] := List.length_eq_zero_iff.mp (by omega)
      cases hr : s.running with
      | false => exact ⟨[], s, rfl, hr, by simp⟩
      | true =>
        have ht : s.stop = 1 := by
          rcases i.todo hc hr hn with h | h
          · exact h
          · rw [hg] at h; cases h
        refine ⟨[.onStop, .handle], { s with stop := 0, got := none, running := false }, ?_, rfl, by simp⟩
        simp [ServStop.run, ServStop.step, hr, ht, hn, hg, hl]
    | succ n ih =>
      intro s i hc hl hg hw hn
      cases hn' : s.conns with
      | nil => exact ih s i hc hl hg hw (by rw [hn']; simp)
      | cons j t =>
        have hj := i.lt j (by simp [hn'])
        have hr : s.running = true := by
          cases e : s.running with
          | true => rfl
          | false => have := (i.ended e).2; rw [hn'] at this; cases this
        have he : (s.con j).w = .ended := by
          have := hw j hj.1
          have h2 := hj.2
          rw [hg] at h2
          cases e : (s.con j).w with
          | up => exact absurd e this
          | ended => rfl
          | reported => simp [e] at h2
        have es : ServStop.step s (.report j) =
            some { s with con := ServStop.set s.con j { s.con j with w := .reported }, got := some (.closed j) } := by
          simp only [ServStop.step, hr, hg, he, and_self, if_true]
        have i1 := ServStop.inv_step i es
        have es2 : ServStop.step { s with con := ServStop.set s.con j { s.con j with w := .reported }, got := some (.closed j) } .handle =
            some (onClosed { s with con := ServStop.set s.con j { s.con j with w := .reported }, got := none } j) := by
          simp [ServStop.step, hl]
        have i2 := ServStop.inv_step i1 es2
        have l1 : (s.conns.filter (· ≠ j)).length ≤ n := by
          have : (t.filter (· ≠ j)).length ≤ t.length := List.length_filter_le _ _
          rw [hn'] at hn ⊢
          simp only [ne_eq, List.length_cons] at hn this ⊢
          simp only [List.filter_cons, not_true_eq_false, decide_false, Bool.false_eq_true, if_false]
          omega
        obtain ⟨g1, g2, g3, g4, g5, g6⟩ :=
          onClosed_eq { s with con := ServStop.set s.con j { s.con j with w := .reported }, got := none } j
        obtain ⟨ds, s', e1, e2, e3⟩ := ih _ i2 (by rw [g3]; exact hc) (by rw [g5]; exact hl) g6
          (by
            intro k hk
            rw [g1] at hk
            rw [g2]
            by_cases hkj : k = j
            · simp [ServStop.set, hkj]
            · simpa [ServStop.set, hkj] using hw k hk)
          (by rw [g4]; exact l1)
        refine ⟨.report j :: .handle :: ds, s', ?_, e2, ?_⟩
        · rw [ServStop.run, es, Option.bind_some, ServStop.run, es2]
          exact e1
        · intro d hd
          rw [g1] at e3
          simp only [List.mem_cons] at hd
          rcases hd with hd | hd | hd
          · exact .inr (.inr ⟨j, hd, hj.1⟩)
          · exact .inr (.inl hd)
          · exact e3 d hd
  have i := ServStop.inv_run ServStop.inv_init h
  cases hg : s.got with
  | none => exact key _ s i hc hl hg hw (Nat.le_refl _)
  | some g =>
    have es : ∃ s1, ServStop.step s .handle = some s1 ∧ s1.closing = true ∧ s1.lock = false ∧ s1.got = none ∧ s1.con = s.con ∧
        s1.cur = s.cur := by
      cases g with
      | stop =>
        by_cases hn : s.conns = [] <;> simp [ServStop.step, hl, hg, hn, hc]
      | closed j =>
        obtain ⟨g1, g2, g3, g4, g5, g6⟩ := onClosed_eq { s with got := none } j
        refine ⟨onClosed { s with got := none } j, by simp only [ServStop.step, hl, hg, Bool.false_eq_true, if_false], ?_⟩
        exact ⟨g3.trans hc, g5.trans hl, g6, g2, g1⟩
    obtain ⟨s1, e1, h1, h2, h3, h4, h5⟩ := es
    obtain ⟨ds, s', f1, f2, f3⟩ := key _ s1 (ServStop.inv_step i e1) h1 h2 h3 (by rw [h4, h5]; exact hw) (Nat.le_refl _)
    refine ⟨.handle :: ds, s', by rw [ServStop.run, e1]; exact f1, f2, ?_⟩
    intro d hd
    rcases List.mem_cons.mp hd with hd | hd
    · exact .inr (.inl hd)
    · rw [h5] at f3
      exact f3 d hd

/-- C77_ends_partial: two connections, one of which has already reported; another report is being handled. -/
example : ∃ s, ServStop.run ServStop.init [.accept, .accept, .accept, .wEnd 0, .report 0, .handle, .stop, .onStop, .handle, .rEnd 1,
      .wEnd 1, .wEnd 2, .report 2] = some s ∧
    (s.closing = true ∧ s.lock = false ∧ s.cur = 3 ∧ s.running = true ∧ s.conns = [2, 1] ∧ ∀ i, i < s.cur → (s.con i).w ≠ .up) := by
  apply ServStop.any_some (p := fun s : ServStop.St => s.closing = true ∧ s.lock = false ∧ s.cur = 3 ∧ s.running = true ∧
    s.conns = [2, 1] ∧ ∀ i, i < s.cur → (s.con i).w ≠ .up)
  decide +kernel

/-- C77, in part: if `Stop` is called once, nobody waits with the lock held. -/
theorem C77_once_partial {cs : List ServStop.Choice} {s : ServStop.St} (h : ServStop.run ServStop.init cs = some s)
    (h1 : cs.count .stop ≤ 1) : s.lock = false := by
  have key : ∀ (cs : List ServStop.Choice) (s0 : ServStop.St), ServStop.run s0 cs = some s → s0.lock = false →
      cs.count .stop + s0.stop + (if s0.closing then 1 else 0) ≤ 1 + s0.stop →
      (s0.stop ≤ 1 ∧ (s0.closing = false → s0.stop = 0)) → s.lock = false := by
    intro cs
    induction cs with
    | nil => intro s0 h hl _ _; cases h; exact hl
    | cons c cs ih =>
      intro s0 h hl hc hs
      simp only [ServStop.run] at h
      cases e : ServStop.step s0 c with
      | none => rw [e] at h; cases h
      | some s1 =>
        rw [e] at h
        refine ih s1 h ?_ ?_ ?_ <;>
          cases c <;> simp only [ServStop.step, onClosed] at e <;> (repeat' split at e) <;> cases e <;>
          simp_all <;> grind
  exact key cs ServStop.init h rfl (by simpa [ServStop.init] using h1) (by simp [ServStop.init])

/-- C77_once_partial: a run with one call of `Stop`. -/
example : ∃ s, ServStop.run ServStop.init [.accept, .wEnd 0, .stop, .report 0, .handle] = some s ∧ s.running = false := by
  apply ServStop.any_some (p := fun s : ServStop.St => s.running = false)
  decide +kernel

/-- C77 does not hold: `Stop` called a second time, when the control loop has received the report of a connection and not yet the first
call: `Stop` waits for the control loop with the lock held, and the control loop waits for the lock. Nothing ends that. -/
theorem C77_stop_twice_violated : ∃ s, ServStop.run ServStop.init [.accept, .rEnd 0, .wEnd 0, .stop, .report 0, .stop] = some s ∧
    ∀ ds s', ServStop.run s ds = some s' → s'.running = true ∧ s'.lock = true ∧ s'.conns = [0] := by
  have hs : ∃ s, ServStop.run ServStop.init [.accept, .rEnd 0, .wEnd 0, .stop, .report 0, .stop] = some s ∧
      (s.running = true ∧ s.lock = true ∧ s.conns = [0] ∧ s.stop = 1 ∧ s.got = some (.closed 0)) := by
    apply ServStop.any_some (p := fun s : ServStop.St => s.running = true ∧ s.lock = true ∧ s.conns = [0] ∧ s.stop = 1 ∧
      s.got = some (.closed 0))
    decide +kernel
  obtain ⟨s, e, hs⟩ := hs
  refine ⟨s, e, ?_⟩
  clear e
  intro ds
  induction ds generalizing s with
  | nil => intro s' h; cases h; exact ⟨hs.1, hs.2.1, hs.2.2.1⟩
  | cons c ds ih =>
    intro s' h
    simp only [ServStop.run] at h
    cases e : ServStop.step s c with
    | none => rw [e] at h; cases h
    | some s1 =>
      rw [e] at h
      refine ih s1 ?_ s' h
      obtain ⟨h1, h2, h3, h4, h5⟩ := hs
      cases c <;> simp only [ServStop.step, h1, h2, h4, h5] at e <;> (repeat' split at e) <;> cases e <;> simp_all

/-- C77 does not hold: nobody receives a report after the control loop has ended: a connection that has not made its second
report by then never ends. -/
theorem C77_never_gone_violated {ds : List ServStop.Choice} {s s' : ServStop.St} (hr : s.running = false) {i : Nat}
    (hi : i < s.cur) (hg : (s.con i).gone = false) (hs : ServStop.run s ds = some s') : (s'.con i).gone = false := by
  induction ds generalizing s with
  | nil => cases hs; exact hg
  | cons c ds ih =>
    simp only [ServStop.run] at hs
    cases e : ServStop.step s c with
    | none => rw [e] at hs; cases hs
    | some s1 =>
      rw [e] at hs
      have key : s1.running = false ∧ i < s1.cur ∧ (s1.con i).gone = false := by
        cases c <;> simp only [ServStop.step, onClosed, hr] at e <;> (repeat' split at e) <;> cases e <;> grind
      exact ih key.1 key.2.1 key.2.2 hs

/-- C77_never_gone_violated: the only connection has reported once. -/
example : ∃ s, ServStop.run ServStop.init [.accept, .stop, .onStop, .handle, .rEnd 0, .wEnd 0, .report 0, .handle] = some s ∧
    (s.running = false ∧ 0 < s.cur ∧ (s.con 0).gone = false) := by
  apply ServStop.any_some (p := fun s : ServStop.St => s.running = false ∧ 0 < s.cur ∧ (s.con 0).gone = false)
  decide +kernel

end Verif.Props
