import Verif.Proofs.PoolCount
/-!
Theorems about the connection pool (C55, C73).
-/
namespace Verif.Pool

theorem any_some {o : Option St} {p : St → Prop} [DecidablePred p] (h : (o.any fun s => p s) = true) :
    ∃ s, o = some s ∧ p s := by
  cases o with
  | none => cases h
  | some s => exact ⟨s, rfl, of_decide_eq_true h⟩

theorem reach {n : Nat} {cs : List Choice} {s : St} (h : run (init n) cs = some s) : Inv s ∧ Tot s :=
  ⟨inv_run (inv_init n) h, tot_run (inv_init n) (tot_init n) h⟩

/-- Connection `i` is established and waits. -/
def connect (i : Nat) : List Choice := [.lp i, .dialed i true, .lp i, .recv, .serv, .lp i, .wp i, .waits i]

theorem count_eq (p : Con → Bool) (s : St) : count p s = cnt p s.con s.cur := rfl

theorem cnt_congr' {p q : Con → Bool} {f : Nat → Con} {n : Nat} (h : ∀ i, i < n → p (f i) = q (f i)) : cnt p f n = cnt q f n := by
  induction n with
  | zero => rfl
  | succ n ih => rw [cnt_succ, cnt_succ, ih fun i hi => h i (by omega), h n (by omega)]

theorem cnt_add {p a b : Con → Bool} {f : Nat → Con} {n : Nat} (h : ∀ i, i < n → one (p (f i)) + one (b (f i)) = one (a (f i))) :
    cnt p f n + cnt b f n = cnt a f n := by
  induction n with
  | zero => rfl
  | succ n ih =>
    have h1 := ih fun i hi => h i (by omega)
    have h2 := h n (by omega)
    simp only [cnt_succ]
    omega

theorem quiet_counts {s : St} (h : Inv s) (hq : Quiet s) :
    count Dials s = cnt pD s.con s.cur ∧ count Up s + cnt pW s.con s.cur = cnt pU s.con s.cur := by
  constructor
  · apply cnt_congr'
    intro i hi
    have := hq.2 i hi
    simp [Dials, pD, this]
  · apply cnt_add
    intro i hi
    have h1 := hq.2 i hi
    have h2 := h.wOff i
    simp only [Up, pW, pU, one]
    by_cases hw : (s.con i).wp = .done
    · have := h2 (by rw [hw]; simp)
      simp [hw, this]
    · simp [hw, h1]

/-- The server's loop waits in `Stop` for a write loop that has seen `stopped`, or will see it first. -/
theorem stuck_of {s : St} {i : Nat} {n : Int} {t : List Nat} {d : Bool} (hp : s.pc = .stopping i n t d)
    (h1 : (s.con i).stopped = true) (h2 : (s.con i).wp ≠ .body ∧ (s.con i).wp ≠ .wait) : Stuck s := by
  intro ds
  induction ds generalizing s with
  | nil => intro s' e; cases e; rfl
  | cons c ds ih =>
    intro s' e
    simp only [run] at e
    cases es : step s c with
    | none => rw [es] at e; cases e
    | some s1 =>
      rw [es] at e
      have key : s1.pc = s.pc ∧ (s1.con i).stopped = true ∧ (s1.con i).wp ≠ .body ∧ (s1.con i).wp ≠ .wait := by
        cases c <;> simp only [step, stepServ, stepPick, stepLp, stepWp, stepCtl, push, hp] at es <;>
          (repeat' split at es) <;> cases es <;> (try simp only [hp]) <;> grind
      rw [← key.1]
      exact ih (by rw [key.1]; exact hp) key.2.1 key.2.2 s' e

/-- When the server's loop has ended and its channel is full, nobody can report. -/
theorem hung_of {s : St} {i : Nat} (hi : Inv s) (hp : s.pc = .ended) (hq : cap ≤ s.q.length) (hc : (s.con i).cp = .send) :
    ∀ ds s', run s ds = some s' → (s'.con i).cp = .send := by
  intro ds
  induction ds generalizing s with
  | nil => intro s' e; cases e; exact hc
  | cons c ds ih =>
    intro s' e
    simp only [run] at e
    cases es : step s c with
    | none => rw [es] at e; cases e
    | some s1 =>
      rw [es] at e
      have hr := hi.cOff i
      have hq' : ¬ s.q.length < cap := by omega
      have key : s1.pc = .ended ∧ s1.q = s.q ∧ (s1.con i).cp = .send := by
        cases c <;> simp only [step, stepServ, stepPick, stepLp, stepWp, stepCtl, push, hp, hq', if_false] at es <;>
          (repeat' split at es) <;> cases es <;> grind
      exact ih (inv_step hi es) key.1 (by rw [key.2.1]; exact hq) key.2.2 s' e

end Verif.Pool

namespace Verif.Props

open Verif.Pool

/-- C55: the server's loop never panics: every connection that reports is known (server.go:166-168, 184-186). -/
theorem C55_no_panic {n : Nat} {cs : List Pool.Choice} {s : Pool.St} (h : Pool.run (Pool.init n) cs = some s) :
    s.pc ≠ .panicked :=
  (Pool.reach h).1.noPanic

/-- C55, in part: as long as no connection was stopped by the pool, the counters are the numbers of dialing and of
established connections, whenever no report is on its way. -/
theorem C55_exact_partial {n : Nat} {cs : List Pool.Choice} {s : Pool.St} (h : Pool.run (Pool.init n) cs = some s)
    (hs : s.stopsE = 0) (hq : Quiet s) : s.dialing = count Dials s ∧ s.established = count Up s := by
  obtain ⟨hi, t⟩ := Pool.reach h
  obtain ⟨h1, h2⟩ := quiet_counts hi hq
  have h3 := hi.stopsD
  obtain ⟨t1, t2⟩ := t
  rw [hq.1] at t1 t2
  simp only [List.countP_nil] at t1 t2
  omega

/-- C55_exact_partial: one connection is up, one is being dialed. -/
example : ∃ s, Pool.run (Pool.init 2) ([.serv, .serv, .serv, .serv] ++ connect 1) = some s ∧
    (s.stopsE = 0 ∧ Quiet s ∧ count Dials s = 1 ∧ count Up s = 1) := by
  apply Pool.any_some (p := fun s : Pool.St => s.stopsE = 0 ∧ Quiet s ∧ count Dials s = 1 ∧ count Up s = 1)
  decide +kernel

/-- C55 does not hold: a stopped connection is subtracted twice, by `fixConnections` (server.go:102, 106) and by `onConnError`
(server.go:176). So whenever no report is on its way the pool has as many connections too many as it has ever stopped, and
when it believes to have the configured number it has that many more. -/
theorem C55_drift_violated {n : Nat} {cs : List Pool.Choice} {s : Pool.St} (h : Pool.run (Pool.init n) cs = some s)
    (hq : Quiet s) : (count Dials s + count Up s : Nat) = s.dialing + s.established + s.stopsE := by
  obtain ⟨hi, t⟩ := Pool.reach h
  obtain ⟨h1, h2⟩ := quiet_counts hi hq
  have h3 := hi.stopsD
  obtain ⟨t1, t2⟩ := t
  rw [hq.1] at t1 t2
  simp only [List.countP_nil] at t1 t2
  omega

/-- Two connections; one is to be kept, the other is stopped and ends. -/
def shrinking : List Pool.Choice :=
  [.serv, .serv, .serv, .serv] ++ connect 0 ++ connect 1 ++
    [.setConns 1, .serv, .tick, .serv, .pick 0, .serv, .serv, .wp 0, .wp 0, .rErr 0, .ctl 0, .ctl 0, .ctl 0, .ctl 0, .recv,
      .serv, .recv, .serv, .tick, .serv, .serv, .serv] ++ connect 2 ++ [.tick, .serv, .serv]

/-- C55 does not hold: after `SetConnections(1)` the pool stops one of two connections, opens another one, and stays with
two connections of which it counts one. -/
theorem C55_shrink_violated : ∃ s, Pool.run (Pool.init 2) shrinking = some s ∧
    (s.need = 1 ∧ s.dialing = 0 ∧ s.established = 1 ∧ Quiet s ∧ s.pc = .loop ∧
      count Up s = 2 ∧ (s.con 0).cp = .flush) := by
  apply Pool.any_some (p := fun s : Pool.St => s.need = 1 ∧ s.dialing = 0 ∧ s.established = 1 ∧ Quiet s ∧ s.pc = .loop ∧
      count Up s = 2 ∧ (s.con 0).cp = .flush)
  decide +kernel

/-- C55: when `fixConnections` finds connections missing, it opens exactly the missing ones. -/
theorem C55_opens {s : Pool.St} (hp : s.pc = .fix) {k : Nat} (hk : s.need - (s.dialing + s.established) = k) :
    ∃ s', Pool.run s (List.replicate (k + 1) .serv) = some s' ∧ s'.pc = .check ∧ s'.need = s'.dialing + s'.established ∧
      s'.cur = s.cur + k ∧ ∀ i, s.cur ≤ i → i < s'.cur → i ∈ s'.conns ∧ Dials (s'.con i) := by
  induction k generalizing s with
  | zero =>
    refine ⟨{ s with pc := .check }, ?_, rfl, ?_, rfl, fun i h1 h2 => by simp only at h2; omega⟩
    · simp only [Nat.zero_add, List.replicate_succ, List.replicate_zero, Pool.run, Pool.step, stepServ, hp]
      rw [if_neg (by omega), if_neg (by omega)]
      rfl
    · simp only; omega
  | succ k ih =>
    let s1 : Pool.St :=
      { s with cur := s.cur + 1, con := Pool.set s.con s.cur Con.new, conns := s.cur :: s.conns, dialing := s.dialing + 1 }
    obtain ⟨s', e, h1, h2, h3, h4⟩ := ih (s := s1) hp (by simp only [s1]; omega)
    have hkeep : ∀ (k : Nat) (s s' : Pool.St), s.pc = .fix → s.need - (s.dialing + s.established) = k →
        Pool.run s (List.replicate (k + 1) .serv) = some s' →
        (∀ i, i < s.cur → s'.con i = s.con i) ∧ ∀ i, i ∈ s.conns → i ∈ s'.conns := by
      intro k
      induction k with
      | zero =>
        intro s s' hp hk e
        simp only [Nat.zero_add, List.replicate_succ, List.replicate_zero, Pool.run, Pool.step, stepServ, hp] at e
        rw [if_neg (by omega), if_neg (by omega)] at e
        cases e
        exact ⟨fun _ _ => rfl, fun _ h => h⟩
      | succ k ih =>
        intro s s' hp hk e
        rw [List.replicate_succ, Pool.run] at e
        simp only [Pool.step, stepServ, hp] at e
        rw [if_pos (by omega)] at e
        obtain ⟨a, b⟩ := ih
          { s with cur := s.cur + 1, con := Pool.set s.con s.cur Con.new, conns := s.cur :: s.conns, dialing := s.dialing + 1 }
          s' hp (by simp only; omega) (by simpa only [hp, Option.bind_some] using e)
        refine ⟨fun i hi => ?_, fun i hi => b i (List.mem_cons_of_mem _ hi)⟩
        rw [a i (by simp only; omega)]
        simp only [Pool.set]
        rw [if_neg (by omega)]
    obtain ⟨k1, k2⟩ := hkeep k s1 s' hp (by simp only [s1]; omega) e
    refine ⟨s', ?_, h1, h2, by rw [h3]; simp only [s1]; omega, ?_⟩
    · rw [List.replicate_succ, Pool.run]
      simp only [Pool.step, stepServ, hp]
      rw [if_pos (by omega)]
      simpa only [s1, hp, Option.bind_some] using e
    · intro i hi1 hi2
      by_cases hi : i = s.cur
      · refine ⟨k2 i (by simp [s1, hi]), ?_⟩
        rw [k1 i (by simp only [s1]; omega), hi]
        simp [s1, Pool.set, Dials, Con.new]
      · exact h4 i (by simp only [s1]; omega) hi2

/-- C55_opens: the pool is new and opens three. -/
example : (Pool.init 3).pc = .fix ∧ (Pool.init 3).need - ((Pool.init 3).dialing + (Pool.init 3).established) = (3 : Nat) := by
  decide

/-- C55 does not hold: `Stop` of a connection which is still dialing waits for a receiver of its exit channel
(service.go:155), but the write loop, once started, sees `stopped` first and leaves (connection.go:262): the server's loop
hangs for ever, whatever happens. -/
theorem C55_dialing_stuck_violated {n : Nat} {cs : List Pool.Choice} {s : Pool.St} (h : Pool.run (Pool.init n) cs = some s)
    {i : Nat} {k : Int} {t : List Nat} (hp : s.pc = .stopping i k t true) : Stuck s := by
  have := (Pool.reach h).1.stuck i k t hp
  exact stuck_of hp this.1 this.2

/-- C55_dialing_stuck_violated: two connections are being dialed, none is wanted any more. -/
example : ∃ s, Pool.run (Pool.init 2) [.serv, .serv, .serv, .serv, .lp 0, .lp 1, .setConns 0, .serv, .tick, .serv, .pick 1] =
    some s ∧ s.pc = .stopping 1 (-2) [0] true := by
  apply Pool.any_some (p := fun s : Pool.St => s.pc = .stopping 1 (-2) [0] true)
  decide +kernel

/-- C55 does not hold: also for an established connection `Stop` hangs if the write loop is about to look at `stopped`. -/
theorem C55_connected_stuck_violated {n : Nat} {cs : List Pool.Choice} {s : Pool.St} (h : Pool.run (Pool.init n) cs = some s)
    {i : Nat} {k : Int} {t : List Nat} (hp : s.pc = .stopping i k t false) (hw : (s.con i).wp = .top) : Stuck s :=
  stuck_of hp ((Pool.reach h).1.stopd i k t false hp) (by rw [hw]; simp)

/-- C55_connected_stuck_violated: the connection has just received a request. -/
example : ∃ s, Pool.run (Pool.init 1) ([.serv, .serv, .serv] ++ connect 0 ++ [.wp 0, .setConns 0, .serv, .tick, .serv, .pick 0]) =
    some s ∧ (s.pc = .stopping 0 (-1) [] false ∧ (s.con 0).wp = .top) := by
  apply Pool.any_some (p := fun s : Pool.St => s.pc = .stopping 0 (-1) [] false ∧ (s.con 0).wp = .top)
  decide +kernel

/-- The pool with three connections is stopped; all write loops and read loops end. -/
def stopping : List Pool.Choice :=
  [.serv, .serv, .serv, .serv, .serv] ++ connect 0 ++ connect 1 ++ connect 2 ++
    [.exit, .serv, .tick, .serv, .pick 0, .serv, .pick 1, .serv, .pick 2, .serv, .serv] ++
    [.wp 0, .wp 0, .wp 1, .wp 1, .wp 2, .wp 2, .rErr 0, .rErr 1, .rErr 2] ++
    [.ctl 0, .ctl 0, .ctl 0, .ctl 0, .ctl 1, .ctl 1, .ctl 1]

/-- C73 does not hold: when a pool with three connections is stopped, its loop ends as soon as it has told them to stop; its
channel has room for four of their six reports, and the control loops report before they answer what is in flight
(connection.go:150-151): the second connection never answers. -/
theorem C73_unanswered_violated : ∃ s, Pool.run (Pool.init 3) stopping = some s ∧ (s.con 1).cp = .send ∧
    ∀ ds s', Pool.run s ds = some s' → (s'.con 1).cp = .send := by
  have : ∃ s, Pool.run (Pool.init 3) stopping = some s ∧ (s.pc = .ended ∧ cap ≤ s.q.length ∧ (s.con 1).cp = .send) := by
    apply Pool.any_some (p := fun s : Pool.St => s.pc = .ended ∧ cap ≤ s.q.length ∧ (s.con 1).cp = .send)
    decide +kernel
  obtain ⟨s, h, h1, h2, h3⟩ := this
  exact ⟨s, h, h3, hung_of (Pool.reach h).1 h1 h2 h3⟩

/-- C73, in part: as long as the pool's loop is receiving, a connection both sides of which have ended can answer what is in
flight, after at most one more report was received. -/
theorem C73_flushes_partial {n : Nat} {cs : List Pool.Choice} {s : Pool.St} (h : Pool.run (Pool.init n) cs = some s)
    (hp : s.pc = .loop) {i : Nat} (hc : (s.con i).cp = .send) :
    ∃ ds s', ds.length ≤ 3 ∧ Pool.run s ds = some s' ∧ (s'.con i).cp = .done := by
  have hi := (Pool.reach h).1
  have key : ∀ s : Pool.St, s.q.length < cap → (s.con i).cp = .send →
      ∃ s', Pool.run s [.ctl i, .ctl i] = some s' ∧ (s'.con i).cp = .done := by
    intro s hq hc
    have e1 : Pool.step s (.ctl i) = some { s with q := s.q ++ [.read i], con := Pool.set s.con i { s.con i with cp := .flush } } := by
      simp only [Pool.step, stepCtl, push, hc, if_pos hq]
    let s1 : Pool.St := { s with q := s.q ++ [.read i], con := Pool.set s.con i { s.con i with cp := .flush } }
    refine ⟨{ s1 with con := Pool.set s1.con i { s1.con i with cp := .done } }, ?_, by simp [Pool.set]⟩
    rw [Pool.run, e1]
    simp [Pool.run, Pool.step, stepCtl, Pool.set, s1]
  by_cases hq : s.q.length < cap
  · obtain ⟨s', e1, e2⟩ := key s hq hc
    exact ⟨_, s', by simp, e1, e2⟩
  · cases e : s.q with
    | nil => rw [e] at hq; simp [cap] at hq
    | cons m q =>
      have hl := hi.qlen
      rw [e, List.length_cons] at hl
      have e1 : Pool.step s .recv = some (onConnError { s with q } m) := by
        simp only [Pool.step, hp, if_true, e]
      have e2 : (onConnError { s with q } m).q = q ∧ (onConnError { s with q } m).con = s.con := by
        unfold onConnError
        split <;> (try split) <;> exact ⟨rfl, rfl⟩
      obtain ⟨s', e3, e4⟩ := key _ (by rw [e2.1]; omega) (by rw [e2.2]; exact hc)
      refine ⟨[.recv, .ctl i, .ctl i], s', by simp, ?_, e4⟩
      rw [Pool.run, e1]
      exact e3

/-- C73_flushes_partial: a connection was lost. -/
example : ∃ s, Pool.run (Pool.init 1) ([.serv, .serv, .serv] ++ connect 0 ++
    [.wp 0, .wp 0, .wErr 0, .wp 0, .rErr 0, .ctl 0, .ctl 0, .ctl 0]) = some s ∧ (s.pc = .loop ∧ (s.con 0).cp = .send) := by
  apply Pool.any_some (p := fun s : Pool.St => s.pc = .loop ∧ (s.con 0).cp = .send)
  decide +kernel

end Verif.Props
