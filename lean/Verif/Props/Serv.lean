import Verif.Proofs.ServMore
/-!
Theorems about a connection of the server (C56, C57, C58, C74, C75, C76).
-/
namespace Verif.Serv

theorem any_some {o : Option St} {p : St → Prop} [DecidablePred p] (h : (o.any fun s => p s) = true) :
    ∃ s, o = some s ∧ p s := by
  cases o with
  | none => cases h
  | some s => exact ⟨s, rfl, of_decide_eq_true h⟩

theorem run_append {s : St} {a b : List Choice} : run s (a ++ b) = (run s a).bind fun s => run s b := by
  induction a generalizing s with
  | nil => rfl
  | cons c a ih =>
    simp only [List.cons_append, run]
    cases step s c with
    | none => rfl
    | some s1 => exact ih

/-- A request with this id comes, is answered and written. -/
def served (id k : Nat) : List Choice := [.recv id, .rl, .call k, .begin k, .send k, .wl, .wl]

/-- How far the write loop is from its next look at the channel. -/
def rank : WPc → Nat
  | .got _ => 6
  | .sel => 5
  | .lk => 4
  | .flush => 3
  | .wait => 2
  | _ => 0

end Verif.Serv

namespace Verif.Props

open Verif.Serv

/-- C56: every response written is the answer of a received request with its id, and no request is answered twice. -/
theorem C56_own {cs : List Serv.Choice} {s : Serv.St} (h : Serv.run Serv.init cs = some s) :
    (keys s.wire).Nodup ∧ ∀ id k, Item.resp id k ∈ s.wire → k < s.n ∧ s.idOf k = id := by
  have i := Serv.inv_run Serv.inv_init h
  refine ⟨?_, fun id k hm => ?_⟩
  · have := i.nodup
    unfold flow at this
    rw [Serv.keys_append, Serv.keys_append, List.append_assoc] at this
    exact (List.nodup_append.mp this).1
  · have := i.item id k (by unfold flow; simp [hm])
    refine ⟨?_, this.1⟩
    apply Classical.byContradiction
    intro hn
    have := i.new k (by omega)
    simp_all

/-- C56: for each id at most as many responses are written as requests were received while no other request with that id was
in flight. -/
theorem C56_once {cs : List Serv.Choice} {s : Serv.St} (h : Serv.run Serv.init cs = some s) (id : Nat) :
    (ids s.wire).count id ≤ s.fresh.count id := by
  have := Serv.cnt_run Serv.inv_init Serv.cnt_init h id
  unfold flow at this
  rw [Serv.ids_append, Serv.ids_append, List.count_append, List.count_append] at this
  omega

/-- C56: pongs are written only for pings. -/
theorem C56_pong {cs : List Serv.Choice} {s : Serv.St} (h : Serv.run Serv.init cs = some s) {id : Nat}
    (hm : Item.pong id ∈ s.wire) : id ∈ s.pings :=
  (Serv.inv_run Serv.inv_init h).pong1 id (by unfold flow; simp [hm])

/-- C56: two requests with the same id at the same time, a ping, and a third request with that id afterwards. -/
example : ∃ s, Serv.run Serv.init ([.recv 7, .rl, .recv 7, .rl, .ping 3, .rl, .wl, .wl, .call 0, .begin 0, .send 0, .wl, .wl,
    .call 1, .begin 1] ++ served 7 2) = some s ∧
    (s.wire = [.pong 3, .resp 7 0, .resp 7 2] ∧ s.fresh = [7, 7] ∧ s.n = 3) := by
  apply Serv.any_some (p := fun s : Serv.St => s.wire = [.pong 3, .resp 7 0, .resp 7 2] ∧ s.fresh = [7, 7] ∧ s.n = 3)
  decide +kernel

/-- C57 does not hold: the read loop ends while the write loop, having found nothing, is about to lock: the control loop
closes the channel, the write loop finds everything empty and asks for it to be closed again. -/
theorem C57_double_close_violated : ∃ s, Serv.run Serv.init [.wl, .rErr, .rl, .ctl, .ctl, .ctl, .wl, .wl, .ctl] = some s ∧
    s.panicked = true := by
  apply Serv.any_some (p := fun s : Serv.St => s.panicked = true)
  decide +kernel

/-- C57, in part: the program panics (by a second close, or by sending to the closed channel) only if the control loop has
handled the end of the read loop while the write loop, having found nothing to write, was about to lock. -/
theorem C57_only_cause_partial {cs : List Serv.Choice} {s : Serv.St} (h : Serv.run Serv.init cs = some s)
    (hp : s.panicked = true) : ∃ as bs s1, cs = as ++ .ctl :: bs ∧ Serv.run Serv.init as = some s1 ∧ s1.cp = .rlock ∧
      s1.wp = .lk := by
  have key : ∀ (cs : List Serv.Choice) (s0 : Serv.St), Serv.Inv s0 → ¬ Danger s0 → Serv.run s0 cs = some s →
      ∃ as bs s1, cs = as ++ .ctl :: bs ∧ Serv.run s0 as = some s1 ∧ s1.cp = .rlock ∧ s1.wp = .lk := by
    intro cs
    induction cs with
    | nil => intro s0 _ hd e; cases e; exact absurd (.inl hp) hd
    | cons c cs ih =>
      intro s0 i hd e
      simp only [Serv.run] at e
      cases es : Serv.step s0 c with
      | none => rw [es] at e; cases e
      | some s1 =>
        rw [es] at e
        by_cases hd1 : Danger s1
        · obtain ⟨h1, h2, h3⟩ := danger_step i hd es hd1
          exact ⟨[], cs, s0, by rw [h1]; rfl, rfl, h2, h3⟩
        · obtain ⟨as, bs, s2, h1, h2, h3⟩ := ih s1 (Serv.inv_step i es) hd1 e
          refine ⟨c :: as, bs, s2, by rw [h1]; rfl, ?_, h3⟩
          simp only [Serv.run, es]
          exact h2
  exact key cs Serv.init Serv.inv_init (by simp [Danger, Serv.init]) h

/-- C57 does not hold: when that has happened with nothing in flight, there is no way out: the connection does not end
without a panic. -/
theorem C57_unavoidable_violated {cs ds : List Serv.Choice} {s s' : Serv.St} (h : Serv.run Serv.init cs = some s)
    (h2 : s.outClosed = true) (h3 : s.wp = .lk) (hs : Serv.run s ds = some s') :
    s'.panicked = true ∨ s'.cp ≠ .done := by
  have key : ∀ (ds : List Serv.Choice) (s : Serv.St), Serv.Inv s → Ord s → Danger s → Serv.run s ds = some s' →
      Serv.Inv s' ∧ Ord s' ∧ Danger s' := by
    intro ds
    induction ds with
    | nil => intro s i o d e; cases e; exact ⟨i, o, d⟩
    | cons c ds ih =>
      intro s i o d e
      simp only [Serv.run] at e
      cases es : Serv.step s c with
      | none => rw [es] at e; cases e
      | some s1 =>
        rw [es] at e
        exact ih s1 (Serv.inv_step i es) (ord_step i o es) (danger_stays i o d es) e
  have i := Serv.inv_run Serv.inv_init h
  obtain ⟨i', o', d'⟩ := key ds s i (ord_run Serv.inv_init ord_init h) (.inr ⟨h2, .inl h3⟩) hs
  rcases d' with d' | ⟨_, d'⟩
  · exact .inl d'
  · right
    intro hc
    have w := i'.cl (.inr hc)
    have w1 := i'.wr1 w
    rcases d' with d' | d' | d'
    · rw [d'] at w1; simp at w1
    · rw [d'] at w1; simp at w1
    · have := o'.wr d'; rw [w] at this; cases this

/-- C57_unavoidable_violated: the state in which the channel was closed too early. -/
example : ∃ s, Serv.run Serv.init [.wl, .rErr, .rl, .ctl, .ctl] = some s ∧ (s.cp = .chk ∧ s.outClosed = true ∧ s.wp = .lk) := by
  apply Serv.any_some (p := fun s : Serv.St => s.cp = .chk ∧ s.outClosed = true ∧ s.wp = .lk)
  decide +kernel

/-- C58 does not hold: once the write loop has ended, the lock is held for ever by whoever finds the channel full, and the
control loop cannot cancel the requests in flight. -/
theorem C58_ended_violated {cs : List Serv.Choice} {s : Serv.St} (h : Serv.run Serv.init cs = some s) {e : Bool} {k : Nat}
    (hw : s.wp = .done e) (hl : s.lock = some k) (hf : cap ≤ s.out.length) :
    Blocked s k ∧ (s.cp = .wlock → ∀ ds s', Serv.run s ds = some s' → s'.cp = .wlock) := by
  have := blocked_of (Serv.inv_run Serv.inv_init h) hl hf (.inr (.inr ⟨e, hw⟩))
  exact ⟨fun ds s' hs => ⟨(this ds s' hs).1, (this ds s' hs).2.1⟩, fun hc ds s' hs => (this ds s' hs).2.2 hc⟩

/-- 129 requests are in flight when writing fails; the control loop cancels them. -/
def cancelling : List Serv.Choice :=
  (List.range 129).flatMap (fun i => [.recv i, .rl]) ++ [.ping 0, .rl, .wl, .wErr, .wl, .ctl, .ctl] ++
    (List.range 128).flatMap (fun k => [.ctl, .begin (128 - k), .send (128 - k), .ctl]) ++ [.ctl, .begin 0]

/-- C58 does not hold: the control loop itself, cancelling 129 requests after a failed write, waits for ever. -/
theorem C58_cancel_violated : ∃ s, Serv.run Serv.init cancelling = some s ∧ s.cp = .cancelIn 0 [] ∧ Blocked s 0 := by
  have : ∃ s, Serv.run Serv.init cancelling = some s ∧
      (s.wp = .done true ∧ s.lock = some 0 ∧ cap ≤ s.out.length ∧ s.cp = .cancelIn 0 []) := by
    apply Serv.any_some (p := fun s : Serv.St => s.wp = .done true ∧ s.lock = some 0 ∧ cap ≤ s.out.length ∧
      s.cp = .cancelIn 0 [])
    decide +kernel
  obtain ⟨s, h, h1, h2, h3, h4⟩ := this
  exact ⟨s, h, h4, (C58_ended_violated h h1 h2 h3).1⟩

/-- 129 requests are answered while the write loop, having found nothing, is about to lock. -/
def crowding : List Serv.Choice :=
  [.wl] ++ (List.range 128).flatMap (fun k => [.recv k, .rl, .call k, .begin k, .send k]) ++
    [.recv 128, .rl, .call 128, .begin 128]

/-- C76 does not hold: handlers and the write loop deadlock: a handler waits with the lock for room in the channel, and the
write loop, which would make room, waits for the lock. -/
theorem C76_deadlock_violated : ∃ s, Serv.run Serv.init crowding = some s ∧ s.wp = .lk ∧ Blocked s 128 := by
  have : ∃ s, Serv.run Serv.init crowding = some s ∧ (s.wp = .lk ∧ s.lock = some 128 ∧ cap ≤ s.out.length) := by
    apply Serv.any_some (p := fun s : Serv.St => s.wp = .lk ∧ s.lock = some 128 ∧ cap ≤ s.out.length)
    decide +kernel
  obtain ⟨s, h, h1, h2, h3⟩ := this
  have := blocked_of (Serv.inv_run Serv.inv_init h) h2 h3 (.inl h1)
  exact ⟨s, h, h1, fun ds s' hs => ⟨(this ds s' hs).1, (this ds s' hs).2.1⟩⟩

/-- C76 does not hold: the buffer which is to take what does not fit into the channel is never used (connection.go:90-99). -/
theorem C76_buffer_unused_violated {cs : List Serv.Choice} {s : Serv.St} (h : Serv.run Serv.init cs = some s) : s.buf = [] :=
  (Serv.inv_run Serv.inv_init h).buf

/-- C58, in part: on a connection that has not received more than 128 requests and pings no handler ever waits. -/
theorem C58_few_partial {cs : List Serv.Choice} {s : Serv.St} (h : Serv.run Serv.init cs = some s)
    (hn : s.n + s.pings.length ≤ cap) (hp : s.panicked = false) {k : Nat} (hk : s.rs k = .busy) :
    ∃ s', Serv.step s (.send k) = some s' ∧ s'.rs k = .done ∧ s'.lock = none := by
  have i := Serv.inv_run Serv.inv_init h
  have l := len_run Serv.inv_init len_init h
  have hl := i.lock2 k hk
  unfold Len flow at l
  rw [hl] at l
  simp only [List.length_append] at l
  have hc : s.outClosed = false := by
    cases e : s.outClosed with
    | false => rfl
    | true => have := (i.clo e).2.2.2; rw [hl] at this; cases this
  refine ⟨{ s with out := s.out ++ [.resp (s.idOf k) k], lock := none, rs := Serv.set s.rs k .done }, ?_, by simp [Serv.set], rfl⟩
  simp only [Serv.step, Serv.step1, hp, hc, hk, if_true, Bool.false_eq_true, if_false]
  rw [if_pos (by omega)]

/-- C58_few_partial: the write loop has failed, and a handler answers. -/
example : ∃ s, Serv.run Serv.init [.recv 5, .rl, .ping 0, .rl, .wl, .wErr, .wl, .call 0, .begin 0] = some s ∧
    (s.rs 0 = .busy ∧ s.wp = .done true ∧ s.n + s.pings.length ≤ cap ∧ s.panicked = false) := by
  apply Serv.any_some (p := fun s : Serv.St => s.rs 0 = .busy ∧ s.wp = .done true ∧ s.n + s.pings.length ≤ cap ∧
    s.panicked = false)
  decide +kernel

/-- C76, in part: as long as the write loop runs and is not about to lock, a handler that waits for room gets it after at
most three steps of the write loop. -/
theorem C76_makes_room_partial {cs : List Serv.Choice} {s : Serv.St} (h : Serv.run Serv.init cs = some s)
    (hp : s.panicked = false) {k : Nat} (hk : s.rs k = .busy)
    (hw : s.wp = .sel ∨ s.wp = .flush ∨ s.wp = .wait ∨ ∃ m, s.wp = .got m) :
    ∃ m s', m ≤ 3 ∧ Serv.run s (List.replicate m .wl ++ [.send k]) = some s' ∧ s'.rs k = .done := by
  have i := Serv.inv_run Serv.inv_init h
  have hc : ∀ s : Serv.St, Serv.Inv s → s.rs k = .busy → s.outClosed = false := by
    intro s i hk
    cases e : s.outClosed with
    | false => rfl
    | true => have := (i.clo e).2.2.2; rw [i.lock2 k hk] at this; cases this
  have snd : ∀ s : Serv.St, Serv.Inv s → s.panicked = false → s.rs k = .busy → s.out.length < cap →
      ∃ s', Serv.run s [.send k] = some s' ∧ s'.rs k = .done := by
    intro s i hp hk hl
    refine ⟨{ s with out := s.out ++ [.resp (s.idOf k) k], lock := none, rs := Serv.set s.rs k .done }, ?_, by simp [Serv.set]⟩
    simp only [Serv.run, Serv.step, Serv.step1, hp, hc s i hk, hk, if_true, Bool.false_eq_true, if_false]
    rw [if_pos hl]
    rfl
  -- the write loop takes one
  have tk : ∀ s : Serv.St, Serv.Inv s → s.panicked = false → s.rs k = .busy → s.wp = .sel ∨ s.wp = .wait → s.out ≠ [] →
      s.out.length ≤ cap → ∃ s', Serv.run s [.wl, .send k] = some s' ∧ s'.rs k = .done := by
    intro s i hp hk hw hne hl
    cases e : s.out with
    | nil => exact absurd e hne
    | cons m out =>
      have es : Serv.step s .wl = some { s with out, wp := .got m } := by
        simp only [Serv.step, Serv.step1, stepW, hp, Bool.false_eq_true, if_false]
        rcases hw with hw | hw <;> simp only [hw, e]
      obtain ⟨s', h1, h2⟩ := snd { s with out, wp := .got m } (Serv.inv_step i es) hp hk
        (by rw [e, List.length_cons] at hl; exact hl)
      refine ⟨s', ?_, h2⟩
      rw [Serv.run, es]
      exact h1
  by_cases hl : s.out.length < cap
  · obtain ⟨s', h1, h2⟩ := snd s i hp hk hl
    exact ⟨0, s', by omega, h1, h2⟩
  · have hlen : s.out.length ≤ cap := i.olen
    have hne : s.out ≠ [] := by
      intro e
      rw [e] at hl
      simp [cap] at hl
    rcases hw with hw | hw | hw | ⟨m, hw⟩
    · obtain ⟨s', h1, h2⟩ := tk s i hp hk (.inl hw) hne hlen
      exact ⟨1, s', by omega, h1, h2⟩
    · have es : Serv.step s .wl = some { s with wp := .wait } := by
        simp only [Serv.step, Serv.step1, stepW, hp, Bool.false_eq_true, if_false, hw]
      obtain ⟨s', h1, h2⟩ := tk { s with wp := .wait } (Serv.inv_step i es) hp hk (.inr rfl) hne hlen
      refine ⟨2, s', by omega, ?_, h2⟩
      simp only [List.replicate_succ, List.cons_append]
      rw [Serv.run, es]
      exact h1
    · obtain ⟨s', h1, h2⟩ := tk s i hp hk (.inr hw) hne hlen
      exact ⟨1, s', by omega, h1, h2⟩
    · have es : Serv.step s .wl = some { s with wire := s.wire ++ [m], wp := .sel } := by
        simp only [Serv.step, Serv.step1, stepW, hp, Bool.false_eq_true, if_false, hw]
      obtain ⟨s', h1, h2⟩ := tk { s with wire := s.wire ++ [m], wp := .sel } (Serv.inv_step i es) hp hk (.inl rfl) hne hlen
      refine ⟨2, s', by omega, ?_, h2⟩
      simp only [List.replicate_succ, List.cons_append]
      rw [Serv.run, es]
      exact h1

/-- C76_makes_room_partial: the write loop is writing, the channel is full, and a handler waits. -/
example : ∃ s, Serv.run Serv.init ([.ping 0, .rl, .wl] ++ (List.range 128).flatMap (fun k => [.ping k, .rl]) ++
    [.recv 1, .rl, .call 0, .begin 0]) = some s ∧
    (s.rs 0 = .busy ∧ s.wp = .got (.pong 0) ∧ s.out.length = cap ∧ s.panicked = false) := by
  apply Serv.any_some (p := fun s : Serv.St => s.rs 0 = .busy ∧ s.wp = .got (.pong 0) ∧ s.out.length = cap ∧
    s.panicked = false)
  decide +kernel

/-- C74: if no request came with an id in flight, a connection whose write loop ends without an error has answered all
requests it has received. -/
theorem C74_graceful_partial {cs : List Serv.Choice} {s : Serv.St} (h : Serv.run Serv.init cs = some s) (hp : Polite s)
    (hw : s.wp = .done false) {k : Nat} (hk : k < s.n) : Item.resp (s.idOf k) k ∈ s.wire := by
  have i := Serv.inv_run Serv.inv_init h
  have f := full_run Serv.inv_init full_init h
  obtain ⟨f1, f2, f3, f4⟩ := i.fin (.inr hw)
  have w1 : s.wp ≠ .fin true := by rw [hw]; simp
  have w2 : s.wp ≠ .done true := by rw [hw]; simp
  have h1 := f.fly hp w1 w2 k
  have h2 := f.dn hp w1 w2 k
  have h3 := f.known k hk
  have h4 := i.lock2 k
  unfold flow at h2
  rw [f2] at h1
  rw [f3, hw] at h2
  rw [f4] at h4
  cases e : s.rs k with
  | new => exact absurd e h3
  | sent => exact absurd (h1 (.inl e)) (by simp)
  | called => exact absurd (h1 (.inr e)) (by simp)
  | busy => exact absurd (h4 e) (by simp)
  | done => simpa [held] using h2 e

/-- C74_graceful_partial: the peer sends two requests and closes its side; then they are answered. -/
example : ∃ s, Serv.run Serv.init [.recv 1, .rl, .recv 2, .rl, .rErr, .rl, .ctl, .ctl, .ctl, .call 1, .begin 1, .send 1, .wl,
    .wl, .call 0, .begin 0, .send 0, .wl, .wl, .wl, .wl, .wl, .wl] = some s ∧
    (s.fresh.length = s.n ∧ s.wp = .done false ∧ s.n = 2 ∧ s.wire = [.resp 2 1, .resp 1 0]) := by
  apply Serv.any_some (p := fun s : Serv.St => s.fresh.length = s.n ∧ s.wp = .done false ∧ s.n = 2 ∧
    s.wire = [.resp 2 1, .resp 1 0])
  decide +kernel

/-- C74 does not hold for requests with an id that is in flight: they are never answered. -/
theorem C74_duplicate_violated : ∃ s, Serv.run Serv.init [.recv 7, .rl, .recv 7, .rl, .rErr, .rl, .ctl, .ctl, .ctl, .call 0,
    .begin 0, .send 0, .wl, .wl, .wl, .wl, .wl, .wl, .call 1, .begin 1] = some s ∧
    (s.wp = .done false ∧ s.n = 2 ∧ s.wire = [.resp 7 0] ∧ s.rs 1 = .done) := by
  apply Serv.any_some (p := fun s : Serv.St => s.wp = .done false ∧ s.n = 2 ∧ s.wire = [.resp 7 0] ∧ s.rs 1 = .done)
  decide +kernel

/-- C75: the write loop never waits in vain: when the control loop has handled the end of the read loop, nothing is in flight
and no handler is about to send, the write loop comes to its end by itself, having written all that is in the channel. -/
theorem C75_ends {cs : List Serv.Choice} {s : Serv.St} (h : Serv.run Serv.init cs = some s) (hp : s.panicked = false)
    (h1 : s.rdClosed = true) (h2 : s.inFly = []) (h3 : s.lock = none)
    (hw : (∀ e, s.wp ≠ .fin e) ∧ (∀ e, s.wp ≠ .done e) ∧ s.wp ≠ .empty) :
    ∃ m s', Serv.run s (List.replicate m .wl) = some s' ∧ (s'.wp = .empty ∨ s'.wp = .fin false) ∧ s'.out = [] ∧
      s'.wire = flow s := by
  have i := Serv.inv_run Serv.inv_init h
  have key : ∀ (n : Nat) (s : Serv.St), Serv.Inv s → s.panicked = false → s.rdClosed = true → s.inFly = [] → s.lock = none →
      (∀ e, s.wp ≠ .fin e) ∧ (∀ e, s.wp ≠ .done e) ∧ s.wp ≠ .empty →
      10 * s.out.length + rank s.wp ≤ n →
      ∃ m s', Serv.run s (List.replicate m .wl) = some s' ∧ (s'.wp = .empty ∨ s'.wp = .fin false) ∧ s'.out = [] ∧
        s'.wire = flow s := by
    intro n
    induction n with
    | zero =>
      intro s _ _ _ _ _ hw hr
      exfalso
      cases e : s.wp <;> simp_all [rank]
    | succ n ih =>
      intro s i hp h1 h2 h3 hw hr
      have nx : ∀ s1 : Serv.St, Serv.step s .wl = some s1 → s1.panicked = false → s1.rdClosed = true → s1.inFly = [] →
          s1.lock = none → flow s1 = flow s →
          ((∀ e, s1.wp ≠ .fin e) ∧ (∀ e, s1.wp ≠ .done e) ∧ s1.wp ≠ .empty ∧ 10 * s1.out.length + rank s1.wp ≤ n ∨
            (s1.wp = .empty ∨ s1.wp = .fin false) ∧ s1.out = []) →
          ∃ m s', Serv.run s (List.replicate m .wl) = some s' ∧ (s'.wp = .empty ∨ s'.wp = .fin false) ∧ s'.out = [] ∧
            s'.wire = flow s := by
        intro s1 es g1 g2 g3 g4 g5 g6
        rcases g6 with ⟨g6, g7, g8, g9⟩ | ⟨g6, g7⟩
        · obtain ⟨m, s', e1, e2, e3, e4⟩ := ih s1 (Serv.inv_step i es) g1 g2 g3 g4 ⟨g6, g7, g8⟩ g9
          refine ⟨m + 1, s', ?_, e2, e3, by rw [e4, g5]⟩
          rw [List.replicate_succ, Serv.run, es]
          exact e1
        · refine ⟨1, s1, ?_, g6, g7, ?_⟩
          · rw [List.replicate_one, Serv.run, es]
            rfl
          · rw [← g5]
            unfold flow
            rw [g7]
            rcases g6 with g6 | g6 <;> rw [g6] <;> simp [held]
      cases ew : s.wp with
      | sel =>
        cases eo : s.out with
        | cons m out =>
          refine nx { s with out, wp := .got m } ?_ hp h1 h2 h3 ?_ (.inl ⟨by simp, by simp, by simp, ?_⟩)
          · simp only [Serv.step, Serv.step1, stepW, hp, Bool.false_eq_true, if_false, ew, eo]
          · simp [flow, held, ew, eo]
          · rw [eo, ew] at hr
            simp only [List.length_cons, rank] at hr ⊢
            omega
        | nil =>
          cases ec : s.outClosed with
          | true =>
            refine nx { s with wp := .fin false } ?_ hp h1 h2 h3 ?_ (.inr ⟨.inr rfl, eo⟩)
            · simp only [Serv.step, Serv.step1, stepW, hp, Bool.false_eq_true, if_false, ew, eo, ec, if_true]
            · simp [flow, held, ew]
          | false =>
            refine nx { s with wp := .lk } ?_ hp h1 h2 h3 ?_ (.inl ⟨by simp, by simp, by simp, ?_⟩)
            · simp only [Serv.step, Serv.step1, stepW, hp, Bool.false_eq_true, if_false, ew, eo, ec]
            · simp [flow, held, ew]
            · rw [ew] at hr
              simp only [rank] at hr ⊢
              omega
      | lk =>
        by_cases eo : s.out = []
        · refine nx { s with wp := .empty } ?_ hp h1 h2 h3 ?_ (.inr ⟨.inl rfl, eo⟩)
          · simp [Serv.step, Serv.step1, stepW, hp, ew, eo, h1, h2, h3, i.buf]
          · simp [flow, held, ew]
        · refine nx { s with wp := .flush } ?_ hp h1 h2 h3 ?_ (.inl ⟨by simp, by simp, by simp, ?_⟩)
          · simp [Serv.step, Serv.step1, stepW, hp, ew, eo, h1, h2, h3, i.buf]
          · simp [flow, held, ew]
          · rw [ew] at hr
            simp only [rank] at hr ⊢
            omega
      | flush =>
        refine nx { s with wp := .wait } ?_ hp h1 h2 h3 ?_ (.inl ⟨by simp, by simp, by simp, ?_⟩)
        · simp only [Serv.step, Serv.step1, stepW, hp, Bool.false_eq_true, if_false, ew]
        · simp [flow, held, ew]
        · rw [ew] at hr
          simp only [rank] at hr ⊢
          omega
      | wait =>
        cases eo : s.out with
        | cons m out =>
          refine nx { s with out, wp := .got m } ?_ hp h1 h2 h3 ?_ (.inl ⟨by simp, by simp, by simp, ?_⟩)
          · simp only [Serv.step, Serv.step1, stepW, hp, Bool.false_eq_true, if_false, ew, eo]
          · simp [flow, held, ew, eo]
          · rw [eo, ew] at hr
            simp only [List.length_cons, rank] at hr ⊢
            omega
        | nil =>
          have ec := i.wake h1 h2 eo h3 (.inr ew)
          refine nx { s with wp := .fin false } ?_ hp h1 h2 h3 ?_ (.inr ⟨.inr rfl, eo⟩)
          · simp only [Serv.step, Serv.step1, stepW, hp, Bool.false_eq_true, if_false, ew, eo, ec, if_true]
          · simp [flow, held, ew]
      | got m =>
        refine nx { s with wire := s.wire ++ [m], wp := .sel } ?_ hp h1 h2 h3 ?_ (.inl ⟨by simp, by simp, by simp, ?_⟩)
        · simp only [Serv.step, Serv.step1, stepW, hp, Bool.false_eq_true, if_false, ew]
        · simp [flow, held, ew]
        · rw [ew] at hr
          simp only [rank] at hr ⊢
          omega
      | empty => exact absurd ew hw.2.2
      | fin e => exact absurd ew (hw.1 e)
      | done e => exact absurd ew (hw.2.1 e)
  exact key _ s i hp h1 h2 h3 hw (Nat.le_refl _)

/-- C75_ends: the peer has closed its side, a response and a pong are in the channel, and the write loop waits. -/
example : ∃ s, Serv.run Serv.init [.wl, .wl, .wl, .recv 4, .rl, .ping 9, .rl, .rErr, .rl, .ctl, .call 0, .begin 0, .send 0,
    .ctl] = some s ∧
    (s.panicked = false ∧ s.rdClosed = true ∧ s.inFly = [] ∧ s.lock = none ∧ s.wp = .wait ∧
      flow s = [.pong 9, .resp 4 0]) := by
  apply Serv.any_some (p := fun s : Serv.St => s.panicked = false ∧ s.rdClosed = true ∧ s.inFly = [] ∧ s.lock = none ∧
    s.wp = .wait ∧ flow s = [.pong 9, .resp 4 0])
  decide +kernel

end Verif.Props
