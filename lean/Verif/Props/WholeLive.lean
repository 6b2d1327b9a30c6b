import Verif.Proofs.WholeLive
import Verif.Props.Whole
/-! C128: both ends together answer every call that was sent. -/
namespace Verif.Whole

variable {R cap n : Nat} {own : Nat → Bool} {cs : List Choice} {w : St} {l : List Nat}

theorem go (h : run R cap own (init n) cs = some w) (hy : Endpoint.Young w.e) (hd : w.s.dead = false)
    (hr : ∀ i, i ∈ l → own i = true ∧ Roomy w i) (hf : ∀ i, i ∉ l → Served.Few w.s i) : Go R cap n own l w := by
  refine ⟨reach h, hy, hd, hf, fun i hi => ?_, fun i hi => (hr i hi).1⟩
  have := (hr i hi).2
  unfold Roomy at this
  unfold Conn.pend
  split <;> omega

end Verif.Whole

namespace Verif.Props
open Verif.Whole

variable {R cap n : Nat} {own : Nat → Bool} {cs : List Choice} {w : St} {l : List Nat}

/-- C128 (partial, as all of C128: for connections to which fewer than 128 requests and pings were written, and other clients' with at most 128,
see C123; from the time when a connection has taken the request from the queue). Left alone, both ends come
to rest, whether or not the service is being stopped: from every state there is a number of steps that they cannot exceed, in whatever order their
goroutines run. -/
theorem C128_rest_partial (hl : l.Nodup) (h : run R cap own (init n) cs = some w) (hy : Endpoint.Young w.e) (hd : w.s.dead = false)
    (hr : ∀ i, i ∈ l → own i = true ∧ Roomy w i) (hf : ∀ i, i ∉ l → Served.Few w.s i) :
    ∃ b, ∀ ret ds w', (∀ c ∈ ds, Onward ret l c) → run R cap own w ds = some w' → ds.length ≤ b ∧ w'.s.dead = false :=
  ⟨todo l w, fun _ _ _ hc hr' => by
    have := go_run hl (go h hy hd hr hf) hc hr'
    exact ⟨by omega, this.2.1.live⟩⟩

/-- C128. And when they have come to rest, then every request which a connection of the endpoint had taken before has been received by the server,
which has answered it; and its caller has got this answer, or had given up; unless the connection was closed, or the dispatcher received the request
after it had left its loop because of `Stop` (see C50, C142). -/
theorem C128_stopped_partial (hl : l.Nodup) (h : run R cap own (init n) cs = some w) (hy : Endpoint.Young w.e) (hd : w.s.dead = false)
    (hr : ∀ i, i ∈ l → own i = true ∧ Roomy w i) (hf : ∀ i, i ∉ l → Served.Few w.s i)
    {ret : Nat → Parallel.Outcome} {ds : List Choice} {w' : St} (hc : ∀ c ∈ ds, Onward ret l c) (hw : run R cap own w ds = some w')
    (hq : ∀ c, Onward ret l c → step R cap own w' c = none) {i r : Nat} (hi : i ∈ l) (ho : Open w i) (ht : Carries w i r) :
    Dropped own w' r ∨ ∃ q src code, Is own w' q r ∧ w'.s.conn q = i ∧ Gave w' q src code ∧
      ((∃ id, (w'.e.c i).ans r = some (.response id (w'.s.key q))) ∨ (w'.e.c i).ans r = some .other) := by
  obtain ⟨-, g, h1, h2, -⟩ := go_run hl (go h hy hd hr hf) hc hw
  obtain ⟨q, a, b, c | ⟨⟨src, code, c⟩, d⟩⟩ := rest_done g hq hi (h2 i ho) (h1 i r ht)
  · exact .inl ⟨q, a, c⟩
  · exact .inr ⟨q, src, code, a, b, c, d⟩

/-- C128. As long as the service is not stopped, this exception is not needed. -/
theorem C128_all_partial (hl : l.Nodup) (h : run R cap own (init n) cs = some w) (hy : Endpoint.Young w.e) (hd : w.s.dead = false)
    (hs : w.s.p.stop = .idle) (hr : ∀ i, i ∈ l → own i = true ∧ Roomy w i) (hf : ∀ i, i ∉ l → Served.Few w.s i)
    {ret : Nat → Parallel.Outcome} {ds : List Choice} {w' : St} (hc : ∀ c ∈ ds, Onward ret l c) (hw : run R cap own w ds = some w')
    (hq : ∀ c, Onward ret l c → step R cap own w' c = none) {i r : Nat} (hi : i ∈ l) (ho : Open w i) (ht : Carries w i r) :
    ∃ q src code, Is own w' q r ∧ w'.s.conn q = i ∧ Gave w' q src code ∧
      ((∃ id, (w'.e.c i).ans r = some (.response id (w'.s.key q))) ∨ (w'.e.c i).ans r = some .other) := by
  obtain ⟨-, g, -, -, e⟩ := go_run hl (go h hy hd hr hf) hc hw
  rcases C128_stopped_partial hl h hy hd hr hf hc hw hq hi ho ht with ⟨q, -, hd⟩ | h
  · obtain ⟨cs', hp⟩ := g.going.inv.par
    rw [Parallel.drained_idle hp (e.2 hs)] at hd
    cases hd
  · exact h

/-- C128. In particular, no schedule leads to a state in which a call that was sent could not be answered any more. -/
theorem C128_answers_partial (hl : l.Nodup) (h : run R cap own (init n) cs = some w) (hy : Endpoint.Young w.e) (hd : w.s.dead = false)
    (hs : w.s.p.stop = .idle) (hr : ∀ i, i ∈ l → own i = true ∧ Roomy w i) (hf : ∀ i, i ∉ l → Served.Few w.s i) (ret : Nat → Parallel.Outcome) :
    ∃ ds w', (∀ c ∈ ds, Onward ret l c) ∧ run R cap own w ds = some w' ∧ (∀ c, Onward ret l c → step R cap own w' c = none) ∧
      ∀ i r, i ∈ l → Open w i → Carries w i r → ∃ q src code, Is own w' q r ∧ w'.s.conn q = i ∧ Gave w' q src code ∧
        ((∃ id, (w'.e.c i).ans r = some (.response id (w'.s.key q))) ∨ (w'.e.c i).ans r = some .other) := by
  have snoc : ∀ (ds : List Choice) (a t t' : St) (c : Choice), run R cap own a ds = some t → step R cap own t c = some t' →
      run R cap own a (ds ++ [c]) = some t' := by
    intro ds
    induction ds with
    | nil => intro a t t' c h1 h2; cases h1; simp [run, h2]
    | cons x ds ih =>
      intro a t t' c h1 h2
      simp only [run, Option.bind_eq_some_iff] at h1
      obtain ⟨a1, h3, h4⟩ := h1
      simp only [List.cons_append, run, h3, Option.bind_some]
      exact ih a1 t t' c h4 h2
  have key : ∀ k t ds, todo l t = k → (∀ c ∈ ds, Onward ret l c) → run R cap own w ds = some t →
      ∃ ds w', (∀ c ∈ ds, Onward ret l c) ∧ run R cap own w ds = some w' ∧ ∀ c, Onward ret l c → step R cap own w' c = none := by
    intro k
    induction k using Nat.strongRecOn with
    | ind k ih =>
      intro t ds hk hc ht
      by_cases hq : ∀ c, Onward ret l c → step R cap own t c = none
      · exact ⟨ds, t, hc, ht, hq⟩
      · simp only [Classical.not_forall] at hq
        obtain ⟨c, hc1, hne⟩ := hq
        cases e : step R cap own t c with
        | none => exact absurd e hne
        | some t' =>
          have g := (go_run hl (go h hy hd hr hf) hc ht).2.1
          refine ih _ (hk ▸ (whole_step hl g hc1 e).low) t' (ds ++ [c]) rfl ?_ (snoc _ _ _ _ _ ht e)
          intro x hx
          rcases List.mem_append.1 hx with hx | hx
          · exact hc x hx
          · rw [List.mem_singleton] at hx; exact hx ▸ hc1
  obtain ⟨ds, w', h1, h2, h3⟩ := key _ w [] rfl (by simp) rfl
  exact ⟨ds, w', h1, h2, h3, fun i r hi ho ht => C128_all_partial hl h hy hd hs hr hf h1 h2 h3 hi ho ht⟩

/-- Request 0 is being handled at the server, request 1 is at its connection's read loop there, and request 2 is in the hands of the write loop of
the client. -/
def onTheWay : List Choice :=
  sends ++ carry 0 ++ List.replicate 5 (.server (.svc .disp)) ++ [.server (.svc (.hand 0)),
    .client (.take 1), .client (.conn 1 .header), .client (.conn 1 (.wrote true)), .up 1, .client (.take 0), .client (.conn 0 .header)]

/-- Meets the hypotheses of C128; by `C128_answers_partial` there is also a schedule as in `C128_all_partial`. -/
example : ∃ w, run 4 4 two (init 1) onTheWay = some w ∧ Endpoint.Young w.e ∧ w.s.dead = false ∧ w.s.p.stop = .idle ∧
    (∀ i, i ∈ [0, 1] → two i = true ∧ Roomy w i) ∧ (∀ i, i ∉ [0, 1] → Served.Few w.s i) ∧ Open w 0 ∧ Open w 1 ∧
    Carries w 0 0 ∧ Carries w 1 1 ∧ Carries w 0 2 ∧ w.s.m = 1 ∧ w.s.p.h 0 = .running ∧ (w.e.c 0).ans 0 = none := by
  have hy : ∀ w, run 4 4 two (init 1) onTheWay = some w → Endpoint.Young w.e := fun w h => young_of h (by decide +kernel)
  refine ⟨_, rfl, ?_, rfl, rfl, ?_, ?_, ?_, ?_, ?_, ?_, ?_, rfl, rfl, rfl⟩
  · exact hy _ rfl
  · intro i hi
    match i with
    | 0 => exact ⟨rfl, Nat.le_of_ble_eq_true rfl⟩
    | 1 => exact ⟨rfl, Nat.le_of_ble_eq_true rfl⟩
    | i + 2 => simp at hi
  · intro i hi
    match i with
    | 0 => simp at hi
    | 1 => simp at hi
    | i + 2 => exact Nat.zero_le _
  · refine ⟨?_, ⟨?_, ?_⟩, ?_, ?_⟩ <;> (intro h; cases h)
  · refine ⟨?_, ⟨?_, ?_⟩, ?_, ?_⟩ <;> (intro h; cases h)
  · exact .inl ⟨1, true, List.mem_cons_self ..⟩
  · exact .inl ⟨1, true, List.mem_cons_self ..⟩
  · exact .inr (.inr ⟨2, true, rfl⟩)

end Verif.Props
