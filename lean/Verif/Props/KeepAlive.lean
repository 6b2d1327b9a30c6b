import Verif.Model.KeepAlive
/-!
Theorems about read timeouts and pings (C116).
-/
namespace Verif.KeepAlive

/-- A ping that will reach the server is on its way, or will be sent soon enough after `b`. -/
def WayS (c : Cfg) (s : St) (b : Nat) : Prop :=
  s.next ≤ b + c.ping ∨ (∃ t, s.tick = some t ∧ t ≤ b + c.ping) ∨ ∃ x ∈ s.pings, x ≤ b + c.ping + c.lat + c.there

/-- The same for a pong. -/
def Way (c : Cfg) (s : St) (b : Nat) : Prop := WayS c s b ∨ ∃ x ∈ s.pongs, x ≤ b + c.ping + c.lat + c.there + c.back

structure Inv (c : Cfg) (s : St) : Prop where
  off : s.cend = false ∧ s.send = false ∧ s.stopped = false ∧ s.failed = 0
  next : s.now ≤ s.next ∧ s.next ≤ s.now + c.ping
  tick : ∀ t, s.tick = some t → t ≤ s.now ∧ s.now ≤ t + c.lat
  pings : ∀ d ∈ s.pings, s.now ≤ d
  pongs : ∀ d ∈ s.pongs, s.now ≤ d
  cl : s.cdl = none ∨ ∃ b, s.cdl = some (b + c.cread) ∧ Way c s b
  sv : s.sdl = none ∨ ∃ b, s.sdl = some (b + c.sread) ∧ WayS c s b
  c0 : c.cread = 0 → s.cdl = none
  s0 : c.sread = 0 → s.sdl = none

theorem inv_init (c : Cfg) : Inv c (init c) := by
  refine ⟨⟨rfl, rfl, rfl, rfl⟩, ⟨by simp [init], by simp [init]⟩, by simp [init], by simp [init], by simp [init], ?_, ?_, ?_, ?_⟩
  · by_cases h : c.cread > 0
    · exact .inr ⟨0, by simp [init, deadline, h], .inl (.inl (by simp [init]))⟩
    · exact .inl (by simp [init, deadline, h])
  · by_cases h : c.sread > 0
    · exact .inr ⟨0, by simp [init, deadline, h], .inl (by simp [init])⟩
    · exact .inl (by simp [init, deadline, h])
  · intro h; simp [init, deadline, h]
  · intro h; simp [init, deadline, h]

section
variable {c : Cfg} {s s' : St} {x : Choice}

theorem wayS_le (h : Inv c s) {b : Nat} (hw : WayS c s b) : s.now ≤ b + c.ping + c.lat + c.there := by
  rcases hw with h2 | ⟨t, h2, h3⟩ | ⟨x, h2, h3⟩
  · have := h.next; omega
  · have := h.tick t h2; omega
  · have := h.pings x h2; omega

theorem safe (hc : c.cread = 0 ∨ c.ping + c.lat + c.there + c.back < c.cread) (h : Inv c s) {d : Nat} (hd : s.cdl = some d) :
    s.now < d := by
  have h0 : c.cread ≠ 0 := fun e => by rw [h.c0 e] at hd; cases hd
  rcases h.cl with h1 | ⟨b, h1, hw⟩
  · rw [h1] at hd; cases hd
  · rw [h1] at hd
    cases hd
    rcases hw with hw | ⟨x, h2, h3⟩
    · have := wayS_le h hw; omega
    · have := h.pongs x h2; omega

theorem safeS (hc : c.sread = 0 ∨ c.ping + c.lat + c.there < c.sread) (h : Inv c s) {d : Nat} (hd : s.sdl = some d) :
    s.now < d := by
  have h0 : c.sread ≠ 0 := fun e => by rw [h.s0 e] at hd; cases hd
  rcases h.sv with h1 | ⟨b, h1, hw⟩
  · rw [h1] at hd; cases hd
  · rw [h1] at hd
    cases hd
    have := wayS_le h hw
    omega

theorem fresh {t n : Nat} {p : Nat → Prop} (h : p n) : deadline t n = none ∨ ∃ b, deadline t n = some (b + t) ∧ p b := by
  unfold deadline
  split
  · exact .inr ⟨n, rfl, h⟩
  · exact .inl rfl

theorem keep {o : Option Nat} {r : Nat} {p q : Nat → Prop} (h : o = none ∨ ∃ b, o = some (b + r) ∧ p b) (hpq : ∀ b, p b → q b) :
    o = none ∨ ∃ b, o = some (b + r) ∧ q b := by
  rcases h with h | ⟨b, h1, h2⟩
  · exact .inl h
  · exact .inr ⟨b, h1, hpq b h2⟩

theorem dl0 {t n : Nat} (h : t = 0) : deadline t n = none := by simp [deadline, h]

theorem inv_step (hc : c.cread = 0 ∨ c.ping + c.lat + c.there + c.back < c.cread)
    (hv : c.sread = 0 ∨ c.ping + c.lat + c.there < c.sread) (h : Inv c s) (hx : x ≠ .stop) (hs : step c s x = some s') :
    Inv c s' := by
  obtain ⟨⟨o1, o2, o3, o4⟩, ⟨n1, n2⟩, ht, hp, hq, hcl, hsv, h0, h1⟩ := id h
  cases x with
  | stop => exact absurd rfl hx
  | cTimeout =>
    simp only [step] at hs
    split at hs
    · cases hs
    · have := safe hc h ‹_›
      split at hs
      · omega
      · cases hs
  | sTimeout =>
    simp only [step] at hs
    split at hs
    · cases hs
    · have := safeS hv h ‹_›
      split at hs
      · omega
      · cases hs
  | time =>
    simp only [step] at hs
    split at hs <;> cases hs
    rename_i hf
    obtain ⟨f1, f2, f3, f4⟩ := hf
    rw [o3] at f1 f2
    have f1 := f1.resolve_left (by simp)
    have f2 := f2.resolve_left (by simp)
    refine ⟨⟨o1, o2, o3, o4⟩, ?_, ?_, ?_, ?_, hcl, hsv, h0, h1⟩
    · exact ⟨f1, by simp only; omega⟩
    · intro t e; have := ht t e; have := f2 t e; simp only; omega
    · exact f3
    · exact f4
  | fire =>
    simp only [step] at hs
    split at hs <;> cases hs
    rename_i hf
    have way : ∀ b, WayS c s b → WayS c { s with tick := some (s.tick.getD s.now), next := s.now + c.ping } b := by
      rintro b (hw | ⟨t, e, hw⟩ | hw)
      · refine .inr (.inl ⟨_, rfl, ?_⟩)
        cases e : s.tick with
        | none => simp only [Option.getD_none]; omega
        | some t => have := ht t e; simp only [Option.getD_some]; omega
      · exact .inr (.inl ⟨t, by simp [e], hw⟩)
      · exact .inr (.inr hw)
    refine ⟨⟨o1, o2, o3, o4⟩, ⟨by simp, by simp⟩, ?_, hp, hq, keep hcl ?_, keep hsv way, h0, h1⟩
    · intro t e
      cases e1 : s.tick with
      | none => simp only [e1, Option.getD_none, Option.some.injEq] at e; simp only; omega
      | some u => simp only [e1, Option.getD_some, Option.some.injEq] at e; subst e; exact ht u e1
    · rintro b (hw | hw)
      · exact .inl (way b hw)
      · exact .inr hw
  | ping =>
    simp only [step] at hs
    split at hs <;> cases hs
    rename_i hf
    have way : ∀ b, WayS c s b → WayS c { s with tick := none, pings := s.pings ++ [s.now + c.there] } b := by
      rintro b (hw | ⟨t, e, hw⟩ | ⟨x, hm, hw⟩)
      · exact .inl hw
      · have := ht t e
        exact .inr (.inr ⟨s.now + c.there, by simp, by omega⟩)
      · exact .inr (.inr ⟨x, by simp [hm], hw⟩)
    refine ⟨⟨o1, o2, o3, o4⟩, ⟨n1, n2⟩, by simp, ?_, hq, keep hcl ?_, keep hsv way, h0, h1⟩
    · intro d hd
      rcases List.mem_append.mp hd with hd | hd
      · exact hp d hd
      · simp only [List.mem_singleton] at hd; simp only; omega
    · rintro b (hw | hw)
      · exact .inl (way b hw)
      · exact .inr hw
  | server =>
    simp only [step] at hs
    split at hs
    · cases hs
    · rename_i p pings hpi
      rw [if_neg (by simp [o2])] at hs
      cases hs
      have hnow := hp p (by rw [hpi]; simp)
      refine ⟨⟨o1, o2, o3, o4⟩, ⟨n1, n2⟩, ht, ?_, ?_, keep hcl ?_, fresh (.inl n2), h0, fun e => dl0 e⟩
      · intro d hd; exact hp d (by rw [hpi]; exact List.mem_cons_of_mem _ hd)
      · intro d hd
        rcases List.mem_append.mp hd with hd | hd
        · exact hq d hd
        · simp only [List.mem_singleton] at hd; simp only; omega
      · rintro b ((hw | hw | ⟨x, hm, hw⟩) | ⟨x, hm, hw⟩)
        · exact .inl (.inl hw)
        · exact .inl (.inr (.inl hw))
        · rw [hpi] at hm
          rcases List.mem_cons.mp hm with rfl | hm
          · exact .inr ⟨s.now + c.back, by simp, by omega⟩
          · exact .inl (.inr (.inr ⟨x, hm, hw⟩))
        · exact .inr ⟨x, by simp [hm], hw⟩
  | pong =>
    simp only [step] at hs
    split at hs
    · cases hs
    · rename_i p pongs hpo
      rw [if_neg (by simp [o1])] at hs
      cases hs
      refine ⟨⟨o1, o2, o3, o4⟩, ⟨n1, n2⟩, ht, hp, ?_, fresh (.inl (.inl n2)), hsv, fun e => dl0 e, h1⟩
      intro d hd; exact hq d (by rw [hpo]; exact List.mem_cons_of_mem _ hd)
  | request =>
    simp only [step] at hs
    split at hs <;> cases hs
    exact ⟨⟨o1, o2, o3, o4⟩, ⟨n1, n2⟩, ht, hp, hq, hcl, fresh (.inl n2), h0, fun e => dl0 e⟩
  | response =>
    simp only [step] at hs
    split at hs <;> cases hs
    exact ⟨⟨o1, o2, o3, o4⟩, ⟨n1, n2⟩, ht, hp, hq, fresh (.inl (.inl n2)), hsv, fun e => dl0 e, h1⟩

theorem inv_run (hc : c.cread = 0 ∨ c.ping + c.lat + c.there + c.back < c.cread)
    (hv : c.sread = 0 ∨ c.ping + c.lat + c.there < c.sread) {xs : List Choice} (h : Inv c s) (hx : .stop ∉ xs)
    (hs : run c s xs = some s') : Inv c s' := by
  induction xs generalizing s with
  | nil => cases hs; exact h
  | cons x xs ih =>
    simp only [run] at hs
    cases e : step c s x with
    | none => rw [e] at hs; cases hs
    | some y =>
      rw [e] at hs
      exact ih (inv_step hc hv h (fun e => hx (by simp [e])) e) (fun e => hx (by simp [e])) hs

/-- C116: as long as the client is not stopped, neither side's read ever times out, and no request is failed, if the timeouts
are longer than the interval between pings and the time they take (to the server, and back to the client). -/
theorem C116_kept_partial (hc : c.cread = 0 ∨ c.ping + c.lat + c.there + c.back < c.cread)
    (hv : c.sread = 0 ∨ c.ping + c.lat + c.there < c.sread) {xs : List Choice} (hx : .stop ∉ xs) (h : run c (init c) xs = some s) :
    s.cend = false ∧ s.send = false ∧ s.failed = 0 ∧ step c s .cTimeout = none ∧ step c s .sTimeout = none := by
  have i := inv_run hc hv (inv_init c) hx h
  refine ⟨i.off.1, i.off.2.1, i.off.2.2.2, ?_, ?_⟩
  · cases e : step c s .cTimeout with
    | none => rfl
    | some s' =>
      have := (inv_step hc hv i (by simp) e).off.1
      simp only [step] at e
      (repeat' split at e) <;> cases e
      cases this
  · cases e : step c s .sTimeout with
    | none => rfl
    | some s' =>
      have := (inv_step hc hv i (by simp) e).off.2.1
      simp only [step] at e
      (repeat' split at e) <;> cases e
      cases this

end

theorem any_some {o : Option St} {p : St → Prop} [DecidablePred p] (h : (o.any fun s => p s) = true) :
    ∃ s, o = some s ∧ p s := by
  cases o with
  | none => cases h
  | some s => exact ⟨s, rfl, of_decide_eq_true h⟩

def t (n : Nat) : List Choice := List.replicate n .time

def c1 : Cfg := ⟨3, 7, 6, 1, 1, 1⟩

/-- Pings every three units, which take one unit in each direction, after a delay of one; timeouts of seven and six units. A handler
needs 20 units. -/
def slow : List Choice :=
  .request :: (t 3 ++ [.fire] ++ t 1 ++ [.ping] ++ t 1 ++ [.server] ++ t 1 ++ [.fire, .pong] ++
    (List.replicate 4 (t 1 ++ [.ping] ++ t 1 ++ [.server] ++ t 1 ++ [.fire, .pong])).flatten)

example : ∃ s, run c1 (init c1) slow = some s ∧ (s.now = 18 ∧ s.inFly = 1 ∧ s.cend = false ∧ s.send = false) := by
  refine any_some ?_
  decide +kernel

/-- The bound is exact: with a timeout of six the connection is cut before the first pong. -/
theorem C116_tight_violated : ∃ s, run ⟨3, 6, 6, 1, 1, 1⟩ (init ⟨3, 6, 6, 1, 1, 1⟩)
      (.request :: (t 3 ++ [.fire] ++ t 1 ++ [.ping] ++ t 1 ++ [.server] ++ t 1 ++ [.cTimeout])) = some s ∧
    (s.cend = true ∧ s.failed = 1) := by
  refine any_some ?_
  decide +kernel

theorem run_time {c : Cfg} {n : Nat} {s : St} (h1 : s.stopped = true) (h2 : s.pings = []) (h3 : s.pongs = []) :
    run c s (t n) = some { s with now := s.now + n } := by
  induction n generalizing s with
  | zero => rfl
  | succ n ih =>
    have hf : free c s := by simp [free, h1, h2, h3]
    simp only [t, List.replicate_succ, run, step, if_pos hf, Option.bind_some]
    refine (ih (s := { s with now := s.now + 1 }) h1 h2 h3).trans ?_
    simp only [Nat.add_assoc, Nat.add_comm 1 n]

theorem run_append {c : Cfg} {xs ys : List Choice} {s s' : St} (h : run c s xs = some s') : run c s (xs ++ ys) = run c s' ys := by
  induction xs generalizing s with
  | nil => cases h; rfl
  | cons x xs ih =>
    simp only [run, List.cons_append] at h ⊢
    cases e : step c s x with
    | none => rw [e] at h; cases h
    | some y => rw [e] at h; exact ih h

/-- C116 fails for a client that is stopped: its write loop, which sends the pings, has ended, and so a handler that takes longer than
the read timeout fails the request, whatever the intervals are. -/
theorem C116_stop_violated (c : Cfg) (hc : c.cread > 0) :
    ∃ xs s, run c (init c) ([.request, .stop] ++ xs) = some s ∧ .cTimeout ∈ xs ∧ s.send = false ∧ s.cend = true ∧ s.failed = 1 := by
  refine ⟨t c.cread ++ [.cTimeout], ?_⟩
  have h1 : run c (init c) [.request, .stop] = some { init c with inFly := 1, sdl := deadline c.sread 0, stopped := true } := rfl
  rw [run_append h1, run_append (run_time rfl rfl rfl)]
  have hd : deadline c.cread 0 = some c.cread := by simp [deadline, hc]
  refine ⟨{ init c with now := c.cread, cend := true, stopped := true, sdl := deadline c.sread 0, inFly := 0, failed := 1 }, ?_, by simp, rfl, rfl, rfl⟩
  simp [run, step, init, hd]

end Verif.KeepAlive
