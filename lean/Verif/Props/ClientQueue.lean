import Verif.Model.ClientQueue

/-! C91, C92: requests queued in front of a client endpoint without connections. -/
namespace Verif.ClientQueue

/-- Out of the queue: failed by the pool or taken by a connection. -/
def Gone (s : St) (r : Nat) : Prop := r ∈ s.failed ∨ r ∈ s.taken

/-- During `AllDisconnected` at most as many of the requests found are left as there are iterations to go, and they are first
in the channel; otherwise none is left. -/
def Inv (s : St) : Prop :=
  match s.pc with
  | .drain i => ∃ p q, s.chan = p ++ q ∧ p.length ≤ i ∧ ∀ r ∈ s.mark, r ∈ p ∨ Gone s r
  | _ => ∀ r ∈ s.mark, Gone s r

theorem inv_init : Inv {} := by simp [Inv]

theorem inv_disconnected {s : St} (hi : Inv s) : Inv (disconnected s) := by
  unfold disconnected
  split
  · exact ⟨s.chan, [], by simp, Nat.le_refl _, fun r hr => .inl hr⟩
  · exact hi

/-- The part of the state the invariant looks at does not change but for a longer channel. -/
theorem Inv.more {s s' : St} (hi : Inv s) (x : List Nat) (hc : s'.chan = s.chan ++ x) (hp : s'.pc = s.pc)
    (hm : s'.mark = s.mark) (hf : s'.failed = s.failed) (ht : s'.taken = s.taken) : Inv s' := by
  unfold Inv Gone at *
  rw [hp, hm, hf, ht, hc]
  split
  · rename_i i he
    rw [he] at hi
    obtain ⟨p, q, h1, h2, h3⟩ := hi
    exact ⟨p, q ++ x, by simp [h1], h2, h3⟩
  · rename_i h
    split at hi
    · exact absurd ‹_› (h _)
    · exact hi

theorem inv_step {cap : Nat} {s s' : St} {c : Choice} (hi : Inv s) (hs : step cap s c = some s') : Inv s' := by
  cases c with
  | push r =>
    simp only [step] at hs
    repeat' split at hs
    all_goals simp only [Option.some.injEq, reduceCtorEq] at hs <;> subst hs
    · exact hi.more [r] rfl rfl rfl rfl rfl
    · exact hi.more [] (by simp) rfl rfl rfl rfl
  | forward =>
    simp only [step] at hs
    repeat' split at hs
    all_goals simp only [Option.some.injEq, reduceCtorEq] at hs <;> subst hs
    exact hi.more _ rfl rfl rfl rfl rfl
  | take =>
    simp only [step] at hs
    repeat' split at hs
    all_goals simp only [Option.some.injEq, reduceCtorEq] at hs <;> subst hs
    rename_i r q hc _
    unfold Inv Gone at *
    simp only
    split
    · rename_i i he
      rw [he] at hi
      obtain ⟨p, p', h1, h2, h3⟩ := hi
      rw [hc] at h1
      cases p with
      | nil => exact ⟨[], q, by simp, Nat.zero_le _, fun x hx => by have := h3 x hx; simp_all; grind⟩
      | cons a p =>
        simp only [List.cons_append, List.cons.injEq] at h1
        obtain ⟨rfl, rfl⟩ := h1
        refine ⟨p, p', rfl, by simp at h2; omega, fun x hx => ?_⟩
        have := h3 x hx
        simp only [List.mem_cons] at this ⊢
        grind
    · rename_i h
      split at hi
      · exact absurd ‹_› (h _)
      · intro x hx
        have := hi x hx
        simp only [List.mem_cons]
        grind
  | drain =>
    simp only [step] at hs
    repeat' split at hs
    all_goals simp only [Option.some.injEq, reduceCtorEq] at hs <;> subst hs
    · rename_i he
      simp only [Inv, he] at hi
      obtain ⟨p, q, h1, h2, h3⟩ := hi
      have : p = [] := List.length_eq_zero_iff.1 (by omega)
      subst this
      intro r hr
      simpa [Gone] using h3 r hr
    · rename_i i he _ r q hc
      simp only [Inv, he] at hi
      obtain ⟨p, p', h1, h2, h3⟩ := hi
      rw [hc] at h1
      unfold Inv Gone at *
      simp only
      cases p with
      | nil => exact ⟨[], q, by simp, Nat.zero_le _, fun x hx => by have := h3 x hx; simp at this ⊢; grind⟩
      | cons a p =>
        simp only [List.cons_append, List.cons.injEq] at h1
        obtain ⟨rfl, rfl⟩ := h1
        refine ⟨p, p', rfl, by simp at h2; omega, fun x hx => ?_⟩
        have := h3 x hx
        simp only [List.mem_cons] at this ⊢
        grind
    · rename_i i he _ hc
      simp only [Inv, he] at hi
      obtain ⟨p, q, h1, h2, h3⟩ := hi
      rw [hc] at h1
      obtain ⟨rfl, rfl⟩ := List.nil_eq_append_iff.1 h1
      intro r hr
      simpa [Gone] using h3 r hr
  | dialFail =>
    simp only [step] at hs
    split at hs
    · simp only [Option.some.injEq] at hs; subst hs
      exact inv_disconnected (hi.more [] (by simp) rfl rfl rfl rfl)
    · contradiction
  | lost =>
    simp only [step] at hs
    split at hs
    · simp only [Option.some.injEq] at hs; subst hs
      exact inv_disconnected (hi.more [] (by simp) rfl rfl rfl rfl)
    · contradiction
  | finish =>
    simp only [step] at hs
    split at hs
    · rename_i h
      simp only [Option.some.injEq] at hs; subst hs
      simp only [Inv, h.1] at hi ⊢
      exact hi
    · contradiction
  | _ =>
    simp only [step] at hs
    split at hs
    · simp only [Option.some.injEq] at hs; subst hs
      exact hi.more [] (by simp) rfl rfl rfl rfl
    · contradiction

theorem inv_run {cap : Nat} {s s' : St} (hi : Inv s) : ∀ {l}, run cap s l = some s' → Inv s' := by
  intro l
  induction l generalizing s with
  | nil => rintro ⟨⟩; exact hi
  | cons c l ih =>
    intro h
    simp only [run] at h
    split at h
    · contradiction
    · exact ih (inv_step hi ‹_›) h

/-- C91 (partial: for the requests in the endpoint's channel). When `AllDisconnected` has returned, every request it found in
the channel has been failed or was taken by a connection. -/
theorem C91_failed_partial {cap : Nat} {l : List Choice} {s : St} (hr : run cap {} l = some s) (hp : s.pc = .loop) :
    ∀ r ∈ s.mark, r ∈ s.failed ∨ r ∈ s.taken := by
  have := inv_run inv_init hr
  simp only [Inv, hp] at this
  exact this

/-- C91: it is called as soon as the loss of the last connection, or a failed dial without a connection, is received, and looks
at all of the channel. -/
theorem C91_called {cap : Nat} {s s' : St} {c : Choice} (hc : c = .lost ∨ c = .dialFail) (hs : step cap s c = some s')
    (he : s'.est = 0) : s'.mark = s.chan ∧ s'.pc = .drain s.chan.length := by
  rcases hc with rfl | rfl <;> simp only [step] at hs <;> split at hs <;> simp only [Option.some.injEq, reduceCtorEq] at hs <;>
    subst hs <;> unfold disconnected at he ⊢ <;> split <;> simp_all

/-- C91: `AllDisconnected` is never blocked and has as many iterations as the channel had requests. -/
theorem C91_ends {cap : Nat} (i : Nat) : ∀ s : St, s.pc = .drain i → ∃ n s', n ≤ i + 1 ∧
    run cap s (List.replicate n .drain) = some s' ∧ s'.pc = .loop := by
  induction i with
  | zero =>
    intro s hp
    exact ⟨1, _, Nat.le_refl _, by simp [run, step, hp, List.replicate]; rfl, rfl⟩
  | succ i ih =>
    intro s hp
    cases hc : s.chan with
    | nil => exact ⟨1, _, by omega, by simp [run, step, hp, hc, List.replicate]; rfl, rfl⟩
    | cons r q =>
      obtain ⟨n, s', h1, h2, h3⟩ := ih { s with chan := q, failed := r :: s.failed, pc := .drain i } rfl
      exact ⟨n + 1, s', by omega, by simp [run, step, hp, hc, List.replicate_succ, h2], h3⟩

/-- C91 is violated: the requests behind a full channel are not failed. -/
theorem C91_behind_violated : ∃ l s, run 1 {} l = some s ∧ s.pc = .loop ∧ s.est = 0 ∧ s.up = 0 ∧ s.starting = 0 ∧
    s.mark = [1] ∧ 2 ∈ s.chan ∧ ¬ Gone s 2 := by
  refine ⟨[.push 1, .push 2, .dial, .dialFail, .drain, .forward, .drain], _, rfl, ?_⟩
  simp [disconnected, Gone]

/-- As long as the pool has not stopped a connection itself, `established` is the number of connections. -/
theorem est_run {cap : Nat} {l : List Choice} {s s' : St} (h0 : s.est = (s.starting + s.up + s.fallen : Nat))
    (hr : run cap s l = some s') (hn : .stopConn ∉ l) : s'.est = (s'.starting + s'.up + s'.fallen : Nat) := by
  induction l generalizing s with
  | nil => cases hr; exact h0
  | cons c l ih =>
    simp only [run] at hr
    split at hr
    · contradiction
    · rename_i s1 hs
      refine ih ?_ hr (fun h => hn (by simp [h]))
      have hc : c ≠ .stopConn := fun e => hn (by simp [e])
      cases c <;> simp only [step] at hs <;> repeat' split at hs
      all_goals simp only [Option.some.injEq, reduceCtorEq, ne_eq, not_true_eq_false] at hs hc <;> try subst hs
      all_goals first
        | exact h0
        | contradiction
        | (simp only; omega)
        | (simp only [disconnected]; split <;> simp only <;> omega)

/-- C91, the converse (partial: as long as the pool has not stopped a connection itself). `AllDisconnected` is called only if
there is no connection. -/
theorem C91_only_partial {cap : Nat} {l : List Choice} {s s' : St} {c : Choice} (hr : run cap {} l = some s)
    (hn : .stopConn ∉ l) (hc : c = .lost ∨ c = .dialFail) (hs : step cap s c = some s') (he : ∃ i, s'.pc = .drain i) :
    s'.starting = 0 ∧ s'.up = 0 ∧ s'.fallen = 0 := by
  have h0 := est_run (s := {}) rfl hr hn
  obtain ⟨i, he⟩ := he
  have key : ∀ x : St, x.pc = .loop → (disconnected x).pc = .drain i → x.est = 0 ∧
      (disconnected x).starting = x.starting ∧ (disconnected x).up = x.up ∧ (disconnected x).fallen = x.fallen := by
    intro x hx hd
    unfold disconnected at hd ⊢
    split at hd
    · rename_i h; simp [h]
    · rw [hx] at hd; contradiction
  rcases hc with rfl | rfl <;> simp only [step] at hs <;> split at hs <;> simp only [Option.some.injEq, reduceCtorEq] at hs <;>
    subst hs <;> rename_i h1 <;> obtain ⟨e1, e2, e3, e4⟩ := key _ (by exact h1.1) he <;> rw [e2, e3, e4] <;> simp only at e1 ⊢ <;> omega

/-- C91 is violated: when the pool has stopped one of two connections, queued requests are failed although the other one is up. -/
theorem C91_spurious_violated : ∃ l s, run 1 {} l = some s ∧ s.up = 1 ∧ s.exiting = false ∧ s.failed = [1] := by
  exact ⟨[.dial, .dial, .dialOk, .dialOk, .start, .start, .stopConn, .push 1, .lost, .drain], _, rfl, by decide⟩

/-- C91 is violated: when the pool has stopped its only connection, queued requests are not failed although there is no
connection and a dial has failed. -/
theorem C91_missed_violated : ∃ l s, run 1 {} l = some s ∧ s.pc = .loop ∧ s.up = 0 ∧ s.starting = 0 ∧ s.dialing = 0 ∧
    1 ∈ s.chan ∧ ¬ Gone s 1 := by
  exact ⟨[.dial, .dialOk, .start, .stopConn, .lost, .push 1, .dial, .dialFail], _, rfl, by decide, by decide,
    by decide, by decide, by decide, by simp [Gone, disconnected]⟩

/-- What can still happen when the pool's loop has ended and no connection is left: nothing leaves the queue. -/
theorem stuck_step {cap : Nat} {s s' : St} {c : Choice} (hp : s.pc = .ended) (hu : s.up = 0) (hst : s.starting = 0)
    (hs : step cap s c = some s') : s'.pc = .ended ∧ s'.up = 0 ∧ s'.starting = 0 ∧ s'.failed = s.failed ∧ s'.taken = s.taken ∧
    ∀ r, r ∈ s.chan ∨ r ∈ s.behind → r ∈ s'.chan ∨ r ∈ s'.behind := by
  cases c <;> simp only [step, hp, hu, hst, reduceCtorEq, false_and, if_false, Nat.lt_irrefl] at hs <;>
    repeat' split at hs
  all_goals simp only [Option.some.injEq, reduceCtorEq] at hs <;> try subst hs
  · refine ⟨rfl, rfl, rfl, rfl, rfl, fun r hr => ?_⟩
    simp only [List.mem_append, List.mem_singleton]; grind
  · refine ⟨rfl, rfl, rfl, rfl, rfl, fun r hr => ?_⟩
    simp only [List.mem_append, List.mem_singleton]; grind
  · rename_i h _
    refine ⟨rfl, rfl, rfl, rfl, rfl, fun r hr => ?_⟩
    rw [h] at hr
    simp only [List.mem_append, List.mem_cons] at hr ⊢; grind

/-- C92: the requests left in the queue of a stopped endpoint without connections are never failed and never sent. -/
theorem C92_stuck {cap : Nat} {s : St} (hp : s.pc = .ended) (hu : s.up = 0) (hst : s.starting = 0) (l : List Choice)
    {s' : St} (hr : run cap s l = some s') : s'.failed = s.failed ∧ s'.taken = s.taken ∧
    ∀ r, r ∈ s.chan ∨ r ∈ s.behind → r ∈ s'.chan ∨ r ∈ s'.behind := by
  induction l generalizing s with
  | nil => cases hr; exact ⟨rfl, rfl, fun _ h => h⟩
  | cons c l ih =>
    simp only [run] at hr
    split at hr
    · contradiction
    · obtain ⟨h1, h2, h3, h4, h5, h6⟩ := stuck_step hp hu hst ‹_›
      obtain ⟨g1, g2, g3⟩ := ih h1 h2 h3 hr
      exact ⟨g1.trans h4, g2.trans h5, fun r h => g3 r (h6 r h)⟩

/-- C92 is violated: a request that is queued when the endpoint is stopped, while no connection is established, is never
answered by the endpoint. -/
theorem C92_queued_violated : ∃ l s, run 1 {} l = some s ∧ s.pc = .ended ∧ 1 ∈ s.chan ∧
    ∀ l' s', run 1 s l' = some s' → ¬ Gone s' 1 := by
  refine ⟨[.push 1, .stop, .finish], _, rfl, rfl, by decide, fun l' s' h => ?_⟩
  obtain ⟨h1, h2, -⟩ := C92_stuck rfl rfl rfl l' h
  simp [Gone, h1, h2]

/-- C92 is violated: also when there was a connection, which was stopped after having served another request. -/
theorem C92_connected_violated : ∃ l s, run 1 {} l = some s ∧ s.pc = .ended ∧ s.taken = [1] ∧ 2 ∈ s.chan ∧
    ∀ l' s', run 1 s l' = some s' → ¬ Gone s' 2 := by
  refine ⟨[.dial, .dialOk, .start, .push 1, .take, .push 2, .stop, .stopConn, .finish], _, rfl, rfl, rfl, by decide,
    fun l' s' h => ?_⟩
  obtain ⟨h1, h2, -⟩ := C92_stuck rfl rfl rfl l' h
  simp [Gone, h1, h2]

theorem gone_step {cap : Nat} {s s' : St} {c : Choice} (hs : step cap s c = some s') {r : Nat} (h : Gone s r) : Gone s' r := by
  unfold Gone at *
  cases c <;> simp only [step] at hs <;> repeat' split at hs
  all_goals simp only [Option.some.injEq, reduceCtorEq] at hs <;> subst hs
  all_goals first
    | exact h
    | (simp only [disconnected]; split <;> exact h)
    | (simp only [List.mem_cons]; grind)

/-- C92 (partial: for the requests in the channel when the loss of the last connection, or a failed dial, was last received).
They stay failed or taken whatever happens afterwards, also when the endpoint is stopped. -/
theorem C92_before_partial {cap : Nat} {l l' : List Choice} {s s' : St} (hr : run cap {} l = some s) (hp : s.pc = .loop)
    (hr' : run cap s l' = some s') : ∀ r ∈ s.mark, r ∈ s'.failed ∨ r ∈ s'.taken := by
  intro r hm
  have h : Gone s r := C91_failed_partial hr hp r hm
  clear hr hp hm
  induction l' generalizing s with
  | nil => cases hr'; exact h
  | cons c l ih =>
    simp only [run] at hr'
    split at hr'
    · contradiction
    · exact ih hr' (gone_step ‹_› h)

/-- The last connection is lost with two requests in the channel. -/
example : ∃ s, run 4 {} [.dial, .dialOk, .start, .push 1, .push 2, .fall, .lost, .drain, .drain, .drain] = some s ∧
    s.pc = .loop ∧ s.mark = [1, 2] ∧ s.failed = [2, 1] := ⟨_, rfl, by decide⟩

end Verif.ClientQueue
