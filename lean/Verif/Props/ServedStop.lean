import Verif.Props.ServedLive
/-! C142: stopping the parallel service behind a server. -/
namespace Verif.Served

variable {n : Nat} {cs : List Choice} {s : St}

/-- C142 (partial, as the next one: for connections that have received at most 128 requests and pings, see C123). If `Stop` of the service was called,
then at rest it has returned, no handler is left, the channel is empty and all slots are free: no
connection, no response that is being written and no client can keep the service from ending. -/
theorem C142_stopped_partial {l : List Nat} (hl : l.Nodup) (h : run (init n) cs = some s) (hd : s.dead = false) (hs : s.p.stop ≠ .idle)
    (hf : ∀ i, Few s i) {ret : Nat → Parallel.Outcome} {ds : List Choice} {s' : St} (hc : ∀ c ∈ ds, Forth ret l c) (hr : run s ds = some s')
    (hq : ∀ c, Forth ret l c → step s' c = none) :
    s'.p.stop = .done ∧ s'.p.ch = [] ∧ (∀ r, ¬ Parallel.Live s'.p r) ∧ s'.p.sema = if n = 0 then 1 else n := by
  obtain ⟨-, -, e, g⟩ := forth_run (dn := fun _ => 0) hl (going h hd hf) hc hr
  obtain ⟨cs', hp⟩ := g.inv.par
  exact Props.C136_ended (ds := []) hp (fun x => hs (e.1 x)) (by simp) rfl (fun c hc => rest_par g hq hc)

/-- C142. Whatever a handler was started for is answered in the end, `Stop` or not. -/
theorem C142_handled_partial {l : List Nat} (hl : l.Nodup) (h : run (init n) cs = some s) (hd : s.dead = false) (hf : ∀ i, Few s i)
    {ret : Nat → Parallel.Outcome} {ds : List Choice} {s' : St} (hc : ∀ c ∈ ds, Forth ret l c) (hr : run s ds = some s')
    (hq : ∀ c, Forth ret l c → step s' c = none) {r : Nat} (hm : r < s.m) (hh : s'.p.h r ≠ .idle) :
    s'.p.ans r ≠ none ∧ (s.conn r ∈ l → Serv.Polite (s.c (s.conn r)) → ¬ Failed s r → Written s' r) := by
  have hi := inv_run (inv_init n) (by rw [run_append, h]; exact hr : run (init n) (cs ++ ds) = some s')
  obtain ⟨cs', hp⟩ := hi.par
  have := C127_stopped_partial hl h hd hf hc hr hq hm fun e => hh (Props.C50_dropped_violated hp e).1
  exact ⟨this.1, this.2.2⟩

theorem Stop.chain_other {p : Parallel.St} {src : Parallel.Src} {x code r c : Nat} (hs : src ≠ .other)
    (h : (Parallel.chainResponse p src x code).ans r = some (.other, c)) : p.ans r = some (.other, c) := by
  unfold Parallel.chainResponse at h
  (repeat' split at h) <;> simp only [Parallel.set] at h <;> try exact h
  all_goals
    split at h
    · simp only [Option.some.injEq, Prod.mk.injEq] at h; exact absurd h.1 hs
    · exact h

theorem Stop.fail_other {p : Parallel.St} {src : Parallel.Src} {x code r c : Nat} (hs : src ≠ .other)
    (h : (Parallel.respondFail p src x code).ans r = some (.other, c)) : p.ans r = some (.other, c) := by
  unfold Parallel.respondFail at h
  split at h
  · exact h
  · exact Stop.chain_other hs h

theorem Stop.resp_other {p : Parallel.St} {src : Parallel.Src} {x code r c : Nat} (hs : src ≠ .other)
    (h : (Parallel.respond p src x code).ans r = some (.other, c)) : p.ans r = some (.other, c) := by
  unfold Parallel.respond at h
  split at h
  · exact Stop.chain_other hs h
  · exact h

/-- The service answers in its own name. -/
theorem Stop.ending_other {p p' : Parallel.St} {ret : Nat → Parallel.Outcome} {ch : Parallel.Choice} (hc : Parallel.Ending ret ch)
    (h : Parallel.step p ch = some p') {r c : Nat} (ha : p'.ans r = some (.other, c)) : p.ans r = some (.other, c) := by
  rcases hc with (rfl | rfl) | ⟨x, rfl | rfl⟩
  · simp only [Parallel.step, Parallel.stepDisp] at h
    (repeat' split at h) <;> cases h <;> first
      | exact ha
      | exact Stop.fail_other (by simp) ha
      | exact Stop.resp_other (by simp) ha
  · simp only [Parallel.step, Parallel.stepDispExit] at h
    (repeat' split at h) <;> cases h <;> first
      | exact ha
      | exact Stop.fail_other (by simp) ha
  · simp only [Parallel.step, Parallel.stepHand] at h
    split at h
    · cases h; exact ha
    · cases h; exact Stop.resp_other (by simp) ha
    · cases h
      dsimp only at ha
      split at ha
      · exact Stop.fail_other (by simp) ha
      · exact ha
    · split at h <;> cases h; exact ha
    · cases h
  · simp only [Parallel.step] at h
    split at h
    · split at h <;> cases h <;> exact ha
    · cases h

theorem Stop.chain_drained (p : Parallel.St) (src : Parallel.Src) (x code : Nat) : (Parallel.chainResponse p src x code).drained = p.drained := by
  unfold Parallel.chainResponse
  (repeat' split) <;> rfl

theorem Stop.ending_drained {p p' : Parallel.St} {ret : Nat → Parallel.Outcome} {ch : Parallel.Choice} (hc : Parallel.Ending ret ch)
    (h : Parallel.step p ch = some p') {r : Nat} (ha : r ∈ p.drained) : r ∈ p'.drained := by
  have f : ∀ src x code, (Parallel.respondFail p src x code).drained = p.drained := by
    intro src x code
    unfold Parallel.respondFail
    split
    · rfl
    · exact Stop.chain_drained ..
  have g : ∀ src x code, (Parallel.respond p src x code).drained = p.drained := by
    intro src x code
    unfold Parallel.respond
    split
    · exact Stop.chain_drained ..
    · rfl
  rcases hc with (rfl | rfl) | ⟨x, rfl | rfl⟩
  · simp only [Parallel.step, Parallel.stepDisp] at h
    (repeat' split at h) <;> cases h <;> first
      | exact ha
      | (simp only [Parallel.leave, f, g]; exact ha)
      | exact List.mem_cons_of_mem _ ha
  · simp only [Parallel.step, Parallel.stepDispExit] at h
    (repeat' split at h) <;> cases h <;> first
      | exact ha
      | (simp only [Parallel.leave, f]; exact ha)
  · simp only [Parallel.step, Parallel.stepHand] at h
    split at h
    · cases h; exact ha
    · cases h; simp only [g]; exact ha
    · cases h
      dsimp only
      split
      · rw [f]; exact ha
      · exact ha
    · split at h <;> cases h; exact ha
    · cases h
  · simp only [Parallel.step] at h
    split at h
    · split at h <;> cases h <;> exact ha
    · cases h

theorem Stop.onto_other {s s' : St} {ret : Nat → Parallel.Outcome} {l : List Nat} {c : Choice} (hc : Forth ret l c) (h : step s c = some s')
    {r : Nat} : (∀ k, s'.p.ans r = some (.other, k) → s.p.ans r = some (.other, k)) ∧ (r ∈ s.p.drained → r ∈ s'.p.drained) := by
  have net : ∀ {i ch} {t t' : St}, t.net i ch = some t' → t'.p = t.p := by
    intro i ch t t' h
    simp only [St.net, Option.map_eq_some_iff] at h
    obtain ⟨x, -, rfl⟩ := h
    rfl
  unfold step at h
  split at h
  · cases h
  rcases hc with ⟨i, rfl⟩ | ⟨ch, rfl, hc⟩ | ⟨i, j, rfl | rfl⟩ | ⟨i, -, rfl⟩
  · dsimp only at h
    split at h
    · simp only [Option.map_eq_some_iff] at h
      obtain ⟨p, hp, rfl⟩ := h
      simp only [Parallel.step] at hp
      split at hp <;> cases hp <;> exact ⟨fun _ h => h, id⟩
    · cases h
  · dsimp only at h
    unfold St.svc at h
    split at h
    case isFalse => cases h
    split at h
    · simp only [Option.map_eq_some_iff] at h
      obtain ⟨p, hp, rfl⟩ := h
      exact ⟨fun _ => Stop.ending_other hc hp, Stop.ending_drained hc hp⟩
    · split at h
      · cases h
      simp only [Option.bind_eq_some_iff] at h
      obtain ⟨p, hp, h⟩ := h
      split at h
      · simp only [Option.map_eq_some_iff] at h
        obtain ⟨t, ht, rfl⟩ := h
        have e : ∀ x, (t.enter x ch).p = t.p := by intro x; unfold St.enter; split <;> rfl
        rw [e, net ht]
        exact ⟨fun _ => Stop.ending_other hc hp, Stop.ending_drained hc hp⟩
      · cases h
        exact ⟨fun _ => Stop.ending_other hc hp, Stop.ending_drained hc hp⟩
  · rw [net h]; exact ⟨fun _ h => h, id⟩
  · rw [net h]; exact ⟨fun _ h => h, id⟩
  · rw [net h]; exact ⟨fun _ h => h, id⟩

/-- C142 fails for what the dispatcher receives after it has left its loop: left alone, the server never answers it. (It sends no responses to the
clients that go on sending requests after `Stop`, on connections that stay open.) -/
theorem C142_dropped_violated {l : List Nat} (h : run (init n) cs = some s)
    {ret : Nat → Parallel.Outcome} {r : Nat} (hm : r ∈ s.p.drained) (ha : s.p.ans r = none) {ds : List Choice} {s' : St}
    (hc : ∀ c ∈ ds, Forth ret l c) (hr : run s ds = some s') : s'.p.ans r = none := by
  have hi := inv_run (inv_init n) (by rw [run_append, h]; exact hr : run (init n) (cs ++ ds) = some s')
  obtain ⟨cs', hp⟩ := hi.par
  have back : ∀ (ds : List Choice) (s s' : St), (∀ c ∈ ds, Forth ret l c) → run s ds = some s' → (∀ k, s'.p.ans r = some (.other, k) →
      s.p.ans r = some (.other, k)) ∧ (r ∈ s.p.drained → r ∈ s'.p.drained) := by
    intro ds
    induction ds with
    | nil => intro s s' _ h; cases h; exact ⟨fun _ e => e, id⟩
    | cons c ds ih =>
      intro s s' hc h
      simp only [run, Option.bind_eq_some_iff] at h
      obtain ⟨t, h1, h2⟩ := h
      have a := Stop.onto_other (r := r) (hc c (by simp)) h1
      have b := ih t s' (fun x hx => hc x (by simp [hx])) h2
      exact ⟨fun k e => a.1 k (b.1 k e), fun e => b.2 (a.2 e)⟩
  cases e : s'.p.ans r with
  | none => rfl
  | some a =>
    obtain ⟨src, k⟩ := a
    have : src = .other := (Props.C50_dropped_violated hp ((back ds s s' hc hr).2 hm)).2 src k e
    subst this
    rw [(back ds s s' hc hr).1 k e] at ha
    cases ha

/-- One slot and two connections: a request of the first one is being handled, one of the second one waits for the slot, and another one of the first one
is in the channel; `Stop` of the service is called. -/
def stoppedServer : List Choice := busyServer ++ [.pass 0, .svc .stop]

/-- Meets the hypotheses of C142; by `C127_answers_partial` there are schedules as in the others. -/
example : ∃ s, run (init 1) stoppedServer = some s ∧ s.dead = false ∧ s.p.stop ≠ .idle ∧ (∀ i, Few s i) ∧ s.m = 3 ∧ s.p.d = .slot 1 ∧
    s.p.h 0 = .running ∧ s.p.ch = [2] ∧ Serv.Polite (s.c (s.conn 0)) ∧ ¬ Failed s 0 := by
  refine ⟨_, rfl, rfl, Parallel.SPc.noConfusion, ?_, rfl, rfl, rfl, rfl, rfl, ?_⟩
  · intro i
    match i with
    | 0 => exact Nat.le_of_ble_eq_true rfl
    | 1 => exact Nat.le_of_ble_eq_true rfl
    | i + 2 => exact Nat.zero_le _
  · rintro (e | e) <;> cases e

/-- The dispatcher leaves and receives the third request, which is not answered: meets the hypotheses of `C142_dropped_violated`. -/
example : ∃ s, run (init 1) (stoppedServer ++ [.svc .dispExit, .net 1 (.begin 0), .net 1 (.send 0), .svc .disp]) = some s ∧ 2 ∈ s.p.drained ∧
    s.p.ans 2 = none ∧ s.p.ans 1 = some (.shutdown, Parallel.rcShutdown) := by
  refine ⟨_, rfl, ?_, rfl, rfl⟩
  exact List.mem_singleton.2 rfl

end Verif.Served
