import Verif.Proofs.Parallel
/-!
Theorems about the parallel service (C48, C49, C50, C69, C70).
-/
namespace Verif.Parallel

theorem any_some {o : Option St} {p : St → Prop} [DecidablePred p] (h : (o.any fun s => p s) = true) :
    ∃ s, o = some s ∧ p s := by
  cases o with
  | none => cases h
  | some s => exact ⟨s, rfl, of_decide_eq_true h⟩

def times (n : Nat) (c : Choice) : List Choice := List.replicate n c

theorem good {n : Nat} {cs : List Choice} {s : St} (h : run (init n) cs = some s) :
    Inv s ∧ Cnt s ∧ s.cap = if n = 0 then 1 else n :=
  ⟨inv_run (inv_init n) h, cnt_run (inv_init n) (cnt_init n) h, cap_run h⟩

theorem busy_live {s : St} (h : Inv s) : LiveList s (busy s) := by
  refine ⟨h.nodup.sublist List.filter_sublist, fun r => ?_⟩
  unfold busy Live
  simp [h.spawned]

theorem length_le {l m : List Nat} (hl : l.Nodup) (h : ∀ x ∈ l, x ∈ m) : l.length ≤ m.length := by
  induction l generalizing m with
  | nil => exact Nat.zero_le _
  | cons a l ih =>
    rw [List.nodup_cons] at hl
    have ha : a ∈ m := h a (List.mem_cons_self ..)
    have := ih (m := m.erase a) hl.2 fun x hx => by
      have hne : x ≠ a := fun e => hl.1 (e ▸ hx)
      exact (List.mem_erase_of_ne hne).2 (h x (List.mem_cons_of_mem _ hx))
    rw [List.length_erase_of_mem ha] at this
    have : 0 < m.length := List.length_pos_of_mem ha
    simp only [List.length_cons]
    omega

/-- At most `k` steps of the dispatcher let `Stop` return. -/
def Goes (k : Nat) (s : St) : Prop :=
  ∃ ds : List Choice, ds.length ≤ k ∧ (∀ c ∈ ds, IsDisp c) ∧ ∃ s', run s ds = some s' ∧ s'.stop = .done

theorem Goes.mono {k m : Nat} {s : St} (h : Goes k s) (hm : k ≤ m) : Goes m s :=
  let ⟨ds, h1, h2⟩ := h
  ⟨ds, by omega, h2⟩

theorem Goes.next {k : Nat} {s : St} {c : Choice} (hc : IsDisp c) (s1 : St) (h : step s c = some s1) (g : Goes k s1) :
    Goes (k + 1) s := by
  obtain ⟨ds, h1, h2, s', h3, h4⟩ := g
  refine ⟨c :: ds, by simp; omega, ?_, s', ?_, h4⟩
  · intro d hd
    rcases List.mem_cons.1 hd with rfl | hd
    · exact hc
    · exact h2 d hd
  · simp [run, h, h3]

theorem goes_done {s : St} (h : s.stop = .done) : Goes 0 s := ⟨[], by simp, by simp, s, rfl, h⟩

theorem goes_top {s : St} (hd : s.d = .top) (hx : exiting s = true) : Goes 1 s :=
  .next (.inl rfl) (leave s) (by simp only [step, stepDisp, hd, hx, if_true]) (goes_done rfl)

theorem goes_got {s : St} {r : Nat} (hd : s.d = .got r) (hx : exiting s = true) : Goes 1 s :=
  .next (.inl rfl) (leave (respondFail s .shutdown r rcShutdown)) (by simp only [step, stepDisp, hd, hx, if_true])
    (goes_done rfl)

theorem goes_slot {s : St} {r : Nat} (hd : s.d = .slot r) (hx : exiting s = true) : Goes 1 s :=
  .next (.inr rfl) (leave (respondFail s .shutdown r rcShutdown)) (by simp only [step, stepDispExit, hd, hx, if_true])
    (goes_done rfl)

theorem goes_block {s : St} (hd : s.d = .block) (hx : exiting s = true) : Goes 1 s :=
  .next (.inr rfl) (leave s) (by simp only [step, stepDispExit, hd, hx, if_true]) (goes_done rfl)

theorem goes_poll {s : St} (hd : s.d = .poll) (hx : exiting s = true) : Goes 2 s := by
  cases hc : s.ch with
  | nil => exact .next (.inl rfl) { s with d := .block } (by simp only [step, stepDisp, hd, hc]) (goes_block rfl hx)
  | cons r l =>
    exact .next (.inl rfl) { s with ch := l, d := .got r } (by simp only [step, stepDisp, hd, hc]) (goes_got rfl hx)

theorem goes_back {s : St} (hd : s.d = .giveBack) (hx : exiting s = true) (hl : s.sema < s.cap) : Goes 2 s :=
  .next (.inl rfl) { s with sema := s.sema + 1, d := .top } (by simp only [step, stepDisp, hd, if_pos hl])
    (goes_top rfl hx)

theorem goes_claim {s : St} {r : Nat} (hd : s.d = .claim r) (hx : exiting s = true) (hl : s.sema < s.cap) : Goes 3 s := by
  by_cases hp : s.rs r = .pending
  · exact .next (.inl rfl) { s with rs := set s.rs r .inFly, ctxReq := set s.ctxReq r true, h := set s.h r .look,
                                    spawned := r :: s.spawned, d := .top }
      (by simp only [step, stepDisp, hd, if_pos hp]) (Goes.mono (k := 1) (goes_top rfl hx) (by decide))
  · exact .next (.inl rfl) { s with d := .giveBack } (by simp only [step, stepDisp, hd, if_neg hp]) (goes_back rfl hx hl)

theorem goes_grab {s : St} {r : Nat} (hd : s.d = .grab r) (hx : exiting s = true) (hl : s.sema ≤ s.cap) : Goes 4 s := by
  by_cases hp : 0 < s.sema
  · exact .next (.inl rfl) { s with sema := s.sema - 1, d := .claim r } (by simp only [step, stepDisp, hd, if_pos hp])
      (goes_claim rfl hx (by show s.sema - 1 < s.cap; omega))
  · exact .next (.inl rfl) { s with d := .slot r } (by simp only [step, stepDisp, hd, if_neg hp])
      (Goes.mono (k := 1) (goes_slot rfl hx) (by decide))

end Verif.Parallel

namespace Verif.Props
open Verif.Parallel

/-- C48: in every reachable state the free slots, the handlers that have not ended, and the slot the dispatcher may hold,
make `N` (one, if `N` was given as zero). -/
theorem C48_slots {n : Nat} {cs : List Choice} {s : St} (h : run (init n) cs = some s) :
    ∃ l, LiveList s l ∧ s.sema + l.length + holds s.d = if n = 0 then 1 else n := by
  obtain ⟨hi, hc, hn⟩ := good h
  exact ⟨busy s, busy_live hi, by rw [hc.cnt, hn]⟩

/-- C48: at most `N` handlers run at once. -/
theorem C48_at_most {n : Nat} {cs : List Choice} {s : St} {l : List Nat} (h : run (init n) cs = some s)
    (hl : l.Nodup) (hr : ∀ r ∈ l, s.h r = .running) : l.length ≤ if n = 0 then 1 else n := by
  obtain ⟨m, hm, hc⟩ := C48_slots h
  have := length_le hl (m := m) fun x hx => (hm.2 x).2 ⟨by rw [hr x hx]; simp, by rw [hr x hx]; simp⟩
  omega

/-- C48: returning a slot never blocks. -/
theorem C48_slot_returns {n : Nat} {cs : List Choice} {s : St} (h : run (init n) cs = some s) :
    (∀ r, s.h r = .release → ∃ s', step s (.hand r) = some s' ∧ s'.sema = s.sema + 1) ∧
      (s.d = .giveBack → ∃ s', step s .disp = some s' ∧ s'.sema = s.sema + 1) := by
  obtain ⟨hi, hc, hn⟩ := good h
  have hcnt := hc.cnt
  constructor
  · intro r hr
    have hm : r ∈ busy s := ((busy_live hi).2 r).2 ⟨by rw [hr]; simp, by rw [hr]; simp⟩
    have := List.length_pos_of_mem hm
    have hlt : s.sema < s.cap := by omega
    exact ⟨_, by simp only [step, stepHand, hr, if_pos hlt]; rfl, rfl⟩
  · intro hd
    rw [hd] at hcnt
    have hlt : s.sema < s.cap := by simp only [holds] at hcnt; omega
    exact ⟨_, by simp only [step, stepDisp, hd, if_pos hlt]; rfl, rfl⟩

/-- From the waiting receive to a handler running for `r`. -/
def serve (r : Nat) : List Choice := [.send r] ++ times 5 .disp ++ [.hand r]

/-- Two slots, three requests, one handler panicked: the slot is returned and taken by the third. -/
def threeRun : List Choice :=
  serve 0 ++ serve 1 ++ [.send 2] ++ times 4 .disp ++ [.result 1 .panicked] ++ times 2 (.hand 1) ++ times 2 .disp ++
    [.hand 2]

example : (run (init 2) threeRun).any (fun s => s.h 0 = .running ∧ s.h 1 = .ended ∧ s.h 2 = .running ∧ s.sema = 0 ∧
    s.ans 1 = some (.done, rcInternalError)) = true := by decide +kernel
example : (run (init 2) (serve 0 ++ [.result 0 .panicked] ++ times 1 (.hand 0))).any (fun s => s.h 0 = .release) = true := by
  decide +kernel
example : (run (init 0) ([.send 0, .fail 0 rcCanceled] ++ times 5 .disp)).any (fun s => s.d = .giveBack ∧ s.sema = 0) = true := by
  decide +kernel

/-- C49 does not hold for a handler which returns `RcTimeout` (say, the code of a request it made itself): the answer is
taken for the request's own timeout, and the client gets `RcInternalError`. -/
theorem C49_timeout_violated :
    ∃ s, run (init 1) (serve 0 ++ [.result 0 (.returned rcTimeout)] ++ times 3 (.hand 0)) = some s ∧
      (s.h 0 = .ended ∧ s.out 0 = some (.returned rcTimeout) ∧ s.ans 0 = some (.done, rcInternalError)) := by
  apply any_some (p := fun s : St =>
    s.h 0 = .ended ∧ s.out 0 = some (.returned rcTimeout) ∧ s.ans 0 = some (.done, rcInternalError))
  decide +kernel

/-- C49, in part: when the handler goroutine has ended the request is answered: by somebody else, or with the handler's
result, or with `RcInternalError` if it panicked or returned `RcTimeout`. -/
theorem C49_answered_partial {n : Nat} {cs : List Choice} {s : St} {r : Nat} (h : run (init n) cs = some s)
    (hr : s.h r = .ended) :
    ∃ src c, s.ans r = some (src, c) ∧
      (src = .other ∨ src = .shutdown ∨ src = .handler ∧ s.out r = some (.returned c) ∨
        src = .done ∧ c = rcInternalError ∧ (s.out r = some .panicked ∨ s.out r = some (.returned rcTimeout))) := by
  have hi := (good h).1
  have h1 := (hi.perf r).1 (hi.rel r (.inr hr))
  cases ha : s.ans r with
  | none => exact absurd ha h1
  | some p =>
    obtain ⟨src, c⟩ := p
    refine ⟨src, c, rfl, ?_⟩
    cases src
    · exact .inr (.inr (.inl ⟨rfl, (hi.srcH r c ha).1⟩))
    · exact .inr (.inr (.inr ⟨rfl, (hi.srcD r c ha)⟩))
    · exact .inr (.inl rfl)
    · exact .inl rfl

/-- C49: an answer stays as it is. -/
theorem C49_once {s s' : St} {c : Choice} {n : Nat} {cs : List Choice} {r : Nat} {a : Src × Nat}
    (h : run (init n) cs = some s) (ha : s.ans r = some a) (hs : step s c = some s') : s'.ans r = some a := by
  have hi := (good h).1
  have hp : s.rs r = .performed := (hi.perf r).2 (by rw [ha]; simp)
  have hx : s.ctxReq r = false := by
    cases e : s.ctxReq r
    · rfl
    · rw [(hi.ctx r).1 e] at hp; cases hp
  have hchain : ∀ src x code, s.rs x ≠ .performed → (chainResponse s src x code).ans r = some a := by
    intro src x code hne
    have : r ≠ x := fun e => hne (e ▸ hp)
    unfold chainResponse
    (repeat' split) <;> simp [Parallel.set, this, ha]
  have hf : ∀ src x code, (respondFail s src x code).ans r = some a := by
    intro src x code
    unfold respondFail
    split
    · exact ha
    · exact hchain _ _ _ ‹_›
  have hr : ∀ src x code, (respond s src x code).ans r = some a := by
    intro src x code
    unfold respond
    split
    · exact hchain _ _ _ (by rw [‹s.rs x = _›]; simp)
    · exact ha
  cases c <;> simp only [step, stepDisp, stepDispExit, stepHand, leave] at hs
  all_goals (repeat' split at hs) <;> cases hs
  all_goals first | exact ha | exact hf .. | exact hr .. | (split <;> first | exact ha | exact hf ..)

example : (run (init 1) (serve 0 ++ [.result 0 (.returned 7)] ++ times 3 (.hand 0))).any (fun s =>
    s.h 0 = .ended ∧ s.ans 0 = some (.handler, 7)) = true := by decide +kernel
example : (run (init 1) (serve 0 ++ [.fail 0 rcCanceled, .result 0 (.returned 7)] ++ times 3 (.hand 0))).any (fun s =>
    s.h 0 = .ended ∧ s.ans 0 = some (.other, rcCanceled)) = true := by decide +kernel

/-- C50 does not hold: requests received after the loop are answered by `Respond`, which does nothing with requests that
are not in flight. No such request is ever answered by the service. -/
theorem C50_dropped_violated {n : Nat} {cs : List Choice} {s : St} {r : Nat} (h : run (init n) cs = some s)
    (hr : r ∈ s.drained) : s.h r = .idle ∧ ∀ src c, s.ans r = some (src, c) → src = .other :=
  have hi := (good h).1
  ⟨hi.drIdle r hr, fun src c => hi.drAns r src c hr⟩

/-- C50: one request, received after `Stop`. -/
theorem C50_witness_violated :
    ∃ s, run (init 1) ([.stop, .disp, .send 0, .disp, .disp]) = some s ∧
      (s.d = .drain ∧ s.drained = [0] ∧ s.ch = [] ∧ s.rs 0 = .pending ∧ s.ans 0 = none) := by
  apply any_some (p := fun s : St => s.d = .drain ∧ s.drained = [0] ∧ s.ch = [] ∧ s.rs 0 = .pending ∧ s.ans 0 = none)
  decide +kernel

/-- C50, in part: no other request is lost. One which was sent and is not answered is in the channel, in the dispatcher's
hands, in those of a handler, or was received after the loop. -/
theorem C50_not_lost_partial {n : Nat} {cs : List Choice} {s : St} {r : Nat} (h : run (init n) cs = some s)
    (hr : s.rs r ≠ .new) (ha : s.ans r = none) : r ∈ s.ch ∨ Held s r ∨ Live s r ∨ r ∈ s.drained := by
  have hi := (good h).1
  cases hs : s.rs r
  · exact absurd hs hr
  · rcases hi.wait r hs with h1 | h1 | h1
    · exact .inl h1
    · by_cases hd : s.d = .refuse r
      · exact .inr (.inr (.inr (hi.refuse r hd)))
      · refine .inr (.inl ?_)
        unfold Held
        cases e : s.d <;> rw [e] at h1 hd <;> simp_all [DPc.req]
    · exact .inr (.inr (.inr h1))
  · refine .inr (.inr (.inl ⟨hi.fly r hs, fun e => ?_⟩))
    rw [hi.rel r (.inr e)] at hs
    cases hs
  · exact absurd ha ((hi.perf r).1 hs)

/-- C50, in part: a request the dispatcher has in hand when it takes `exit` is answered. -/
theorem C50_held_partial {n : Nat} {cs : List Choice} {s s' : St} {c : Choice} {r : Nat} (h : run (init n) cs = some s)
    (hd : Held s r) (hc : IsDisp c) (hs : step s c = some s') (hl : s'.d = .drain) :
    ∃ src code, s'.ans r = some (src, code) ∧ (s.ans r = none → src = .shutdown ∧ code = rcShutdown) := by
  have hi := (good h).1
  have key : ∃ src code, (respondFail s .shutdown r rcShutdown).ans r = some (src, code) ∧
      (s.ans r = none → src = .shutdown ∧ code = rcShutdown) := by
    obtain ⟨cx, he⟩ := fail_cases hi .shutdown r rcShutdown
    rcases he with ⟨e, e'⟩ | ⟨e, e', e''⟩ | ⟨e, e', _⟩
    · rw [e]
      cases ha : s.ans r with
      | none => exact absurd ha ((hi.perf r).1 e')
      | some p => exact ⟨p.1, p.2, rfl, fun e => by cases e⟩
    · rw [e]
      exact ⟨_, _, by simp [answered, Parallel.set], fun _ => ⟨rfl, rfl⟩⟩
    · cases e'
  rcases hc with rfl | rfl
  · rcases hd with hd | hd | hd | hd <;> simp only [step, stepDisp, hd] at hs
    · split at hs <;> cases hs
      · exact key
      · cases hl
    all_goals (repeat' split at hs) <;> cases hs <;> cases hl
  · simp only [step, stepDispExit] at hs
    split at hs
    · rcases hd with hd | hd | hd | hd <;> simp only [hd] at hs <;> cases hs
      exact key
    · cases hs

example : (run (init 1) (serve 0 ++ [.send 1] ++ times 4 .disp ++ [.stop])).any (fun s =>
    s.d = .slot 1 ∧ s.ans 1 = none) = true := by decide +kernel
example : (run (init 1) (serve 0 ++ [.send 1] ++ times 4 .disp ++ [.stop, .dispExit])).any (fun s =>
    s.d = .drain ∧ s.ans 1 = some (.shutdown, rcShutdown)) = true := by decide +kernel

/-- C69: a timeout of a request which is being served does not answer it; it expires the context which the handler was
given, and the request stays in flight. -/
theorem C69_expires {n : Nat} {cs : List Choice} {s : St} {r : Nat} (h : run (init n) cs = some s) (hl : s.h r ≠ .idle)
    (ha : s.ans r = none) :
    ∃ s', step s (.fail r rcTimeout) = some s' ∧ s'.ans r = none ∧ s'.rs r = .inFly ∧ s'.cx r ≠ 0 ∧ s'.h = s.h := by
  have hi := (good h).1
  have hf : s.rs r = .inFly := by
    have h1 := hi.pend r
    have h2 := hi.fresh r
    have h3 := hi.perf r
    cases e : s.rs r <;> simp_all
  refine ⟨_, rfl, ?_⟩
  have hx := (hi.ctx r).2 hf
  simp only [respondFail, chainResponse, hf, hx, reduceCtorEq, if_false, if_true]
  refine ⟨ha, by simp [Parallel.set], ?_, trivial⟩
  simp only [Parallel.set, if_true]
  split <;> omega

/-- C69: a timeout of a request which waits for its turn answers it. -/
theorem C69_waiting {n : Nat} {cs : List Choice} {s : St} {r : Nat} (h : run (init n) cs = some s) (hl : s.h r = .idle)
    (ha : s.ans r = none) :
    ∃ s', step s (.fail r rcTimeout) = some s' ∧ s'.ans r = some (.other, rcTimeout) := by
  have hi := (good h).1
  obtain ⟨cx, he⟩ := fail_cases hi .other r rcTimeout
  refine ⟨_, rfl, ?_⟩
  rcases he with ⟨e, e'⟩ | ⟨e, e', e''⟩ | ⟨e, e', e''⟩
  · exact absurd ha ((hi.perf r).1 e')
  · rw [e]; simp [answered, Parallel.set]
  · exact absurd hl (hi.fly r e'')

example : (run (init 1) (serve 0 ++ [.fail 0 rcTimeout])).any (fun s =>
    s.h 0 = .running ∧ s.ans 0 = none ∧ s.cx 0 = 2) = true := by decide +kernel
example : (run (init 1) (serve 0 ++ [.fail 0 rcTimeout, .result 0 (.returned 7)] ++ times 3 (.hand 0))).any (fun s =>
    s.ans 0 = some (.handler, 7)) = true := by decide +kernel
example : (run (init 1) (serve 0 ++ [.send 1])).any (fun s => s.h 1 = .idle ∧ s.ans 1 = none) = true := by decide +kernel

/-- C70: after `Stop` was called at most one more handler is started, and none after it has returned. -/
theorem C70_at_most_one {n : Nat} {cs : List Choice} {s : St} (h : run (init n) cs = some s) (hs : s.stop ≠ .idle) :
    s.spawned.length ≤ s.atStop + 1 ∧ (s.stop = .done → s.d = .drain ∨ ∃ r, s.d = .refuse r) := by
  have hi := (good h).1
  constructor
  · cases e : s.stop
    · exact absurd e hs
    · rcases hi.sending e with h | h <;> omega
    · exact hi.done e
  · intro e
    have := hi.dr.2 e
    cases e : s.d <;> rw [e] at this <;> simp_all [DPc.drains]

/-- C70: no later step starts a handler once `Stop` has returned. -/
theorem C70_none_after {n : Nat} {cs : List Choice} {s s' : St} {c : Choice} (h : run (init n) cs = some s)
    (hd : s.stop = .done) (hs : step s c = some s') : s'.spawned = s.spawned ∧ s'.stop = .done := by
  have h1 := (C70_at_most_one h (by rw [hd]; simp)).2 hd
  have hx : exiting s = false := by unfold exiting; rw [hd]; rfl
  have hf : ∀ src x code, (respondFail s src x code).spawned = s.spawned ∧ (respondFail s src x code).stop = .done := by
    intro src x code
    unfold respondFail chainResponse
    (repeat' split) <;> exact ⟨rfl, hd⟩
  have hr : ∀ src x code, (respond s src x code).spawned = s.spawned ∧ (respond s src x code).stop = .done := by
    intro src x code
    unfold respond chainResponse
    (repeat' split) <;> exact ⟨rfl, hd⟩
  cases c <;> simp only [step] at hs
  case disp =>
    rcases h1 with h1 | ⟨r, h1⟩ <;> simp only [stepDisp, h1] at hs
    · split at hs <;> cases hs
      exact ⟨rfl, hd⟩
    · cases hs
      exact hr ..
  case dispExit => simp only [stepDispExit, hx] at hs; cases hs
  case hand r =>
    simp only [stepHand] at hs
    (repeat' split at hs) <;> cases hs
    all_goals first | exact ⟨rfl, hd⟩ | exact hr .. | exact hf ..
  all_goals (repeat' split at hs) <;> cases hs
  all_goals first | exact ⟨rfl, hd⟩ | exact hf .. | exact hr .. | (rw [hd] at *; contradiction)

/-- C70: `Stop` returns: from every reachable state in which it waits, at most four steps of the dispatcher (which need
nobody's help) let it return. -/
theorem C70_returns {n : Nat} {cs : List Choice} {s : St} (h : run (init n) cs = some s) (hs : s.stop = .sending) :
    ∃ ds : List Choice, ds.length ≤ 4 ∧ (∀ c ∈ ds, IsDisp c) ∧ ∃ s', run s ds = some s' ∧ s'.stop = .done := by
  have hi := (good h).1
  have hcnt := (good h).2.1.cnt
  have hx : exiting s = true := by unfold exiting; rw [hs]; rfl
  have hlt : holds s.d = 1 → s.sema < s.cap := by omega
  show Goes 4 s
  cases hd : s.d with
  | top => exact (goes_top hd hx).mono (by decide)
  | poll => exact (goes_poll hd hx).mono (by decide)
  | block => exact (goes_block hd hx).mono (by decide)
  | got r => exact (goes_got hd hx).mono (by decide)
  | slot r => exact (goes_slot hd hx).mono (by decide)
  | grab r => exact goes_grab hd hx (by omega)
  | claim r => exact (goes_claim hd hx (hlt (by rw [hd]; rfl))).mono (by decide)
  | giveBack => exact (goes_back hd hx (hlt (by rw [hd]; rfl))).mono (by decide)
  | drain => have := hi.dr.1 (by rw [hd]; rfl); rw [hs] at this; cases this
  | refuse r => have := hi.dr.1 (by rw [hd]; rfl); rw [hs] at this; cases this

example : (run (init 2) (serve 0 ++ [.send 1] ++ times 4 .disp ++ [.stop])).any (fun s =>
    s.stop = .sending ∧ s.d = .claim 1) = true := by decide +kernel
example : (run (init 2) (serve 0 ++ [.send 1] ++ times 4 .disp ++ [.stop, .disp, .disp])).any (fun s =>
    s.stop = .done ∧ s.spawned = [1, 0] ∧ s.atStop = 1) = true := by decide +kernel

end Verif.Props
