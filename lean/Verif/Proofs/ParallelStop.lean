import Verif.Proofs.ParallelLive
import Verif.Spec.ParallelStop
/-!
The parallel service comes to rest, also while it is being stopped.
-/
namespace Verif.Parallel

/-- What is left to do for the dispatcher, also on its way out. -/
def dw2 : DPc → Nat
  | .drain => 0
  | .refuse _ => 1
  | .block => 1
  | .poll => 2
  | .top => 3
  | .giveBack => 4
  | .claim _ => 10
  | .slot _ => 11
  | .grab _ => 12
  | .got _ => 13

def work2 (s : St) : Nat := dw2 s.d + 14 * s.ch.length + sum s.h s.spawned

theorem hand_keeps {s s' : St} {x : Nat} {o : Outcome} {c : Choice} (hc : c = .hand x ∨ c = .result x o) (hd : step s c = some s') :
    s'.d = s.d ∧ s'.ch = s.ch := by
  have f1 := fun src r code => (fail_same (s := s) src r code).2.2.2.2
  have f2 := fun src r code => (fail_rest s src r code).1
  have g1 := fun src r code => (respond_same (s := s) src r code).2.2.2.2
  have g2 := fun src r code => (respond_rest s src r code).1
  rcases hc with rfl | rfl
  · simp only [step, stepHand] at hd
    split at hd
    · cases hd; exact ⟨rfl, rfl⟩
    · cases hd; exact ⟨g1 .., g2 ..⟩
    · cases hd
      by_cases e : s.ctxReq x = true
      · simp only [e, if_true]; exact ⟨f1 .., f2 ..⟩
      · simp [e]
    · split at hd <;> cases hd; exact ⟨rfl, rfl⟩
    · cases hd
  · simp only [step] at hd
    split at hd
    · split at hd <;> cases hd <;> exact ⟨rfl, rfl⟩
    · cases hd

theorem hand_lowers2 {n : Nat} {cs : List Choice} {s s' : St} (h : run (init n) cs = some s) {x : Nat} {o : Outcome} {c : Choice}
    (hc : c = .hand x ∨ c = .result x o) (hd : step s c = some s') : work2 s' < work2 s ∧ s'.stop = s.stop := by
  obtain ⟨l1, l2⟩ := hand_lowers h hc hd
  obtain ⟨k1, k2⟩ := hand_keeps hc hd
  refine ⟨?_, l2⟩
  unfold work at l1
  unfold work2
  rw [k1, k2] at l1 ⊢
  omega

theorem disp_lowers2 {n : Nat} {cs : List Choice} {s s' : St} (h : run (init n) cs = some s) {c : Choice} (hc : IsDisp c)
    (hd : step s c = some s') : work2 s' < work2 s ∧ (s'.stop = .idle ↔ s.stop = .idle) := by
  obtain ⟨hi, hcn, -⟩ := good h
  have f0 := fun src r code => fail_same (s := s) src r code
  have f2 := fun src r code => fail_rest s src r code
  have g0 := fun src r code => respond_same (s := s) src r code
  have g2 := fun src r code => respond_rest s src r code
  rcases hc with rfl | rfl
  · simp only [step, stepDisp] at hd
    cases e : s.d with
    | claim x =>
      have hid := hi.reqIdle x (by rw [e]; rfl)
      have hn : x ∉ s.spawned := fun hm => (hi.spawned x).1 hm hid
      have := sum_other (f := s.h) (v := .look) hn
      rw [e] at hd
      dsimp only at hd
      split at hd <;> cases hd
      · refine ⟨?_, Iff.rfl⟩
        simp only [work2, e, dw2]
        unfold sum at *
        simp only [List.map_cons, List.sum_cons, set, if_true, hw] at *
        omega
      · refine ⟨?_, Iff.rfl⟩
        simp only [work2, e, dw2]
        omega
    | got x =>
      rw [e] at hd
      dsimp only at hd
      split at hd <;> cases hd
      · rename_i hx
        have hx' : s.stop = .sending := by simpa [exiting] using hx
        refine ⟨?_, by simp [leave, hx']⟩
        have a := f0 .shutdown x rcShutdown
        have b := f2 .shutdown x rcShutdown
        simp only [work2, e, dw2, leave, a.1, a.2.1, b.1]
        omega
      · refine ⟨?_, Iff.rfl⟩
        simp only [work2, e, dw2]
        omega
    | refuse x =>
      rw [e] at hd
      cases hd
      have a := g0 .shutdown x rcShutdown
      have b := g2 .shutdown x rcShutdown
      refine ⟨?_, by simp [b.2]⟩
      simp only [work2, e, dw2, a.1, a.2.1, b.1]
      omega
    | top =>
      rw [e] at hd
      dsimp only at hd
      split at hd <;> cases hd
      · rename_i hx
        have hx' : s.stop = .sending := by simpa [exiting] using hx
        refine ⟨?_, by simp [leave, hx']⟩
        simp only [work2, e, dw2, leave]
        omega
      · refine ⟨?_, Iff.rfl⟩
        simp only [work2, e, dw2]
        omega
    | _ =>
      rw [e] at hd
      dsimp only at hd
      (repeat' split at hd) <;> cases hd
      all_goals first
        | (refine ⟨?_, Iff.rfl⟩; simp only [work2, e, dw2]; omega)
        | (refine ⟨?_, Iff.rfl⟩; simp only [work2, e, dw2, *, List.length_cons]; omega)
  · simp only [step, stepDispExit] at hd
    split at hd
    · rename_i hx
      have hx' : s.stop = .sending := by simpa [exiting] using hx
      split at hd
      · rename_i e
        cases hd
        refine ⟨?_, by simp [leave, hx']⟩
        simp only [work2, e, dw2, leave]
        omega
      · rename_i x e
        cases hd
        refine ⟨?_, by simp [leave, hx']⟩
        have a := f0 .shutdown x rcShutdown
        have b := f2 .shutdown x rcShutdown
        simp only [work2, e, dw2, leave, a.1, a.2.1, b.1]
        omega
      · cases hd
    · cases hd

theorem lowers2 {n : Nat} {cs : List Choice} {s s' : St} (h : run (init n) cs = some s) {ret : Nat → Outcome} {c : Choice}
    (hc : Ending ret c) (hd : step s c = some s') : work2 s' < work2 s ∧ (s'.stop = .idle ↔ s.stop = .idle) := by
  rcases hc with hc | ⟨x, hc⟩
  · exact disp_lowers2 h hc hd
  · have := hand_lowers2 h hc hd
    exact ⟨this.1, by rw [this.2]⟩

theorem ending_run {n : Nat} {cs : List Choice} {s s' : St} (h : run (init n) cs = some s) {ret : Nat → Outcome}
    {ds : List Choice} (hc : ∀ c ∈ ds, Ending ret c) (hd : run s ds = some s') :
    ds.length + work2 s' ≤ work2 s ∧ (s'.stop = .idle ↔ s.stop = .idle) ∧ (∃ cs', run (init n) cs' = some s') ∧
      ∀ r, s.rs r ≠ .new → s'.rs r ≠ .new := by
  induction ds generalizing s cs with
  | nil => cases hd; exact ⟨by simp, Iff.rfl, ⟨_, h⟩, fun _ hr => hr⟩
  | cons a ds ih =>
    simp only [run] at hd
    cases e : step s a with
    | none => rw [e] at hd; cases hd
    | some t =>
      rw [e] at hd
      obtain ⟨l1, l2⟩ := lowers2 h (hc a (by simp)) e
      obtain ⟨i1, i2, i3, i4⟩ := ih (run_snoc h e) (fun c hm => hc c (by simp [hm])) hd
      refine ⟨?_, i2.trans l2, i3, fun r hr => i4 r (sent_stays e hr)⟩
      simp only [List.length_cons]
      omega

/-- At rest no handler is left. -/
theorem rest_hand {n : Nat} {cs : List Choice} {s : St} (h : run (init n) cs = some s) {ret : Nat → Outcome}
    (hq : ∀ c, Ending ret c → step s c = none) (x : Nat) : ¬ Live s x := by
  intro hl
  obtain ⟨c, s', h1, h2, -⟩ := hand_goes h (ret x) hl
  rw [hq c (.inr ⟨x, h1⟩)] at h2
  cases h2

/-- At rest all slots are free. -/
theorem rest_busy {n : Nat} {cs : List Choice} {s : St} (h : run (init n) cs = some s) {ret : Nat → Outcome}
    (hq : ∀ c, Ending ret c → step s c = none) : busy s = [] := by
  obtain ⟨hi, -⟩ := good h
  cases hb : busy s with
  | nil => rfl
  | cons y l => exact absurd (((busy_live hi).2 y).1 (by rw [hb]; exact List.mem_cons_self ..)) (rest_hand h hq y)

/-- At rest the dispatcher of a stopped service waits for requests outside of its loop. -/
theorem rest_disp {n : Nat} {cs : List Choice} {s : St} (h : run (init n) cs = some s) (hs : s.stop ≠ .idle) {ret : Nat → Outcome}
    (hq : ∀ c, Ending ret c → step s c = none) : s.d = .drain ∧ s.ch = [] ∧ s.stop = .done := by
  obtain ⟨hi, hc, -⟩ := good h
  have q1 : stepDisp s = none := hq .disp (.inl (.inl rfl))
  have q2 : stepDispExit s = none := hq .dispExit (.inl (.inr rfl))
  have hx : s.d.drains = false → exiting s = true := by
    intro hd
    have : s.stop ≠ .done := fun e => by rw [hi.dr.2 e] at hd; cases hd
    cases e : s.stop with
    | idle => exact absurd e hs
    | sending => simp [exiting, e]
    | done => exact absurd e this
  have hb := rest_busy h hq
  have h1 := hc.cnt
  rw [hb] at h1
  cases e : s.d with
  | drain =>
    refine ⟨rfl, ?_, hi.dr.1 (by rw [e]; rfl)⟩
    cases hch : s.ch with
    | nil => rfl
    | cons x l => simp [stepDisp, e, hch] at q1
  | block => simp [stepDispExit, e, hx (by rw [e]; rfl)] at q2
  | slot x => simp [stepDispExit, e, hx (by rw [e]; rfl)] at q2
  | giveBack =>
    rw [e] at h1
    simp only [holds, List.length_nil] at h1
    simp only [stepDisp, e] at q1
    split at q1
    · cases q1
    · omega
  | _ =>
    exfalso
    simp only [stepDisp, e] at q1
    (repeat' split at q1) <;> cases q1

theorem drained_step {s s' : St} {c : Choice} (hd : s.d.drains = true → s.stop = .done) (h : s.drained ≠ [] → s.stop = .done) (hs : step s c = some s') :
    s'.drained ≠ [] → s'.stop = .done := by
  have f : ∀ (t : St) src r code, (chainResponse t src r code).drained = t.drained ∧ (chainResponse t src r code).stop = t.stop := by
    intro t src r code
    unfold chainResponse
    (repeat' split) <;> exact ⟨rfl, rfl⟩
  have f1 : ∀ (t : St) src r code, (respond t src r code).drained = t.drained ∧ (respond t src r code).stop = t.stop := by
    intro t src r code
    unfold respond
    split
    · exact f ..
    · exact ⟨rfl, rfl⟩
  have f2 : ∀ (t : St) src r code, (respondFail t src r code).drained = t.drained ∧ (respondFail t src r code).stop = t.stop := by
    intro t src r code
    unfold respondFail
    split
    · exact ⟨rfl, rfl⟩
    · exact f ..
  cases c with
  | send r => simp only [step] at hs; split at hs <;> cases hs <;> exact h
  | fail r code => simp only [step] at hs; cases hs; rw [(f2 ..).1, (f2 ..).2]; exact h
  | answer r code => simp only [step] at hs; cases hs; rw [(f1 ..).1, (f1 ..).2]; exact h
  | stop =>
    simp only [step] at hs
    split at hs <;> cases hs
    rename_i e
    intro g
    have := h g
    rw [e] at this
    cases this
  | disp =>
    simp only [step, stepDisp] at hs
    cases e : s.d <;> rw [e] at hs <;> dsimp only at hs <;> (repeat' split at hs) <;> cases hs
    all_goals first
      | exact h
      | exact fun _ => rfl
      | exact fun _ => hd (by rw [e]; rfl)
      | (dsimp only; rw [(f1 ..).1, (f1 ..).2]; exact h)
  | dispExit =>
    simp only [step, stepDispExit] at hs
    (repeat' split at hs) <;> cases hs <;> exact fun _ => rfl
  | hand r =>
    simp only [step, stepHand] at hs
    split at hs
    · cases hs; exact h
    · cases hs; dsimp only; rw [(f1 ..).1, (f1 ..).2]; exact h
    · cases hs
      dsimp only
      split
      · rw [(f2 ..).1, (f2 ..).2]; exact h
      · exact h
    · split at hs <;> cases hs; exact h
    · cases hs
  | result r o =>
    simp only [step] at hs
    split at hs
    · split at hs <;> cases hs <;> exact h
    · cases hs

/-- As long as `Stop` is not called nothing is received outside of the loop. -/
theorem drained_idle {n : Nat} {cs : List Choice} {s : St} (h : run (init n) cs = some s) (hs : s.stop = .idle) : s.drained = [] := by
  have key : ∀ (cs ds : List Choice) (a s : St), run (init n) ds = some a → (a.drained ≠ [] → a.stop = .done) → run a cs = some s →
      s.drained ≠ [] → s.stop = .done := by
    intro cs
    induction cs with
    | nil => intro _ a s _ ha h; cases h; exact ha
    | cons c cs ih =>
      intro ds a s h0 ha h
      simp only [run] at h
      cases e : step a c with
      | none => rw [e] at h; cases h
      | some t =>
        rw [e] at h
        obtain ⟨hi, -⟩ := good h0
        exact ih _ t s (run_snoc h0 e) (drained_step hi.dr.1 ha e) h
  apply Classical.byContradiction
  intro hn
  have := key cs [] (init n) s rfl (by simp [init]) h hn
  rw [hs] at this
  cases this

end Verif.Parallel
