import Verif.Proofs.MultiReqInv
import Verif.Proofs.CtxProgress
/-! That the calls of a multi-request and of its requests come to an end. -/
namespace Verif.MultiReq
open Verif.Request (Data Pc Ev Op setPc)
open Verif.CtxReq (I12 rules12 left next next_step next_not Quiet)

structure Prog (s : St) : Prop where
  inv : Inv s
  i12 : ∀ i, I12 (s.r i)

/-- A step of the product moves each request by at most one step. -/
theorem req_step {s s' : St} {c : Choice} (h : step s c = some s') (i : Nat) : s'.r i = s.r i ∨ ∃ d, Still d ∧ Request.step (s.r i) d = some (s'.r i) := by
  have one : ∀ {j : Nat} {d : Request.Choice} {m}, Still d → ∀ {r'}, Request.step (s.r j) d = some r' → s' = { m, r := upd s.r j r' } →
      s'.r i = s.r i ∨ ∃ d, Still d ∧ Request.step (s.r i) d = some (s'.r i) := by
    rintro j d m hd r' h1 rfl
    by_cases e : i = j
    · subst e; simp only [upd_same]; exact .inr ⟨d, hd, h1⟩
    · exact .inl (upd_other e)
  cases c with
  | multi c =>
    have out : ∀ {c}, s.withM (Multi.step s.m c) = some s' → s'.r i = s.r i ∨ ∃ d, Still d ∧ Request.step (s.r i) d = some (s'.r i) := by
      intro c h
      obtain ⟨m, h1, rfl⟩ := withM_some h
      exact .inl rfl
    have fl : ∀ {j t x}, s.fail j t x = some s' → s'.r i = s.r i ∨ ∃ d, Still d ∧ Request.step (s.r i) d = some (s'.r i) := by
      intro j t x h
      obtain ⟨r', h1, h2⟩ := withReq_some h
      exact one (by trivial) h1 h2
    simp only [step] at h
    cases c
    case answer j x => cases h
    case owner =>
      simp only [multiStep] at h
      split at h <;> first | exact fl h | exact out h | cases h
    case canc k =>
      simp only [multiStep] at h
      split at h <;> first | exact fl h | exact out h | cases h
    all_goals exact out h
  | req j c =>
    simp only [step] at h
    cases c with
    | call t op =>
      simp only [reqStep] at h
      split at h
      · obtain ⟨r', h1, h2⟩ := withReq_some h
        exact one (by trivial) h1 h2
      · cases h
    | bookmark t acts =>
      simp only [reqStep] at h
      split at h
      · rename_i ha
        subst ha
        obtain ⟨r', h1, h2⟩ := withReq_some h
        exact one (by rfl) h1 h2
      · cases h
    | responder t acts =>
      simp only [reqStep] at h
      split at h
      · cases h
      · split at h
        · rename_i ha
          subst ha
          cases h0 : s.withReq j (Request.step (s.r j) (.responder t [])) with
          | none => rw [h0] at h; cases h
          | some s1 =>
            rw [h0] at h
            obtain ⟨r', h1, rfl⟩ := withReq_some h0
            obtain ⟨m, h2, h3⟩ := withM_some h
            exact one (by rfl) h1 h3
        · cases h
    | go t =>
      simp only [reqStep] at h
      split at h
      · split at h
        · obtain ⟨r', h1, h2⟩ := withReq_some h
          exact one (by trivial) h1 h2
        · cases h
      · cases h0 : s.withReq j (Request.step (s.r j) (.go t)) with
        | none => rw [h0] at h; cases h
        | some s1 =>
          rw [h0] at h
          obtain ⟨r', h1, rfl⟩ := withReq_some h0
          obtain ⟨m, h2, h3⟩ := withM_some h
          exact one (by trivial) h1 h3
      · obtain ⟨r', h1, h2⟩ := withReq_some h
        exact one (by trivial) h1 h2

theorem prog_init (msg : Nat → UInt32) : Prog (init msg) where
  inv := inv_init msg
  i12 i := { mutex := by intro t h; cases h
             owner := by intro t h; cases h
             free := fun _ => by simp [init, fresh, Request.init]
             waits := by intro t op h; cases h }

theorem prog_step {s s' : St} {c : Choice} (p : Prog s) (h : step s c = some s') : Prog s' := by
  refine ⟨inv_step p.inv h, fun i => ?_⟩
  rcases req_step h i with e | ⟨d, _, hd⟩
  · rw [e]; exact p.i12 i
  · exact Request.inv_step rules12 (p.i12 i) trivial hd

theorem prog_run {s s' : St} {cs : List Choice} (p : Prog s) (h : run s cs = some s') : Prog s' := by
  induction cs generalizing s with
  | nil => cases h; exact p
  | cons c cs ih =>
    simp only [run] at h
    cases e : step s c with
    | none => rw [e] at h; cases h
    | some t => rw [e] at h; exact ih (prog_step p e) h

/-! ### Reaching something -/

/-- The goroutines that are inside a method can bring about `P`, or one of them panics. -/
def Can (s : St) (P : St → Prop) : Prop := ∃ cs s', (∀ c ∈ cs, Inner c) ∧ run s cs = some s' ∧ (P s' ∨ Multi.Panicked s'.m)

theorem Can.here {s : St} {P : St → Prop} (h : P s) : Can s P := ⟨[], s, by simp, rfl, .inl h⟩
theorem Can.panic {s : St} {P : St → Prop} (h : Multi.Panicked s.m) : Can s P := ⟨[], s, by simp, rfl, .inr h⟩

theorem Can.step {s s' : St} {P : St → Prop} (c : Choice) (hc : Inner c) (hs : step s c = some s') (h : Can s' P) : Can s P := by
  obtain ⟨cs, t, h1, h2, h3⟩ := h
  refine ⟨c :: cs, t, ?_, ?_, h3⟩
  · intro d hd
    rcases List.mem_cons.1 hd with rfl | hd
    · exact hc
    · exact h1 d hd
  · simp only [run, hs, Option.bind_some]; exact h2

theorem run_append {s : St} {cs ds : List Choice} : run s (cs ++ ds) = (run s cs).bind fun s => run s ds := by
  induction cs generalizing s with
  | nil => rfl
  | cons c cs ih =>
    simp only [List.cons_append, run]
    cases step s c with
    | none => rfl
    | some t => simp only [Option.bind_some]; exact ih

theorem Can.trans {s : St} {P Q : St → Prop} (p : Prog s) (h : Can s P) (hq : ∀ s', Prog s' → P s' → Can s' Q) : Can s Q := by
  obtain ⟨cs, t, h1, h2, h3⟩ := h
  rcases h3 with h3 | h3
  · obtain ⟨ds, u, h4, h5, h6⟩ := hq t (prog_run p h2) h3
    refine ⟨cs ++ ds, u, ?_, by rw [run_append, h2]; exact h5, h6⟩
    intro d hd
    rcases List.mem_append.1 hd with hd | hd
    · exact h1 d hd
    · exact h4 d hd
  · exact ⟨cs, t, h1, h2, .inr h3⟩

/-! ### The lock of the multi-request -/

/-- Only `w.m` and what it guards moved. -/
structure Frame (s s' : St) : Prop where
  r : s'.r = s.r
  cp : s'.m.cp = s.m.cp
  ret : s'.m.ret = s.m.ret
  rp : ∀ i, s.m.rp i = .done → s'.m.rp i = .done
  own : s.m.own.locked = false → s.m.own ≠ .rWait false → s'.m.own = s.m.own

theorem Frame.refl (s : St) : Frame s s := ⟨rfl, rfl, rfl, fun _ h => h, fun _ _ => rfl⟩

theorem Frame.trans {a b c : St} (h : Frame a b) (k : Frame b c) : Frame a c :=
  ⟨k.r.trans h.r, k.cp.trans h.cp, k.ret.trans h.ret, fun i hi => k.rp i (h.rp i hi), fun h1 h2 => by
    have e := h.own h1 h2
    rw [k.own (by rw [e]; exact h1) (by rw [e]; exact h2), e]⟩

/-- Steps the owner needs to release the lock. -/
def oLeft (m : Multi.St) : Nat :=
  match m.own with
  | .rCmp => 2
  | .rTake => 1
  | .eChan => m.responses.length + 5
  | .eSend l => l.length + 4
  | .eCmp => 3
  | .eClose => 2
  | .eUnlock => 1
  | _ => 0

theorem owner_free {s : St} (n : Nat) (p : Prog s) (hl : s.m.own.locked = true) (hn : oLeft s.m ≤ n) :
    Can s fun s' => Frame s s' ∧ s'.m.lock = none ∧ s'.m.rp = s.m.rp := by
  induction n generalizing s with
  | zero =>
    cases e : s.m.own <;> rw [e] at hl <;> first | (cases hl; done) | skip
    case chanPanic => exact .panic (.inr (.inl e))
    all_goals (simp only [oLeft, e] at hn; omega)
  | succ n ih =>
    suffices s.m.own = .chanPanic ∨ ∃ m, Multi.step s.m .owner = some m ∧ m.cp = s.m.cp ∧ m.ret = s.m.ret ∧ m.rp = s.m.rp ∧
        (m.lock = none ∨ m.own.locked = true ∧ oLeft m ≤ n) by
      rcases this with e | ⟨m, h1, h2, h3, h4, h5⟩
      · exact .panic (.inr (.inl e))
      · have hs : step s (.multi .owner) = some { s with m } := by
          simp only [step, multiStep]
          split <;> rename_i e <;> first | (rw [e] at hl; cases hl) | skip
          rw [h1]; rfl
        have hf : Frame s { s with m } := ⟨rfl, h2, h3, fun i hi => by rw [h4]; exact hi, fun h => by rw [hl] at h; cases h⟩
        refine .step _ (by trivial) hs ?_
        rcases h5 with h5 | h5
        · exact .here ⟨hf, h5, h4⟩
        · refine .trans (prog_step p hs) (ih (prog_step p hs) h5.1 h5.2) ?_
          rintro s2 _ ⟨k1, k2, k3⟩
          exact .here ⟨hf.trans k1, k2, k3.trans h4⟩
    simp only [oLeft] at hn ⊢
    simp only [Multi.step]
    unfold Multi.stepOwner
    cases e : s.m.own <;> rw [e] at hl <;> first | (cases hl; done) | skip
    case chanPanic => exact .inl rfl
    case rCmp =>
      refine .inr ?_
      simp only
      split
      · exact ⟨_, rfl, rfl, rfl, rfl, .inl rfl⟩
      · exact ⟨_, rfl, rfl, rfl, rfl, .inr ⟨rfl, by simp only [e] at hn; simp only; omega⟩⟩
    case rTake => exact .inr ⟨_, rfl, rfl, rfl, rfl, .inl rfl⟩
    case eUnlock => exact .inr ⟨_, rfl, rfl, rfl, rfl, .inl rfl⟩
    case eChan => exact .inr ⟨_, rfl, rfl, rfl, rfl, .inr ⟨rfl, by simp only [e] at hn; simp only; omega⟩⟩
    case eSend l =>
      cases l with
      | nil => exact .inr ⟨_, rfl, rfl, rfl, rfl, .inr ⟨rfl, by simp only [e] at hn; simp only [List.length_nil] at *; omega⟩⟩
      | cons i l =>
        refine .inr ?_
        simp only
        split
        · exact ⟨_, rfl, rfl, rfl, rfl, .inr ⟨rfl, by simp⟩⟩
        · exact ⟨_, rfl, rfl, rfl, rfl, .inr ⟨rfl, by simp only [e, List.length_cons] at hn; simp only; omega⟩⟩
    case eCmp =>
      refine .inr ?_
      simp only
      split
      · exact ⟨_, rfl, rfl, rfl, rfl, .inr ⟨rfl, by simp only [e] at hn; simp only; omega⟩⟩
      · exact ⟨_, rfl, rfl, rfl, rfl, .inr ⟨rfl, by simp only [e] at hn; simp only; omega⟩⟩
    case eClose =>
      refine .inr ?_
      simp only
      split
      · exact ⟨_, rfl, rfl, rfl, rfl, .inr ⟨rfl, by simp⟩⟩
      · exact ⟨_, rfl, rfl, rfl, rfl, .inr ⟨rfl, by simp only [e] at hn; simp only; omega⟩⟩

/-- Steps a `Respond` has to make at most. -/
def rLeft : Multi.RPc → Nat
  | .idle | .done | .sendPanic | .closePanic => 0
  | .look => 9 | .lock => 8 | .check => 7 | .add => 6 | .count => 5 | .unlock => 1
  | .miss => 6 | .send => 5 | .bump => 4 | .close => 3 | .remove => 2

/-- One step of a `Respond` that does not have to wait. -/
theorem resp_step {s : St} {i : Nat} (p : Prog s) (hi : s.m.rp i ≠ .idle) (hd : s.m.rp i ≠ .done) (hl : s.m.rp i = .lock → s.m.lock = none) :
    Multi.Panicked s.m ∨ ∃ m, step s (.multi (.resp i)) = some { s with m } ∧ Frame s { s with m } ∧ (∀ j, j ≠ i → m.rp j = s.m.rp j) ∧ m.rp i ≠ .idle ∧
      rLeft (m.rp i) < rLeft (s.m.rp i) ∧ ((s.m.rp i).locked = true → m.lock = none ∨ (m.rp i).locked = true) := by
  suffices Multi.Panicked s.m ∨ ∃ m, Multi.step s.m (.resp i) = some m ∧ m.cp = s.m.cp ∧ m.ret = s.m.ret ∧ (s.m.own ≠ .rWait false → m.own = s.m.own) ∧
      (∀ j, j ≠ i → m.rp j = s.m.rp j) ∧ m.rp i ≠ .idle ∧
      rLeft (m.rp i) < rLeft (s.m.rp i) ∧ ((s.m.rp i).locked = true → m.lock = none ∨ (m.rp i).locked = true) by
    rcases this with h | ⟨m, h1, h2, h3, h4, h5, h6⟩
    · exact .inl h
    · refine .inr ⟨m, ?_, ⟨rfl, h2, h3, ?_, fun _ h => h4 h⟩, h5, h6⟩
      · show s.withM (Multi.step s.m (.resp i)) = _
        rw [h1]; rfl
      · intro j hj
        by_cases e : j = i
        · subst e; exact absurd hj hd
        · exact (h5 j e).trans hj
  have I := p.inv.multi
  have set1 : ∀ v, Multi.set s.m.rp i v i = v := by intro v; simp [Multi.set]
  have set2 : ∀ v j, j ≠ i → Multi.set s.m.rp i v j = s.m.rp j := by intro v j hj; simp [Multi.set, hj]
  simp only [Multi.step]
  unfold Multi.stepResp
  cases e : s.m.rp i
  case idle => exact absurd e hi
  case done => exact absurd e hd
  case sendPanic => exact .inl (.inr (.inr (.inl ⟨i, .inl e⟩)))
  case closePanic => exact .inl (.inr (.inr (.inl ⟨i, .inr e⟩)))
  case lock =>
    simp only [hl e, if_true]
    refine .inr ⟨_, rfl, rfl, rfl, fun _ => rfl, set2 _, ?_⟩
    simp [set1, rLeft, Multi.RPc.locked]
  case send =>
    have h1 := I.fast i (by rw [e]; rfl)
    simp only
    split
    · rename_i h2
      have := I.ch.1 h2
      rw [h1] at this; cases this
    · split
      · refine .inr ⟨_, rfl, rfl, rfl, fun _ => rfl, set2 _, ?_⟩
        simp [set1, rLeft, Multi.RPc.locked]
      · refine .inr ⟨_, rfl, rfl, rfl, fun _ => rfl, set2 _, ?_⟩
        simp [set1, rLeft, Multi.RPc.locked]
  case count =>
    simp only
    split
    · rename_i h
      refine .inr ⟨_, rfl, rfl, rfl, fun h' => absurd h.2.2 h', set2 _, ?_⟩
      simp [set1, rLeft, Multi.RPc.locked]
    · refine .inr ⟨_, rfl, rfl, rfl, fun _ => rfl, set2 _, ?_⟩
      simp [set1, rLeft, Multi.RPc.locked]
  case close =>
    simp only
    split
    all_goals
      refine .inr ⟨_, rfl, rfl, rfl, fun _ => rfl, set2 _, ?_⟩
      simp [set1, rLeft, Multi.RPc.locked]
  all_goals
    refine .inr ⟨_, rfl, rfl, rfl, fun _ => rfl, set2 _, ?_⟩
    simp only [set1]
    first
      | (simp [rLeft, Multi.RPc.locked]; done)
      | (split <;> simp [rLeft, Multi.RPc.locked])

theorem resp_free {s : St} {i : Nat} (n : Nat) (p : Prog s) (hl : (s.m.rp i).locked = true) (hn : rLeft (s.m.rp i) ≤ n) :
    Can s fun s' => Frame s s' ∧ s'.m.lock = none ∧ ∀ j, j ≠ i → s'.m.rp j = s.m.rp j := by
  induction n generalizing s with
  | zero => cases e : s.m.rp i <;> rw [e] at hl hn <;> first | (cases hl; done) | (simp [rLeft] at hn)
  | succ n ih =>
    rcases resp_step (i := i) p (by rintro e; rw [e] at hl; cases hl) (by rintro e; rw [e] at hl; cases hl) (by rintro e; rw [e] at hl; cases hl) with h | ⟨m, h1, h2, h3, h4, h5, h6⟩
    · exact .panic h
    · refine .step _ (by trivial) h1 ?_
      rcases h6 hl with h6 | h6
      · exact .here ⟨h2, h6, h3⟩
      · refine .trans (prog_step p h1) (ih (prog_step p h1) h6 (by simp only; omega)) ?_
        rintro s2 _ ⟨k1, k2, k3⟩
        exact .here ⟨h2.trans k1, k2, fun j hj => (k3 j hj).trans (h3 j hj)⟩

/-- `w.m` gets free. -/
theorem can_unlock {s : St} (p : Prog s) :
    Can s fun s' => Frame s s' ∧ s'.m.lock = none ∧ ∀ j, (s.m.rp j).locked = false → s'.m.rp j = s.m.rp j := by
  match hl : s.m.lock with
  | none => exact .here ⟨.refl s, hl, fun _ _ => rfl⟩
  | some .owner =>
    refine .trans p (owner_free _ p (p.inv.multi.lockO.1 hl) (Nat.le_refl _)) ?_
    rintro s1 _ ⟨h1, h2, h3⟩
    exact .here ⟨h1, h2, fun j _ => by rw [h3]⟩
  | some (.resp i) =>
    refine .trans p (resp_free _ p ((p.inv.multi.lockR i).1 hl) (Nat.le_refl _)) ?_
    rintro s1 _ ⟨h1, h2, h3⟩
    refine .here ⟨h1, h2, fun j hj => h3 j ?_⟩
    rintro rfl
    rw [(p.inv.multi.lockR j).1 hl] at hj
    cases hj

/-- A `Respond` that was begun comes to its end. -/
theorem can_done {s : St} {i : Nat} (n : Nat) (p : Prog s) (hi : s.m.rp i ≠ .idle) (hn : rLeft (s.m.rp i) ≤ n) :
    Can s fun s' => Frame s s' ∧ s'.m.rp i = .done := by
  induction n generalizing s with
  | zero =>
    cases e : s.m.rp i <;> rw [e] at hn hi <;> first | (simp [rLeft] at hn; done) | skip
    · exact absurd rfl hi
    · exact .here ⟨.refl s, e⟩
    · exact .panic (.inr (.inr (.inl ⟨i, .inl e⟩)))
    · exact .panic (.inr (.inr (.inl ⟨i, .inr e⟩)))
  | succ n ih =>
    by_cases hd : s.m.rp i = .done
    · exact .here ⟨.refl s, hd⟩
    · have go : ∀ {s0 : St}, Prog s0 → s0.m.rp i = s.m.rp i → Frame s s0 → (s0.m.rp i = .lock → s0.m.lock = none) → Can s0 fun s' => Frame s s' ∧ s'.m.rp i = .done := by
        intro s0 p0 e0 f0 l0
        rcases resp_step (i := i) p0 (by rw [e0]; exact hi) (by rw [e0]; exact hd) l0 with h | ⟨m, h1, h2, h3, h4, h5, h6⟩
        · exact .panic h
        · refine .step _ (by trivial) h1 (.trans (prog_step p0 h1) (ih (prog_step p0 h1) h4 (by simp only; rw [e0] at h5; omega)) ?_)
          rintro s2 _ ⟨k1, k2⟩
          exact .here ⟨f0.trans (h2.trans k1), k2⟩
      by_cases hk : s.m.rp i = .lock
      · refine .trans p (can_unlock p) ?_
        rintro s1 p1 ⟨h1, h2, h3⟩
        exact go p1 (h3 i (by rw [hk]; rfl)) h1 (fun _ => h2)
      · exact go p rfl (.refl s) (fun h => absurd h hk)

/-! ### The lock of a request -/

theorem unlocked {p q : Multi.OPc} (h : oAfter p = oAfter q) (h1 : q.locked = false) (h2 : q ≠ .rWait false) : p.locked = false ∧ p ≠ .rWait false := by
  have k1 : ∀ p : Multi.OPc, (oAfter p).locked = p.locked := by intro p; cases p <;> rfl
  have k2 : ∀ p : Multi.OPc, oAfter p = .rWait false → p = .rWait false := by intro p; cases p <;> simp [oAfter]
  refine ⟨by rw [← k1, h, k1]; exact h1, fun e => h2 (k2 q ?_)⟩
  rw [← h, e]
  rfl

/-- Only goroutine `t` of request `i` moved, and the `Respond`s. -/
structure Aside (i t : Nat) (s s' : St) : Prop where
  other : ∀ j, j ≠ i → s'.r j = s.r j
  pc : ∀ u, u ≠ t → (s'.r i).pc u = (s.r i).pc u
  own : t ≠ 0 → s.m.own.locked = false → s.m.own ≠ .rWait false → s'.m.own = s.m.own
  oaf : s.m.own.locked = false → s.m.own ≠ .rWait false → oAfter s'.m.own = oAfter s.m.own
  cp : ∀ k, t ≠ 2 * k + 1 → s'.m.cp k = s.m.cp k
  caf : ∀ k, cAfter (s'.m.cp k) = cAfter (s.m.cp k)

theorem Aside.trans {i t : Nat} {a b c : St} (h : Aside i t a b) (k : Aside i t b c) : Aside i t a c where
  other j hj := (k.other j hj).trans (h.other j hj)
  pc u hu := (k.pc u hu).trans (h.pc u hu)
  own ht h1 h2 := by
    have e := h.own ht h1 h2
    rw [k.own ht (by rw [e]; exact h1) (by rw [e]; exact h2), e]
  oaf h1 h2 := by
    have e := h.oaf h1 h2
    obtain ⟨h3, h4⟩ := unlocked e h1 h2
    rw [k.oaf h3 h4, e]
  cp j hj := (k.cp j hj).trans (h.cp j hj)
  caf j := (k.caf j).trans (h.caf j)

theorem Frame.aside {s s' : St} (h : Frame s s') (i t : Nat) : Aside i t s s' where
  other j _ := by rw [h.r]
  pc u _ := by rw [h.r]
  own _ h1 h2 := h.own h1 h2
  oaf h1 h2 := by rw [h.own h1 h2]
  cp k _ := by rw [h.cp]
  caf k := by rw [h.cp]

theorem moved_aside {s : St} {i t : Nat} {r' : Request.St} {m : Multi.St} (hm : Moved t s.m m) (hp : ∀ u, u ≠ t → r'.pc u = (s.r i).pc u) :
    Aside i t s { m, r := upd s.r i r' } where
  other j hj := upd_other hj
  pc u hu := by simp only [upd_same]; exact hp u hu
  own ht _ _ := hm.own ht
  oaf _ _ := hm.oaf
  cp k hk := hm.canc k hk
  caf k := hm.caf k

theorem moved_refl {t : Nat} {m : Multi.St} (h : Multi.Inv m) : Moved t m m := ⟨fun _ => rfl, fun _ _ => rfl, h, Nat.le_refl _, rfl, fun _ => rfl⟩

theorem quiet {s : St} (I : Inv s) {i t : Nat} (hl : (s.r i).lock = some t) : Quiet ((s.r i).pc t) := by
  have hH := ((I.req i).owner t hl).2
  cases e : (s.r i).pc t <;> rw [e] at hH <;> try trivial
  case react op acts => have := hH.2.1; subst this; trivial
  case fin op acts => have := hH.2.1; subst this; trivial
  case dead => exact hH.2

/-- The owner of the mutex of a request makes its next step. -/
theorem can_next {s : St} {i t : Nat} (p : Prog s) (hl : (s.r i).lock = some t) :
    Can s fun s' => Aside i t s s' ∧ ((s'.r i).lock = some t ∧ left (s'.r i).d ((s'.r i).pc t) < left (s.r i).d ((s.r i).pc t) ∨
      (s'.r i).lock = none ∧ (s'.r i).pc t = .idle ∧ (Ours t → actOf s'.m t = .none)) := by
  obtain ⟨r', hr, ho, _, hm⟩ := next_step (p.i12 i) hl (quiet p.inv hl)
  have plain : ∀ c, c = next (s.r i) t → s.withReq i (Request.step (s.r i) c) = some { s with r := upd s.r i r' } := by
    rintro c rfl; rw [hr]; rfl
  -- steps of the request alone
  have alone : ∀ (s0 : St), s0.r = s.r → Aside i t s s0 → Inner (.req i (next (s.r i) t)) → step s0 (.req i (next (s.r i) t)) = some { s0 with r := upd s0.r i r' } →
      Multi.Inv s0.m → (r'.pc t ≠ .idle ∨ ¬ Ours t) →
      Can s0 fun s' => Aside i t s s' ∧ ((s'.r i).lock = some t ∧ left (s'.r i).d ((s'.r i).pc t) < left (s.r i).d ((s.r i).pc t) ∨
      (s'.r i).lock = none ∧ (s'.r i).pc t = .idle ∧ (Ours t → actOf s'.m t = .none)) := by
    intro s0 e0 a0 hin hs hI hid
    refine .step _ hin hs (.here ⟨a0.trans (moved_aside (moved_refl hI) (by rw [e0]; exact ho)), ?_⟩)
    simp only [upd_same]
    rcases hm with hm | ⟨hm, hm'⟩
    · exact .inl hm
    · refine .inr ⟨hm, hm', fun ht => ?_⟩
      rcases hid with h | h
      · exact absurd hm' h
      · exact absurd ht h
  have asid : Aside i t s s := (Frame.refl s).aside i t
  obtain ⟨q, hp⟩ : ∃ q, (s.r i).pc t = q := ⟨_, rfl⟩
  cases q with
  | walk op =>
    by_cases hc : (s.r i).d.chain = []
    · have hn : next (s.r i) t = .responder t [] := by simp only [next, hp, hc, if_true]
      rw [hn] at hr
      cases did (p.inv.req i) hr with
      | responder _ op' x _ h1 h2 h3 =>
        have hidle : r'.pc t ≠ .idle := by rw [h3]; simp [setPc]
        obtain ⟨k1, k2, k3⟩ := resp_facts p.inv h1 h2
        obtain ⟨m', e1, e2, e3, e4, e5⟩ := enter_step (t := t) p.inv.multi k1 (fun ht => (k2 ht).1) k3
        refine .step (.req i (.responder t [])) (by trivial) (s' := { m := m', r := upd s.r i r' }) ?_ (.here ⟨moved_aside e2 ho, ?_⟩)
        · simp only [step, reqStep, h2, if_true, hr, St.withReq, Option.map_some, Option.bind_some, e1, St.withM]; rfl
        · simp only [upd_same]
          rcases hm with hm | ⟨_, hm⟩
          · exact .inl hm
          · exact absurd hm hidle
    · have hn : next (s.r i) t = .bookmark t [] := by simp only [next, hp, if_neg hc]
      rw [hn] at hr plain alone
      have hidle : r'.pc t ≠ .idle := by
        cases did (p.inv.req i) hr with
        | bookmark _ op' _ h1 h2 h3 => rw [h2]; simp [setPc]
      exact alone s rfl asid (by trivial) (by simp only [step, reqStep, if_true]; exact plain _ rfl) p.inv.multi (.inl hidle)
  | fin op acts =>
    have hH := ((p.inv.req i).owner t hl).2
    have hn : next (s.r i) t = .go t := by simp only [next, hp]
    rw [hn] at hr plain alone
    rw [hp] at hH
    obtain ⟨h1, h2, h3, h4⟩ := hH
    subst h2
    have hrp : s.m.rp i ≠ .idle := by
      intro e
      have := (p.inv.multi.code i).2 e
      rw [p.inv.code i, h3] at this
      exact h4 this
    refine .trans p (can_done _ p hrp (Nat.le_refl _)) ?_
    rintro s1 p1 ⟨f1, f2⟩
    refine alone s1 f1.r (f1.aside i t) (by trivial) ?_ p1.inv.multi (.inl ?_)
    · simp only [step, reqStep, f1.r, hp, if_pos f2, hr, St.withReq, Option.map_some]; rfl
    · intro h
      cases did (p.inv.req i) hr with
      | cas _ op' h => rw [hp] at h; cases h
      | go _ p' a1 a2 a3 => rw [a1] at h; simp only [setPc, if_true] at h; rw [h] at a3; exact a3 rfl
      | leave _ op' a1 => rw [hp] at a1; cases a1
  | leave op =>
    have hn : next (s.r i) t = .go t := by simp only [next, hp]
    rw [hn] at hr plain alone
    by_cases ht : Ours t
    · obtain ⟨k1, k2, k3⟩ := leave_facts p.inv hp ht
      obtain ⟨m', e1, e2, e3, e4, _, _, e5⟩ := leave_step (t := t) p.inv.multi k1 (fun _ => k2)
      refine .step (.req i (.go t)) (by trivial) (s' := { m := m', r := upd s.r i r' }) ?_ (.here ⟨moved_aside e2 ho, ?_⟩)
      · simp only [step, reqStep, hp, hr, St.withReq, Option.map_some, Option.bind_some, e1, St.withM]; rfl
      · simp only [upd_same]
        rcases hm with hm | ⟨hm, hm'⟩
        · exact .inl hm
        · exact .inr ⟨hm, hm', fun _ => e5 ht⟩
    · refine alone s rfl asid (by trivial) ?_ p.inv.multi (.inr ht)
      simp only [step, reqStep, hp, hr, St.withReq, Option.map_some, Option.bind_some, leave_other ht, St.withM]; rfl
  | idle => have := ((p.inv.req i).owner t hl).1; rw [hp] at this; cases this
  | wait op => have := ((p.inv.req i).owner t hl).1; rw [hp] at this; cases this
  | _ =>
    have hn : next (s.r i) t = .go t := by simp only [next, hp]
    rw [hn] at hr plain alone
    refine alone s rfl asid (by trivial) ?_ p.inv.multi (.inl ?_)
    · simp only [step, reqStep, hp]; exact plain _ rfl
    · intro h
      cases did (p.inv.req i) hr with
      | cas _ op' h => rw [hp] at h; cases h
      | go _ p' a1 a2 a3 => rw [a1] at h; simp only [setPc, if_true] at h; rw [h] at a3; exact a3 rfl
      | leave _ op' a1 => rw [hp] at a1; cases a1

/-- The owner of the mutex of a request releases it. -/
theorem can_release {i t : Nat} (n : Nat) {s : St} (p : Prog s) (hl : (s.r i).lock = some t) (hn : left (s.r i).d ((s.r i).pc t) ≤ n) :
    Can s fun s' => Aside i t s s' ∧ (s'.r i).lock = none ∧ (s'.r i).pc t = .idle ∧ (Ours t → actOf s'.m t = .none) := by
  induction n generalizing s with
  | zero =>
    refine .trans p (can_next p hl) ?_
    rintro s1 p1 ⟨h1, h3⟩
    rcases h3 with h3 | h3
    · omega
    · exact .here ⟨h1, h3⟩
  | succ n ih =>
    refine .trans p (can_next p hl) ?_
    rintro s1 p1 ⟨h1, h3⟩
    rcases h3 with h3 | h3
    · refine .trans p1 (ih p1 h3.1 (by omega)) ?_
      rintro s2 p2 ⟨h4, h5⟩
      exact .here ⟨h1.trans h4, h5⟩
    · exact .here ⟨h1, h3⟩

/-- What the owner and the cancelers were about is the same. -/
structure Same (s s' : St) : Prop where
  oaf : s.m.own.locked = false → s.m.own ≠ .rWait false → oAfter s'.m.own = oAfter s.m.own
  caf : ∀ k, cAfter (s'.m.cp k) = cAfter (s.m.cp k)

theorem Aside.same {i t : Nat} {s s' : St} (h : Aside i t s s') : Same s s' := ⟨h.oaf, h.caf⟩

theorem Same.trans {a b c : St} (h : Same a b) (k : Same b c) : Same a c where
  oaf h1 h2 := by
    have e := h.oaf h1 h2
    obtain ⟨h3, h4⟩ := unlocked e h1 h2
    rw [k.oaf h3 h4, e]
  caf j := (k.caf j).trans (h.caf j)

/-- A goroutine that is in a method of a request comes back. -/
theorem can_return {i t : Nat} {s : St} (p : Prog s) (hp : (s.r i).pc t ≠ .idle) :
    Can s fun s' => Same s s' ∧ (s'.r i).pc t = .idle ∧ (Ours t → actOf s'.m t = .none) := by
  have crit : ∀ {s : St}, Prog s → ((s.r i).pc t).crit = true → Can s fun s' => Same s s' ∧ (s'.r i).pc t = .idle ∧ (Ours t → actOf s'.m t = .none) := by
    intro s p hc
    refine .trans p (can_release _ p ((p.inv.req i).mutex t hc) (Nat.le_refl _)) ?_
    rintro s1 p1 ⟨h1, h2, h3⟩
    exact .here ⟨h1.same, h3⟩
  cases hc : ((s.r i).pc t).crit with
  | true => exact crit p hc
  | false =>
    have : ∃ op, (s.r i).pc t = .wait op := by
      cases e : (s.r i).pc t <;> rw [e] at hc hp <;> first | (cases hc; done) | skip
      · exact absurd rfl hp
      · exact ⟨_, rfl⟩
    obtain ⟨op, hw⟩ := this
    have free : Can s fun s' => Same s s' ∧ (s'.r i).lock = none ∧ (s'.r i).pc t = .wait op := by
      cases hl : (s.r i).lock with
      | none => exact .here ⟨⟨fun _ _ => rfl, fun _ => rfl⟩, hl, hw⟩
      | some u =>
        refine .trans p (can_release _ p hl (Nat.le_refl _)) ?_
        rintro s1 p1 ⟨h1, h2, h3⟩
        refine .here ⟨h1.same, h2, ?_⟩
        rw [h1.pc t ?_, hw]
        rintro rfl
        have := ((p.inv.req i).owner t hl).1
        rw [hc] at this; cases this
    refine .trans p free ?_
    rintro s1 p1 ⟨h1, h2, h3⟩
    have go : ∀ r', Request.step (s1.r i) (.go t) = some r' → step s1 (.req i (.go t)) = some { s1 with r := upd s1.r i r' } := by
      intro r' hr
      simp only [step, reqStep, h3, hr, St.withReq, Option.map_some]; rfl
    have ours : Ours t → ∃ x, op = .fail x := by
      intro ht
      rcases At_ours (p1.inv.act i t ht) (by rw [h3]; simp) with ⟨x, _, e, _⟩ | ⟨x, _, e, _⟩
      all_goals
        rw [h3] at e
        simp only [opOf, Option.some.injEq] at e
        exact ⟨x, e⟩
    have lock : ∀ r', Request.step (s1.r i) (.go t) = some r' → r'.pc = setPc (s1.r i).pc t (.locked op) →
        Can s1 fun s' => Same s s' ∧ (s'.r i).pc t = .idle ∧ (Ours t → actOf s'.m t = .none) := by
      intro r' hr hpc
      refine .step _ (by trivial) (go r' hr) (.trans (prog_step p1 (go r' hr)) (crit (prog_step p1 (go r' hr)) ?_) ?_)
      · simp [hpc, setPc, Request.Pc.crit, upd]
      · rintro s2 p2 ⟨h5, h6⟩
        exact .here ⟨h1.trans ⟨h5.oaf, h5.caf⟩, h6⟩
    have idle : ∀ r', Request.step (s1.r i) (.go t) = some r' → r'.pc = setPc (s1.r i).pc t .idle → isFail op = false →
        Can s1 fun s' => Same s s' ∧ (s'.r i).pc t = .idle ∧ (Ours t → actOf s'.m t = .none) := by
      intro r' hr hpc hf
      refine .step _ (by trivial) (go r' hr) (.here ⟨h1.trans ⟨fun _ _ => rfl, fun _ => rfl⟩, ?_, fun ht => ?_⟩)
      · simp [hpc, setPc, upd]
      · obtain ⟨x, rfl⟩ := ours ht
        cases hf
    cases op with
    | setPending => exact idle _ (by simp only [Request.step, h3, Request.St.begin]; rfl) rfl rfl
    | claim => exact idle _ (by simp only [Request.step, h3, Request.St.begin]; rfl) rfl rfl
    | _ => exact lock _ (by simp only [Request.step, h3, Request.St.begin, Request.St.lockStep, h2, if_true]; rfl) rfl

/-! ### Cancelers -/

/-- `performFail` by goroutine `t` on request `i` comes to its end. -/
theorem can_fail {s : St} {t i : Nat} (p : Prog s) (ht : Ours t) (ha : (∃ x, actOf s.m t = .fail i x) ∨ actOf s.m t = .back i) :
    Can s fun s' => Same s s' ∧ actOf s'.m t = .none := by
  by_cases hp : (s.r i).pc t = .idle
  · rcases ha with ⟨x, ha⟩ | ha
    · obtain ⟨c, hc, hs⟩ : ∃ c, Inner c ∧ step s c = s.fail i t x := by
        rcases ht with rfl | ht
        · refine ⟨.multi .owner, trivial, ?_⟩
          simp only [actOf, if_true] at ha
          simp only [step, multiStep]
          cases e : s.m.own <;> rw [e] at ha <;> cases ha <;> rfl
        · refine ⟨.multi (.canc (t / 2)), trivial, ?_⟩
          have e2 : 2 * (t / 2) + 1 = t := by omega
          simp only [actOf, if_neg (show t ≠ 0 by omega)] at ha
          simp only [step, multiStep]
          cases e : s.m.cp (t / 2) <;> rw [e] at ha <;> cases ha
          rw [e2]
      have h1 : s.fail i t x = some { s with r := upd s.r i { s.r i with pc := setPc (s.r i).pc t (.wait (.fail x)) } } := by
        simp only [St.fail, Request.step, hp, if_true, St.withReq, Option.map_some]; rfl
      rw [h1] at hs
      refine .step c hc hs (.trans (prog_step p hs) (can_return (i := i) (t := t) (prog_step p hs) ?_) ?_)
      · simp [upd, setPc]
      · rintro s2 p2 ⟨h2, h3, h4⟩
        exact .here ⟨⟨h2.oaf, h2.caf⟩, h4 ht⟩
    · have := p.inv.act i t ht
      rw [ha, hp] at this
      have := (this.1 rfl).1
      cases this
  · refine .trans p (can_return p hp) ?_
    rintro s1 p1 ⟨h1, _, h2⟩
    exact .here ⟨h1, h2 ht⟩

theorem canc_fail {s : St} {k a i n : Nat} (p : Prog s) (hk : (∃ x, s.m.cp k = .failA a i n x) ∨ s.m.cp k = .failX a i n) :
    Can s fun s' => s'.m.cp k = .fail a (i + 1) n := by
  refine .trans p (can_fail (i := i) p (ours_odd k) ?_) ?_
  · rw [actOf_odd]
    rcases hk with ⟨x, hk⟩ | hk <;> rw [hk]
    · exact .inl ⟨x, rfl⟩
    · exact .inr rfl
  · rintro s1 p1 ⟨h1, h2⟩
    rw [actOf_odd] at h2
    have := h1.caf k
    rw [cAfter_none h2] at this
    refine .here (this.trans ?_)
    rcases hk with ⟨x, hk⟩ | hk <;> rw [hk] <;> rfl

/-- A step of a canceler outside of the requests. -/
theorem canc_step {s : St} {k : Nat} {q : Multi.CPc} {P : St → Prop} (p : Prog s) (ha : cAct (s.m.cp k) = .none)
    (hs : Multi.stepCancel s.m k = some { s.m with cp := Multi.set s.m.cp k q }) (h : ∀ s', Prog s' → s'.m.cp k = q → Can s' P) : Can s P := by
  have h1 : step s (.multi (.canc k)) = some { s with m := { s.m with cp := Multi.set s.m.cp k q } } := by
    simp only [step, multiStep]
    split
    · rename_i e; rw [e] at ha; cases ha
    · rename_i e; rw [e] at ha; cases ha
    · simp only [Multi.step, hs, St.withM, Option.map_some]
  exact .step _ (by trivial) h1 (h _ (prog_step p h1) (by simp [Multi.set]))

theorem canc_loop {k a n : Nat} (l : Nat) {s : St} {i : Nat} (p : Prog s) (hk : s.m.cp k = .fail a i n) (hl : n - i ≤ l) :
    Can s fun s' => s'.m.cp k = .done true := by
  induction l generalizing s i with
  | zero =>
    refine canc_step p (by rw [hk]; rfl) (q := .done true) ?_ fun s' _ h => .here h
    simp only [Multi.stepCancel, hk, if_neg (show ¬ i < n by omega)]
  | succ l ih =>
    by_cases hi : i < n
    · by_cases hg : s.m.gone a i
      · refine canc_step p (by rw [hk]; rfl) (q := .fail a (i + 1) n) ?_ fun s1 p1 h => ih p1 h (by omega)
        simp only [Multi.stepCancel, hk, if_pos hi, hg, if_true]
      · refine canc_step p (by rw [hk]; rfl) (q := .fail2 a i n) ?_ fun s1 p1 h1 => ?_
        · simp only [Multi.stepCancel, hk, if_pos hi, hg, if_false, Bool.false_eq_true]
        · by_cases hg1 : s1.m.gone a i
          · refine canc_step p1 (by rw [h1]; rfl) (q := .dead) ?_ fun s2 p2 h2 => .panic (.inr (.inr (.inr ⟨k, h2⟩)))
            simp only [Multi.stepCancel, h1, hg1, if_true]
          · refine canc_step p1 (by rw [h1]; rfl) (q := .failK a i n) ?_ fun s2 p2 h2 => ?_
            · simp only [Multi.stepCancel, h1, hg1, if_false, Bool.false_eq_true]
            · cases hf : Multi.failCode s2.m with
              | none =>
                refine canc_step p2 (by rw [h2]; rfl) (q := .fail a (i + 1) n) ?_ fun s3 p3 h3 => ih p3 h3 (by omega)
                simp only [Multi.stepCancel, h2, hf]
              | some x =>
                refine canc_step p2 (by rw [h2]; rfl) (q := .failA a i n x) ?_ fun s3 p3 h3 => ?_
                · simp only [Multi.stepCancel, h2, hf]
                · refine .trans p3 (canc_fail p3 (.inl ⟨x, h3⟩)) ?_
                  intro s4 p4 h4
                  exact ih p4 h4 (by omega)
    · refine canc_step p (by rw [hk]; rfl) (q := .done true) ?_ fun s' _ h => .here h
      simp only [Multi.stepCancel, hk, if_neg hi]

theorem canc_snap {k : Nat} {s : St} {e : Bool} (p : Prog s) (hk : s.m.cp k = .snap e) : Can s fun s' => s'.m.cp k = .done true := by
  refine .trans p (can_unlock p) ?_
  rintro s1 p1 ⟨h1, h2, _⟩
  have hk1 : s1.m.cp k = .snap e := by rw [h1.cp]; exact hk
  refine canc_step p1 (by rw [hk1]; rfl) (q := .fail s1.m.arr 0 s1.m.r) ?_ fun s2 p2 h => canc_loop _ p2 h (Nat.le_refl _)
  simp only [Multi.stepCancel, hk1, h2, if_true]

/-- `Cancel` and `Expire` come to an end. -/
theorem canc_ends {k : Nat} {s : St} (p : Prog s) (hk : s.m.cp k ≠ .idle) : Can s fun s' => ∃ b, s'.m.cp k = .done b := by
  have sn : ∀ {s : St} {e : Bool}, Prog s → s.m.cp k = .snap e → Can s fun s' => ∃ b, s'.m.cp k = .done b := by
    intro s e p h
    exact .trans p (canc_snap p h) fun s1 _ h1 => .here ⟨true, h1⟩
  have lp : ∀ {s : St} {a i n : Nat}, Prog s → s.m.cp k = .fail a i n → Can s fun s' => ∃ b, s'.m.cp k = .done b := by
    intro s a i n p h
    exact .trans p (canc_loop _ p h (Nat.le_refl _)) fun s1 _ h1 => .here ⟨true, h1⟩
  have rr : ∀ {s : St} {e : Bool} {c : Nat}, Prog s → s.m.cp k = .readR e c → Can s fun s' => ∃ b, s'.m.cp k = .done b := by
    intro s e c p h
    refine canc_step p (by rw [h]; rfl) (q := if c = s.m.r then .done true else .snap e) (by simp only [Multi.stepCancel, h]) fun s1 p1 h1 => ?_
    split at h1
    · exact .here ⟨_, h1⟩
    · exact sn p1 h1
  have rc : ∀ {s : St} {e : Bool} {r : Nat}, Prog s → s.m.cp k = .readC' e r → Can s fun s' => ∃ b, s'.m.cp k = .done b := by
    intro s e r p h
    refine canc_step p (by rw [h]; rfl) (q := if s.m.c = r then .done false else .snap e) (by simp only [Multi.stepCancel, h]) fun s1 p1 h1 => ?_
    split at h1
    · exact .here ⟨_, h1⟩
    · exact sn p1 h1
  have fk : ∀ {s : St} {a i n : Nat}, Prog s → s.m.cp k = .failK a i n → Can s fun s' => ∃ b, s'.m.cp k = .done b := by
    intro s a i n p h2
    cases hf : Multi.failCode s.m with
    | none =>
      refine canc_step p (by rw [h2]; rfl) (q := .fail a (i + 1) n) ?_ fun s3 p3 h3 => lp p3 h3
      simp only [Multi.stepCancel, h2, hf]
    | some x =>
      refine canc_step p (by rw [h2]; rfl) (q := .failA a i n x) ?_ fun s3 p3 h3 => ?_
      · simp only [Multi.stepCancel, h2, hf]
      · exact .trans p3 (canc_fail p3 (.inl ⟨x, h3⟩)) fun s4 p4 h4 => lp p4 h4
  cases h : s.m.cp k with
  | idle => exact absurd h hk
  | readC e => exact canc_step p (by rw [h]; rfl) (q := .readR e s.m.c) (by simp only [Multi.stepCancel, h]) fun s1 p1 h1 => rr p1 h1
  | readR e c => exact rr p h
  | readR' e => exact canc_step p (by rw [h]; rfl) (q := .readC' e s.m.r) (by simp only [Multi.stepCancel, h]) fun s1 p1 h1 => rc p1 h1
  | readC' e r => exact rc p h
  | snap e => exact sn p h
  | fail a i n => exact lp p h
  | fail2 a i n =>
    by_cases hg : s.m.gone a i
    · refine canc_step p (by rw [h]; rfl) (q := .dead) ?_ fun s2 p2 h2 => .panic (.inr (.inr (.inr ⟨k, h2⟩)))
      simp only [Multi.stepCancel, h, hg, if_true]
    · refine canc_step p (by rw [h]; rfl) (q := .failK a i n) ?_ fun s2 p2 h2 => fk p2 h2
      simp only [Multi.stepCancel, h, hg, if_false, Bool.false_eq_true]
  | failK a i n => exact fk p h
  | failA a i n x => exact .trans p (canc_fail p (.inl ⟨x, h⟩)) fun s4 p4 h4 => lp p4 h4
  | failX a i n => exact .trans p (canc_fail p (.inr h)) fun s4 p4 h4 => lp p4 h4
  | done b => exact .here ⟨b, h⟩
  | dead => exact .panic (.inr (.inr (.inr ⟨k, h⟩)))

end Verif.MultiReq
