import Verif.Model.MultiTimer
import Verif.Proofs.MultiReqEnds
import Verif.Proofs.MultiEach
/-! The timeout of a multi-request: invariants. -/
namespace Verif.MultiTimer
open Verif.MultiReq (withM_some withReq_some leave_run)

/-! ### One step of the multi-request -/

/-- The owner has called `Results` or `Each`. -/
def Past : Multi.OPc → Prop
  | .idle | .store _ | .chk _ | .chkK _ | .chkA .. | .failW _ => False
  | _ => True

/-- All requests there will ever be are counted. -/
def Full (m : Multi.St) : Prop := Past m.own ∧ m.c = m.r

structure M (m : Multi.St) : Prop where
  inv : Multi.Inv m
  wait : m.wait = true → Past m.own
  close : ∀ i, m.rp i = .close ∨ m.rp i = .remove → m.c = m.r

theorem opened_past {p : Multi.OPc} (h : p.opened = true) : Past p := by
  cases p <;> first | trivial | cases h

theorem past_step {m m' : Multi.St} {c : Multi.Choice} (h : Multi.step m c = some m') (hp : Past m.own) : Past m'.own ∧ m'.r = m.r ∧ m.c ≤ m'.c := by
  cases c
  case owner =>
    simp only [Multi.step] at h
    unfold Multi.stepOwner at h
    split at h <;> rename_i e <;> rw [e] at hp <;> (repeat' split at h) <;> cases h <;>
      first
        | (cases hp; done)
        | exact ⟨trivial, rfl, Nat.le_refl _⟩
        | exact ⟨trivial, by rw [← Multi.answer_r m], by rw [← Multi.answer_c m]; exact Nat.le_refl _⟩
        | (refine ⟨?_, rfl, Nat.le_refl _⟩; dsimp only; split <;> trivial)
  case resp i =>
    simp only [Multi.step, Multi.stepResp] at h
    (repeat' split at h) <;> cases h <;> (try split) <;>
      first
        | exact ⟨hp, rfl, Nat.le_refl _⟩
        | exact ⟨hp, rfl, Nat.le_succ _⟩
        | exact ⟨trivial, rfl, Nat.le_succ _⟩
  case canc k =>
    simp only [Multi.step] at h
    unfold Multi.stepCancel at h
    (repeat' split at h) <;> cases h <;>
      first
        | exact ⟨hp, rfl, Nat.le_refl _⟩
        | exact ⟨by rw [← Multi.answer_own m] at hp; exact hp, by rw [← Multi.answer_r m], by rw [← Multi.answer_c m]; exact Nat.le_refl _⟩
  case answer i x =>
    simp only [Multi.step] at h
    split at h <;> cases h
    exact ⟨by rw [Multi.answer_own]; exact hp, Multi.answer_r .., by rw [Multi.answer_c]; exact Nat.le_refl _⟩
  case cancel k e f =>
    simp only [Multi.step] at h
    split at h <;> cases h
    cases e <;> exact ⟨hp, rfl, Nat.le_refl _⟩
  all_goals
    simp only [Multi.step] at h
    split at h
    · rename_i e; rw [e] at hp; cases hp
    · cases h

theorem full_step {m m' : Multi.St} {c : Multi.Choice} (I : Multi.Inv m) (h : Multi.step m c = some m') (hf : Full m) : Full m' := by
  obtain ⟨h1, h2, h3⟩ := past_step h hf.1
  have := (Multi.inv_step I h).all.1
  have := hf.2
  exact ⟨h1, by omega⟩

theorem wait_step {m m' : Multi.St} {c : Multi.Choice} (h : Multi.step m c = some m') (hw : m'.wait = true) : m.wait = true ∨ Past m.own := by
  cases c
  case owner =>
    simp only [Multi.step] at h
    unfold Multi.stepOwner at h
    split at h <;> rename_i e <;> (repeat' split at h) <;> cases h <;>
      first
        | exact .inl hw
        | (right; rw [e]; trivial)
        | (left; revert hw; simp only [Multi.answer]; split <;> exact id)
  case resp i =>
    simp only [Multi.step, Multi.stepResp] at h
    (repeat' split at h) <;> cases h <;> first | exact .inl hw | (left; revert hw; split <;> exact id)
  case canc k =>
    simp only [Multi.step] at h
    unfold Multi.stepCancel at h
    (repeat' split at h) <;> cases h <;> first | exact .inl hw | (left; revert hw; simp only [Multi.answer]; split <;> exact id)
  case answer i x =>
    simp only [Multi.step] at h
    split at h <;> cases h
    left; revert hw; simp only [Multi.answer]; split <;> exact id
  case cancel k e f =>
    simp only [Multi.step] at h
    split at h <;> cases h
    left; revert hw; cases e <;> exact id
  all_goals
    simp only [Multi.step] at h
    (repeat' split at h) <;> cases h <;> exact .inl hw

/-- A `Respond` that is to close the channel, or has done so, was so before, or has just counted the last request. -/
theorem close_step {m m' : Multi.St} {c : Multi.Choice} (h : Multi.step m c = some m') {i : Nat} (hc : m'.rp i = .close ∨ m'.rp i = .remove) :
    (m.rp i = .close ∨ m.rp i = .remove) ∨ m'.c = m'.r := by
  have ans : ∀ j x, (Multi.answer m j x).rp i = .close ∨ (Multi.answer m j x).rp i = .remove → m.rp i = .close ∨ m.rp i = .remove := by
    intro j x h
    rcases Multi.answer_look m j i x with e | e
    · rw [← e]; exact h
    · rw [e] at h; simp at h
  cases c
  case resp j =>
    by_cases e : i = j
    · subst e
      simp only [Multi.step, Multi.stepResp] at h
      (repeat' split at h) <;> cases h <;> simp only [Multi.set, if_pos] at hc ⊢ <;> first | (simp_all; done) | (split at hc <;> simp_all; done)
    · left
      have : m'.rp i = m.rp i := by
        simp only [Multi.step, Multi.stepResp] at h
        (repeat' split at h) <;> cases h <;> (try split) <;> simp only [Multi.set, if_neg e]
      rwa [this] at hc
  case owner =>
    simp only [Multi.step] at h
    unfold Multi.stepOwner at h
    (repeat' split at h) <;> cases h <;> first | exact .inl hc | exact .inl (ans _ _ hc)
  case canc k =>
    simp only [Multi.step] at h
    unfold Multi.stepCancel at h
    (repeat' split at h) <;> cases h <;> first | exact .inl hc | exact .inl (ans _ _ hc)
  case answer j x =>
    simp only [Multi.step] at h
    split at h <;> cases h
    exact .inl (ans _ _ hc)
  case cancel k e f =>
    simp only [Multi.step] at h
    split at h <;> cases h
    cases e <;> exact .inl hc
  all_goals
    simp only [Multi.step] at h
    (repeat' split at h) <;> cases h <;> exact .inl hc

theorem M.full {m : Multi.St} (h : M m) {i : Nat} (hi : m.rp i = .close ∨ m.rp i = .remove) : Full m :=
  ⟨opened_past (h.inv.fast i (by rcases hi with hi | hi <;> rw [hi] <;> rfl)), h.close i hi⟩

theorem m_step {m m' : Multi.St} {c : Multi.Choice} (I : M m) (h : Multi.step m c = some m') : M m' := by
  refine ⟨Multi.inv_step I.inv h, fun hw => ?_, fun i hi => ?_⟩
  · exact (past_step h ((wait_step h hw).elim I.wait id)).1
  · rcases close_step h hi with h1 | h1
    · exact (full_step I.inv h (I.full h1)).2
    · exact h1

theorem m_init : M Multi.init := ⟨Multi.inv_init, by simp [Multi.init], by simp [Multi.init]⟩

/-- Cancelers go their way: only a call of `Cancel` or `Expire` begins one, and one which reads `w.c` first goes on so. -/
def CFirst : Multi.CPc → Prop
  | .readR' _ | .readC' _ _ | .done false => False
  | _ => True

theorem cp_step {m m' : Multi.St} {c : Multi.Choice} (k : Nat) (h : Multi.step m c = some m') (hn : ∀ e f, c ≠ .cancel k e f) :
    (m'.cp k = .idle ↔ m.cp k = .idle) ∧ (CFirst (m.cp k) → CFirst (m'.cp k)) := by
  cases c
  case canc j =>
    simp only [Multi.step] at h
    unfold Multi.stepCancel at h
    split at h <;> rename_i e <;> (repeat' split at h) <;> cases h <;> simp only [Multi.set] <;> split <;>
      first
        | (rename_i ek; subst ek; rw [e]; simp only [CFirst]; split <;> simp_all; done)
        | (rename_i ek; subst ek; rw [e]; simp [CFirst]; done)
        | exact ⟨.rfl, id⟩
        | exact ⟨by rw [Multi.answer_cp], by rw [Multi.answer_cp]; exact id⟩
  case owner =>
    simp only [Multi.step] at h
    unfold Multi.stepOwner at h
    (repeat' split at h) <;> cases h <;> first | exact ⟨.rfl, id⟩ | (rw [show ∀ p, ({ Multi.answer m _ _ with own := p } : Multi.St).cp k = m.cp k from fun _ => Multi.answer_cp ..]; exact ⟨.rfl, id⟩)
  case resp j =>
    simp only [Multi.step, Multi.stepResp] at h
    (repeat' split at h) <;> cases h <;> first | exact ⟨.rfl, id⟩ | (split <;> exact ⟨.rfl, id⟩)
  case answer j x =>
    simp only [Multi.step] at h
    split at h <;> cases h
    rw [Multi.answer_cp]; exact ⟨.rfl, id⟩
  case cancel j e f =>
    have : j ≠ k := by rintro rfl; exact hn e f rfl
    simp only [Multi.step] at h
    split at h <;> cases h
    cases e <;> simp only [Multi.set] <;> rw [if_neg (Ne.symm this)] <;> exact ⟨.rfl, id⟩
  all_goals
    simp only [Multi.step] at h
    (repeat' split at h) <;> cases h <;> exact ⟨.rfl, id⟩

/-! ### Steps with the requests -/

/-- A step of the multi-request with its requests is some steps of the multi-request: the one that was chosen, or such of the owner, of cancelers and answers. -/
theorem parts {s s' : MultiReq.St} {c : MultiReq.Choice} (h : MultiReq.step s c = some s') :
    ∃ ds, Multi.run s.m ds = some s'.m ∧ ((∃ d, c = .multi d ∧ ds = [d]) ∨ ∀ d ∈ ds, d = .owner ∨ (∃ k, d = .canc k) ∨ ∃ i x, d = .answer i x) := by
  have one : ∀ {m m' : Multi.St} c, Multi.step m c = some m' → Multi.run m [c] = some m' := by
    intro m m' c h; simp [Multi.run, h]
  have alone : ∀ {i o}, s.withReq i o = some s' → ∃ ds, Multi.run s.m ds = some s'.m ∧ ((∃ d, c = .multi d ∧ ds = [d]) ∨ ∀ d ∈ ds, d = .owner ∨ (∃ k, d = .canc k) ∨ ∃ i x, d = .answer i x) := by
    intro i o h
    obtain ⟨r', h1, rfl⟩ := withReq_some h
    exact ⟨[], rfl, .inr (by simp)⟩
  cases c with
  | multi c =>
    have out : s.withM (Multi.step s.m c) = some s' → ∃ ds, Multi.run s.m ds = some s'.m ∧ ((∃ d, MultiReq.Choice.multi c = .multi d ∧ ds = [d]) ∨ ∀ d ∈ ds, d = .owner ∨ (∃ k, d = .canc k) ∨ ∃ i x, d = .answer i x) := by
      intro h
      obtain ⟨m, h1, rfl⟩ := withM_some h
      exact ⟨[c], one _ h1, .inl ⟨c, rfl, rfl⟩⟩
    simp only [MultiReq.step] at h
    cases c <;> simp only [MultiReq.multiStep] at h <;> (try split at h) <;> first | exact alone h | exact out h | (cases h; done)
  | req i c =>
    simp only [MultiReq.step] at h
    cases c <;> simp only [MultiReq.reqStep] at h
    case call => split at h <;> first | exact alone h | (cases h; done)
    case bookmark => split at h <;> first | exact alone h | (cases h; done)
    case responder t acts =>
      split at h
      · cases h
      · rename_i x _
        split at h
        · cases h0 : s.withReq i (Request.step (s.r i) (.responder t acts)) with
          | none => rw [h0] at h; cases h
          | some s1 =>
            rw [h0] at h
            obtain ⟨r', h1, rfl⟩ := withReq_some h0
            obtain ⟨m, h2, rfl⟩ := withM_some h
            refine ⟨_, one _ h2, .inr ?_⟩
            intro d hd
            rw [List.mem_singleton] at hd
            subst hd
            unfold MultiReq.enter
            split
            · exact .inl rfl
            · split
              · exact .inr (.inl ⟨_, rfl⟩)
              · exact .inr (.inr ⟨_, _, rfl⟩)
        · cases h
    case go t =>
      split at h
      · split at h <;> first | exact alone h | (cases h; done)
      · cases h0 : s.withReq i (Request.step (s.r i) (.go t)) with
        | none => rw [h0] at h; cases h
        | some s1 =>
          rw [h0] at h
          obtain ⟨r', h1, rfl⟩ := withReq_some h0
          obtain ⟨m, h2, rfl⟩ := withM_some h
          unfold MultiReq.leave at h2
          have two : ∀ {m m' : Multi.St} {c d : Multi.Choice}, Multi.run m [c, d] = some m' → (c = .owner ∨ ∃ k, c = .canc k) → (d = .owner ∨ ∃ k, d = .canc k) →
              ∃ ds, Multi.run m ds = some m' ∧ ∀ d ∈ ds, d = .owner ∨ (∃ k, d = .canc k) ∨ ∃ i x, d = .answer i x := by
            intro m m' c d h h1 h2
            refine ⟨_, h, ?_⟩
            intro e he
            simp only [List.mem_cons, List.not_mem_nil, or_false] at he
            rcases he with rfl | rfl
            · rcases h1 with h1 | h1
              · exact .inl h1
              · exact .inr (.inl h1)
            · rcases h2 with h1 | h1
              · exact .inl h1
              · exact .inr (.inl h1)
          have on : ∀ {m m' : Multi.St} {c : Multi.Choice}, Multi.step m c = some m' → (c = .owner ∨ ∃ k, c = .canc k) →
              ∃ ds, Multi.run m ds = some m' ∧ ∀ d ∈ ds, d = .owner ∨ (∃ k, d = .canc k) ∨ ∃ i x, d = .answer i x := by
            intro m m' c h h1
            refine ⟨_, one _ h, ?_⟩
            intro e he
            rw [List.mem_singleton] at he
            subst he
            rcases h1 with h1 | h1
            · exact .inl h1
            · exact .inr (.inl h1)
          have : ∃ ds, Multi.run s.m ds = some m ∧ ∀ d ∈ ds, d = .owner ∨ (∃ k, d = .canc k) ∨ ∃ i x, d = .answer i x := by
            split at h2
            · split at h2
              · exact two h2 (.inl rfl) (.inl rfl)
              · exact two h2 (.inl rfl) (.inl rfl)
              · exact on h2 (.inl rfl)
            · split at h2
              · split at h2
                · exact two h2 (.inr ⟨_, rfl⟩) (.inr ⟨_, rfl⟩)
                · exact on h2 (.inr ⟨_, rfl⟩)
              · cases h2
                exact ⟨[], rfl, by simp⟩
          obtain ⟨ds, h3, h4⟩ := this
          exact ⟨ds, h3, .inr h4⟩
      · exact alone h

/-- What every step of the multi-request keeps, a step with the requests keeps. -/
theorem along {P : Multi.St → Prop} {m m' : Multi.St} {ds : List Multi.Choice} (h : Multi.run m ds = some m') (hp : P m)
    (hs : ∀ a c b, c ∈ ds → P a → Multi.step a c = some b → P b) : P m' := by
  induction ds generalizing m with
  | nil => cases h; exact hp
  | cons c ds ih =>
    simp only [Multi.run] at h
    cases e : Multi.step m c with
    | none => rw [e] at h; cases h
    | some t => rw [e] at h; exact ih h (hs _ _ _ (List.mem_cons_self ..) hp e) fun a d b hd => hs a d b (List.mem_cons_of_mem _ hd)

theorem m_req {s s' : MultiReq.St} {c : MultiReq.Choice} (h : MultiReq.step s c = some s') (I : M s.m) : M s'.m := by
  obtain ⟨ds, h1, _⟩ := parts h
  exact along h1 I fun a c b _ ha hs => m_step ha hs

theorem full_req {s s' : MultiReq.St} {c : MultiReq.Choice} (h : MultiReq.step s c = some s') (I : M s.m) (hf : Full s.m) : Full s'.m := by
  obtain ⟨ds, h1, _⟩ := parts h
  exact (along (P := fun m => M m ∧ Full m) h1 ⟨I, hf⟩ fun a c b _ ha hs => ⟨m_step ha.1 hs, full_step ha.1.inv hs ha.2⟩).2

theorem cp_req {s s' : MultiReq.St} {c : MultiReq.Choice} (k : Nat) (h : MultiReq.step s c = some s') (hn : ∀ e f, c ≠ .multi (.cancel k e f)) :
    (s'.m.cp k = .idle ↔ s.m.cp k = .idle) ∧ (CFirst (s.m.cp k) → CFirst (s'.m.cp k)) := by
  obtain ⟨ds, h1, h2⟩ := parts h
  refine along (P := fun m => (m.cp k = .idle ↔ s.m.cp k = .idle) ∧ (CFirst (s.m.cp k) → CFirst (m.cp k))) h1 ⟨.rfl, id⟩ ?_
  intro a d b hd ha hs
  have : ∀ e f, d ≠ .cancel k e f := by
    rintro e f rfl
    rcases h2 with ⟨d', rfl, rfl⟩ | h2
    · rw [List.mem_singleton] at hd
      subst hd
      exact hn e f rfl
    · rcases h2 _ hd with h | ⟨_, h⟩ | ⟨_, _, h⟩ <;> cases h
  obtain ⟨c1, c2⟩ := cp_step k hs this
  exact ⟨c1.trans ha.1, fun h => c2 (ha.2 h)⟩

/-- When the timer is stopped, all requests have been counted, or this is the last one. -/
theorem stops_full {s s' : MultiReq.St} {c : MultiReq.Choice} (h : MultiReq.step s c = some s') (I : M s.m) (hs : stops s.m c = true) : Full s'.m := by
  unfold stops at hs
  split at hs
  · rename_i i
    simp only [MultiReq.step, MultiReq.multiStep] at h
    obtain ⟨m, h1, rfl⟩ := withM_some h
    have h1' := h1
    split at hs
    · rename_i hp
      simp only [Bool.and_eq_true, decide_eq_true_eq] at hs
      have hP := I.wait hs.2
      obtain ⟨a, b, _⟩ := past_step h1 hP
      refine ⟨a, ?_⟩
      show m.c = m.r
      rw [b]
      simp only [Multi.step, Multi.stepResp, hp] at h1
      split at h1 <;> cases h1 <;> exact hs.1
    · rename_i hp
      exact full_step I.inv h1 (I.full (.inl hp))
    · cases hs
  · cases hs

/-! ### With the timer -/

structure Inv (s : St) : Prop where
  prog : MultiReq.Prog s.q
  m : M s.q.m
  off : s.set = true → s.tm ≠ .off
  clear : s.set = false → s.tm = .off
  fired : s.tm = .fired ↔ s.q.m.cp 0 ≠ .idle
  stopped : s.tm = .stopped → Full s.q.m

theorem inv_init (msg : Nat → UInt32) : Inv (init msg) :=
  ⟨MultiReq.prog_init msg, m_init, by simp [init], by simp [init], by simp [init, MultiReq.init, Multi.init], by simp [init]⟩

theorem q_step {s s' : St} {c : MultiReq.Choice} (h : step s (.q c) = some s') : MultiReq.step s.q c = some s'.q ∧ s'.set = s.set ∧
    s'.tm = (if stops s.q.m c then s.tm.stop else s.tm) ∧ ∀ e f, c ≠ .multi (.cancel 0 e f) := by
  have : ∀ x, (MultiReq.step s.q c).map x = some s' → x = (fun q => { s with q, tm := if stops s.q.m c then s.tm.stop else s.tm }) →
      MultiReq.step s.q c = some s'.q ∧ s'.set = s.set ∧ s'.tm = (if stops s.q.m c then s.tm.stop else s.tm) := by
    intro x hx ex
    cases hq : MultiReq.step s.q c with
    | none => rw [hq] at hx; cases hx
    | some r => rw [hq] at hx; subst ex; cases hx; exact ⟨rfl, rfl, rfl⟩
  unfold step at h
  split at h
  · cases h
  · rename_i c' hn e
    cases e
    obtain ⟨h1, h2, h3⟩ := this _ h rfl
    refine ⟨h1, h2, h3, ?_⟩
    rintro e f rfl
    exact hn e f rfl
  all_goals simp_all

theorem q_back {s : St} {c : MultiReq.Choice} {q : MultiReq.St} (h : MultiReq.step s.q c = some q) (hn : ∀ e f, c ≠ .multi (.cancel 0 e f)) :
    ∃ s', step s (.q c) = some s' ∧ s'.q = q := by
  refine ⟨{ s with q, tm := if stops s.q.m c then s.tm.stop else s.tm }, ?_, rfl⟩
  unfold step
  split
  · rename_i e; cases e; exact absurd rfl (hn _ _)
  · rename_i e; cases e; rw [h]; rfl
  all_goals simp_all

theorem fire_step {s s' : St} {f : Bool} (h : step s (.fire f) = some s') : s.tm = .armed ∧ MultiReq.step s.q (.multi (.cancel 0 true f)) = some s'.q ∧ s'.set = s.set ∧ s'.tm = .fired := by
  simp only [step] at h
  split at h
  · rename_i ha
    cases hq : MultiReq.step s.q (.multi (.cancel 0 true f)) with
    | none => rw [hq] at h; cases h
    | some q => rw [hq] at h; cases h; exact ⟨ha, rfl, rfl, rfl⟩
  · cases h

theorem fire_cp {q q' : MultiReq.St} {f : Bool} (h : MultiReq.step q (.multi (.cancel 0 true f)) = some q') :
    q'.m.cp 0 = (if f then .readC true else .readR' true) := by
  simp only [MultiReq.step, MultiReq.multiStep] at h
  obtain ⟨m, h1, rfl⟩ := withM_some h
  simp only [Multi.step] at h1
  split at h1 <;> cases h1
  simp [Multi.set]

theorem inv_step {s s' : St} {c : Choice} (i : Inv s) (h : step s c = some s') : Inv s' := by
  cases c with
  | q c =>
    obtain ⟨h1, h2, h3, h4⟩ := q_step h
    have hx : s'.tm = s.tm ∨ (s.tm = .armed ∧ s'.tm = .stopped ∧ stops s.q.m c = true) := by
      rw [h3]
      split
      · cases e : s.tm <;> simp_all [Tm.stop]
      · exact .inl rfl
    have hc := (cp_req 0 h1 h4).1
    refine ⟨MultiReq.prog_step i.prog h1, m_req h1 i.m, fun hs => ?_, fun hs => ?_, ?_, fun ht => ?_⟩
    · rw [h2] at hs
      rcases hx with hx | ⟨_, hx, _⟩
      · rw [hx]; exact i.off hs
      · rw [hx]; simp
    · rw [h2] at hs
      have := i.clear hs
      rcases hx with hx | ⟨hx, _⟩
      · rw [hx]; exact this
      · rw [hx] at this; cases this
    · rcases hx with hx | ⟨ha, hx, _⟩
      · rw [hx, i.fired, ne_eq, ne_eq, hc]
      · have := i.fired
        rw [ha] at this
        rw [hx, ne_eq, hc]
        simpa using this
    · rcases hx with hx | ⟨ha, hx, hs⟩
      · exact full_req h1 i.m (i.stopped (hx ▸ ht))
      · exact stops_full h1 i.m hs
  | setTimeout =>
    simp only [step] at h
    split at h
    · split at h
      · cases h; exact i
      · rename_i hs
        cases h
        have ho := i.clear (by simpa using hs)
        refine ⟨i.prog, i.m, fun _ => by simp, (fun h => by cases h), ?_, (fun h => by cases h)⟩
        have := i.fired
        rw [ho] at this
        simpa using this
    · cases h
  | fire f =>
    obtain ⟨ha, h1, h2, h3⟩ := fire_step h
    refine ⟨MultiReq.prog_step i.prog h1, m_req h1 i.m, fun _ => by rw [h3]; simp, fun hs => ?_, ?_, fun ht => by rw [h3] at ht; cases ht⟩
    · rw [h2] at hs
      have := i.clear hs
      rw [ha] at this; cases this
    · rw [h3, fire_cp h1]
      cases f <;> simp

theorem inv_run {s s' : St} {cs : List Choice} (i : Inv s) (h : run s cs = some s') : Inv s' := by
  induction cs generalizing s with
  | nil => cases h; exact i
  | cons c cs ih =>
    simp only [run] at h
    cases e : step s c with
    | none => rw [e] at h; cases h
    | some t => rw [e] at h; exact ih (inv_step i e) h

/-- The timer's `Expire` reads `w.c` first. -/
theorem first_run {s s' : St} {cs : List Choice} (hc : CFirst (s.q.m.cp 0)) (h : run s cs = some s') (hf : .fire false ∉ cs) : CFirst (s'.q.m.cp 0) := by
  induction cs generalizing s with
  | nil => cases h; exact hc
  | cons c cs ih =>
    simp only [run] at h
    cases e : step s c with
    | none => rw [e] at h; cases h
    | some t =>
      rw [e] at h
      refine ih ?_ h fun hm => hf (List.mem_cons_of_mem _ hm)
      cases c with
      | q c =>
        obtain ⟨h1, _, _, h4⟩ := q_step e
        exact (cp_req 0 h1 h4).2 hc
      | setTimeout =>
        simp only [step] at e
        (repeat' split at e) <;> cases e <;> exact hc
      | fire f =>
        cases f with
        | false => exact absurd (List.mem_cons_self ..) hf
        | true => rw [fire_cp (fire_step e).2.1]; trivial

/-! ### Runs of the multi-request are runs with the timer -/

theorem inner_cancel {c : MultiReq.Choice} (h : MultiReq.Inner c) : ∀ k e f, c ≠ .multi (.cancel k e f) := by
  rintro k e f rfl; exact h

theorem lift {s : St} {q : MultiReq.St} {ds : List MultiReq.Choice} (h : MultiReq.run s.q ds = some q) (hi : ∀ d ∈ ds, MultiReq.Inner d) :
    ∃ s', run s (ds.map .q) = some s' ∧ s'.q = q := by
  induction ds generalizing s with
  | nil => cases h; exact ⟨s, rfl, rfl⟩
  | cons c ds ih =>
    simp only [MultiReq.run] at h
    cases e : MultiReq.step s.q c with
    | none => rw [e] at h; cases h
    | some t =>
      rw [e] at h
      obtain ⟨s1, h1, rfl⟩ := q_back e (inner_cancel (hi c (List.mem_cons_self ..)) 0)
      obtain ⟨s2, h2, h3⟩ := ih h fun d hd => hi d (List.mem_cons_of_mem _ hd)
      exact ⟨s2, by simp only [List.map_cons, run, h1]; exact h2, h3⟩

theorem run_append {s : St} {cs ds : List Choice} : run s (cs ++ ds) = (run s cs).bind fun s => run s ds := by
  induction cs generalizing s with
  | nil => rfl
  | cons c cs ih =>
    simp only [List.cons_append, run]
    cases step s c with
    | none => rfl
    | some t => simp only [Option.bind_some]; exact ih

/-- Without the timer. -/
theorem proj {s s' : St} {cs : List Choice} (h : run s cs = some s') :
    ∃ ds, MultiReq.run s.q ds = some s'.q ∧ ∀ d ∈ ds, .q d ∈ cs ∨ ∃ f, d = .multi (.cancel 0 true f) ∧ .fire f ∈ cs := by
  induction cs generalizing s with
  | nil => cases h; exact ⟨[], rfl, by simp⟩
  | cons c cs ih =>
    simp only [run] at h
    cases e : step s c with
    | none => rw [e] at h; cases h
    | some t =>
      rw [e] at h
      obtain ⟨ds, h1, h2⟩ := ih h
      have h2' : ∀ d ∈ ds, .q d ∈ c :: cs ∨ ∃ f, d = .multi (.cancel 0 true f) ∧ .fire f ∈ c :: cs := fun d hd =>
        (h2 d hd).imp (List.mem_cons_of_mem _) fun ⟨f, h, k⟩ => ⟨f, h, List.mem_cons_of_mem _ k⟩
      cases c with
      | q c =>
        obtain ⟨h3, _⟩ := q_step e
        refine ⟨c :: ds, by simp only [MultiReq.run, h3]; exact h1, fun d hd => ?_⟩
        rcases List.mem_cons.1 hd with rfl | hd
        · exact .inl (List.mem_cons_self ..)
        · exact h2' d hd
      | setTimeout =>
        refine ⟨ds, ?_, h2'⟩
        simp only [step] at e
        (repeat' split at e) <;> cases e <;> exact h1
      | fire f =>
        obtain ⟨_, h3, _⟩ := fire_step e
        refine ⟨.multi (.cancel 0 true f) :: ds, by simp only [MultiReq.run, h3]; exact h1, fun d hd => ?_⟩
        rcases List.mem_cons.1 hd with rfl | hd
        · exact .inr ⟨f, rfl, List.mem_cons_self ..⟩
        · exact h2' d hd

/-! ### The timer after `Results` and `Each` -/

/-- `Results` waits or has done so. -/
def W : Multi.OPc → Prop
  | .rWait _ | .rTake | .fin .results => True
  | _ => False

theorem w_step {m m' : Multi.St} {c : Multi.Choice} (h : Multi.step m c = some m') (hw : W m.own) :
    W m'.own ∧ (m'.own = .rWait false → m.own = .rWait false) ∧
      (m.own = .rWait false → m'.own = .rWait false ∨ ∃ i, c = .resp i ∧ m.rp i = .count ∧ m.c + 1 = m.r ∧ m.wait = true) := by
  cases c
  case owner =>
    simp only [Multi.step] at h
    unfold Multi.stepOwner at h
    split at h <;> rename_i e <;> rw [e] at hw <;> (repeat' split at h) <;> cases h <;>
      first
        | (cases hw; done)
        | (refine ⟨trivial, (fun h => by cases h), fun h => ?_⟩; rw [e] at h; cases h; done)
        | (refine ⟨trivial, (fun h => by cases h), fun h => ?_⟩; rw [e] at h; cases h; simp_all; done)
  case resp i =>
    simp only [Multi.step, Multi.stepResp] at h
    split at h <;> rename_i hp <;> (try (repeat' split at h)) <;> cases h <;>
      first
        | exact ⟨hw, id, .inl⟩
        | (rename_i hx
           exact ⟨trivial, (fun h => by cases h), fun _ => .inr ⟨i, rfl, hp, hx.1, hx.2.1⟩⟩)
  case canc k =>
    simp only [Multi.step] at h
    unfold Multi.stepCancel at h
    (repeat' split at h) <;> cases h <;>
      first
        | exact ⟨hw, id, .inl⟩
        | (rw [show ∀ p, ({ Multi.answer m _ _ with cp := p } : Multi.St).own = m.own from fun _ => Multi.answer_own ..]; exact ⟨hw, id, .inl⟩)
  case answer i x =>
    simp only [Multi.step] at h
    split at h <;> cases h
    rw [Multi.answer_own]; exact ⟨hw, id, .inl⟩
  case cancel k e f =>
    simp only [Multi.step] at h
    split at h <;> cases h
    cases e <;> exact ⟨hw, id, .inl⟩
  all_goals
    simp only [Multi.step] at h
    split at h
    · rename_i e; rw [e] at hw; cases hw
    · cases h

theorem f_step {m m' : Multi.St} {c : Multi.Choice} (h : Multi.step m c = some m') (hw : m.own = .fin .each) :
    m'.own = .fin .each ∧ (m'.closed = m.closed ∨ ∃ i, c = .resp i ∧ m.rp i = .close) := by
  cases c
  case owner =>
    simp only [Multi.step, Multi.stepOwner, hw] at h
    cases h
  case resp i =>
    simp only [Multi.step, Multi.stepResp] at h
    split at h <;> rename_i hp <;> (try (repeat' split at h)) <;> cases h <;>
      first
        | exact ⟨hw, .inl rfl⟩
        | exact ⟨hw, .inr ⟨i, rfl, hp⟩⟩
        | (rename_i hx
           have := hx.2.2; rw [hw] at this; cases this)
  case canc k =>
    simp only [Multi.step] at h
    unfold Multi.stepCancel at h
    (repeat' split at h) <;> cases h <;>
      first
        | exact ⟨hw, .inl rfl⟩
        | exact ⟨(Multi.answer_own ..).trans hw, .inl (Multi.answer_closed ..)⟩
  case answer i x =>
    simp only [Multi.step] at h
    split at h <;> cases h
    exact ⟨(Multi.answer_own ..).trans hw, .inl (Multi.answer_closed ..)⟩
  case cancel k e f =>
    simp only [Multi.step] at h
    split at h <;> cases h
    cases e <;> exact ⟨hw, .inl rfl⟩
  all_goals
    simp only [Multi.step] at h
    split at h
    · rename_i e; rw [e] at hw; cases hw
    · cases h

theorem stop_ne (t : Tm) : t.stop ≠ .armed := by cases t <;> simp [Tm.stop]

/-- `Results` waits, or has waited and the timer is not armed. -/
def Waited (s : St) : Prop := W s.q.m.own ∧ (s.q.m.own = .rWait false ∨ s.tm ≠ .armed)

theorem waited_q {s s' : MultiReq.St} {c : MultiReq.Choice} (h : MultiReq.step s c = some s') (hw : W s.m.own) :
    W s'.m.own ∧ (s.m.own = .rWait false → s'.m.own = .rWait false ∨ stops s.m c = true) := by
  obtain ⟨ds, h1, h2⟩ := parts h
  rcases h2 with ⟨d, rfl, rfl⟩ | h2
  · simp only [Multi.run] at h1
    cases e : Multi.step s.m d with
    | none => rw [e] at h1; cases h1
    | some t =>
      rw [e] at h1
      cases h1
      obtain ⟨a, b, c⟩ := w_step e hw
      refine ⟨a, fun h => (c h).imp_right ?_⟩
      rintro ⟨i, rfl, h3, h4, h5⟩
      simp [stops, h3, h4, h5]
  · have := along (P := fun m => W m.own ∧ (s.m.own = .rWait false → m.own = .rWait false)) h1 ⟨hw, id⟩ fun a d b hd ha hs => by
      obtain ⟨x, y, z⟩ := w_step hs ha.1
      refine ⟨x, fun h => (z (ha.2 h)).elim id ?_⟩
      rintro ⟨i, rfl, _⟩
      rcases h2 _ hd with h | ⟨_, h⟩ | ⟨_, _, h⟩ <;> cases h
    exact ⟨this.1, fun h => .inl (this.2 h)⟩

theorem waited_step {s s' : St} {c : Choice} (hw : Waited s) (h : step s c = some s') : Waited s' := by
  cases c with
  | q c =>
    obtain ⟨h1, _, h3, _⟩ := q_step h
    obtain ⟨a, b⟩ := waited_q h1 hw.1
    refine ⟨a, ?_⟩
    rcases hw.2 with hw | hw
    · rcases b hw with b | b
      · exact .inl b
      · right; rw [h3, if_pos b]; exact stop_ne _
    · right; rw [h3]; split
      · exact stop_ne _
      · exact hw
  | setTimeout =>
    simp only [step] at h
    split at h
    · rename_i e
      have := hw.1
      rw [e] at this; cases this
    · cases h
  | fire f =>
    obtain ⟨h0, h1, _, h3⟩ := fire_step h
    exact ⟨(waited_q h1 hw.1).1, .inr (by rw [h3]; simp)⟩

theorem waited_run {s s' : St} {cs : List Choice} (hw : Waited s) (h : run s cs = some s') : Waited s' := by
  induction cs generalizing s with
  | nil => cases h; exact hw
  | cons c cs ih =>
    simp only [run] at h
    cases e : step s c with
    | none => rw [e] at h; cases h
    | some t => rw [e] at h; exact ih (waited_step hw e) h

/-- `Each` has returned, and the channel is open or the timer is not armed. -/
def Ranged (s : St) : Prop := s.q.m.own = .fin .each ∧ (s.q.m.closed = 0 ∨ s.tm ≠ .armed)

theorem ranged_q {s s' : MultiReq.St} {c : MultiReq.Choice} (h : MultiReq.step s c = some s') (hw : s.m.own = .fin .each) :
    s'.m.own = .fin .each ∧ (s'.m.closed = s.m.closed ∨ stops s.m c = true) := by
  obtain ⟨ds, h1, h2⟩ := parts h
  rcases h2 with ⟨d, rfl, rfl⟩ | h2
  · simp only [Multi.run] at h1
    cases e : Multi.step s.m d with
    | none => rw [e] at h1; cases h1
    | some t =>
      rw [e] at h1
      cases h1
      obtain ⟨a, b⟩ := f_step e hw
      refine ⟨a, b.imp_right ?_⟩
      rintro ⟨i, rfl, h3⟩
      simp [stops, h3]
  · have := along (P := fun m => m.own = .fin .each ∧ m.closed = s.m.closed) h1 ⟨hw, rfl⟩ fun a d b hd ha hs => by
      obtain ⟨x, y⟩ := f_step hs ha.1
      refine ⟨x, ?_⟩
      rcases y with y | ⟨i, rfl, _⟩
      · rw [y, ha.2]
      · rcases h2 _ hd with h | ⟨_, h⟩ | ⟨_, _, h⟩ <;> cases h
    exact ⟨this.1, .inl this.2⟩

theorem ranged_step {s s' : St} {c : Choice} (hw : Ranged s) (h : step s c = some s') : Ranged s' := by
  cases c with
  | q c =>
    obtain ⟨h1, _, h3, _⟩ := q_step h
    obtain ⟨a, b⟩ := ranged_q h1 hw.1
    refine ⟨a, ?_⟩
    rcases b with b | b
    · rcases hw.2 with hw | hw
      · exact .inl (b.trans hw)
      · right; rw [h3]; split
        · exact stop_ne _
        · exact hw
    · right; rw [h3, if_pos b]; exact stop_ne _
  | setTimeout =>
    simp only [step] at h
    split at h
    · rename_i e
      have := hw.1
      rw [e] at this; cases this
    · cases h
  | fire f =>
    obtain ⟨h0, h1, _, h3⟩ := fire_step h
    exact ⟨(ranged_q h1 hw.1).1, .inr (by rw [h3]; simp)⟩

theorem ranged_run {s s' : St} {cs : List Choice} (hw : Ranged s) (h : run s cs = some s') : Ranged s' := by
  induction cs generalizing s with
  | nil => cases h; exact hw
  | cons c cs ih =>
    simp only [run] at h
    cases e : step s c with
    | none => rw [e] at h; cases h
    | some t => rw [e] at h; exact ih (ranged_step hw e) h

end Verif.MultiTimer
