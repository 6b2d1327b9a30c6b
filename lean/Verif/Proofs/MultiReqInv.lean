import Verif.Proofs.MultiReq
/-! The invariant linking a multi-request with its requests. -/
namespace Verif.MultiReq
open Verif.Request (Data Pc Ev Op setPc)

/-- What a goroutine of the multi-request does in a request: nothing, calling `RespondFail`, or the same after its answer was taken. -/
inductive Act
  | none
  | fail (i : Nat) (code : UInt32)
  | back (i : Nat)

def oAct : Multi.OPc → Act
  | .chkA i x | .failA _ i _ x => .fail i x
  | .failW i | .failX _ i _ => .back i
  | _ => .none

def cAct : Multi.CPc → Act
  | .failA _ i _ x => .fail i x
  | .failX _ i _ => .back i
  | _ => .none

/-- Where such a goroutine is in request `i`. -/
def At : Act → Nat → Pc → Prop
  | .none, _, p => p = .idle
  | .fail j x, i, p => p = .idle ∨ (i = j ∧ opOf p = some (.fail x) ∧ early p = true)
  | .back j, i, p => (i = j → late p = true ∧ ∃ x, opOf p = some (.fail x)) ∧ (i ≠ j → p = .idle)

/-- Steps of the multi-request outside of the requests. -/
def Outside (m : Multi.St) (c : Multi.Choice) : Prop :=
  (∀ i x, c ≠ .answer i x) ∧ (c = .owner → oAct m.own = .none) ∧ ∀ k, c = .canc k → cAct (m.cp k) = .none

theorem ret_le {m : Multi.St} (h : Multi.Inv m) : m.ret ≤ m.r := by
  cases e : m.own
  case store i => have := h.store i e; omega
  case chk i | chkK i | chkA i _ | failW i => have := h.chk i (by rw [e]; rfl); omega
  all_goals (have := h.quiet (by rw [e]; rfl); omega)

theorem outside {m m' : Multi.St} {c : Multi.Choice} (i : Multi.Inv m) (h : Multi.step m c = some m') (o : Outside m c) :
    m'.code = m.code ∧ (∀ i, m.rp i = .done → m'.rp i = .done) ∧ m.ret ≤ m'.ret ∧
      (oAct m'.own = oAct m.own ∨ oAct m.own = .none ∧ ∃ i x, oAct m'.own = .fail i x) ∧
      ∀ k, cAct (m'.cp k) = cAct (m.cp k) ∨ cAct (m.cp k) = .none ∧ ∃ i x, cAct (m'.cp k) = .fail i x := by
  have hr := ret_le i
  obtain ⟨o1, o2, o3⟩ := o
  cases c
  case answer j x => exact absurd rfl (o1 j x)
  case owner =>
    have o2 := o2 rfl
    simp only [Multi.step] at h
    unfold Multi.stepOwner at h
    split at h <;> rename_i hp <;> rw [hp] at o2 <;> (try cases o2) <;> (repeat' split at h) <;> cases h <;>
      refine ⟨rfl, fun _ h => h, by first | exact Nat.le_refl _ | exact hr, ?_, fun _ => .inl rfl⟩ <;> rw [hp] <;> (try split) <;>
      first | exact .inl rfl | exact .inr ⟨rfl, _, _, rfl⟩
  case canc k =>
    have o3 := o3 k rfl
    simp only [Multi.step] at h
    unfold Multi.stepCancel at h
    split at h <;> rename_i hp <;> rw [hp] at o3 <;> (try cases o3) <;> (repeat' split at h) <;> cases h <;>
      refine ⟨rfl, fun _ h => h, Nat.le_refl _, .inl rfl, fun j => ?_⟩ <;> simp only [Multi.set] <;> by_cases hj : j = k <;>
      (first | exact .inl (by rw [if_neg hj]) | skip) <;> subst hj <;> rw [if_pos rfl, hp] <;> (try split) <;>
      first | exact .inl rfl | exact .inr ⟨rfl, _, _, rfl⟩
  case resp j =>
    simp only [Multi.step, Multi.stepResp] at h
    (repeat' split at h) <;> cases h <;>
      refine ⟨?_, fun u hu => ?_, ?_, ?_, fun _ => .inl ?_⟩ <;> (try split) <;> first
        | rfl | exact Nat.le_refl _ | exact .inl rfl
        | (simp only [Multi.set]; split <;> simp_all)
        | (refine .inl ?_; simp_all [oAct])
  case cancel k e f =>
    simp only [Multi.step] at h
    split at h <;> cases h
    rename_i hk
    refine ⟨by cases e <;> rfl, fun _ hu => by cases e <;> exact hu, by cases e <;> exact Nat.le_refl _, .inl (by cases e <;> rfl), fun j => .inl ?_⟩
    cases e <;> simp only [Multi.set] <;> by_cases hj : j = k
    all_goals first
      | (subst hj; simp only [if_true, hk]; cases f <;> rfl)
      | simp [hj]
  all_goals
    simp only [Multi.step] at h
    (repeat' split at h) <;> cases h <;>
      refine ⟨rfl, fun _ h => h, Nat.le_refl _, .inl ?_, fun _ => .inl rfl⟩ <;> simp_all [oAct]

/-- A request is answered the first time. -/
theorem answer_new {m : Multi.St} {i : Nat} {x : UInt32} (h : m.code i = none) :
    Multi.answer m i x = { m with code := Multi.set m.code i (some x), rp := Multi.set m.rp i .look } := by
  unfold Multi.answer
  rw [h]

theorem answer_old {m : Multi.St} {i : Nat} {x : UInt32} (h : m.code i ≠ none) : Multi.answer m i x = m := by
  unfold Multi.answer
  split
  · rfl
  · exact absurd ‹_› h

/-- The goroutine of the multi-request whose number is `t` is in `RespondFail`. -/
def actOf (m : Multi.St) (t : Nat) : Act := if t = 0 then oAct m.own else cAct (m.cp (t / 2))

/-- The owner and the cancelers. -/
def Ours (t : Nat) : Prop := t = 0 ∨ t % 2 = 1

/-- What comes after `performFail`. -/
def oAfter : Multi.OPc → Multi.OPc
  | .chkA .. | .failW _ => .idle
  | .failA m i n _ | .failX m i n => .fail m (i + 1) n
  | p => p

def cAfter : Multi.CPc → Multi.CPc
  | .failA a i n _ | .failX a i n => .fail a (i + 1) n
  | p => p

theorem oAfter_idem (p : Multi.OPc) : oAfter (oAfter p) = oAfter p := by cases p <;> rfl
theorem cAfter_idem (p : Multi.CPc) : cAfter (cAfter p) = cAfter p := by cases p <;> rfl
theorem oAfter_none {p : Multi.OPc} (h : oAct p = .none) : oAfter p = p := by cases p <;> first | rfl | cases h
theorem cAfter_none {p : Multi.CPc} (h : cAct p = .none) : cAfter p = p := by cases p <;> first | rfl | cases h

/-- The multi-request with goroutine `t` somewhere else. -/
structure Moved (t : Nat) (m m' : Multi.St) : Prop where
  own : t ≠ 0 → m'.own = m.own
  canc : ∀ k, t ≠ 2 * k + 1 → m'.cp k = m.cp k
  inv : Multi.Inv m'
  ret : m.ret ≤ m'.ret
  oaf : oAfter m'.own = oAfter m.own
  caf : ∀ k, cAfter (m'.cp k) = cAfter (m.cp k)

/-- Entering the Responder. -/
theorem enter_step {m : Multi.St} {t i : Nat} {x : UInt32} (h : Multi.Inv m) (hc : m.code i = none)
    (ht : Ours t → actOf m t = .fail i x) (ho : ¬ Ours t → i < m.ret) :
    ∃ m', Multi.step m (enter t i x) = some m' ∧ Moved t m m' ∧ m'.code = Multi.set m.code i (some x) ∧ m'.rp = Multi.set m.rp i .look ∧
      (Ours t → actOf m' t = .back i) := by
  suffices ∃ m', Multi.step m (enter t i x) = some m' ∧ (t ≠ 0 → m'.own = m.own) ∧ (∀ k, t ≠ 2 * k + 1 → m'.cp k = m.cp k) ∧ m'.ret = m.ret ∧
      (t = 0 → oAfter m'.own = oAfter m.own) ∧ (∀ k, t = 2 * k + 1 → cAfter (m'.cp k) = cAfter (m.cp k)) ∧
      m'.code = Multi.set m.code i (some x) ∧ m'.rp = Multi.set m.rp i .look ∧ (Ours t → actOf m' t = .back i) by
    obtain ⟨m', h1, h2, h3, h4, a1, a2, h5, h6, h7⟩ := this
    refine ⟨m', h1, ⟨h2, h3, Multi.inv_step h h1, by omega, ?_, fun k => ?_⟩, h5, h6, h7⟩
    · by_cases e : t = 0
      · exact a1 e
      · rw [h2 e]
    · by_cases e : t = 2 * k + 1
      · exact a2 k e
      · rw [h3 k e]
  unfold enter
  by_cases h0 : t = 0
  · subst h0
    have ht := ht (.inl rfl)
    simp only [actOf, if_true] at ht
    simp only [if_true, Multi.step]
    unfold Multi.stepOwner
    cases hp : m.own <;> rw [hp] at ht <;> cases ht
    all_goals exact ⟨_, rfl, by simp, by simp [answer_new hc], by simp [answer_new hc], fun _ => rfl, fun k hk => by omega, by simp [answer_new hc], by simp [answer_new hc], fun _ => rfl⟩
  · simp only [if_neg h0]
    by_cases h1 : t % 2 = 1
    · have ht := ht (.inr h1)
      simp only [actOf, if_neg h0] at ht
      simp only [if_pos h1, Multi.step]
      unfold Multi.stepCancel
      cases hp : m.cp (t / 2) <;> rw [hp] at ht <;> cases ht
      refine ⟨_, rfl, by simp [answer_new hc], ?_, by simp [answer_new hc], fun h => absurd h h0, ?_, by simp [answer_new hc], by simp [answer_new hc], fun _ => ?_⟩
      · intro k hk
        have : k ≠ t / 2 := by omega
        simp [answer_new hc, Multi.set, this]
      · intro k hk
        have : k = t / 2 := by omega
        subst this
        simp [Multi.set, hp, cAfter]
      · simp [actOf, h0, Multi.set, cAct]
    · have : i < m.ret := ho (by rintro (h | h) <;> contradiction)
      simp only [if_neg h1, Multi.step, if_pos this]
      exact ⟨_, rfl, by simp [answer_new hc], by simp [answer_new hc], by simp [answer_new hc], fun h => absurd h h0, fun k hk => by omega,
        by simp [answer_new hc], by simp [answer_new hc],
        by rintro (h | h) <;> contradiction⟩

/-- Coming back from a request. -/
theorem leave_step {m : Multi.St} {t i : Nat} (h : Multi.Inv m) (hd : m.rp i = .done)
    (ht : Ours t → (∃ x, actOf m t = .fail i x) ∨ actOf m t = .back i) :
    ∃ m', leave m t = some m' ∧ Moved t m m' ∧ m'.code = m.code ∧ m'.rp = m.rp ∧ (t = 0 → m'.own = oAfter m.own) ∧
      (∀ k, t = 2 * k + 1 → m'.cp k = cAfter (m.cp k)) ∧ (Ours t → actOf m' t = .none) := by
  have hc : m.code i ≠ none := by
    intro e
    rw [(h.code i).1 e] at hd
    cases hd
  suffices ∃ m', leave m t = some m' ∧ (t ≠ 0 → m'.own = m.own) ∧ (∀ k, t ≠ 2 * k + 1 → m'.cp k = m.cp k) ∧ m.ret ≤ m'.ret ∧ Multi.Inv m' ∧
      m'.code = m.code ∧ m'.rp = m.rp ∧ (t = 0 → m'.own = oAfter m.own) ∧
      (∀ k, t = 2 * k + 1 → m'.cp k = cAfter (m.cp k)) ∧ (Ours t → actOf m' t = .none) by
    obtain ⟨m', h1, h2, h3, h4, h5, a1, a2, a3, a4, h6⟩ := this
    refine ⟨m', h1, ⟨h2, h3, h5, h4, ?_, fun k => ?_⟩, a1, a2, a3, a4, h6⟩
    · by_cases e : t = 0
      · rw [a3 e, oAfter_idem]
      · rw [h2 e]
    · by_cases e : t = 2 * k + 1
      · rw [a4 k e, cAfter_idem]
      · rw [h3 k e]
  have hr := ret_le h
  unfold leave
  by_cases h0 : t = 0
  · subst h0
    have ht := ht (.inl rfl)
    simp only [actOf, if_true] at ht
    rw [if_pos rfl]
    have key : ∀ m', (match m.own with | .chkA .. => Multi.run m [.owner, .owner] | .failA .. => Multi.run m [.owner, .owner] | _ => Multi.step m .owner) = some m' → Multi.Inv m' := by
      intro m' h'
      split at h'
      · exact Multi.inv_run h h'
      · exact Multi.inv_run h h'
      · exact Multi.inv_step h h'
    cases hp : m.own <;> rw [hp] at ht <;> simp only [oAct, reduceCtorEq, exists_false, or_self, Act.fail.injEq, Act.back.injEq, exists_and_left, false_or, or_false, exists_eq', and_true] at ht
    all_goals
      subst ht
      rw [hp] at key
      simp only [Multi.run, Multi.step, Multi.stepOwner, hp, answer_old hc, Option.bind_some, hd, if_true] at key ⊢
      refine ⟨_, rfl, by simp, by simp, by first | exact hr | exact Nat.le_refl _, key _ rfl, rfl, rfl, fun _ => rfl, fun k hk => by omega, fun _ => rfl⟩
  · rw [if_neg h0]
    by_cases h1 : t % 2 = 1
    · have ht := ht (.inr h1)
      simp only [actOf, if_neg h0] at ht
      rw [if_pos h1]
      have key : ∀ m', (match m.cp (t / 2) with | .failA .. => Multi.run m [.canc (t / 2), .canc (t / 2)] | _ => Multi.step m (.canc (t / 2))) = some m' → Multi.Inv m' := by
        intro m' h'
        split at h'
        · exact Multi.inv_run h h'
        · exact Multi.inv_step h h'
      cases hp : m.cp (t / 2) <;> rw [hp] at ht <;> simp only [cAct, reduceCtorEq, exists_false, or_self, Act.fail.injEq, Act.back.injEq, exists_and_left, false_or, or_false, exists_eq', and_true] at ht
      all_goals
        subst ht
        rw [hp] at key
        simp only [Multi.run, Multi.step, Multi.stepCancel, hp, answer_old hc, Option.bind_some, hd, if_true, Multi.set] at key ⊢
        refine ⟨_, rfl, by simp, ?_, Nat.le_refl _, key _ rfl, rfl, rfl, fun h => absurd h h0, fun k hk => ?_, fun _ => ?_⟩
        · intro k hk
          have : k ≠ t / 2 := by omega
          simp [this, Multi.set]
        · have : k = t / 2 := by omega
          subst this
          simp [hp, cAfter, Multi.set]
        · simp [actOf, h0, cAct, Multi.set]
    · rw [if_neg h1]
      exact ⟨m, rfl, fun _ => rfl, fun _ _ => rfl, Nat.le_refl _, h, rfl, rfl, fun h => absurd h h0, fun k hk => by omega, by rintro (h | h) <;> contradiction⟩

structure Inv (s : St) : Prop where
  multi : Multi.Inv s.m
  req : ∀ i, I13 (s.r i)
  code : ∀ i, s.m.code i = dcode (s.r i).d.log
  done : ∀ i, (s.r i).d.rs = .performed → s.m.rp i = .done
  fin : ∀ i t op, (s.r i).pc t = .finish op → s.m.rp i = .done
  act : ∀ i t, Ours t → At (actOf s.m t) i ((s.r i).pc t)
  oth : ∀ i t, ¬ Ours t → (s.r i).pc t ≠ .idle → i < s.m.ret

theorem inv_init (msg : Nat → UInt32) : Inv (init msg) where
  multi := Multi.inv_init
  req i := { mutex := by intro t h; cases h
             owner := by intro t h; cases h
             free := fun _ => ⟨by simp [init, fresh, Request.init], .inl ⟨rfl, by simp [init, fresh, Request.init]⟩⟩
             waits := by intro t op h; cases h }
  code i := rfl
  done i h := by cases h
  fin i t op h := by cases h
  act i t h := by
    simp only [init, fresh, Request.init, actOf, Multi.init, oAct, cAct]
    split <;> rfl
  oth i t h hp := absurd rfl hp

/-- A step of the multi-request outside of the requests. -/
theorem inv_outside {s : St} {m : Multi.St} {c : Multi.Choice} (i : Inv s) (o : Outside s.m c) (h : Multi.step s.m c = some m) :
    Inv { s with m } := by
  obtain ⟨h1, h2, h3, h4, h5⟩ := outside i.multi h o
  refine ⟨Multi.inv_step i.multi h, i.req, fun j => by rw [← i.code j]; exact congrFun h1 j, fun j hj => h2 j (i.done j hj), fun j t op hj => h2 j (i.fin j t op hj), fun j t ht => ?_,
    fun j t ht hp => Nat.lt_of_lt_of_le (i.oth j t ht hp) h3⟩
  have ha := i.act j t ht
  have : actOf m t = actOf s.m t ∨ actOf s.m t = .none ∧ ∃ i x, actOf m t = .fail i x := by
    unfold actOf
    split
    · exact h4
    · exact h5 _
  rcases this with e | ⟨e, k, x, e'⟩
  · show At (actOf m t) j _
    rw [e]; exact ha
  · show At (actOf m t) j _
    rw [e] at ha
    rw [e']
    exact .inl ha

theorem At_none {i : Nat} {p : Pc} (h : At .none i p) : p = .idle := h

theorem At_ours {a : Act} {i : Nat} {p : Pc} (h : At a i p) (hp : p ≠ .idle) :
    (∃ x, a = .fail i x ∧ opOf p = some (.fail x) ∧ early p = true) ∨ (∃ x, a = .back i ∧ opOf p = some (.fail x) ∧ late p = true) := by
  cases a with
  | none => exact absurd h hp
  | fail j x =>
    rcases h with h | ⟨rfl, h1, h2⟩
    · exact absurd h hp
    · exact .inl ⟨x, rfl, h1, h2⟩
  | back j =>
    by_cases e : i = j
    · subst e
      obtain ⟨h1, x, h2⟩ := h.1 rfl
      exact .inr ⟨x, rfl, h2, h1⟩
    · exact absurd (h.2 e) hp

/-- The request machine with one request moved. -/
def upd (r : Nat → Request.St) (i : Nat) (r' : Request.St) : Nat → Request.St := fun j => if j = i then r' else r j

theorem upd_same {r : Nat → Request.St} {i : Nat} {r' : Request.St} : upd r i r' i = r' := by simp [upd]
theorem upd_other {r : Nat → Request.St} {i j : Nat} {r' : Request.St} (h : j ≠ i) : upd r i r' j = r j := by simp [upd, h]

theorem withReq_some {s s' : St} {i : Nat} {o : Option Request.St} (h : s.withReq i o = some s') : ∃ r', o = some r' ∧ s' = { s with r := upd s.r i r' } := by
  cases o with
  | none => cases h
  | some r' => cases h; exact ⟨r', rfl, rfl⟩

theorem withM_some {s s' : St} {o : Option Multi.St} (h : s.withM o = some s') : ∃ m, o = some m ∧ s' = { s with m } := by
  cases o with
  | none => cases h
  | some m => cases h; exact ⟨m, rfl, rfl⟩

/-- A step of a request without the multi-request. -/
theorem inv_req {s : St} {i : Nat} {c : Request.Choice} {r' : Request.St} (I : Inv s) (h : Request.step (s.r i) c = some r') (hk : Still c)
    (hcall : ∀ t op, c = .call t op → (Ours t → ∃ x, op = .fail x ∧ actOf s.m t = .fail i x) ∧ (¬ Ours t → i < s.m.ret))
    (hresp : ∀ t a, c ≠ .responder t a)
    (hgo : ∀ t, c = .go t → (∀ op, (s.r i).pc t = .leave op → ¬ Ours t) ∧ (∀ op l, (s.r i).pc t = .fin op l → s.m.rp i = .done)) :
    Inv { s with r := upd s.r i r' } := by
  have hd := did (I.req i) h
  have hi : I13 r' := Request.inv_step rules13 (I.req i) hk h
  -- what remains to be shown about the goroutine that moved
  suffices dcode r'.d.log = dcode (s.r i).d.log ∧ (r'.d.rs = .performed → s.m.rp i = .done) ∧
      ∃ t p, r'.pc = setPc (s.r i).pc t p ∧ (Ours t → At (actOf s.m t) i p) ∧ (∀ op, p = .finish op → s.m.rp i = .done) ∧
        (¬ Ours t → p ≠ .idle → i < s.m.ret) by
    obtain ⟨h1, h2, t, p, h3, h4, h5, h6⟩ := this
    refine ⟨I.multi, fun j => ?_, fun j => ?_, fun j hj => ?_, fun j u op hj => ?_, fun j u hu => ?_, fun j u hu hp => ?_⟩
    all_goals
      by_cases e : j = i
      · subst e
        simp only [upd_same] at *
        first
          | exact hi
          | (rw [h1]; exact I.code j)
          | exact h2 hj
          | (rw [h3] at hj; simp only [setPc] at hj; split at hj
             · exact h5 op hj
             · exact I.fin j u op hj)
          | (rw [h3]; simp only [setPc]; split
             · rename_i e; subst e; exact h4 hu
             · exact I.act j u hu)
          | (rw [h3] at hp; simp only [setPc] at hp; split at hp
             · rename_i e; subst e; exact h6 hu hp
             · exact I.oth j u hu hp)
      · simp only [upd_other e] at *
        first
          | exact I.req j
          | exact I.code j
          | exact I.done j hj
          | exact I.fin j u op hj
          | exact I.act j u hu
          | exact I.oth j u hu hp
  cases hd with
  | call t op h1 h2 h3 =>
    obtain ⟨k1, k2⟩ := hcall t op rfl
    refine ⟨by rw [h3], by rw [h3]; exact I.done i, t, _, h2, fun ht => ?_, by simp, fun ht _ => k2 ht⟩
    obtain ⟨x, rfl, hx⟩ := k1 ht
    rw [hx]
    exact .inr ⟨rfl, rfl, rfl⟩
  | cas t op h1 h2 h3 h4 h5 =>
    refine ⟨h4, fun h => I.done i (h5 h), t, _, h3, fun ht => ?_, by simp, fun _ h => absurd rfl h⟩
    rcases At_ours (I.act i t ht) (by rw [h1]; simp) with ⟨x, _, h6, _⟩ | ⟨x, _, h6, _⟩
    all_goals
      rw [h1] at h6
      simp only [opOf, Option.some.injEq] at h6
      subst h6
      cases h2
  | go t p h1 h2 h3 h4 h5 h6 h7 h8 h9 h10 =>
    obtain ⟨k1, k2⟩ := hgo t rfl
    refine ⟨h7, fun h => ?_, t, p, h1, fun ht => ?_, ?_, fun ht hp => I.oth i t ht h4⟩
    · rcases h8 h with h | ⟨op, h⟩
      · exact I.done i h
      · exact I.fin i t op h
    · rcases At_ours (I.act i t ht) h4 with ⟨x, e1, e2, e3⟩ | ⟨x, e1, e2, e3⟩
      · rw [e1]
        exact .inr ⟨rfl, h2.trans e2, h5 e3⟩
      · rw [e1]
        exact ⟨fun _ => ⟨h6 e3, x, h2.trans e2⟩, fun h => absurd rfl h⟩
    · intro op hp
      obtain ⟨op', l, h⟩ := h10 op hp
      exact k2 op' l h
  | leave t op h1 h2 h3 h4 =>
    exact ⟨h3, by rw [h4]; exact I.done i, t, _, h2, fun ht => absurd ht ((hgo t rfl).1 op h1), by simp, fun _ h => absurd rfl h⟩
  | bookmark t op acts h1 h2 h3 h4 =>
    refine ⟨h3, by rw [h4]; exact I.done i, t, _, h2, fun ht => ?_, by simp, fun ht _ => I.oth i t ht (by rw [h1]; simp)⟩
    rcases At_ours (I.act i t ht) (by rw [h1]; simp) with ⟨x, e1, e2, e3⟩ | ⟨x, e1, e2, e3⟩
    · rw [e1]
      rw [h1] at e2
      exact .inr ⟨rfl, e2, rfl⟩
    · rw [h1] at e3
      cases e3
  | responder t op x acts => exact absurd rfl (hresp t acts)

theorem Moved.act {t u : Nat} {m m' : Multi.St} (h : Moved t m m') (hu : Ours u) (hne : u ≠ t) : actOf m' u = actOf m u := by
  unfold actOf
  split
  · rw [h.own (by omega)]
  · rw [h.canc (u / 2) (by rcases hu with hu | hu <;> omega)]

/-- A goroutine of a request that moves with the multi-request. -/
theorem inv_both {s : St} {i t : Nat} {c : Request.Choice} {r' : Request.St} {m : Multi.St} {p : Pc} (I : Inv s) (h : Request.step (s.r i) c = some r')
    (hk : Still c) (hm : Moved t s.m m) (hp : r'.pc = setPc (s.r i).pc t p) (hrp : ∀ j, s.m.rp j = .done → m.rp j = .done)
    (hc : ∀ j, j ≠ i → m.code j = s.m.code j) (hci : m.code i = dcode r'.d.log)
    (hd : r'.d.rs = .performed → s.m.rp i = .done) (ha : ∀ j, Ours t → At (actOf m t) j (if j = i then p else (s.r j).pc t))
    (hf : ∀ op, p ≠ .finish op) (ho : ¬ Ours t → p ≠ .idle → i < s.m.ret) : Inv { m, r := upd s.r i r' } := by
  have hi : I13 r' := Request.inv_step rules13 (I.req i) hk h
  refine ⟨hm.inv, fun j => ?_, fun j => ?_, fun j hj => ?_, fun j u op hj => ?_, fun j u hu => ?_, fun j u hu hpu => ?_⟩
  · by_cases e : j = i
    · subst e; simp only [upd_same]; exact hi
    · simp only [upd_other e]; exact I.req j
  · by_cases e : j = i
    · subst e; simp only [upd_same]; exact hci
    · simp only [upd_other e]; exact (hc j e).trans (I.code j)
  · by_cases e : j = i
    · subst e; simp only [upd_same] at hj; exact hrp j (hd hj)
    · simp only [upd_other e] at hj; exact hrp j (I.done j hj)
  · refine hrp j ?_
    by_cases e : j = i
    · subst e
      simp only [upd_same, hp, setPc] at hj
      split at hj
      · exact absurd hj (hf op)
      · exact I.fin j u op hj
    · simp only [upd_other e] at hj; exact I.fin j u op hj
  · by_cases eu : u = t
    · subst eu
      have := ha j hu
      by_cases e : j = i
      · subst e; rw [if_pos rfl] at this; simp only [upd_same, hp, setPc, if_true]; exact this
      · rw [if_neg e] at this; simp only [upd_other e]; exact this
    · show At (actOf m u) j _
      rw [hm.act hu eu]
      have := I.act j u hu
      by_cases e : j = i
      · subst e; simp only [upd_same, hp, setPc, if_neg eu]; exact this
      · simp only [upd_other e]; exact this
  · refine Nat.lt_of_lt_of_le ?_ hm.ret
    by_cases e : j = i
    · subst e
      simp only [upd_same, hp, setPc] at hpu
      split at hpu
      · rename_i eu; subst eu; exact ho hu hpu
      · exact I.oth j u hu hpu
    · simp only [upd_other e] at hpu; exact I.oth j u hu hpu

/-- Entering the Responder in request `i`. -/
theorem resp_facts {s : St} {i t : Nat} {op : Op} {x : Request.Resp} (I : Inv s) (hw : (s.r i).pc t = .walk op) (hx : (s.r i).d.resp = some x) :
    s.m.code i = none ∧ (Ours t → actOf s.m t = .fail i x.code ∧ op = .fail x.code) ∧ (¬ Ours t → i < s.m.ret) := by
  have hH := ((I.req i).owner t ((I.req i).mutex t (by rw [hw]; rfl))).2
  rw [hw] at hH
  obtain ⟨h1, y, h2, h3⟩ := hH
  rw [hx] at h2
  cases h2
  refine ⟨?_, fun ht => ?_, fun ht => I.oth i t ht (by rw [hw]; simp)⟩
  · rw [I.code i]
    exact (dcode_none _).2 h1.1
  · rcases At_ours (I.act i t ht) (by rw [hw]; simp) with ⟨z, e1, e2, e3⟩ | ⟨z, e1, e2, e3⟩
    · rw [hw] at e2
      simp only [opOf, Option.some.injEq] at e2
      subst e2
      simp only [code, Option.some.injEq] at h3
      subst h3
      exact ⟨e1, rfl⟩
    · rw [hw] at e3; cases e3

/-- Coming back from request `i`. -/
theorem leave_facts {s : St} {i t : Nat} {op : Op} (I : Inv s) (hw : (s.r i).pc t = .leave op) (ht : Ours t) :
    s.m.rp i = .done ∧ ((∃ x, actOf s.m t = .fail i x) ∨ actOf s.m t = .back i) ∧ ∀ j, j ≠ i → (s.r j).pc t = .idle := by
  have hH := ((I.req i).owner t ((I.req i).mutex t (by rw [hw]; rfl))).2
  rw [hw] at hH
  have key : isFail op = true ∧ ((∃ x, actOf s.m t = .fail i x) ∨ actOf s.m t = .back i) := by
    rcases At_ours (I.act i t ht) (by rw [hw]; simp) with ⟨z, e1, e2, e3⟩ | ⟨z, e1, e2, e3⟩
    all_goals
      rw [hw] at e2
      simp only [opOf, Option.some.injEq] at e2
      subst e2
    · exact ⟨rfl, .inl ⟨z, e1⟩⟩
    · exact ⟨rfl, .inr e1⟩
  refine ⟨I.done i (hH.2 key.1), key.2, fun j hj => ?_⟩
  have := I.act j t ht
  rcases key.2 with ⟨x, e⟩ | e
  · rw [e] at this
    rcases this with h | ⟨h, _⟩
    · exact h
    · exact absurd h hj
  · rw [e] at this
    exact this.2 hj

theorem leave_other {m : Multi.St} {t : Nat} (h : ¬ Ours t) : leave m t = some m := by
  unfold leave
  rw [if_neg (fun e => h (.inl e)), if_neg (fun e => h (.inr e))]

theorem ours_odd (k : Nat) : Ours (2 * k + 1) := .inr (by omega)
theorem actOf_odd (m : Multi.St) (k : Nat) : actOf m (2 * k + 1) = cAct (m.cp k) := by
  unfold actOf
  rw [if_neg (by omega)]
  congr 2
  omega

theorem inv_fail {s s' : St} {i t : Nat} {x : UInt32} (I : Inv s) (ht : Ours t) (ha : actOf s.m t = .fail i x) (h : s.fail i t x = some s') : Inv s' := by
  obtain ⟨r', h1, rfl⟩ := withReq_some h
  refine inv_req I h1 trivial ?_ ?_ ?_
  · intro u op e
    cases e
    exact ⟨fun _ => ⟨x, rfl, ha⟩, fun h => absurd ht h⟩
  · intro u a e; cases e
  · intro u e; cases e

theorem inv_step {s s' : St} {c : Choice} (I : Inv s) (h : step s c = some s') : Inv s' := by
  cases c with
  | multi c =>
    have out : ∀ {c}, Outside s.m c → s.withM (Multi.step s.m c) = some s' → Inv s' := by
      intro c ho h
      obtain ⟨m, h1, rfl⟩ := withM_some h
      exact inv_outside I ho h1
    simp only [step] at h
    cases c
    case answer j x => cases h
    case owner =>
      simp only [multiStep] at h
      split at h
      · exact inv_fail I (.inl rfl) (by simp [actOf, oAct, *]) h
      · exact inv_fail I (.inl rfl) (by simp [actOf, oAct, *]) h
      · cases h
      · cases h
      · refine out ⟨by simp, fun _ => ?_, by simp⟩ h
        cases e : s.m.own <;> first | rfl | (rename_i hx; exact absurd e (by grind)) | grind
    case canc k =>
      simp only [multiStep] at h
      split at h
      · exact inv_fail I (ours_odd k) (by simp [actOf_odd, cAct, *]) h
      · cases h
      · refine out ⟨by simp, by simp, fun j hj => ?_⟩ h
        cases hj
        cases e : s.m.cp k <;> first | rfl | grind
    all_goals exact out ⟨by simp, by simp, by simp⟩ h
  | req i c =>
    simp only [step] at h
    cases c with
    | call t op =>
      simp only [reqStep] at h
      split at h
      · rename_i ht
        have no : ¬ Ours t := by rintro (h | h) <;> omega
        obtain ⟨r', h1, rfl⟩ := withReq_some h
        refine inv_req I h1 trivial ?_ (by simp) (by simp)
        intro u op' e
        cases e
        exact ⟨fun h => absurd h no, fun _ => ht.2.2⟩
      · cases h
    | bookmark t acts =>
      simp only [reqStep] at h
      split at h
      · rename_i ha
        subst ha
        obtain ⟨r', h1, rfl⟩ := withReq_some h
        exact inv_req I h1 rfl (by simp) (by simp) (by simp)
      · cases h
    | responder t acts =>
      simp only [reqStep] at h
      split at h
      · cases h
      · rename_i x hx
        split at h
        · rename_i ha
          subst ha
          cases h0 : s.withReq i (Request.step (s.r i) (.responder t [])) with
          | none => rw [h0] at h; cases h
          | some s1 =>
            rw [h0] at h
            obtain ⟨r', h1, rfl⟩ := withReq_some h0
            obtain ⟨m, h2, rfl⟩ := withM_some h
            cases did (I.req i) h1 with
            | responder _ op y _ hw hy hp hd hr =>
              rw [hx] at hy
              cases hy
              obtain ⟨k1, k2, k3⟩ := resp_facts I hw hx
              obtain ⟨m', e1, e2, e3, e4, e5⟩ := enter_step (t := t) I.multi k1 (fun ht => (k2 ht).1) k3
              rw [e1] at h2
              cases h2
              have hidle := (I.multi.code i).1 k1
              refine inv_both I h1 rfl e2 hp ?_ ?_ ?_ ?_ ?_ (by simp) (fun ht _ => k3 ht)
              · intro j hj
                rw [e4]
                simp only [Multi.set]
                split
                · rename_i e; subst e; rw [hidle] at hj; cases hj
                · exact hj
              · intro j hj; rw [e3]; simp [Multi.set, hj]
              · rw [e3, hd]; simp [Multi.set]
              · rw [hr]; exact I.done i
              · intro j ht
                rw [e5 ht]
                refine ⟨fun e => ?_, fun e => ?_⟩
                · rw [if_pos e]; exact ⟨rfl, x.code, by rw [(k2 ht).2]; rfl⟩
                · rw [if_neg e]
                  have := I.act j t ht
                  rw [(k2 ht).1] at this
                  rcases this with h | ⟨h, _⟩
                  · exact h
                  · exact absurd h e
        · cases h
    | go t =>
      simp only [reqStep] at h
      split at h
      · rename_i op hw
        split at h
        · rename_i hd
          obtain ⟨r', h1, rfl⟩ := withReq_some h
          refine inv_req I h1 trivial (by simp) (by simp) ?_
          intro u e
          cases e
          exact ⟨fun op h => (by rw [hw] at h; cases h), fun _ _ _ => hd⟩
        · cases h
      · rename_i op hw
        cases h0 : s.withReq i (Request.step (s.r i) (.go t)) with
        | none => rw [h0] at h; cases h
        | some s1 =>
          rw [h0] at h
          obtain ⟨r', h1, rfl⟩ := withReq_some h0
          obtain ⟨m, h2, rfl⟩ := withM_some h
          by_cases ht : Ours t
          · obtain ⟨k1, k2, k3⟩ := leave_facts I hw ht
            obtain ⟨m', e1, e2, e3, e4, _, _, e5⟩ := leave_step (t := t) I.multi k1 (fun _ => k2)
            rw [e1] at h2
            cases h2
            have hd := did (I.req i) h1
            have : r'.pc = setPc (s.r i).pc t .idle ∧ dcode r'.d.log = dcode (s.r i).d.log ∧ r'.d.rs = (s.r i).d.rs := by
              cases hd with
              | cas _ op' h => rw [hw] at h; cases h
              | go _ p a1 a2 a3 a4 a5 a6 a7 a8 a9 => exact absurd hw (a9 op)
              | leave _ op' a1 a2 a3 a4 => exact ⟨a2, a3, a4⟩
            refine inv_both I h1 trivial e2 this.1 ?_ ?_ ?_ ?_ ?_ (by simp) (fun h => absurd ht h)
            · intro j hj; rw [e4]; exact hj
            · intro j hj; rw [e3]
            · rw [e3, this.2.1]; exact I.code i
            · rw [this.2.2]; exact I.done i
            · intro j _
              rw [e5 ht]
              show (if j = i then Pc.idle else _) = _
              split
              · rfl
              · exact k3 j ‹_›
          · rw [leave_other ht] at h2
            cases h2
            refine inv_req I h1 trivial (by simp) (by simp) ?_
            intro u e
            cases e
            exact ⟨fun _ _ => ht, fun op l h => (by rw [hw] at h; cases h)⟩
      · rename_i hn1 hn2
        obtain ⟨r', h1, rfl⟩ := withReq_some h
        refine inv_req I h1 trivial (by simp) (by simp) ?_
        intro u e
        cases e
        refine ⟨fun op h => absurd h (hn2 op), fun op l h => ?_⟩
        have hH := ((I.req i).owner t ((I.req i).mutex t (by rw [h]; rfl))).2
        rw [h] at hH
        have := hH.2.1
        subst this
        exact absurd h (hn1 op)

theorem inv_run {s s' : St} {cs : List Choice} (I : Inv s) (h : run s cs = some s') : Inv s' := by
  induction cs generalizing s with
  | nil => cases h; exact I
  | cons c cs ih =>
    simp only [run] at h
    cases e : step s c with
    | none => rw [e] at h; cases h
    | some t => rw [e] at h; exact ih (inv_step I e) h

end Verif.MultiReq
