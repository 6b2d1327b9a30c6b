import Verif.Proofs.MultiReqProg
import Verif.Proofs.MultiReqProj
/-! The owner of a multi-request comes to the end of its calls. -/
namespace Verif.MultiReq
open Verif.Request (Data Pc Ev Op setPc)

/-! ### What lasts -/

/-- The owner is in `Results` or has been. -/
def Coll (p : Multi.OPc) : Prop := Collecting p ∨ p = .fin .results ∨ p = .nilPanic

structure Keep (m m' : Multi.St) : Prop where
  cp : ∀ k b, m.cp k = .done b → m'.cp k = .done b
  code : ∀ i, m.code i ≠ none → m'.code i ≠ none
  rp : ∀ i, m.rp i = .done → m'.rp i = .done
  coll : Coll m.own → Coll m'.own ∧ m'.ret = m.ret

theorem Keep.refl (m : Multi.St) : Keep m m := ⟨fun _ _ h => h, fun _ h => h, fun _ h => h, fun h => ⟨h, rfl⟩⟩

theorem Keep.trans {a b c : Multi.St} (h : Keep a b) (k : Keep b c) : Keep a c :=
  ⟨fun i b hb => k.cp i b (h.cp i b hb), fun i hi => k.code i (h.code i hi), fun i hi => k.rp i (h.rp i hi), fun hc =>
    ⟨(k.coll (h.coll hc).1).1, (k.coll (h.coll hc).1).2.trans (h.coll hc).2⟩⟩

theorem keep_answer {m : Multi.St} {i : Nat} {x : UInt32} (I : Multi.Inv m) : Keep m (Multi.answer m i x) := by
  by_cases h : m.code i = none
  · rw [answer_new h]
    have h1 := (I.code i).1 h
    refine ⟨fun _ _ h => h, fun j hj => ?_, fun j hj => ?_, fun h => ⟨h, rfl⟩⟩
    · simp only [Multi.set]; split
      · simp
      · exact hj
    · simp only [Multi.set]; split
      · rename_i e; subst e; rw [h1] at hj; cases hj
      · exact hj
  · rw [answer_old h]; exact .refl m

theorem keep_step {m m' : Multi.St} {c : Multi.Choice} (I : Multi.Inv m) (h : Multi.step m c = some m') : Keep m m' := by
  cases c
  case answer j x =>
    simp only [Multi.step] at h
    split at h <;> cases h
    exact keep_answer I
  case resp i =>
    simp only [Multi.step, Multi.stepResp] at h
    (repeat' split at h) <;> cases h <;>
      refine ⟨?_, ?_, fun j hj => ?_, fun hc => ?_⟩ <;> (try split) <;>
      first
        | exact fun _ _ h => h
        | exact fun _ h => h
        | exact ⟨hc, rfl⟩
        | exact ⟨.inl trivial, rfl⟩
        | (simp only [Multi.set]; split <;> first | exact hj | (rename_i e; subst e; simp_all))
  case owner =>
    simp only [Multi.step] at h
    unfold Multi.stepOwner at h
    split at h <;> rename_i hp <;> (repeat' split at h) <;> cases h <;>
      first
        | (refine ⟨fun _ _ h => h, fun _ h => h, fun _ h => h, fun hc => ?_⟩
           simp only [Coll, Collecting] at hc ⊢
           rw [hp] at hc
           simp_all
           done)
        | (refine ⟨fun _ _ h => h, fun _ h => h, fun _ h => h, fun hc => ?_⟩
           simp only [Coll, Collecting] at hc ⊢
           rw [hp] at hc
           try rename Multi.Mode => mo
           try cases mo
           all_goals (try split)
           all_goals simp_all
           done)
        | (refine ⟨fun k b hb => (keep_answer I).cp k b hb, (keep_answer I).code, (keep_answer I).rp, fun hc => ?_⟩
           have hr : ∀ i x, (Multi.answer m i x).ret = m.ret := fun i x => ((keep_answer I).coll hc).2
           simp only [Coll, Collecting] at hc ⊢
           rw [hp] at hc
           refine ⟨?_, hr _ _⟩
           try rename Multi.Mode => mo
           try cases mo
           all_goals simp_all)
  case canc k =>
    simp only [Multi.step] at h
    unfold Multi.stepCancel at h
    split at h <;> rename_i hp <;> (repeat' split at h) <;> cases h <;>
      first
        | (refine ⟨fun j b hb => ?_, fun _ h => h, fun _ h => h, fun hc => ⟨hc, rfl⟩⟩
           simp only [Multi.set]
           split
           · rename_i e; subst e; rw [hp] at hb; cases hb
           · exact hb)
        | (refine ⟨fun j b hb => ?_, (keep_answer I).code, (keep_answer I).rp, (keep_answer I).coll⟩
           simp only [Multi.set]
           split
           · rename_i e; subst e; rw [hp] at hb; cases hb
           · exact hb)
  case cancel k e f =>
    simp only [Multi.step] at h
    split at h <;> cases h
    rename_i hk
    refine ⟨fun j b hb => ?_, by cases e <;> exact fun _ h => h, by cases e <;> exact fun _ h => h, fun hc => by cases e <;> exact ⟨hc, rfl⟩⟩
    cases e <;> simp only [Multi.set] <;> split <;> first | exact hb | (rename_i e; subst e; rw [hk] at hb; cases hb)
  all_goals
    simp only [Multi.step] at h
    (repeat' split at h) <;> cases h <;>
      refine ⟨fun _ _ h => h, fun _ h => h, fun _ h => h, fun hc => ?_⟩ <;> simp_all [Coll, Collecting]

theorem keep_run {m m' : Multi.St} {ds : List Multi.Choice} (I : Multi.Inv m) (h : Multi.run m ds = some m') : Keep m m' := by
  induction ds generalizing m with
  | nil => cases h; exact .refl _
  | cons c ds ih =>
    simp only [Multi.run] at h
    cases e : Multi.step m c with
    | none => rw [e] at h; cases h
    | some t => rw [e] at h; exact (keep_step I e).trans (ih (Multi.inv_step I e) h)

/-- A step of the multi-request with its requests is some steps of the multi-request. -/
theorem steps {s s' : St} {c : Choice} (h : step s c = some s') : ∃ ds, Multi.run s.m ds = some s'.m := by
  have one : ∀ {m m' : Multi.St} c, Multi.step m c = some m' → Multi.run m [c] = some m' := by
    intro m m' c h; simp [Multi.run, h]
  have out : ∀ {c}, s.withM (Multi.step s.m c) = some s' → ∃ ds, Multi.run s.m ds = some s'.m := by
    intro c h
    obtain ⟨m, h1, rfl⟩ := withM_some h
    exact ⟨[c], one _ h1⟩
  have alone : ∀ {i o}, s.withReq i o = some s' → ∃ ds, Multi.run s.m ds = some s'.m := by
    intro i o h
    obtain ⟨r', h1, rfl⟩ := withReq_some h
    exact ⟨[], rfl⟩
  cases c with
  | multi c =>
    simp only [step] at h
    cases c <;> simp only [multiStep] at h <;> (try split at h) <;> first | exact alone h | exact out h | (cases h; done)
  | req i c =>
    simp only [step] at h
    cases c <;> simp only [reqStep] at h
    case call => split at h <;> first | exact alone h | (cases h; done)
    case bookmark => split at h <;> first | exact alone h | (cases h; done)
    case responder t acts =>
      split at h
      · cases h
      · split at h
        · cases h0 : s.withReq i (Request.step (s.r i) (.responder t acts)) with
          | none => rw [h0] at h; cases h
          | some s1 =>
            rw [h0] at h
            obtain ⟨r', h1, rfl⟩ := withReq_some h0
            obtain ⟨m, h2, rfl⟩ := withM_some h
            exact ⟨_, one _ h2⟩
        · cases h
    case go t =>
      split at h
      · split at h <;> first | exact alone h | (cases h; done)
      · cases h0 : s.withReq i (Request.step (s.r i) (.go t)) with
        | none => rw [h0] at h; cases h
        | some s1 =>
          rw [h0] at h
          obtain ⟨r', h1, rfl⟩ := withReq_some h0
          obtain ⟨m, h2, rfl⟩ := withM_some h
          obtain ⟨ds, h3, h4⟩ := leave_run h2
          exact ⟨ds, h3⟩
      · exact alone h

theorem keeps {s s' : St} {cs : List Choice} (p : Prog s) (h : run s cs = some s') : Keep s.m s'.m := by
  induction cs generalizing s with
  | nil => cases h; exact .refl _
  | cons c cs ih =>
    simp only [run] at h
    cases e : step s c with
    | none => rw [e] at h; cases h
    | some t =>
      rw [e] at h
      obtain ⟨ds, h1⟩ := steps e
      exact (keep_run p.inv.multi h1).trans (ih (prog_step p e) h)

theorem Can.trans' {s : St} {P Q : St → Prop} (p : Prog s) (h : Can s P) (hq : ∀ s', Prog s' → Keep s.m s'.m → P s' → Can s' Q) : Can s Q := by
  obtain ⟨cs, t, h1, h2, h3⟩ := h
  refine .trans p (P := fun s' => P s' ∧ Keep s.m s'.m) ⟨cs, t, h1, h2, ?_⟩ fun s' p' h' => hq s' p' h'.2 h'.1
  exact h3.imp_left fun h => ⟨h, keeps p h2⟩

/-! ### The owner -/

theorem own_step {s : St} {m : Multi.St} {P : St → Prop} (p : Prog s) (ha : oAct s.m.own = .none) (hs : Multi.stepOwner s.m = some m)
    (h : ∀ s', Prog s' → s'.m = m → Can s' P) : Can s P := by
  have h1 : step s (.multi .owner) = some { s with m } := by
    simp only [step, multiStep]
    split <;> rename_i e <;> first | (rw [e] at ha; cases ha; done) | skip
    simp only [Multi.step, hs, St.withM, Option.map_some]
  exact .step _ (by trivial) h1 (h _ (prog_step p h1) rfl)

theorem own_fail {s : St} {q : Multi.OPc} (p : Prog s) (i : Nat) (hk : (∃ x, oAct s.m.own = .fail i x) ∨ oAct s.m.own = .back i) (hq : oAfter s.m.own = q) :
    Can s fun s' => s'.m.own = q := by
  have ha : (∃ x, actOf s.m 0 = .fail i x) ∨ actOf s.m 0 = .back i := by simpa only [actOf, if_true] using hk
  have hl : s.m.own.locked = false ∧ s.m.own ≠ .rWait false := by
    cases e : s.m.own <;> rw [e] at hk <;> simp [oAct, Multi.OPc.locked] at hk ⊢
  refine .trans p (can_fail p (.inl rfl) ha) ?_
  rintro s1 p1 ⟨h1, h2⟩
  simp only [actOf, if_true] at h2
  refine .here ?_
  rw [← oAfter_none h2, h1.oaf hl.1 hl.2, hq]

theorem own_loop {m : Multi.Mode} {n : Nat} (l : Nat) {s : St} {i : Nat} (p : Prog s) (hk : s.m.own = .fail m i n) (hl : n - i ≤ l) :
    Can s fun s' => s'.m.own = .lock m := by
  induction l generalizing s i with
  | zero =>
    refine own_step p (by rw [hk]; rfl) (m := { s.m with own := .lock m }) ?_ fun s' _ h => .here (by rw [h])
    simp only [Multi.stepOwner, hk, if_neg (show ¬ i < n by omega)]
  | succ l ih =>
    by_cases hi : i < n
    · by_cases hg : s.m.gone s.m.arr i
      · refine own_step p (by rw [hk]; rfl) (m := { s.m with own := .fail m (i + 1) n }) ?_ fun s1 p1 h => ih p1 (by rw [h]) (by omega)
        simp only [Multi.stepOwner, hk, if_pos hi, hg, if_true]
      · refine own_step p (by rw [hk]; rfl) (m := { s.m with own := .fail2 m i n }) ?_ fun s1 p1 e1 => ?_
        · simp only [Multi.stepOwner, hk, if_pos hi, hg, if_false, Bool.false_eq_true]
        · have h1 : s1.m.own = .fail2 m i n := by rw [e1]
          by_cases hg1 : s1.m.gone s1.m.arr i
          · refine own_step p1 (by rw [h1]; rfl) (m := { s1.m with own := .nilPanic }) ?_ fun s2 p2 h2 => .panic (.inl (by rw [h2]))
            simp only [Multi.stepOwner, h1, hg1, if_true]
          · refine own_step p1 (by rw [h1]; rfl) (m := { s1.m with own := .failK m i n }) ?_ fun s2 p2 e2 => ?_
            · simp only [Multi.stepOwner, h1, hg1, if_false, Bool.false_eq_true]
            · have h2 : s2.m.own = .failK m i n := by rw [e2]
              cases hf : Multi.failCode s2.m with
              | none =>
                refine own_step p2 (by rw [h2]; rfl) (m := { s2.m with own := .fail m (i + 1) n }) ?_ fun s3 p3 h3 => ih p3 (by rw [h3]) (by omega)
                simp only [Multi.stepOwner, h2, hf]
              | some x =>
                refine own_step p2 (by rw [h2]; rfl) (m := { s2.m with own := .failA m i n x }) ?_ fun s3 p3 e3 => ?_
                · simp only [Multi.stepOwner, h2, hf]
                · have h3 : s3.m.own = .failA m i n x := by rw [e3]
                  refine .trans p3 (own_fail p3 i (q := .fail m (i + 1) n) (.inl ⟨x, by rw [h3]; rfl⟩) (by rw [h3]; rfl)) ?_
                  intro s4 p4 h4
                  exact ih p4 h4 (by omega)
    · refine own_step p (by rw [hk]; rfl) (m := { s.m with own := .lock m }) ?_ fun s' _ h => .here (by rw [h])
      simp only [Multi.stepOwner, hk, if_neg hi]

/-- `Request` returns. -/
theorem request_ends {s : St} (p : Prog s) (ho : Creating s.m.own) : Can s fun s' => s'.m.own = .idle := by
  have chkK : ∀ {s : St} {i}, Prog s → s.m.own = .chkK i → Can s fun s' => s'.m.own = .idle := by
    intro s i p h
    cases hf : Multi.failCode s.m with
    | none => exact own_step p (by rw [h]; rfl) (m := { s.m with ret := s.m.r, own := .idle }) (by simp only [Multi.stepOwner, h, hf]) fun s' _ e => .here (by rw [e])
    | some x =>
      refine own_step p (by rw [h]; rfl) (m := { s.m with own := .chkA i x }) (by simp only [Multi.stepOwner, h, hf]) fun s1 p1 e => ?_
      exact own_fail p1 i (.inl ⟨x, by rw [e]; rfl⟩) (by rw [e]; rfl)
  have chk : ∀ {s : St} {i}, Prog s → s.m.own = .chk i → Can s fun s' => s'.m.own = .idle := by
    intro s i p h
    by_cases hk : s.m.cancel ∨ s.m.expire
    · exact own_step p (by rw [h]; rfl) (m := { s.m with own := .chkK i }) (by simp only [Multi.stepOwner, h, if_pos hk]) fun s1 p1 e => chkK p1 (by rw [e])
    · exact own_step p (by rw [h]; rfl) (m := { s.m with ret := s.m.r, own := .idle }) (by simp only [Multi.stepOwner, h, if_neg hk]) fun s' _ e => .here (by rw [e])
  cases h : s.m.own <;> rw [h] at ho <;> simp only [Creating] at ho
  case store i => exact own_step p (by rw [h]; rfl) (m := { s.m with r := s.m.len, own := .chk i }) (by simp only [Multi.stepOwner, h]) fun s1 p1 e => chk p1 (by rw [e])
  case chk i => exact chk p h
  case chkK i => exact chkK p h
  case chkA i x => exact own_fail p i (.inl ⟨x, by rw [h]; rfl⟩) (by rw [h]; rfl)
  case failW i => exact own_fail p i (.inr (by rw [h]; rfl)) (by rw [h]; rfl)

/-- `performFailAll` of the owner comes to its end. -/
theorem to_lock {m : Multi.Mode} {s : St} (p : Prog s)
    (ho : s.m.own = .enter m ∨ (∃ i n, s.m.own = .fail m i n ∨ s.m.own = .fail2 m i n ∨ s.m.own = .failK m i n ∨ (∃ x, s.m.own = .failA m i n x) ∨ s.m.own = .failX m i n)) :
    Can s fun s' => s'.m.own = .lock m := by
  have lp : ∀ {s : St} {i n}, Prog s → s.m.own = .fail m i n → Can s fun s' => s'.m.own = .lock m := fun p h => own_loop _ p h (Nat.le_refl _)
  have fA : ∀ {s : St} {i n x}, Prog s → s.m.own = .failA m i n x → Can s fun s' => s'.m.own = .lock m := by
    intro s i n x p h
    exact .trans p (own_fail p i (q := .fail m (i + 1) n) (.inl ⟨x, by rw [h]; rfl⟩) (by rw [h]; rfl)) fun s1 p1 h1 => lp p1 h1
  have fK : ∀ {s : St} {i n}, Prog s → s.m.own = .failK m i n → Can s fun s' => s'.m.own = .lock m := by
    intro s i n p h
    cases hf : Multi.failCode s.m with
    | none => exact own_step p (by rw [h]; rfl) (m := { s.m with own := .fail m (i + 1) n }) (by simp only [Multi.stepOwner, h, hf]) fun s1 p1 e => lp p1 (by rw [e])
    | some x => exact own_step p (by rw [h]; rfl) (m := { s.m with own := .failA m i n x }) (by simp only [Multi.stepOwner, h, hf]) fun s1 p1 e => fA p1 (by rw [e])
  rcases ho with h | ⟨i, n, h | h | h | ⟨x, h⟩ | h⟩
  · refine .trans p (can_unlock p) ?_
    rintro s1 p1 ⟨h1, h2, _⟩
    have h : s1.m.own = .enter m := by rw [h1.own (by rw [h]; rfl) (by rw [h]; simp), h]
    by_cases hk : (s1.m.cancel ∨ s1.m.expire) ∧ s1.m.c ≠ s1.m.r
    · exact own_step p1 (by rw [h]; rfl) (m := { s1.m with own := .fail m 0 s1.m.r }) (by simp only [Multi.stepOwner, h]; rw [if_pos hk, if_pos h2]) fun s2 p2 e => lp p2 (by rw [e])
    · exact own_step p1 (by rw [h]; rfl) (m := { s1.m with own := .lock m }) (by simp only [Multi.stepOwner, h]; rw [if_neg hk]) fun s2 p2 e => .here (by rw [e])
  · exact lp p h
  · by_cases hg : s.m.gone s.m.arr i
    · exact own_step p (by rw [h]; rfl) (m := { s.m with own := .nilPanic }) (by simp only [Multi.stepOwner, h, hg, if_true]) fun s2 p2 h2 => .panic (.inl (by rw [h2]))
    · exact own_step p (by rw [h]; rfl) (m := { s.m with own := .failK m i n }) (by simp only [Multi.stepOwner, h, hg, if_false, Bool.false_eq_true]) fun s2 p2 e => fK p2 (by rw [e])
  · exact fK p h
  · exact fA p h
  · exact .trans p (own_fail p i (q := .fail m (i + 1) n) (.inr (by rw [h]; rfl)) (by rw [h]; rfl)) fun s1 p1 h1 => lp p1 h1

/-- `Each` returns. -/
theorem each_ends {s : St} (p : Prog s) (ho : Ranging s.m.own) : Can s fun s' => s'.m.own = .fin .each := by
  have unl : ∀ {s : St}, Prog s → s.m.own = .eUnlock → Can s fun s' => s'.m.own = .fin .each := by
    intro s p h
    exact own_step p (by rw [h]; rfl) (m := { s.m with lock := none, own := .fin .each }) (by simp only [Multi.stepOwner, h]) fun s1 p1 e => .here (by rw [e])
  have clo : ∀ {s : St}, Prog s → s.m.own = .eClose → Can s fun s' => s'.m.own = .fin .each := by
    intro s p h
    by_cases hc : 0 < s.m.closed
    · exact own_step p (by rw [h]; rfl) (m := { s.m with own := .chanPanic }) (by simp only [Multi.stepOwner, h, if_pos hc]) fun s1 p1 e => .panic (.inr (.inl (by rw [e])))
    · exact own_step p (by rw [h]; rfl) (m := { s.m with closed := s.m.closed + 1, own := .eUnlock }) (by simp only [Multi.stepOwner, h, if_neg hc]) fun s1 p1 e => unl p1 (by rw [e])
  have cmp : ∀ {s : St}, Prog s → s.m.own = .eCmp → Can s fun s' => s'.m.own = .fin .each := by
    intro s p h
    refine own_step p (by rw [h]; rfl) (m := { s.m with own := if s.m.c = s.m.r then .eClose else .eUnlock }) (by simp only [Multi.stepOwner, h]) fun s1 p1 e => ?_
    by_cases hc : s.m.c = s.m.r
    · rw [if_pos hc] at e; exact clo p1 (by rw [e])
    · rw [if_neg hc] at e; exact unl p1 (by rw [e])
  have snd : ∀ (l : List Nat) {s : St}, Prog s → s.m.own = .eSend l → Can s fun s' => s'.m.own = .fin .each := by
    intro l
    induction l with
    | nil =>
      intro s p h
      exact own_step p (by rw [h]; rfl) (m := { s.m with responses := [], own := .eCmp }) (by simp only [Multi.stepOwner, h]) fun s1 p1 e => cmp p1 (by rw [e])
    | cons i l ih =>
      intro s p h
      by_cases hc : 0 < s.m.closed
      · exact own_step p (by rw [h]; rfl) (m := { s.m with own := .chanPanic }) (by simp only [Multi.stepOwner, h, if_pos hc]) fun s1 p1 e => .panic (.inr (.inl (by rw [e])))
      · exact own_step p (by rw [h]; rfl) (m := { s.m with ch := s.m.ch.map (· ++ [i]), gone := Multi.put s.m.gone s.m.arr i, own := .eSend l }) (by simp only [Multi.stepOwner, h, if_neg hc]) fun s1 p1 e => ih p1 (by rw [e])
  have chn : ∀ {s : St}, Prog s → s.m.own = .eChan → Can s fun s' => s'.m.own = .fin .each := by
    intro s p h
    exact own_step p (by rw [h]; rfl) (m := { s.m with ch := some [], own := .eSend s.m.responses }) (by simp only [Multi.stepOwner, h]) fun s1 p1 e => snd _ p1 (by rw [e])
  have lck : ∀ {s : St}, Prog s → s.m.own = .lock .each → Can s fun s' => s'.m.own = .fin .each := by
    intro s p h
    refine .trans p (can_unlock p) ?_
    rintro s1 p1 ⟨h1, h2, _⟩
    have h : s1.m.own = .lock .each := by rw [h1.own (by rw [h]; rfl) (by rw [h]; simp), h]
    exact own_step p1 (by rw [h]; rfl) (m := { s1.m with lock := some .owner, own := .eChan }) (by simp only [Multi.stepOwner, h]; rw [if_pos h2]) fun s2 p2 e => chn p2 (by rw [e])
  have early : (s.m.own = .enter .each ∨ (∃ i n, s.m.own = .fail .each i n ∨ s.m.own = .fail2 .each i n ∨ s.m.own = .failK .each i n ∨ (∃ x, s.m.own = .failA .each i n x) ∨ s.m.own = .failX .each i n)) →
      Can s fun s' => s'.m.own = .fin .each := fun ho => .trans p (to_lock p ho) fun s1 p1 h1 => lck p1 h1
  cases h : s.m.own with
  | enter m => cases m <;> rw [h] at ho early <;> first | (cases ho; done) | exact early (by simp)
  | fail m i n => cases m <;> rw [h] at ho early <;> first | (cases ho; done) | exact early (by simp)
  | fail2 m i n => cases m <;> rw [h] at ho early <;> first | (cases ho; done) | exact early (by simp)
  | failK m i n => cases m <;> rw [h] at ho early <;> first | (cases ho; done) | exact early (by simp)
  | failA m i n x => cases m <;> rw [h] at ho early <;> first | (cases ho; done) | exact early (by simp)
  | failX m i n => cases m <;> rw [h] at ho early <;> first | (cases ho; done) | exact early (by simp)
  | lock m => cases m <;> rw [h] at ho <;> first | (cases ho; done) | exact lck p h
  | eChan => exact chn p h
  | eSend l => exact snd l p h
  | eCmp => exact cmp p h
  | eClose => exact clo p h
  | eUnlock => exact unl p h
  | _ => rw [h] at ho; cases ho

/-- `Results` returns or waits. -/
theorem results_waits {s : St} (p : Prog s) (ho : Collecting s.m.own) : Can s fun s' => s'.m.own = .fin .results ∨ s'.m.own = .rWait false := by
  have tak : ∀ {s : St}, Prog s → s.m.own = .rTake → Can s fun s' => s'.m.own = .fin .results ∨ s'.m.own = .rWait false := by
    intro s p h
    exact own_step p (by rw [h]; rfl) (by simp only [Multi.stepOwner, h]; rfl) fun s1 p1 e => .here (.inl (by rw [e]))
  have cmp : ∀ {s : St}, Prog s → s.m.own = .rCmp → Can s fun s' => s'.m.own = .fin .results ∨ s'.m.own = .rWait false := by
    intro s p h
    by_cases hc : s.m.c < s.m.r
    · exact own_step p (by rw [h]; rfl) (m := { s.m with lock := none, own := .rWait false }) (by simp only [Multi.stepOwner, h, if_pos hc]) fun s1 p1 e => .here (.inr (by rw [e]))
    · exact own_step p (by rw [h]; rfl) (m := { s.m with own := .rTake }) (by simp only [Multi.stepOwner, h, if_neg hc]) fun s1 p1 e => tak p1 (by rw [e])
  have lck : ∀ {s : St}, Prog s → s.m.own = .lock .results → Can s fun s' => s'.m.own = .fin .results ∨ s'.m.own = .rWait false := by
    intro s p h
    refine .trans p (can_unlock p) ?_
    rintro s1 p1 ⟨h1, h2, _⟩
    have h : s1.m.own = .lock .results := by rw [h1.own (by rw [h]; rfl) (by rw [h]; simp), h]
    exact own_step p1 (by rw [h]; rfl) (m := { s1.m with lock := some .owner, wait := true, own := .rCmp }) (by simp only [Multi.stepOwner, h]; rw [if_pos h2]) fun s2 p2 e => cmp p2 (by rw [e])
  have early : (s.m.own = .enter .results ∨ (∃ i n, s.m.own = .fail .results i n ∨ s.m.own = .fail2 .results i n ∨ s.m.own = .failK .results i n ∨ (∃ x, s.m.own = .failA .results i n x) ∨ s.m.own = .failX .results i n)) →
      Can s fun s' => s'.m.own = .fin .results ∨ s'.m.own = .rWait false := fun ho => .trans p (to_lock p ho) fun s1 p1 h1 => lck p1 h1
  cases h : s.m.own with
  | enter m => cases m <;> rw [h] at ho early <;> first | (cases ho; done) | exact early (by simp)
  | fail m i n => cases m <;> rw [h] at ho early <;> first | (cases ho; done) | exact early (by simp)
  | fail2 m i n => cases m <;> rw [h] at ho early <;> first | (cases ho; done) | exact early (by simp)
  | failK m i n => cases m <;> rw [h] at ho early <;> first | (cases ho; done) | exact early (by simp)
  | failA m i n x => cases m <;> rw [h] at ho early <;> first | (cases ho; done) | exact early (by simp)
  | failX m i n => cases m <;> rw [h] at ho early <;> first | (cases ho; done) | exact early (by simp)
  | lock m => cases m <;> rw [h] at ho <;> first | (cases ho; done) | exact lck p h
  | rCmp => exact cmp p h
  | rTake => exact tak p h
  | rWait b =>
    cases b with
    | false => exact .here (.inr h)
    | true =>
      refine .trans p (can_unlock p) ?_
      rintro s1 p1 ⟨h1, h2, _⟩
      have h : s1.m.own = .rWait true := by rw [h1.own (by rw [h]; rfl) (by rw [h]; simp), h]
      exact own_step p1 (by rw [h]; rfl) (m := { s1.m with lock := some .owner, own := .rTake }) (by simp only [Multi.stepOwner, h]; rw [if_pos ⟨trivial, h2⟩]) fun s2 p2 e => tak p2 (by rw [e])
  | _ => rw [h] at ho; cases ho

/-- All `Respond`s that were begun come to their end. -/
theorem can_settle {s : St} (n : Nat) (p : Prog s) (h : ∀ i, i < n → s.m.code i ≠ none) : Can s fun s' => ∀ i, i < n → s'.m.rp i = .done := by
  induction n with
  | zero => exact .here (by intro i hi; omega)
  | succ n ih =>
    refine .trans' p (ih fun i hi => h i (by omega)) ?_
    intro s1 p1 k1 h1
    have : s1.m.rp n ≠ .idle := fun e => k1.code n (h n (by omega)) ((p1.inv.multi.code n).2 e)
    refine .trans' p1 (can_done _ p1 this (Nat.le_refl _)) ?_
    rintro s2 p2 k2 ⟨h2, h3⟩
    refine .here fun i hi => ?_
    by_cases e : i = n
    · subst e; exact h3
    · exact k2.rp i (h1 i (by omega))

theorem coll_quiet {m : Multi.St} (I : Multi.Inv m) (h : Coll m.own) : m.ret = m.r := by
  refine (I.quiet ?_).2
  rcases h with h | h | h
  · cases e : m.own <;> rw [e] at h <;> first | rfl | (cases h; done)
  · rw [h]; rfl
  · rw [h]; rfl

/-- `Results` returns if all requests are answered. -/
theorem results_ends {s : St} (p : Prog s) (ho : Collecting s.m.own) (h : ∀ i, i < s.m.ret → s.m.code i ≠ none) : Can s fun s' => s'.m.own = .fin .results := by
  refine .trans' p (can_settle _ p h) ?_
  intro s1 p1 k1 h1
  obtain ⟨c1, r1⟩ := k1.coll (.inl ho)
  have fin : ∀ {s : St}, Prog s → Coll s.m.own → (∀ i, i < s.m.ret → s.m.rp i = .done) → Can s fun s' => s'.m.own = .fin .results := by
    intro s p c h
    rcases c with c | c | c
    · refine .trans' p (results_waits p c) ?_
      intro s1 p1 k1 h1
      rcases h1 with h1 | h1
      · exact .here h1
      · obtain ⟨c1, r1⟩ := k1.coll (.inl c)
        have q := coll_quiet p1.inv.multi c1
        have := (p1.inv.multi.settled (fun i hi => k1.rp i (h i (by omega)))).1
        have := p1.inv.multi.sleep h1
        omega
    · exact .here c
    · exact .panic (.inl c)
  exact fin p1 c1 (fun i hi => h1 i (by omega))

end Verif.MultiReq
