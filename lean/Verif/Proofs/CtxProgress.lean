import Verif.Proofs.CtxReq

/-! That cancelling a context does not block. -/
namespace Verif.CtxReq
open Verif.Request (Data Pc Ev casPending casInFly own lockedStep doAct enterBookmark enterResponder I11 setPc Rules)

/-! ### One request -/

/-- Only `call` makes an idle goroutine busy. -/
theorem idle_stays {r r' : Request.St} {c : Request.Choice} {t : Nat} (h : Request.step r c = some r') (hi : r.pc t = .idle)
    (hc : ∀ op, c ≠ .call t op) : r'.pc t = .idle := by
  have other : ∀ u p, u ≠ t → setPc r.pc u p t = .idle := by
    intro u p hu
    simp only [setPc, if_neg (Ne.symm hu)]; exact hi
  cases c with
  | call u op =>
    simp only [Request.step] at h
    split at h <;> cases h
    exact other _ _ (by rintro rfl; exact hc op rfl)
  | go u =>
    have hu : u ≠ t := by
      rintro rfl
      simp [Request.step, hi, own, Request.St.ownStep] at h
    simp only [Request.step] at h
    split at h
    · rename_i op _
      cases op <;> simp only [Request.St.begin, Request.St.lockStep] at h <;> (try split at h) <;> cases h <;> exact other _ _ hu
    · obtain ⟨p, h1, h2⟩ := Request.own_eq h
      rw [h2]; exact other _ _ hu
  | bookmark u acts =>
    obtain ⟨p, h1, h2⟩ := Request.own_eq h
    have hu : u ≠ t := by rintro rfl; rw [hi] at h1; simp [enterBookmark] at h1
    rw [h2]; exact other _ _ hu
  | responder u acts =>
    obtain ⟨p, h1, h2⟩ := Request.own_eq h
    have hu : u ≠ t := by rintro rfl; rw [hi] at h1; simp [enterResponder] at h1
    rw [h2]; exact other _ _ hu

/-- There is a response object, and a bookmark while one reacts. -/
def H12 (d : Data) (p : Pc) : Prop :=
  d.resp ≠ none ∧ match p with
    | .react _ _ | .check _ => d.chain ≠ []
    | _ => True

theorem rules12 : Rules (fun _ => True) (fun d => d.resp ≠ none) H12 where
  acquire := by intro d t op _ h; exact ⟨h, trivial⟩
  casPendingQ := by intro d t h; simp only [casPending, Data.note]; grind
  casPendingH := by
    intro d t p hp h
    cases p <;> simp only [H12, casPending, Data.note] at h ⊢ <;> grind
  casInFlyQ := by intro d t u _ h; simp only [casInFly, Data.note]; grind
  casInFlyH := by
    intro d t u p _ hp h
    cases p <;> simp only [H12, casInFly, Data.note] at h ⊢ <;> grind
  own := by
    intro d t p d' p' hp h ho hi
    unfold Request.own at ho
    split at ho
    case h_3 op =>
      simp only [Option.some.injEq] at ho
      simp only [H12] at h
      cases op <;> simp only [lockedStep] at ho <;> grind [H12, Data.note]
    case h_10 a acts =>
      simp only [H12] at h
      cases a <;> simp only [doAct, casPending, casInFly] at ho <;> grind [H12]
    case h_13 a acts =>
      simp only [H12] at h
      cases a <;> simp only [doAct, casPending, casInFly] at ho <;> grind [H12]
    all_goals (simp only [H12] at h ⊢ <;> grind [Data.note])
  release := by intro d t op h; exact h.1
  bookmark := by
    intro d op d' p' t acts _ h hb
    simp only [H12] at h
    simp only [enterBookmark] at hb
    split at hb <;> grind [H12, Data.note]
  responder := by
    intro d op d' p' t acts _ h hb
    simp only [H12] at h
    simp only [enterResponder] at hb
    split at hb <;> grind [H12, Data.note]

abbrev I12 := Request.Inv (fun _ => True) (fun d => d.resp ≠ none) H12

/-- Steps left to the owner of the mutex. -/
def left (d : Data) : Pc → Nat
  | .idle | .wait _ | .dead => 0
  | .leave _ => 1
  | .claimC _ => 2
  | .claimW _ => 3
  | .finish _ => 2
  | .fin _ _ => 3
  | .walk _ => 4 + 3 * d.chain.length
  | .react _ _ => 3 + 3 * d.chain.length
  | .check _ => 2 + 3 * d.chain.length
  | .mark _ => 5 + 3 * d.chain.length
  | .fill _ _ _ _ => 6 + 3 * d.chain.length
  | .locked _ => 7 + 3 * d.chain.length

/-- What the owner does next. -/
def next (r : Request.St) (t : Nat) : Request.Choice :=
  match r.pc t with
  | .walk _ => if r.d.chain = [] then .responder t [] else .bookmark t []
  | _ => .go t

theorem next_inner (r : Request.St) (t x : Nat) : Inner (.req x (next r t)) := by
  unfold next
  (repeat' split) <;> trivial

theorem next_step {r : Request.St} {t : Nat} (i : I12 r) (hl : r.lock = some t) (hq : Quiet (r.pc t)) :
    ∃ r', Request.step r (next r t) = some r' ∧ (∀ u, u ≠ t → r'.pc u = r.pc u) ∧ Quiet (r'.pc t) ∧
      (r'.lock = some t ∧ left r'.d (r'.pc t) < left r.d (r.pc t) ∨ r'.lock = none ∧ r'.pc t = .idle) := by
  have ho := (i.owner t hl)
  have fin : ∀ (d : Data) (p : Pc), Quiet p → (p = .idle ∨ left d p < left r.d (r.pc t)) →
      ∃ r', Request.St.ownStep r t (some (d, p)) = some r' ∧ (∀ u, u ≠ t → r'.pc u = r.pc u) ∧ Quiet (r'.pc t) ∧
      (r'.lock = some t ∧ left r'.d (r'.pc t) < left r.d (r.pc t) ∨ r'.lock = none ∧ r'.pc t = .idle) := by
    intro d p h1 h2
    refine ⟨_, rfl, fun u hu => by simp [setPc, hu], by simpa [setPc] using h1, ?_⟩
    simp only [setPc, if_true]
    by_cases hp : p = .idle
    · simp [hp]
    · rw [if_neg hp]
      exact .inl ⟨hl, h2.resolve_left hp⟩
  unfold next
  cases hp : r.pc t with
  | idle => rw [hp] at ho; cases ho.1
  | wait op => rw [hp] at ho; cases ho.1
  | dead => rw [hp] at hq; cases hq
  | walk op =>
    have hr := ho.2
    rw [hp] at hr fin
    simp only [H12] at hr
    cases hresp : r.d.resp with
    | none => exact absurd hresp hr.1
    | some v =>
      cases hc : r.d.chain with
      | nil =>
        simp only [if_true, Request.step, hp, enterResponder, hc, hresp]
        exact fin _ _ trivial (.inr (by simp [left, hc]))
      | cons b l =>
        simp only [reduceCtorEq, if_false, Request.step, hp, enterBookmark, hc, hresp]
        exact fin _ _ trivial (.inr (by simp [left, Data.note]))
  | locked op =>
    simp only [Request.step, hp, own]
    rw [hp] at fin
    cases op <;> simp only [lockedStep] <;> (try split) <;> refine fin _ _ (by trivial) (.inr ?_) <;> simp [left] <;> try omega
  | check op =>
    have hr := ho.2
    rw [hp] at hr fin
    simp only [H12] at hr
    cases hc : r.d.chain with
    | nil => exact absurd hc hr.2
    | cons b l =>
      simp only [Request.step, hp, own, hc]
      split <;> exact fin _ _ trivial (.inr (by simp [left, hc]; try omega))
  | react op acts =>
    cases acts with
    | cons a l => rw [hp] at hq; cases hq
    | nil => rw [hp] at fin; simp only [Request.step, hp, own]; exact fin _ _ trivial (.inr (by simp [left]))
  | fin op acts =>
    cases acts with
    | cons a l => rw [hp] at hq; cases hq
    | nil => rw [hp] at fin; simp only [Request.step, hp, own]; exact fin _ _ trivial (.inr (by simp [left]))
  | leave op => rw [hp] at fin; simp only [Request.step, hp, own]; exact fin _ _ trivial (.inl rfl)
  | _ => rw [hp] at fin; simp only [Request.step, hp, own]; exact fin _ _ trivial (.inr (by simp [left]))

/-! ### The product -/

/-- What a step does to a request. -/
theorem req_kind {e : Env} {s s' : St} {c : Choice} (i : Inv e s) (h : step e s c = some s') (x : Nat) :
    s'.r x = s.r x ∨ (s.r x = fresh e x ∧ s'.r x = chained e x) ∨
      ∃ c', Request.step (s.r x) c' = some (s'.r x) ∧ ((∀ op, c' ≠ .call 0 op) ∨ s'.busy = true ∧ ∃ l, s'.cx.cp = .calling (x :: l)) := by
  have plain : ∀ (s0 : St) o, s0.r = s.r → s0.withCx o = some s' → s'.r x = s.r x := by
    intro s0 o h0 h
    obtain ⟨cx, h1, rfl⟩ := map_some h
    simp only; rw [h0]
  have req : ∀ (s0 : St) y c, s0.r = s.r → s0.withReq y (Request.step (s.r y) c) = some s' → (∀ op, c ≠ .call 0 op) →
      s'.r x = s.r x ∨ (s.r x = fresh e x ∧ s'.r x = chained e x) ∨
      ∃ c', Request.step (s.r x) c' = some (s'.r x) ∧ ((∀ op, c' ≠ .call 0 op) ∨ s'.busy = true ∧ ∃ l, s'.cx.cp = .calling (x :: l)) := by
    intro s0 y c h0 h hc
    obtain ⟨r', h1, rfl⟩ := map_some h
    by_cases hxy : x = y
    · subst hxy
      refine .inr (.inr ⟨c, ?_, .inl hc⟩)
      simp only [if_true]; exact h1
    · exact .inl (by simp only [if_neg hxy, h0])
  cases c with
  | add x => exact .inl (plain _ _ rfl h)
  | adder y =>
    simp only [step] at h
    split at h
    · rename_i hp
      obtain ⟨s1, h1, h2⟩ := bind_some h
      split at h2
      · obtain ⟨cx, h3, rfl⟩ := map_some h1
        cases h2
        by_cases hxy : x = y
        · subst hxy
          exact .inr (.inl ⟨i.early x (.inr hp), by simp⟩)
        · exact .inl (by simp [if_neg hxy])
      · cases h2; exact .inl (plain _ _ rfl h1)
    · obtain ⟨s1, h1, h2⟩ := bind_some h
      split at h2
      · obtain ⟨cx, h3, rfl⟩ := map_some h1
        exact req _ _ _ (by rfl) h2 (by simp)
      · cases h2; exact .inl (plain _ _ rfl h1)
    · exact .inl (plain _ _ rfl h)
  | remove x =>
    simp only [step] at h
    split at h
    · cases h
    · exact .inl (plain _ _ rfl h)
  | cancel b => exact .inl (plain _ _ rfl h)
  | wait w => exact .inl (plain _ _ rfl h)
  | goRet x => exact .inl (plain _ _ rfl h)
  | canc found =>
    simp only [step] at h
    split at h
    · rename_i y l hp
      (repeat' split at h) <;> first | cases h; done | exact .inl (plain _ _ (by rfl) h) | skip
      obtain ⟨r', h1, rfl⟩ := map_some h
      by_cases hxy : x = y
      · subst hxy
        refine .inr (.inr ⟨.call 0 (.fail Misc.RcCanceled), ?_, .inr ⟨rfl, l, hp⟩⟩)
        simp only [if_true]; exact h1
      · exact .inl (by simp only [if_neg hxy])
    · exact .inl (plain _ _ rfl h)
  | req y c =>
    simp only [step] at h
    split at h
    · cases c with
      | call t op =>
        simp only [reqStep] at h
        split at h
        · cases h
        · rename_i hn
          exact req _ _ _ rfl h (by intro op' e1; cases e1; exact hn (.inl rfl))
      | _ =>
        simp only [reqStep] at h
        split at h <;> try (first | cases h; done | exact req _ _ _ rfl h (by simp))
        try
          obtain ⟨s1, h1, h2⟩ := bind_some h
          obtain ⟨cx, h3, rfl⟩ := map_some h1
          exact req _ _ _ (by rfl) h2 (by simp)
    · cases h

/-- Every request is in a state that it can reach on its own. -/
def Own (e : Env) (s : St) : Prop := ∀ x, ∃ cs, Request.run (fresh e x) cs = some (s.r x)

theorem run_append {r : Request.St} {cs ds : List Request.Choice} : Request.run r (cs ++ ds) = (Request.run r cs).bind fun r => Request.run r ds := by
  induction cs generalizing r with
  | nil => rfl
  | cons c cs ih =>
    simp only [List.cons_append, Request.run]
    cases Request.step r c with
    | none => rfl
    | some r' => exact ih

theorem own_step {e : Env} {s s' : St} {c : Choice} (i : Inv e s) (h : step e s c = some s') (o : Own e s) : Own e s' := by
  intro x
  rcases req_kind i h x with h1 | ⟨h1, h2⟩ | ⟨c', h1, _⟩
  · rw [h1]; exact o x
  · rw [h2]; exact ⟨_, chained_run e x⟩
  · obtain ⟨cs, hcs⟩ := o x
    refine ⟨cs ++ [c'], ?_⟩
    rw [run_append, hcs]
    simp [Request.run, h1]

structure Prog (e : Env) (s : St) : Prop where
  inv : Inv e s
  own : Own e s
  zero : ∀ x, (s.r x).pc 0 ≠ .idle → s.busy = true ∧ ∃ l, s.cx.cp = .calling (x :: l)

theorem Prog.i12 {e : Env} {s : St} (p : Prog e s) (x : Nat) : I12 (s.r x) := by
  obtain ⟨cs, h⟩ := p.own x
  exact Request.inv_reach (ok := fun _ => True) rules12 (by simp [Request.init]) (by simp) h

theorem prog_init (e : Env) : Prog e (init e) :=
  ⟨inv_init e, fun _ => ⟨[], rfl⟩, fun _ h => absurd rfl h⟩

/-- While `cancelAll` is inside the `Cancel` of a request, it stays there. -/
theorem busy_step {e : Env} {s s' : St} {c : Choice} {x : Nat} {l : List Nat} (i : Inv e s) (h : step e s c = some s') (hb : s.busy = true)
    (hc : s.cx.cp = .calling (x :: l)) : s'.busy = true ∧ s'.cx.cp = .calling (x :: l) ∨ (s.r x).pc 0 = .idle := by
  have hst : s.cx.state ≠ 0 := by intro h0; rw [i.idle h0] at hc; cases hc
  have plain : ∀ (s0 : St) c, s0 = s → (c ≠ Context.Choice.canc) → s0.withCx (Context.step s.cx c) = some s' →
      s'.busy = true ∧ s'.cx.cp = .calling (x :: l) := by
    intro s0 c h0 hcc h
    subst h0
    obtain ⟨cx, h1, rfl⟩ := map_some h
    refine ⟨hb, ?_⟩
    simp only
    rw [← hc]
    cases c with
    | canc => exact absurd rfl hcc
    | adder y => exact (adder_eq h1).2.1
    | remove y => exact (remove_eq h1).2.2.2.1
    | _ =>
      simp only [Context.step] at h1
      (repeat' split at h1) <;> cases h1 <;> first | rfl | contradiction
  have req : ∀ (s0 : St) y o, s0.busy = true → s0.cx.cp = .calling (x :: l) → s0.withReq y o = some s' →
      s'.busy = true ∧ s'.cx.cp = .calling (x :: l) := by
    intro s0 y o h1 h2 h
    obtain ⟨r', h3, rfl⟩ := map_some h
    exact ⟨h1, h2⟩
  cases c with
  | add x => exact .inl (plain _ _ rfl (by simp) h)
  | adder y =>
    simp only [step] at h
    split at h
    · obtain ⟨s1, h1, h2⟩ := bind_some h
      split at h2
      · obtain ⟨cx, h3, rfl⟩ := map_some h1
        exact .inl (req _ _ _ (by exact hb) (by simp only; rw [(adder_eq h3).2.1]; exact hc) h2)
      · cases h2; exact .inl (plain _ _ rfl (by simp) h1)
    · obtain ⟨s1, h1, h2⟩ := bind_some h
      split at h2
      · obtain ⟨cx, h3, rfl⟩ := map_some h1
        exact .inl (req _ _ _ (by exact hb) (by simp only; rw [(adder_eq h3).2.1]; exact hc) h2)
      · cases h2; exact .inl (plain _ _ rfl (by simp) h1)
    · exact .inl (plain _ _ rfl (by simp) h)
  | remove x =>
    simp only [step] at h
    split at h
    · cases h
    · exact .inl (plain _ _ rfl (by simp) h)
  | cancel b => exact .inl (plain _ _ rfl (by simp) h)
  | wait w => exact .inl (plain _ _ rfl (by simp) h)
  | goRet x => exact .inl (plain _ _ rfl (by simp) h)
  | canc found =>
    simp only [step, hc, hb, if_true] at h
    obtain ⟨y, l', h2, h3, _⟩ := i.busy hb
    rw [hc] at h2; cases h2
    rw [h3] at h
    simp only [Bool.true_eq_false, if_false] at h
    split at h
    · rename_i h4; exact .inr h4
    · cases h
  | req y c =>
    simp only [step] at h
    split at h
    · cases c <;> simp only [reqStep] at h <;> split at h <;> try (first | cases h; done | exact .inl (req _ _ _ hb hc h))
      obtain ⟨s1, h1, h2⟩ := bind_some h
      obtain ⟨cx, h3, rfl⟩ := map_some h1
      exact .inl (req _ _ _ (by exact hb) (by simp only; rw [(remove_eq h3).2.2.2.1]; exact hc) h2)
    · cases h

theorem prog_step {e : Env} {s s' : St} {c : Choice} (p : Prog e s) (h : step e s c = some s') : Prog e s' := by
  refine ⟨inv_step p.inv h, own_step p.inv h p.own, ?_⟩
  intro x hx
  by_cases hi : (s.r x).pc 0 = .idle
  · rcases req_kind p.inv h x with h1 | ⟨h1, h2⟩ | ⟨c', h1, h2⟩
    · rw [h1] at hx; exact absurd hi hx
    · rw [h2] at hx; exact absurd rfl hx
    · rcases h2 with h2 | h2
      · exact absurd (idle_stays h1 hi h2) hx
      · exact h2
  · obtain ⟨hb, l, hc⟩ := p.zero x hi
    rcases busy_step p.inv h hb hc with h1 | h1
    · exact ⟨h1.1, l, h1.2⟩
    · exact absurd h1 hi

theorem prog_run {e : Env} {s s' : St} {cs : List Choice} (p : Prog e s) (h : run e s cs = some s') : Prog e s' := by
  induction cs generalizing s with
  | nil => cases h; exact p
  | cons c cs ih =>
    obtain ⟨s1, h1, h2⟩ := bind_some h
    exact ih (prog_step p h1) h2

/-! ### Schedules of inner steps -/

/-- There is a schedule of inner steps from `s` to a state with `P`. -/
def Can (e : Env) (s : St) (P : St → Prop) : Prop := ∃ cs s', (∀ c ∈ cs, Inner c) ∧ run e s cs = some s' ∧ P s'

theorem Can.here {e : Env} {s : St} {P : St → Prop} (h : P s) : Can e s P := ⟨[], s, by simp, rfl, h⟩

theorem Can.step {e : Env} {s s' : St} {P : St → Prop} (c : Choice) (hc : Inner c) (hs : step e s c = some s') (h : Can e s' P) : Can e s P := by
  obtain ⟨cs, t, h1, h2, h3⟩ := h
  refine ⟨c :: cs, t, ?_, by simp [run, hs, h2], h3⟩
  intro d hd
  rcases List.mem_cons.1 hd with rfl | hd
  · exact hc
  · exact h1 d hd

theorem run_append' {e : Env} {s : St} {cs ds : List Choice} : run e s (cs ++ ds) = (run e s cs).bind fun s => run e s ds := by
  induction cs generalizing s with
  | nil => rfl
  | cons c cs ih =>
    simp only [List.cons_append, run]
    cases CtxReq.step e s c with
    | none => rfl
    | some s' => exact ih

theorem Can.trans {e : Env} {s : St} {P Q : St → Prop} (p : Prog e s) (h : Can e s P) (hq : ∀ s', Prog e s' → P s' → Can e s' Q) : Can e s Q := by
  obtain ⟨cs, t, h1, h2, h3⟩ := h
  obtain ⟨ds, u, h4, h5, h6⟩ := hq t (prog_run p h2) h3
  refine ⟨cs ++ ds, u, ?_, by rw [run_append', h2]; exact h5, h6⟩
  intro d hd
  rcases List.mem_append.1 hd with hd | hd
  · exact h1 d hd
  · exact h4 d hd

/-- What stays as it is. -/
structure Same (s s' : St) : Prop where
  busy : s'.busy = s.busy
  cp : s'.cx.cp = s.cx.cp
  passes : s'.cx.passes = s.cx.passes
  ap : ∀ x b, s.cx.ap x = .done b → s'.cx.ap x = .done b

theorem Same.trans {a b c : St} (h : Same a b) (k : Same b c) : Same a c :=
  ⟨k.busy.trans h.busy, k.cp.trans h.cp, k.passes.trans h.passes, fun x v hx => k.ap x v (h.ap x v hx)⟩

theorem Same.rfl {a : St} : Same a a := ⟨_root_.rfl, _root_.rfl, _root_.rfl, fun _ _ h => h⟩

/-- The mutex of the context is released. -/
theorem can_unlock {e : Env} {s : St} (p : Prog e s) : Can e s fun s' => Same s s' ∧ s'.r = s.r ∧ s'.cx.lock = none := by
  cases hl : s.cx.lock with
  | none => exact .here ⟨.rfl, rfl, hl⟩
  | some x =>
    have store : ∀ s0 : St, s0.cx.ap x = .reg → Same s s0 → s0.r = s.r → Can e s0 fun s' => Same s s' ∧ s'.r = s.r ∧ s'.cx.lock = none := by
      intro s0 h h1 h2
      have hs : step e s0 (.adder x) = some { s0 with cx := { Context.store s0.cx x with lock := none, ap := Context.set (Context.store s0.cx x).ap x (.done true) } } := by
        simp only [step, h, Context.step, Context.stepAdder, St.withCx, Option.map_some]
      refine .step (.adder x) trivial hs (.here ⟨h1.trans ?_, h2, rfl⟩)
      constructor
      · rfl
      · simp only [Context.store]; (repeat' split) <;> rfl
      · simp only [Context.store]; (repeat' split) <;> rfl
      · intro y b hy
        have : y ≠ x := by rintro rfl; rw [h] at hy; cases hy
        simp only [Context.store, Context.set]; (repeat' split) <;> first | exact hy | contradiction
    rcases (p.inv.cx.lock x).1 hl with h | h
    · have hap : ∀ v y b, s.cx.ap y = .done b → Context.set s.cx.ap x v y = .done b := by
        intro v y b hy
        have : y ≠ x := by rintro rfl; rw [h] at hy; cases hy
        simp only [Context.set, if_neg this]; exact hy
      by_cases h0 : s.cx.state = 0
      · have hs : step e s (.adder x) = some { s with cx := { s.cx with ap := Context.set s.cx.ap x .reg } } := by
          simp only [step, h, Context.step, Context.stepAdder, St.withCx, if_pos h0, Option.map_some]
        exact .step (.adder x) trivial hs (store _ (by simp [Context.set]) ⟨rfl, rfl, rfl, hap _⟩ rfl)
      · have hs : step e s (.adder x) = some { s with cx := { s.cx with lock := none, ap := Context.set s.cx.ap x .refused } } := by
          simp only [step, h, Context.step, Context.stepAdder, St.withCx, if_neg h0, Option.map_some]
        exact .step (.adder x) trivial hs (.here ⟨⟨rfl, rfl, rfl, hap _⟩, rfl, rfl⟩)
    · exact store s h .rfl rfl

/-- What the goroutines but `t` do with the requests. -/
structure Aside (x t : Nat) (s s' : St) : Prop where
  same : Same s s'
  other : ∀ y, y ≠ x → s'.r y = s.r y
  pc : ∀ u, u ≠ t → (s'.r x).pc u = (s.r x).pc u

theorem Aside.trans {x t : Nat} {a b c : St} (h : Aside x t a b) (k : Aside x t b c) : Aside x t a c :=
  ⟨h.same.trans k.same, fun y hy => (k.other y hy).trans (h.other y hy), fun u hu => (k.pc u hu).trans (h.pc u hu)⟩

theorem next_not (r : Request.St) (t : Nat) : (∀ u op, next r t ≠ .call u op) ∧ (∀ u acts, next r t = .bookmark u acts → acts = []) ∧
    (∀ u acts, next r t = .responder u acts → acts = []) ∧ (∀ u, next r t = .go u → u = t) := by
  have : next r t = .responder t [] ∨ next r t = .bookmark t [] ∨ next r t = .go t := by
    unfold next
    (repeat' split) <;> simp
  rcases this with h | h | h <;> rw [h] <;> simp <;> grind

/-- The owner of the mutex of a request makes its next step. -/
theorem can_next {e : Env} {s : St} {x t : Nat} {b : Bool} (p : Prog e s) (hx : e.isReq x = true) (ha : s.cx.ap x = .done b)
    (hl : (s.r x).lock = some t) (hq : Quiet ((s.r x).pc t)) :
    Can e s fun s' => Aside x t s s' ∧ Quiet ((s'.r x).pc t) ∧ ((s'.r x).lock = some t ∧
      left (s'.r x).d ((s'.r x).pc t) < left (s.r x).d ((s.r x).pc t) ∨ (s'.r x).lock = none ∧ (s'.r x).pc t = .idle) := by
  refine .trans p (can_unlock p) ?_
  rintro s1 p1 ⟨h1, h2, h3⟩
  have ha1 := h1.ap x b ha
  rw [← h2] at hl hq ⊢
  obtain ⟨r', hr, ho, hq', hm⟩ := next_step (p1.i12 x) hl hq
  obtain ⟨n1, n2, n3, n4⟩ := next_not (s1.r x) t
  have hd : s1.cx.ap x = .done true ∨ s1.cx.ap x = .done false := by rw [ha1]; cases b <;> simp
  suffices ∃ cx, step e s1 (.req x (next (s1.r x) t)) = some { s1 with cx, r := fun y => if y = x then r' else s1.r y } ∧
      cx.cp = s1.cx.cp ∧ cx.passes = s1.cx.passes ∧ cx.ap = s1.cx.ap by
    obtain ⟨cx, hs, c1, c2, c3⟩ := this
    refine .step _ (next_inner _ _ _) hs (.here ⟨⟨h1.trans ⟨rfl, c1, c2, by simp only [c3]; exact fun _ _ h => h⟩, ?_, ?_⟩, ?_, ?_⟩)
    · intro y hy; simp [if_neg hy, h2]
    · intro u hu; simp only [if_true]; rw [← h2]; exact ho u hu
    · simpa using hq'
    · simpa using hm
  have plain : s1.withReq x (Request.step (s1.r x) (next (s1.r x) t)) = some { s1 with r := fun y => if y = x then r' else s1.r y } := by
    rw [hr]; rfl
  simp only [step, hx, hd, true_and, if_true]
  cases hn : next (s1.r x) t with
  | call u op => exact absurd hn (n1 u op)
  | bookmark u acts =>
    have := n2 _ _ hn; subst this
    rw [hn] at plain
    exact ⟨s1.cx, by simp only [reqStep, ne_eq, not_true_eq_false, and_false, if_false]; exact plain, rfl, rfl, rfl⟩
  | responder u acts =>
    have := n3 _ _ hn; subst this
    rw [hn] at plain
    exact ⟨s1.cx, by simp only [reqStep, ne_eq, not_true_eq_false, if_false]; exact plain, rfl, rfl, rfl⟩
  | go u =>
    rw [hn] at plain hr
    simp only [reqStep]
    split
    · simp only [Context.step, h3, hd, true_and, if_true, St.withCx, St.withReq, Option.map_some, Option.bind_some, hr]
      refine ⟨_, rfl, ?_, ?_, ?_⟩ <;> unfold Context.signal Context.delete <;> (repeat' split) <;> rfl
    · exact ⟨s1.cx, plain, rfl, rfl, rfl⟩

/-- The owner of the mutex of a request releases it. -/
theorem can_release {e : Env} {x t : Nat} {b : Bool} (n : Nat) {s : St} (p : Prog e s) (hx : e.isReq x = true) (ha : s.cx.ap x = .done b)
    (hl : (s.r x).lock = some t) (hq : Quiet ((s.r x).pc t)) (hn : left (s.r x).d ((s.r x).pc t) ≤ n) :
    Can e s fun s' => Aside x t s s' ∧ (s'.r x).lock = none ∧ (s'.r x).pc t = .idle := by
  induction n generalizing s with
  | zero =>
    refine .trans p (can_next p hx ha hl hq) ?_
    rintro s1 p1 ⟨h1, h2, h3⟩
    rcases h3 with h3 | h3
    · omega
    · exact .here ⟨h1, h3⟩
  | succ n ih =>
    refine .trans p (can_next p hx ha hl hq) ?_
    rintro s1 p1 ⟨h1, h2, h3⟩
    rcases h3 with h3 | h3
    · refine .trans p1 (ih p1 (h1.same.ap x b ha) h3.1 h2 (by omega)) ?_
      rintro s2 p2 ⟨h4, h5⟩
      exact .here ⟨h1.trans h4, h5⟩
    · exact .here ⟨h1, h3⟩

/-- No goroutine is stuck in user code. -/
def Calm (s : St) : Prop := ∀ x t, Quiet ((s.r x).pc t)

theorem Aside.calm {x t : Nat} {s s' : St} (h : Aside x t s s') (hc : Calm s) (hq : Quiet ((s'.r x).pc t)) : Calm s' := by
  intro y u
  by_cases hy : y = x
  · subst hy
    by_cases hu : u = t
    · subst hu; exact hq
    · rw [h.pc u hu]; exact hc y u
  · rw [h.other y hy]; exact hc y u

/-- The mutex of a request is released. -/
theorem can_free {e : Env} {x : Nat} {b : Bool} {s : St} (p : Prog e s) (hx : e.isReq x = true) (ha : s.cx.ap x = .done b) (hc : Calm s) :
    Can e s fun s' => Same s s' ∧ Calm s' ∧ (s'.r x).lock = none ∧ ∀ u, (s'.r x).pc u = (s.r x).pc u ∨ (s'.r x).pc u = .idle := by
  cases hl : (s.r x).lock with
  | none => exact .here ⟨.rfl, hc, hl, fun u => .inl rfl⟩
  | some t =>
    refine .trans p (can_release _ p hx ha hl (hc x t) (Nat.le_refl _)) ?_
    rintro s1 p1 ⟨h1, h2, h3⟩
    refine .here ⟨h1.same, h1.calm hc (by rw [h3]; trivial), h2, fun u => ?_⟩
    by_cases hu : u = t
    · subst hu; exact .inr h3
    · exact .inl (h1.pc u hu)

/-- `cancelAll` returns from the `Cancel` of a request. -/
theorem can_return {e : Env} {x : Nat} {b : Bool} {s : St} (p : Prog e s) (hx : e.isReq x = true) (ha : s.cx.ap x = .done b) (hc : Calm s) :
    Can e s fun s' => Same s s' ∧ Calm s' ∧ (s'.r x).pc 0 = .idle := by
  have crit : ∀ {s : St}, Prog e s → s.cx.ap x = .done b → Calm s → ((s.r x).pc 0).crit = true →
      Can e s fun s' => Same s s' ∧ Calm s' ∧ (s'.r x).pc 0 = .idle := by
    intro s p ha hc hcr
    have hl := (p.inv.req x).mutex 0 hcr
    refine .trans p (can_release _ p hx ha hl (hc x 0) (Nat.le_refl _)) ?_
    rintro s1 p1 ⟨h1, h2, h3⟩
    exact .here ⟨h1.same, h1.calm hc (by rw [h3]; trivial), h3⟩
  cases hcr : ((s.r x).pc 0).crit with
  | true => exact crit p ha hc hcr
  | false =>
    refine .trans p (can_free p hx ha hc) ?_
    rintro s1 p1 ⟨h1, h2, h3, h4⟩
    have ha1 := h1.ap x b ha
    have hd : s1.cx.ap x = .done true ∨ s1.cx.ap x = .done false := by rw [ha1]; cases b <;> simp
    cases hp : (s1.r x).pc 0 with
    | idle => exact .here ⟨h1, h2, hp⟩
    | wait op =>
      have hnr : inRespond (s1.r x) 0 = false := by simp [inRespond, hp]
      have go : ∀ r', Request.step (s1.r x) (.go 0) = some r' → step e s1 (.req x (.go 0)) = some { s1 with r := fun y => if y = x then r' else s1.r y } := by
        intro r' hr
        simp only [step, hx, hd, true_and, if_true, reqStep, hnr, Bool.false_eq_true, if_false, St.withReq, hr, Option.map_some]
      have calm : ∀ r' q, r'.pc = setPc (s1.r x).pc 0 q → Quiet q → Calm { s1 with r := fun y => if y = x then r' else s1.r y } := by
        intro r' q hr hq y u
        simp only
        split
        · rw [hr]; simp only [setPc]; split
          · exact hq
          · exact h2 x u
        · exact h2 y u
      have idle : ∀ r', Request.step (s1.r x) (.go 0) = some r' → r'.pc = setPc (s1.r x).pc 0 .idle →
          Can e s1 fun s' => Same s s' ∧ Calm s' ∧ (s'.r x).pc 0 = .idle := by
        intro r' hr hpc
        refine .step _ (by trivial) (go r' hr) (.here ⟨h1.trans ⟨rfl, rfl, rfl, fun _ _ h => h⟩, calm r' _ hpc trivial, ?_⟩)
        simp [hpc, setPc]
      have lock : ∀ r', Request.step (s1.r x) (.go 0) = some r' → r'.pc = setPc (s1.r x).pc 0 (.locked op) →
          Can e s1 fun s' => Same s s' ∧ Calm s' ∧ (s'.r x).pc 0 = .idle := by
        intro r' hr hpc
        refine .step _ (by trivial) (go r' hr) (.trans (prog_step p1 (go r' hr)) (crit (prog_step p1 (go r' hr)) ha1 (calm r' _ hpc trivial) ?_) ?_)
        · simp [hpc, setPc, Request.Pc.crit]
        · rintro s2 p2 ⟨h5, h6, h7⟩
          exact .here ⟨h1.trans (⟨h5.busy, h5.cp, h5.passes, h5.ap⟩), h6, h7⟩
      cases op with
      | setPending =>
        have : ∃ r', Request.step (s1.r x) (.go 0) = some r' ∧ r'.pc = setPc (s1.r x).pc 0 .idle := by simp [Request.step, hp, Request.St.begin]
        obtain ⟨r', h5, h6⟩ := this
        exact idle r' h5 h6
      | claim =>
        have : ∃ r', Request.step (s1.r x) (.go 0) = some r' ∧ r'.pc = setPc (s1.r x).pc 0 .idle := by simp [Request.step, hp, Request.St.begin]
        obtain ⟨r', h5, h6⟩ := this
        exact idle r' h5 h6
      | _ =>
        have : ∃ r', Request.step (s1.r x) (.go 0) = some r' ∧ ∃ op, (s1.r x).pc 0 = .wait op ∧ r'.pc = setPc (s1.r x).pc 0 (.locked op) := by
          simp [Request.step, hp, Request.St.begin, Request.St.lockStep, h3]
        obtain ⟨r', h5, op, h7, h6⟩ := this
        rw [hp] at h7; cases h7
        exact lock r' h5 h6
    | _ =>
      refine .trans p1 (crit p1 ha1 h2 (by rw [hp]; rfl)) ?_
      rintro s2 p2 ⟨h5, h6, h7⟩
      exact .here ⟨h1.trans h5, h6, h7⟩

/-- `cancelAll` is through with one canceler. -/
theorem can_one {e : Env} {x : Nat} {l : List Nat} {s : St} (p : Prog e s) (hp : s.cx.cp = .calling (x :: l)) (hc : Calm s) :
    Can e s fun s' => s'.cx.cp = .calling l ∧ s'.cx.passes = s.cx.passes ∧ Calm s' := by
  have ha := p.inv.calls _ hp x (by simp)
  cases hx : e.isReq x with
  | false =>
    have hs : step e s (.canc false) = some { s with cx := { s.cx with called := Context.set s.cx.called x true, cp := .calling l } } := by
      simp only [step, hp, hx, if_true, Context.step, Context.stepCancel, St.withCx, Option.map_some]
    exact .step _ (by trivial) hs (.here ⟨rfl, rfl, hc⟩)
  | true =>
    have fin : ∀ {s : St}, Prog e s → s.busy = true → s.cx.cp = .calling (x :: l) → s.cx.ap x = .done true → Calm s →
        Can e s fun s' => s'.cx.cp = .calling l ∧ s'.cx.passes = s.cx.passes ∧ Calm s' := by
      intro s p hb hp ha hc
      refine .trans p (can_return p hx ha hc) ?_
      rintro s1 p1 ⟨h1, h2, h3⟩
      have hs : step e s1 (.canc false) =
          some { s1 with busy := false, cx := { s1.cx with called := Context.set s1.cx.called x true, cp := .calling l } } := by
        simp only [step, h1.cp, hp, hx, h1.busy, hb, h3, Bool.true_eq_false, if_false, if_true, Context.step, Context.stepCancel, St.withCx, Option.map_some]
      exact .step _ (by trivial) hs (.here ⟨rfl, h1.passes, h2⟩)
    cases hb : s.busy with
    | true => exact fin p hb hp ha hc
    | false =>
      have hi : (s.r x).pc 0 = .idle := by
        apply Classical.byContradiction
        intro h
        have := (p.zero x h).1
        rw [hb] at this; cases this
      have hs : step e s (.canc true) = some { s with busy := true, r := fun y => if y = x then
          { s.r x with pc := setPc (s.r x).pc 0 (.wait (.fail Misc.RcCanceled)) } else s.r y } := by
        simp only [step, hp, hx, hb, hi, Bool.true_eq_false, Bool.false_eq_true, if_false, if_true, Request.step, St.withReq, Option.map_some]
      refine .step _ (by trivial) hs (fin (prog_step p hs) rfl hp ha ?_)
      intro y u
      simp only
      split
      · simp only [setPc]; split
        · trivial
        · exact hc x u
      · exact hc y u

/-- `cancelAll` is through with its copy. -/
theorem can_all {e : Env} {l : List Nat} {s : St} (p : Prog e s) (hp : s.cx.cp = .calling l) (hc : Calm s) :
    Can e s fun s' => s'.cx.passes = s.cx.passes + 1 ∧ Calm s' := by
  induction l generalizing s with
  | nil =>
    have hs : step e s (.canc false) = some { s with cx := { s.cx with passes := s.cx.passes + 1, cp := .readM } } := by
      simp only [step, hp, Context.step, Context.stepCancel, St.withCx, Option.map_some]
    exact .step _ (by trivial) hs (.here ⟨rfl, hc⟩)
  | cons x l ih =>
    refine .trans p (can_one p hp hc) ?_
    rintro s1 p1 ⟨h1, h2, h3⟩
    rw [← h2]
    exact ih p1 h1 h3

theorem can_snap {e : Env} {s : St} (p : Prog e s) (hp : s.cx.cp = .snap) (hc : Calm s) :
    Can e s fun s' => s'.cx.passes = s.cx.passes + 1 ∧ Calm s' := by
  refine .trans p (can_unlock p) ?_
  rintro s1 p1 ⟨h1, h2, h3⟩
  have hs : step e s1 (.canc false) = some { s1 with cx := { s1.cx with cp := .calling (Context.copy s1.cx) } } := by
    simp only [step, h1.cp, hp, Context.step, Context.stepCancel, h3, if_true, St.withCx, Option.map_some]
  rw [← h1.passes]
  exact .step _ (by trivial) hs (can_all (prog_step p1 hs) rfl (by intro y u; simp only [h2]; exact hc y u))

theorem can_readN {e : Env} {s : St} (p : Prog e s) (hp : s.cx.cp = .readN) (hc : Calm s) :
    Can e s fun s' => s'.cx.cp = .exit ∨ s'.cx.passes = s.cx.passes + 1 := by
  have hs : step e s (.canc false) = some { s with cx := { s.cx with cp := if 0 < s.cx.n then .snap else .exit } } := by
    simp only [step, hp, Context.step, Context.stepCancel, St.withCx, Option.map_some]
  refine .step _ (by trivial) hs ?_
  by_cases h : 0 < s.cx.n
  · refine .trans (prog_step p hs) (can_snap (prog_step p hs) (by simp [h]) hc) ?_
    rintro s1 p1 ⟨h1, h2⟩
    exact .here (.inr h1)
  · exact .here (.inl (by simp [h]))

theorem can_round {e : Env} {s : St} (p : Prog e s) (hp : s.cx.cp ≠ .idle) (hc : Calm s) :
    Can e s fun s' => s'.cx.cp = .exit ∨ s'.cx.passes = s.cx.passes + 1 := by
  have weak : ∀ s : St, Prog e s → (Can e s fun s' => s'.cx.passes = s.cx.passes + 1 ∧ Calm s') →
      Can e s fun s' => s'.cx.cp = .exit ∨ s'.cx.passes = s.cx.passes + 1 := by
    intro s p h
    exact .trans p h fun s1 p1 h1 => .here (.inr h1.1)
  cases hcp : s.cx.cp with
  | idle => exact absurd hcp hp
  | exit => exact .here (.inl hcp)
  | readN => exact can_readN p hcp hc
  | snap => exact weak s p (can_snap p hcp hc)
  | calling l => exact weak s p (can_all p hcp hc)
  | readM =>
    have hs : step e s (.canc false) = some { s with cx := { s.cx with cp := if 0 < s.cx.m.length then .snap else .readN } } := by
      simp only [step, hcp, Context.step, Context.stepCancel, St.withCx, Option.map_some]
    refine .step _ (by trivial) hs ?_
    by_cases h : 0 < s.cx.m.length
    · exact weak _ (prog_step p hs) (can_snap (prog_step p hs) (by simp [h]) hc)
    · exact can_readN (prog_step p hs) (by simp [h]) hc

/-! ### To the end of `cancelAll` -/

/-- Nothing is half way, and nothing was set back. -/
def Tame (r : Request.St) : Prop := (∀ t, Quiet (r.pc t)) ∧ Ev.reset ∉ r.d.log

/-- The bookmarks and Responders do nothing. -/
def Passive : Request.Choice → Prop
  | .bookmark _ (_ :: _) | .responder _ (_ :: _) => False
  | _ => True

theorem own_tame {d t p d' p'} (h : own d t p = some (d', p')) (hq : Quiet p) (hr : Ev.reset ∉ d.log) : Quiet p' ∧ Ev.reset ∉ d'.log := by
  unfold Request.own at h
  split at h
  case h_3 op =>
    simp only [Option.some.injEq] at h
    cases op <;> simp only [lockedStep] at h <;> grind [Quiet, Data.note]
  case h_10 a acts => cases hq
  case h_13 a acts => cases hq
  all_goals (simp only [Quiet] at hq <;> grind [Quiet, Data.note])

theorem tame_step {r r' : Request.St} {c : Request.Choice} (h : Request.step r c = some r') (hp : Passive c) (ht : Tame r) : Tame r' := by
  have put : ∀ t q d, Quiet q → Ev.reset ∉ d.log → r'.d = d → r'.pc = setPc r.pc t q → Tame r' := by
    intro t q d h1 h2 h3 h4
    refine ⟨fun u => ?_, by rw [h3]; exact h2⟩
    rw [h4]
    simp only [setPc]
    split
    · exact h1
    · exact ht.1 u
  cases c with
  | call t op =>
    simp only [Request.step] at h
    split at h <;> cases h
    exact put t _ _ (by trivial) ht.2 rfl rfl
  | go t =>
    simp only [Request.step] at h
    split at h
    · rename_i op hw
      have lk : ∀ op, r.lockStep t op = some r' → Tame r' := by
        intro op h
        simp only [Request.St.lockStep] at h
        split at h <;> cases h
        exact put t _ _ (by trivial) ht.2 rfl rfl
      have hr := ht.2
      cases op <;> simp only [Request.St.begin] at h
      · cases h; exact put t .idle _ trivial (by simp only [casPending, Data.note]; grind) rfl rfl
      · cases h; exact put t .idle _ trivial (by simp only [casInFly, Data.note]; grind) rfl rfl
      all_goals exact lk _ h
    · obtain ⟨p, h1, h2⟩ := Request.own_eq h
      obtain ⟨q1, q2⟩ := own_tame h1 (ht.1 t) ht.2
      exact put t p _ q1 q2 rfl h2
  | bookmark t acts =>
    cases acts with
    | cons a l => cases hp
    | nil =>
      obtain ⟨p, h1, h2⟩ := Request.own_eq h
      have hr := ht.2
      have : Quiet p ∧ Ev.reset ∉ r'.d.log := by
        unfold enterBookmark at h1
        (repeat' split at h1) <;> first | cases h1; done | skip
        simp only [Option.some.injEq, Prod.mk.injEq] at h1
        rw [← h1.1, ← h1.2]
        exact ⟨trivial, by simpa [Data.note] using hr⟩
      exact put t p _ this.1 this.2 rfl h2
  | responder t acts =>
    cases acts with
    | cons a l => cases hp
    | nil =>
      obtain ⟨p, h1, h2⟩ := Request.own_eq h
      have hr := ht.2
      have : Quiet p ∧ Ev.reset ∉ r'.d.log := by
        unfold enterResponder at h1
        (repeat' split at h1) <;> first | cases h1; done | skip
        simp only [Option.some.injEq, Prod.mk.injEq] at h1
        rw [← h1.1, ← h1.2]
        exact ⟨trivial, by simpa [Data.note] using hr⟩
      exact put t p _ this.1 this.2 rfl h2

theorem tame_inner {e : Env} {s s' : St} {c : Choice} (h : step e s c = some s') (hin : Inner c) (ht : ∀ x, Tame (s.r x)) : ∀ x, Tame (s'.r x) := by
  intro x
  have plain : ∀ (s0 : St) o, s0.r = s.r → s0.withCx o = some s' → Tame (s'.r x) := by
    intro s0 o h0 h
    obtain ⟨cx, h1, rfl⟩ := map_some h
    simp only; rw [h0]; exact ht x
  have req : ∀ (s0 : St) y c, s0.r = s.r → s0.withReq y (Request.step (s.r y) c) = some s' → Passive c → Tame (s'.r x) := by
    intro s0 y c h0 h hp
    obtain ⟨r', h1, rfl⟩ := map_some h
    simp only
    split
    · exact tame_step h1 hp (ht y)
    · rw [h0]; exact ht x
  cases c with
  | adder y =>
    simp only [step] at h
    split at h
    · rename_i hp
      obtain ⟨s1, h1, h2⟩ := bind_some h
      split at h2
      · obtain ⟨cx, h3, rfl⟩ := map_some h1
        cases h2
        simp only
        split
        · exact ⟨fun _ => trivial, by simp [chained]⟩
        · exact ht x
      · cases h2; exact plain _ _ rfl h1
    · obtain ⟨s1, h1, h2⟩ := bind_some h
      split at h2
      · obtain ⟨cx, h3, rfl⟩ := map_some h1
        exact req _ _ _ (by rfl) h2 trivial
      · cases h2; exact plain _ _ rfl h1
    · exact plain _ _ rfl h
  | canc found =>
    simp only [step] at h
    (repeat' split at h) <;> first | cases h; done | exact plain _ _ (by rfl) h | exact req { s with busy := true } _ _ rfl h trivial
  | req y c =>
    simp only [step] at h
    split at h
    · cases c with
      | call t op => cases hin
      | go t =>
        simp only [reqStep] at h
        split at h
        · obtain ⟨s1, h1, h2⟩ := bind_some h
          obtain ⟨cx, h3, rfl⟩ := map_some h1
          exact req _ _ _ (by rfl) h2 trivial
        · exact req _ _ _ rfl h trivial
      | bookmark t acts =>
        cases acts with
        | cons a l => cases hin
        | nil =>
          simp only [reqStep] at h
          split at h
          · cases h
          · exact req _ _ _ rfl h trivial
      | responder t acts =>
        cases acts with
        | cons a l => cases hin
        | nil =>
          simp only [reqStep] at h
          split at h
          · cases h
          · exact req _ _ _ rfl h trivial
    · cases h
  | _ => cases hin

/-- The context stays cancelled, and nothing is stored any more. -/
theorem clear_inner {e : Env} {s s' : St} {c : Choice} (h : step e s c = some s') (h0 : s.cx.state ≠ 0) (hc : Context.Clear s.cx) :
    s'.cx.state ≠ 0 ∧ Context.Clear s'.cx := by
  have key : ∀ c cx, Context.step s.cx c = some cx → cx.state ≠ 0 ∧ ∀ x, cx.ap x ≠ .reg := by
    intro c cx h1
    have hc := hc h0
    cases c with
    | adder x =>
      obtain ⟨h2, _, _, h5, h6⟩ := adder_eq h1
      refine ⟨by rw [h2]; exact h0, fun y => ?_⟩
      by_cases hy : y = x
      · subst hy
        simp only [Context.step, Context.stepAdder] at h1
        cases hp : s.cx.ap y <;> simp only [hp, h0, if_false] at h1 <;> (repeat' split at h1) <;> cases h1 <;> simp [Context.set]
      · rw [(h5 y hy).1]; exact hc y
    | remove x =>
      obtain ⟨h2, _, _, _, h6⟩ := remove_eq h1
      rw [h2, h6]; exact ⟨h0, hc⟩
    | canc =>
      simp only [Context.step, Context.stepCancel] at h1
      (repeat' split at h1) <;> cases h1 <;> exact ⟨h0, hc⟩
    | add x =>
      simp only [Context.step] at h1
      split at h1 <;> cases h1
      refine ⟨h0, fun y => ?_⟩
      simp only [Context.set]; split
      · simp
      · exact hc y
    | _ =>
      simp only [Context.step] at h1
      (repeat' split at h1) <;> cases h1 <;> first | exact ⟨h0, hc⟩ | contradiction
  rcases cx_step h with h1 | ⟨c, h1⟩
  · rw [h1]; exact ⟨h0, hc⟩
  · have := key c _ h1
    exact ⟨this.1, fun _ => this.2⟩

theorem inner_run {e : Env} {s s' : St} {cs : List Choice} (hin : ∀ c ∈ cs, Inner c) (h : run e s cs = some s') (l : Live e s)
    (h0 : s.cx.state ≠ 0) (hc : Context.Clear s.cx) (ht : ∀ x, Tame (s.r x)) : Live e s' ∧ s'.cx.state ≠ 0 ∧ ∀ x, Tame (s'.r x) := by
  induction cs generalizing s with
  | nil => cases h; exact ⟨l, h0, ht⟩
  | cons c cs ih =>
    obtain ⟨s1, h1, h2⟩ := bind_some h
    have hk := clear_inner h1 h0 hc
    exact ih (fun c hc => hin c (by simp [hc])) h2 (live_step l h1 hc hk.2) hk.1 hk.2 (tame_inner h1 (hin c (by simp)) ht)

/-- The last two looks. -/
theorem can_exit {e : Env} {s : St} (l : Live e s) (hq : ∀ x, e.isReq x = true) (ho : ∀ x, Once s x) (hp : 0 < s.cx.passes) :
    Can e s fun s' => s'.cx.cp = .exit := by
  obtain ⟨hm, hn⟩ := l.none hq ho hp
  have rN : ∀ s : St, s.cx.cp = .readN → s.cx.n = 0 → Can e s fun s' => s'.cx.cp = .exit := by
    intro s hp hn
    have hs : step e s (.canc false) = some { s with cx := { s.cx with cp := if 0 < s.cx.n then .snap else .exit } } := by
      simp only [step, hp, Context.step, Context.stepCancel, St.withCx, Option.map_some]
    exact .step _ (by trivial) hs (.here (by simp [hn]))
  rcases l.one hq ho with h | ⟨_, h | h | h⟩
  · omega
  · have hs : step e s (.canc false) = some { s with cx := { s.cx with cp := if 0 < s.cx.m.length then .snap else .readN } } := by
      simp only [step, h, Context.step, Context.stepCancel, St.withCx, Option.map_some]
    exact .step _ (by trivial) hs (rN _ (by simp [hm]) hn)
  · exact rN s h hn
  · exact .here h

theorem can_end {e : Env} {s : St} (p : Prog e s) (l : Live e s) (hq : ∀ x, e.isReq x = true) (hc : Context.Clear s.cx)
    (ht : ∀ x, Tame (s.r x)) (hp : s.cx.cp ≠ .idle) : Can e s fun s' => s'.cx.cp = .exit := by
  by_cases h0 : 0 < s.cx.passes
  · exact can_exit l hq (fun x => (ht x).2) h0
  · have hst : s.cx.state ≠ 0 := fun h => hp (p.inv.idle h)
    obtain ⟨cs, s', h1, h2, h3⟩ := can_round p hp (fun x => (ht x).1)
    obtain ⟨l', _, ht'⟩ := inner_run h1 h2 l hst hc ht
    rcases h3 with h3 | h3
    · exact ⟨cs, s', h1, h2, h3⟩
    · obtain ⟨ds, s'', h4, h5, h6⟩ := can_exit l' hq (fun x => (ht' x).2) (by omega)
      refine ⟨cs ++ ds, s'', ?_, by rw [run_append', h2]; exact h5, h6⟩
      intro d hd
      rcases List.mem_append.1 hd with hd | hd
      · exact h1 d hd
      · exact h4 d hd

end Verif.CtxReq
