import Verif.Proofs.CodecFill

/-! Properties C93, C94, C95: the codec caches. `e` is arbitrary: any types, recursive or not, with any `Fill`. -/
namespace Verif.CodecCache
set_option linter.unusedSectionVars false
variable {T A : Type} [DecidableEq T] {e : Env T A}

theorem any_some {o : Option (St T A)} {p : St T A → Prop} [DecidablePred p] (h : (o.any fun s => p s) = true) :
    ∃ s, o = some s ∧ p s := by
  cases o with
  | none => simp at h
  | some s => exact ⟨s, rfl, by simpa using h⟩

theorem Reach.inv {s : St T A} (h : Reach e s) : Inv s := by
  obtain ⟨cs, h⟩ := h
  exact run_inv cs init_inv h

theorem Reach.hist {s : St T A} (h : Reach e s) : Hist e s := by
  obtain ⟨cs, h⟩ := h
  exact run_hist cs init_inv init_hist h

theorem run_append {s s' : St T A} (cs ds : List (Choice T)) (h : run e s cs = some s') : run e s (cs ++ ds) = run e s' ds := by
  induction cs generalizing s with
  | nil => simp only [run, Option.some.injEq] at h; subst h; rfl
  | cons c cs ih =>
    simp only [run, List.cons_append] at h ⊢
    split at h
    · cases h
    · rename_i q hq
      exact ih h

theorem Reach.run {s s' : St T A} (h : Reach e s) {cs : List (Choice T)} (hs : run e s cs = some s') : Reach e s' := by
  obtain ⟨ds, h⟩ := h
  exact ⟨ds ++ cs, by rw [run_append ds cs h, hs]⟩

/-! ### C93 -/

/-- C93: a codec that was returned has been filled, and so has every codec it may use. -/
theorem C93_complete {s : St T A} (h : Reach e s) {rt : T} {c : Nat} (hr : (rt, some c) ∈ s.rets) :
    (∃ x, s.cods c = some x ∧ x.ty = rt) ∧ ∀ d, Uses s c d → ∃ x, s.cods d = some x ∧ x.done = true := by
  obtain ⟨hd, ht⟩ := h.inv
  have h0 := ht.ret rt c hr
  constructor
  · obtain ⟨x, h1, h2, _⟩ := hd.pubd rt c h0
    exact ⟨x, h1, h2⟩
  · have key : ∀ d, Uses s c d → ∃ rt', s.maps s.ws rt' = some d := by
      intro d hu
      induction hu with
      | self => exact ⟨rt, h0⟩
      | part d r x _ h2 h3 ih =>
        obtain ⟨rt', h4⟩ := ih
        obtain ⟨y, h5, _, _, h6⟩ := hd.pubd rt' d h4
        rw [h2] at h5
        cases h5
        exact h6 r h3
    intro d hu
    obtain ⟨rt', h1⟩ := key d hu
    obtain ⟨x, h2, _, h3, _⟩ := hd.pubd rt' d h1
    exact ⟨x, h2, h3.resolve_right id⟩

/-- C93: all calls for a type return the same codec. -/
theorem C93_same {s : St T A} (h : Reach e s) {rt : T} {c d : Nat} (hc : (rt, some c) ∈ s.rets) (hd : (rt, some d) ∈ s.rets) :
    c = d := by
  have ht := h.inv.thr
  have := ht.ret rt c hc
  rw [ht.ret rt d hd] at this
  simpa using this.symm

/-- One step: published maps stay, the published map grows, published codecs stay. -/
theorem step_frozen {s s' : St T A} (hi : Inv s) (c : Choice T) (hs : step e s c = some s') :
    s.ws ≤ s'.ws ∧ (∀ m, m ≤ s.ws → s'.maps m = s.maps m) ∧ Sub (s.maps s.ws) (s'.maps s'.ws) ∧
    (∀ rt d, s.maps s.ws rt = some d → s'.cods d = s.cods d) ∧ ∀ r ∈ s.rets, r ∈ s'.rets := by
  obtain ⟨hd, ht⟩ := hi
  cases c with
  | call t rt =>
    simp only [step] at hs
    split at hs <;> simp only [Option.some.injEq, reduceCtorEq] at hs
    subst hs
    exact ⟨Nat.le_refl _, fun _ _ => rfl, fun _ _ h => h, fun _ _ _ => rfl, fun _ h => h⟩
  | go t =>
    simp only [step] at hs
    split at hs
    case h_6 rt hp =>
      have hw := hd.wslt
      simp only [Option.some.injEq] at hs
      subst hs
      refine ⟨Nat.le_refl _, fun m hm => set_ne _ _ (by omega), ?_, fun _ _ _ => rfl, fun _ h => h⟩
      intro x d hx
      simp only
      rw [set_ne _ _ (by omega)]
      exact hx
    case h_7 rt hp =>
      have hc : crit (s.pc t) = true := by simp [hp, crit]
      have hph : phase s = true := by rw [ht.phase hc, hp]; rfl
      rw [hph] at hd
      have hlt := hd.lt rfl
      split at hs <;> simp only [Option.some.injEq] at hs <;> subst hs
      · exact ⟨Nat.le_refl _, fun _ _ => rfl, fun _ _ h => h, fun _ _ _ => rfl, fun _ h => h⟩
      · refine ⟨Nat.le_refl _, fun m hm => set_ne _ _ (by omega), ?_, ?_, fun _ h => h⟩
        · intro x d hx
          simp only [St.create]
          rw [set_ne _ _ (by omega)]
          exact hx
        · intro x d hx
          obtain ⟨y, h1, _⟩ := hd.pubd x d hx
          exact set_ne _ _ (by have := hd.fresh d y h1; omega)
    case h_8 rt hp =>
      have hc : crit (s.pc t) = true := by simp [hp, crit]
      have hph : phase s = true := by rw [ht.phase hc, hp]; rfl
      rw [hph] at hd
      have hlt := hd.lt rfl
      simp only [fillStep] at hs
      split at hs
      · cases hs
      rename_i f rest hst
      have hne : ∀ rt d, s.maps s.ws rt = some d → d ≠ f.cod :=
        fun rt d hx => fun k => hd.not_stacked hx f (by simp [hst]) k.symm
      split at hs
      · split at hs <;> simp only [Option.some.injEq] at hs <;> subst hs
        · refine ⟨Nat.le_refl _, fun m hm => set_ne _ _ (by omega), ?_, ?_, fun _ h => h⟩
          · intro x d hx
            simp only [St.create]
            rw [set_ne _ _ (by omega)]
            exact hx
          · intro x d hx
            obtain ⟨y, h1, _⟩ := hd.pubd x d hx
            exact set_ne _ _ (by have := hd.fresh d y h1; omega)
        · exact ⟨Nat.le_refl _, fun _ _ => rfl, fun _ _ h => h, fun rt d hx => set_ne _ _ (hne rt d hx), fun _ h => h⟩
      · simp only [Option.some.injEq] at hs
        subst hs
        exact ⟨Nat.le_refl _, fun _ _ => rfl, fun _ _ h => h, fun _ _ _ => rfl, fun _ h => h⟩
      · split at hs <;> simp only [Option.some.injEq] at hs <;> subst hs
        all_goals exact ⟨Nat.le_refl _, fun _ _ => rfl, fun _ _ h => h, fun rt d hx => set_ne _ _ (hne rt d hx), fun _ h => h⟩
    case h_9 rt c hp =>
      have hc : crit (s.pc t) = true := by simp [hp, crit]
      have hph : phase s = true := by rw [ht.phase hc, hp]; rfl
      rw [hph] at hd
      have hlt := hd.lt rfl
      simp only [Option.some.injEq] at hs
      subst hs
      exact ⟨by simp only; omega, fun _ _ => rfl, hd.sub rfl, fun _ _ _ => rfl, fun _ h => h⟩
    all_goals (
      repeat' split at hs
      all_goals simp only [Option.some.injEq, reduceCtorEq] at hs
      all_goals (
        subst hs
        exact ⟨Nat.le_refl _, fun _ _ => rfl, fun _ _ h => h, fun _ _ _ => rfl, fun _ h => by simp [h]⟩))

theorem run_frozen {s s' : St T A} (hi : Inv s) (cs : List (Choice T)) (hs : run e s cs = some s') :
    s.ws ≤ s'.ws ∧ (∀ m, m ≤ s.ws → s'.maps m = s.maps m) ∧ Sub (s.maps s.ws) (s'.maps s'.ws) ∧
    (∀ rt d, s.maps s.ws rt = some d → s'.cods d = s.cods d) ∧ ∀ r ∈ s.rets, r ∈ s'.rets := by
  induction cs generalizing s with
  | nil =>
    simp only [run, Option.some.injEq] at hs
    subst hs
    exact ⟨Nat.le_refl _, fun _ _ => rfl, fun _ _ h => h, fun _ _ _ => rfl, fun _ h => h⟩
  | cons c cs ih =>
    simp only [run] at hs
    split at hs
    · cases hs
    · rename_i q hq
      obtain ⟨h1, h2, h3, h4, h5⟩ := step_frozen hi c hq
      obtain ⟨k1, k2, k3, k4, k5⟩ := ih (step_inv hi c hq) hs
      refine ⟨by omega, fun m hm => ?_, fun x d hx => k3 x d (h3 x d hx), fun x d hx => ?_, fun r hr => k5 r (h5 r hr)⟩
      · rw [k2 m (by omega), h2 m hm]
      · rw [k4 x d (h3 x d hx), h4 x d hx]

/-- C93: a map that has been published is never changed again, nor a map that some goroutine has loaded. -/
theorem C93_frozen_map {s s' : St T A} (h : Reach e s) (cs : List (Choice T)) (hs : run e s cs = some s') (m : Nat)
    (hm : m = s.ws ∨ ∃ t rt, s.pc t = .index rt m) : s'.maps m = s.maps m := by
  refine (run_frozen h.inv cs hs).2.1 m ?_
  rcases hm with rfl | ⟨t, rt, hp⟩
  · exact Nat.le_refl _
  · exact (h.inv.thr.loaded t rt m hp).1

/-- C93: a codec that has been returned is never changed again, nor are those it may use. -/
theorem C93_frozen_codec {s s' : St T A} (h : Reach e s) (cs : List (Choice T)) (hs : run e s cs = some s') {rt : T} {c : Nat}
    (hr : (rt, some c) ∈ s.rets) (d : Nat) (hu : Uses s c d) : s'.cods d = s.cods d := by
  obtain ⟨hd, ht⟩ := h.inv
  have : ∃ rt', s.maps s.ws rt' = some d := by
    induction hu with
    | self => exact ⟨rt, ht.ret rt c hr⟩
    | part d r x _ h2 h3 ih =>
      obtain ⟨rt', h4⟩ := ih
      obtain ⟨y, h5, _, _, h6⟩ := hd.pubd rt' d h4
      rw [h2] at h5
      cases h5
      exact h6 r h3
  obtain ⟨rt', h1⟩ := this
  exact (run_frozen h.inv cs hs).2.2.2.1 rt' d h1

/-- C93: a call for a type that has a codec returns it at once, without the lock. -/
theorem C93_hit {s : St T A} (h : Reach e s) {rt : T} {c : Nat} (hr : (rt, some c) ∈ s.rets) (t : Nat) (hp : s.pc t = .idle) :
    ∃ s', run e s [.call t rt, .go t, .go t] = some s' ∧ s'.rets = (rt, some c) :: s.rets ∧ s'.pc t = .idle ∧ s'.lock = s.lock := by
  have h0 := h.inv.thr.ret rt c hr
  simp [run, step, hp, h0]

/-- C93: nobody waits for ever. A goroutine inside a call can go on, unless it waits for the lock; then the goroutine
that has the lock is inside a call and can go on. If no goroutine is inside a call, the lock is free: also a panic
gives it back. -/
theorem C93_progress {s : St T A} (h : Reach e s) :
    (∀ t, s.pc t ≠ .idle → (∀ rt, s.pc t = .lock rt → s.lock = none) → step e s (.go t) ≠ none) ∧
    (∀ u, s.lock = some u → step e s (.go u) ≠ none) ∧
    ((∀ t, s.pc t = .idle) → s.lock = none) := by
  obtain ⟨hd, ht⟩ := h.inv
  have fills : ∀ t rt, s.pc t = .fill rt → fillStep e s t rt ≠ none := by
    intro t rt hp
    have := (ht.fil t rt hp).1
    unfold fillStep
    split
    · rename_i hs; exact absurd hs this
    · repeat' split
      all_goals simp
  have first : ∀ t, s.pc t ≠ .idle → (∀ rt, s.pc t = .lock rt → s.lock = none) → step e s (.go t) ≠ none := by
    intro t hp hl
    simp only [step]
    split
    · rename_i k; exact absurd k hp
    · simp
    · split <;> simp
    · rename_i rt k; simp [hl rt k]
    · split <;> simp
    · simp
    · split <;> simp
    · rename_i rt k; exact fills t rt k
    · simp
    · simp
    · simp
  refine ⟨first, ?_, ?_⟩
  · intro u hu
    have := (ht.lk u).2 hu
    refine first u ?_ ?_
    · intro k; simp [k, crit] at this
    · intro rt k; simp [k, crit] at this
  · intro hidle
    cases hl : s.lock with
    | none => rfl
    | some u =>
      have := (ht.lk u).2 hl
      simp [hidle u, crit] at this

/-- What is left to do for the types of `U`. -/
def todo (s : St T A) (U : List T) (K : Nat) : Nat :=
  ((U.filter fun n => s.maps s.wss n = none).length) * (K + 2) + (s.stack.map fun f => K - f.got.length + 1).sum

theorem filter_lt {α : Type} {p q : α → Bool} {l : List α} {a : α} (ha : a ∈ l) (hp : p a = true) (hq : q a = false)
    (h : ∀ x, q x = true → p x = true) : (l.filter q).length < (l.filter p).length := by
  induction l with
  | nil => simp at ha
  | cons b l ih =>
    have le : (l.filter q).length ≤ (l.filter p).length := by
      clear ih ha
      induction l with
      | nil => simp
      | cons c l ih =>
        simp only [List.filter_cons]
        by_cases k : q c = true
        · simp only [k, h c k, if_true, List.length_cons]; omega
        · simp only [k, Bool.false_eq_true, if_false]
          split
          · simp only [List.length_cons]; omega
          · exact ih
    simp only [List.mem_cons] at ha
    simp only [List.filter_cons]
    rcases ha with rfl | ha
    · simp only [hp, hq, if_true, Bool.false_eq_true, if_false, List.length_cons]; omega
    · have := ih ha
      by_cases k : q b = true
      · simp only [k, h b k, if_true, List.length_cons]; omega
      · simp only [k, Bool.false_eq_true, if_false]
        split
        · simp only [List.length_cons]; omega
        · exact this

theorem create_todo (s : St T A) {U : List T} {K : Nat} {m : T} (hm : m ∈ U) (hn : s.maps s.wss m = none) :
    todo (s.create e m) U K < todo s U K := by
  have key : (U.filter fun n => (s.create e m).maps s.wss n = none).length < (U.filter fun n => s.maps s.wss n = none).length := by
    refine filter_lt hm (by simp [hn]) (by simp [St.create]) ?_
    intro x hx
    simp only [St.create, set_self, decide_eq_true_eq] at hx ⊢
    by_cases k : x = m
    · subst k; simp at hx
    · rwa [set_ne _ _ k] at hx
  simp only [todo]
  have e1 : (s.create e m).wss = s.wss := rfl
  have e2 : ((s.create e m).stack.map fun f => K - f.got.length + 1).sum = K + 1 + (s.stack.map fun f => K - f.got.length + 1).sum := by
    simp [St.create]
  rw [e1, e2]
  have := Nat.mul_le_mul_right (K + 2) (Nat.succ_le_of_lt key)
  rw [Nat.succ_mul] at this
  omega

/-- The frames belong to types of `U`. -/
theorem chain_mem {U : List T} {K : Nat} (hU : Finite e U K) : ∀ (l : List (Frame T A)), Chain e l →
    (∀ f, l.getLast? = some f → f.ty ∈ U) → ∀ f ∈ l, f.ty ∈ U
  | [], _, _, f, hf => by simp at hf
  | [g], _, hl, f, hf => by simp only [List.mem_singleton] at hf; subst hf; exact hl f rfl
  | f :: g :: rest, hc, hl, x, hx => by
    have ih := chain_mem hU (g :: rest) hc.2 (fun y hy => hl y (by rw [List.getLast?_cons_cons]; exact hy))
    simp only [List.mem_cons] at hx
    rcases hx with rfl | hx
    · exact hU.parts _ (ih g (by simp)) _ ⟨_, hc.1⟩
    · exact ih x (by simpa using hx)

theorem fill_ends {U : List T} {K : Nat} (hU : Finite e U K) {t : Nat} {rt : T} (hrt : rt ∈ U) : ∀ (n : Nat) (s : St T A), todo s U K < n →
    Reach e s → s.pc t = .fill rt → ∃ k s', run e s (List.replicate k (.go t)) = some s' ∧ s'.rets = s.rets ∧
      ((∃ c, s'.pc t = .publish rt c) ∨ s'.pc t = .fail rt) := by
  intro n
  induction n with
  | zero => intro s h; omega
  | succ n ih =>
    intro s hlt hr hp
    have hi := hr.inv
    have hh := hr.hist
    obtain ⟨hne, hlast⟩ := hi.thr.fil t rt hp
    have hmem := chain_mem hU s.stack hh.chain (fun f hf => hlast f hf ▸ hrt)
    have hd := hi.data
    have hph : phase s = true := by rw [hi.thr.phase (t := t) (by simp [hp, crit]), hp]; rfl
    rw [hph] at hd
    -- one step that goes on filling
    have next : ∀ q, step e s (.go t) = some q → q.pc t = .fill rt → q.rets = s.rets → todo q U K < todo s U K →
        ∃ k s', run e s (List.replicate k (.go t)) = some s' ∧ s'.rets = s.rets ∧
          ((∃ c, s'.pc t = .publish rt c) ∨ s'.pc t = .fail rt) := by
      intro q h1 h2 h3 h4
      obtain ⟨k, s', h5, h6, h7⟩ := ih q (by omega) (hr.run (cs := [.go t]) (by simp [run, h1])) h2
      exact ⟨k + 1, s', by simp [List.replicate_succ, run, h1, h5], h6.trans h3, h7⟩
    cases hst : s.stack with
    | nil => exact absurd hst hne
    | cons f rest =>
      have hf := hmem f (by simp [hst])
      have hstep : step e s (.go t) = fillStep e s t rt := by simp only [step, hp]
      cases hfill : e.fill f.ty f.got with
      | dep m =>
        have hm := hU.parts _ hf m ⟨_, hfill⟩
        cases hmap : s.maps s.wss m with
        | none =>
          exact next (s.create e m) (by rw [hstep]; simp [fillStep, hst, hfill, hmap]) hp rfl (create_todo s hm hmap)
        | some c =>
          refine next _ (by rw [hstep]; simp only [fillStep, hst, hfill, hmap]; rfl) (by exact hp) (by rfl) ?_
          have := hU.bound _ hf _ _ hfill
          simp only [todo, hst, List.map_cons, List.sum_cons, List.length_append, List.length_cons, List.length_nil]
          omega
      | panic =>
        refine ⟨1, _, by simp only [List.replicate_succ, List.replicate_zero, run, hstep, fillStep, hst, hfill]; rfl, by rfl, ?_⟩
        simp
      | done a =>
        cases rest with
        | nil =>
          refine ⟨1, _, by simp only [List.replicate_succ, List.replicate_zero, run, hstep, fillStep, hst, hfill]; rfl, by rfl, ?_⟩
          simp
        | cons g rest =>
          refine next _ (by rw [hstep]; simp only [fillStep, hst, hfill]; rfl) (by exact hp) (by rfl) ?_
          simp only [todo, hst, List.map_cons, List.sum_cons]
          omega

/-- C93: the goroutine that has the lock, running alone, ends its call in finitely many steps, also for recursive types:
it returns a codec or panics, and the lock is free. The types concerned must be finitely many. -/
theorem C93_ends {U : List T} {K : Nat} (hU : Finite e U K) {s : St T A} (h : Reach e s) {t : Nat} (hl : s.lock = some t)
    {rt : T} (ha : about (s.pc t) = some rt) (hrt : rt ∈ U) :
    ∃ k s' r, run e s (List.replicate k (.go t)) = some s' ∧ s'.rets = (rt, r) :: s.rets ∧ s'.pc t = .idle ∧ s'.lock = none := by
  have fin : ∀ (s : St T A), Reach e s → ((∃ c, s.pc t = .publish rt c) ∨ (∃ c, s.pc t = .unlock rt c) ∨ s.pc t = .fail rt) →
      ∃ k s' r, run e s (List.replicate k (.go t)) = some s' ∧ s'.rets = (rt, r) :: s.rets ∧ s'.pc t = .idle ∧ s'.lock = none := by
    intro s _ hp
    rcases hp with ⟨c, hp⟩ | ⟨c, hp⟩ | hp
    · exact ⟨2, _, some c, by simp only [List.replicate_succ, List.replicate_zero, run, step, hp, set_self]; rfl, by rfl, by simp, by rfl⟩
    · exact ⟨1, _, some c, by simp only [List.replicate_succ, List.replicate_zero, run, step, hp]; rfl, by rfl, by simp, by rfl⟩
    · exact ⟨1, _, none, by simp only [List.replicate_succ, List.replicate_zero, run, step, hp]; rfl, by rfl, by simp, by rfl⟩
  -- glue a number of steps in front
  have glue : ∀ (s q : St T A) (k : Nat), run e s (List.replicate k (.go t)) = some q → q.rets = s.rets →
      (∃ k s' r, run e q (List.replicate k (.go t)) = some s' ∧ s'.rets = (rt, r) :: q.rets ∧ s'.pc t = .idle ∧ s'.lock = none) →
      ∃ k s' r, run e s (List.replicate k (.go t)) = some s' ∧ s'.rets = (rt, r) :: s.rets ∧ s'.pc t = .idle ∧ s'.lock = none := by
    intro s q k h1 h2 ⟨k', s', r, h3, h4, h5, h6⟩
    refine ⟨k + k', s', r, ?_, h2 ▸ h4, h5, h6⟩
    rw [← List.replicate_append_replicate, run_append _ _ h1, h3]
  have fil : ∀ (s : St T A), Reach e s → s.pc t = .fill rt →
      ∃ k s' r, run e s (List.replicate k (.go t)) = some s' ∧ s'.rets = (rt, r) :: s.rets ∧ s'.pc t = .idle ∧ s'.lock = none := by
    intro s hr hp
    obtain ⟨k, q, h1, h2, h3⟩ := fill_ends hU hrt _ s (Nat.lt_succ_self _) hr hp
    refine glue s q k h1 h2 (fin q (hr.run h1) ?_)
    rcases h3 with h3 | h3
    · exact Or.inl h3
    · exact Or.inr (Or.inr h3)
  have one : ∀ (s q : St T A), Reach e s → step e s (.go t) = some q → q.rets = s.rets →
      (Reach e q → ∃ k s' r, run e q (List.replicate k (.go t)) = some s' ∧ s'.rets = (rt, r) :: q.rets ∧ s'.pc t = .idle ∧ s'.lock = none) →
      ∃ k s' r, run e s (List.replicate k (.go t)) = some s' ∧ s'.rets = (rt, r) :: s.rets ∧ s'.pc t = .idle ∧ s'.lock = none := by
    intro s q hr h1 h2 h3
    have h4 : run e s (List.replicate 1 (.go t)) = some q := by simp [List.replicate_succ, run, h1]
    exact glue s q 1 h4 h2 (h3 (hr.run h4))
  have ent : ∀ (s : St T A), Reach e s → s.pc t = .enter rt →
      ∃ k s' r, run e s (List.replicate k (.go t)) = some s' ∧ s'.rets = (rt, r) :: s.rets ∧ s'.pc t = .idle ∧ s'.lock = none := by
    intro s hr hp
    cases hm : s.maps s.wss rt with
    | none => exact one s _ hr (by simp only [step, hp, hm]; rfl) (by rfl) (fun hq => fil _ hq (by simp))
    | some c => exact one s _ hr (by simp only [step, hp, hm]; rfl) (by rfl) (fun hq => fin _ hq (Or.inl ⟨c, by simp⟩))
  have cop : ∀ (s : St T A), Reach e s → s.pc t = .copy rt →
      ∃ k s' r, run e s (List.replicate k (.go t)) = some s' ∧ s'.rets = (rt, r) :: s.rets ∧ s'.pc t = .idle ∧ s'.lock = none := by
    intro s hr hp
    exact one s _ hr (by simp only [step, hp]; rfl) (by rfl) (fun hq => ent _ hq (by simp))
  have hc := (h.inv.thr.lk t).2 hl
  cases hp : s.pc t with
  | idle => simp [hp, crit] at hc
  | load _ => simp [hp, crit] at hc
  | index _ _ => simp [hp, crit] at hc
  | lock _ => simp [hp, crit] at hc
  | again x =>
    simp only [hp, about, Option.some.injEq] at ha
    subst ha
    cases hm : s.maps s.ws x with
    | none => exact one s _ h (by simp only [step, hp, hm]; rfl) (by rfl) (fun hq => cop _ hq (by simp))
    | some c => exact one s _ h (by simp only [step, hp, hm]; rfl) (by rfl) (fun hq => fin _ hq (Or.inr (Or.inl ⟨c, by simp⟩)))
  | copy x => simp only [hp, about, Option.some.injEq] at ha; exact cop s h (ha ▸ hp)
  | enter x => simp only [hp, about, Option.some.injEq] at ha; exact ent s h (ha ▸ hp)
  | fill x => simp only [hp, about, Option.some.injEq] at ha; exact fil s h (ha ▸ hp)
  | publish x c => simp only [hp, about, Option.some.injEq] at ha; exact fin s h (Or.inl ⟨c, ha ▸ hp⟩)
  | unlock x c => simp only [hp, about, Option.some.injEq] at ha; exact fin s h (Or.inr (Or.inl ⟨c, ha ▸ hp⟩))
  | fail x => simp only [hp, about, Option.some.injEq] at ha; exact fin s h (Or.inr (Or.inr (ha ▸ hp)))

/-- A struct type with two fields (types 1 and 2) of which the first points back to it, and a type whose `Fill` panics. -/
def sample : Env Nat Nat where
  fill n got := match n, got with
    | 0, [] => .dep 1
    | 0, [_] => .dep 2
    | 0, [x, y] => .done (x + y)
    | 1, [] => .dep 0
    | 1, [x] => .done (10 + x)
    | 2, _ => .done 5
    | 4, [] => .dep 2
    | _, _ => .panic
  init _ := 0

/-- Goroutine 0 fills the three codecs while goroutine 1 asks for type 1; then type 4 panics and type 2 is there. -/
def trace : List (Choice Nat) :=
  [.call 0 0, .go 0, .go 0, .go 0, .go 0, .go 0, .call 1 1, .go 1, .go 1] ++ List.replicate 11 (.go 0) ++ [.go 1, .go 1, .go 1] ++
  [.call 2 4] ++ List.replicate 9 (.go 2) ++ [.call 2 2, .go 2, .go 2]

example : Finite sample [0, 1, 2, 4] 2 := by
  have key : ∀ n got m, sample.fill n got = .dep m → got.length < 2 ∧ m ∈ [0, 1, 2, 4] := by
    intro n got m h
    simp only [sample] at h
    split at h <;> simp only [Act.dep.injEq, reduceCtorEq] at h <;> subst h <;> simp
  exact ⟨fun n _ m ⟨got, h⟩ => (key n got m h).2, fun n _ got m h => (key n got m h).1⟩

example : (run sample init trace).map (fun s => (s.rets, (s.cods 0).map (·.att), (s.cods 1).map (·.att), s.lock)) =
    some ([(2, some 2), (4, none), (1, some 1), (0, some 0)], some 15, some 10, none) := by decide +kernel

/-! ### C94 -/

/-- C94 (partial: everything but the variable `ws` itself, see `C94_ws_violated`): only one goroutine at a time
changes maps and codecs; no other goroutine is looking at the map it changes, and no goroutine was handed the codec it
changes. -/
theorem C94_private_partial {s : St T A} (h : Reach e s) (t m : Nat) :
    (Inserts e s t m → (∀ u rt, s.pc u ≠ .index rt m) ∧ s.ws ≠ m ∧ ∀ u k, Inserts e s u k → u = t) ∧
    (∀ c, Changes e s t c → (∀ rt, (rt, some c) ∉ s.rets) ∧ ∀ u d, Changes e s u d → u = t) := by
  obtain ⟨hd, ht⟩ := h.inv
  have cr : ∀ u k, Inserts e s u k → crit (s.pc u) = true := by
    rintro u k ⟨s', h1, h2⟩
    simp only [step] at h1
    split at h1
    all_goals first
      | (rename_i hp; simp only [hp, crit]; done)
      | (rename_i hp _; simp only [hp, crit]; done)
      | (exfalso
         repeat' split at h1
         all_goals simp only [Option.some.injEq, reduceCtorEq] at h1
         all_goals (subst h1; exact h2 rfl))
  have cr' : ∀ u k, Changes e s u k → crit (s.pc u) = true := by
    rintro u k ⟨s', h1, h2⟩
    simp only [step] at h1
    split at h1
    all_goals first
      | (rename_i hp; simp only [hp, crit]; done)
      | (rename_i hp _; simp only [hp, crit]; done)
      | (exfalso
         repeat' split at h1
         all_goals simp only [Option.some.injEq, reduceCtorEq] at h1
         all_goals (subst h1; exact h2 rfl))
  refine ⟨?_, ?_⟩
  · intro hi
    have hc := cr t m hi
    obtain ⟨s', h1, h2⟩ := hi
    have fr := (step_frozen h.inv _ h1).2.1
    refine ⟨?_, ?_, fun u k hk => ht.one (cr u k hk) hc⟩
    · intro u rt hp
      exact h2 (fr m (ht.loaded u rt m hp).1)
    · intro k
      exact h2 (fr m (by omega))
  · intro c hi
    have hc := cr' t c hi
    obtain ⟨s', h1, h2⟩ := hi
    refine ⟨?_, fun u k hk => ht.one (cr' u k hk) hc⟩
    intro rt hr
    exact h2 ((step_frozen h.inv _ h1).2.2.2.1 rt c (ht.ret rt c hr))

/-- Reachable states in which a map and a codec are being changed. -/
example : ∃ s, Reach sample s ∧ Inserts sample s 0 1 ∧ s.pc 1 = .index 2 0 := by
  obtain ⟨s, h1, h2⟩ := any_some (o := run sample init [.call 0 0, .go 0, .go 0, .go 0, .go 0, .go 0, .call 1 2, .go 1])
    (p := fun s => s.pc 1 = .index 2 0 ∧ ((step sample s (.go 0)).map fun s' => (s'.maps 1 0, s.maps 1 0)) = some (some 0, none))
    (by decide +kernel)
  refine ⟨s, ⟨_, h1⟩, ?_, h2.1⟩
  cases hs : step sample s (.go 0) with
  | none => simp [hs] at h2
  | some s' =>
    refine ⟨s', hs, fun k => ?_⟩
    simp [hs, k] at h2
    rw [h2.2.1] at h2
    simp at h2

/-- C94 is violated: a goroutine may be loading the variable `ws` without the lock while another one assigns to it; the
Go memory model gives no guarantee then. -/
theorem C94_ws_violated : ∃ s, Reach sample s ∧ Stores s 0 ∧ Loads s 1 := by
  obtain ⟨s, h1, h2⟩ := any_some
    (o := run sample init ([.call 0 2, .go 0, .go 0, .go 0, .go 0, .go 0, .go 0, .go 0, .call 1 2]))
    (p := fun s => s.pc 0 = .publish 2 0 ∧ s.pc 1 = .load 2) (by decide +kernel)
  exact ⟨s, ⟨_, h1⟩, ⟨2, 0, h2.1⟩, ⟨2, h2.2⟩⟩

/-! ### C95 -/

/-- C95 (partial: types that are not recursive, see `C95_order_violated`): in whatever order and by however many goroutines
codecs are asked for, a type gets the same codec, or a panic always. -/
theorem C95_order_partial {s s' : St T A} (h : Reach e s) (h' : Reach e s') {rt : T} (hn : Nonrec e rt) {c : Nat}
    (hr : (rt, some c) ∈ s.rets) :
    (∀ c', (rt, some c') ∈ s'.rets → (s.cods c).map Codec.att = (s'.cods c').map Codec.att) ∧ (rt, none) ∉ s'.rets := by
  have den : ∀ {s : St T A} {c : Nat}, Reach e s → (rt, some c) ∈ s.rets → ∃ x, s.cods c = some x ∧ Den e rt x.att := by
    intro s c h hr
    obtain ⟨⟨x, h1, h2⟩, h3⟩ := C93_complete h hr
    obtain ⟨y, h4, h5⟩ := h3 c (.self c)
    rw [h1] at h4
    cases h4
    subst h2
    exact ⟨x, h1, h.hist.fin c x h1 h5 hn⟩
  obtain ⟨x, h1, h2⟩ := den h hr
  constructor
  · intro c' hr'
    obtain ⟨y, h3, h4⟩ := den h' hr'
    simp only [h1, h3, Option.map_some, Option.some.injEq]
    exact den_unique hn h2 h4
  · intro hp
    exact den_not_fails hn h2 (h'.hist.ret rt hp hn)

example : Nonrec sample 2 ∧ Nonrec sample 4 ∧ ¬ Nonrec sample 0 := by
  have h2 : Nonrec sample 2 := ⟨_, fun m ⟨got, h⟩ => by simp [sample] at h⟩
  refine ⟨h2, ⟨_, fun m ⟨got, h⟩ => ?_⟩, fun h => ?_⟩
  · cases got with
    | nil => simp only [sample, Act.dep.injEq] at h; exact h ▸ h2
    | cons a g => simp [sample] at h
  · exact acc_irrefl h.transGen (.trans (b := 1) (.single ⟨[], rfl⟩) (.single ⟨[], rfl⟩))

/-- C95: the writers of `marshal` for the types of Model/Reflect.lean are those of that model; the cache panics exactly
where the model does. -/
theorem C95_writer {s : St Reflect.Ty Reflect.TW} (h : Reach writers s) (t : Reflect.Ty) :
    (∀ c, (t, some c) ∈ s.rets → (s.cods c).map Codec.att = Reflect.tw t) ∧
    ((t, none) ∈ s.rets → Reflect.tw t = none) := by
  constructor
  · intro c hr
    obtain ⟨⟨x, h1, h2⟩, h3⟩ := C93_complete h hr
    obtain ⟨y, h4, h5⟩ := h3 c (.self c)
    rw [h1] at h4
    cases h4
    subst h2
    rw [h1, Option.map_some, den_writers (h.hist.fin c x h1 h5 (nonrec_writers _))]
  · intro hr
    exact fails_writers (h.hist.ret t hr (nonrec_writers t))

/-- C95: the readers of `marshal`, likewise. -/
theorem C95_reader {s : St Reflect.Ty Reflect.TR} (h : Reach readers s) (t : Reflect.Ty) :
    (∀ c, (t, some c) ∈ s.rets → (s.cods c).map Codec.att = Reflect.tr t) ∧
    ((t, none) ∈ s.rets → Reflect.tr t = none) := by
  constructor
  · intro c hr
    obtain ⟨⟨x, h1, h2⟩, h3⟩ := C93_complete h hr
    obtain ⟨y, h4, h5⟩ := h3 c (.self c)
    rw [h1] at h4
    cases h4
    subst h2
    rw [h1, Option.map_some, den_readers (h.hist.fin c x h1 h5 (nonrec_readers _))]
  · intro hr
    exact fails_readers (h.hist.ret t hr (nonrec_readers t))

/-- `type T struct { X uint32; Next []T }` is 0, `[]T` is 1, `uint32` is 2. -/
def tree : Nat → Shape
  | 0 => .struct [(.none, 2), (.none, 1)]
  | 1 => .sl 0
  | _ => .scal .u32

/-- Goroutine 0 asks for the codec of a type. -/
def ask (rt k : Nat) : List (Choice Nat) := .call 0 rt :: List.replicate k (.go 0)

/-- C95 is violated: if the codec of `T` is made first, `Size` of a `[]T` is -1 (not known, it is measured by writing);
if the codec of `[]T` is made first, the `Size` of every `[]T` is three times its length, although each element takes at
least eight bytes. -/
theorem C95_order_violated : ∃ s s' c c', Reach (shaped tree) s ∧ Reach (shaped tree) s' ∧
    (1, some c) ∈ s.rets ∧ (1, some c') ∈ s'.rets ∧
    s.sliceSize c 2 = some (-1) ∧ s'.sliceSize c' 2 = some 6 := by
  obtain ⟨s, h1, h2⟩ := any_some (o := run (shaped tree) init (ask 0 16 ++ ask 1 2))
    (p := fun s => (1, some 2) ∈ s.rets ∧ s.sliceSize 2 2 = some (-1)) (by decide +kernel)
  obtain ⟨s', h3, h4⟩ := any_some (o := run (shaped tree) init (ask 1 16))
    (p := fun s => (1, some 0) ∈ s.rets ∧ s.sliceSize 0 2 = some 6) (by decide +kernel)
  exact ⟨s, s', 2, 0, ⟨_, h1⟩, ⟨_, h3⟩, h2.1, h4.1, h2.2, h4.2⟩

end Verif.CodecCache
