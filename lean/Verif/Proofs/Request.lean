import Verif.Spec.Request
/-! Inductive invariants of the request machine. -/
namespace Verif.Request

/-- The goroutine holds the mutex. -/
def Pc.crit : Pc → Bool
  | .idle | .wait _ => false
  | _ => true

/-- What has to be shown to have `H` at every program point of the owner of the mutex and `Q` while it is free,
for schedules all of whose entries are `ok`. -/
structure Rules (ok : Choice → Prop) (Q : Data → Prop) (H : Data → Pc → Prop) : Prop where
  acquire : ∀ d t op, ok (.call t op) → Q d → H d (.locked op)
  casPendingQ : ∀ d t, Q d → Q ((casPending d).note (.returned t .setPending))
  casPendingH : ∀ d t p, p.crit = true → H d p → H ((casPending d).note (.returned t .setPending)) p
  casInFlyQ : ∀ d t u, ok (.call u .claim) → Q d → Q ((casInFly d t).note (.returned t .claim))
  casInFlyH : ∀ d t u p, ok (.call u .claim) → p.crit = true → H d p → H ((casInFly d t).note (.returned t .claim)) p
  own : ∀ d t p d' p', p.crit = true → H d p → own d t p = some (d', p') → p' ≠ .idle → H d' p'
  release : ∀ d t op, H d (.leave op) → Q (d.note (.returned t op))
  bookmark : ∀ d op d' p' t acts, ok (.bookmark t acts) → H d (.walk op) →
    enterBookmark d acts (.walk op) = some (d', p') → H d' p'
  responder : ∀ d op d' p' t acts, ok (.responder t acts) → H d (.walk op) →
    enterResponder d acts (.walk op) = some (d', p') → H d' p'

structure Inv (ok : Choice → Prop) (Q : Data → Prop) (H : Data → Pc → Prop) (s : St) : Prop where
  mutex : ∀ t, (s.pc t).crit = true → s.lock = some t
  owner : ∀ t, s.lock = some t → (s.pc t).crit = true ∧ H s.d (s.pc t)
  free : s.lock = none → Q s.d
  waits : ∀ t op, s.pc t = .wait op → ∃ u, ok (.call u op)

theorem own_idle {d t p d' p'} (h : own d t p = some (d', p')) :
    p'.crit = true ∨ ∃ op, p = .leave op ∧ p' = .idle ∧ d' = d.note (.returned t op) := by
  unfold own at h
  split at h
  case h_3 op => 
    simp only [Option.some.injEq] at h
    cases op <;> simp only [lockedStep] at h <;> grind [Pc.crit]
  all_goals grind [Pc.crit]

theorem own_crit {d t p d' p'} (h : own d t p = some (d', p')) : p.crit = true := by
  unfold own at h
  split at h <;> grind [Pc.crit]

theorem Inv.ownStep {ok Q H} {s s' : St} {t : Nat} {r} (hs : Inv ok Q H s) (hc : (s.pc t).crit = true)
    (hr : ∀ d p, r = some (d, p) → (p.crit = true ∧ H d p) ∨ p = .idle ∧ Q d)
    (h : s.ownStep t r = some s') : Inv ok Q H s' := by
  obtain ⟨hm, ho, hf, hw⟩ := hs
  have hl := hm t hc
  cases r with
  | none => simp [St.ownStep] at h
  | some r =>
    obtain ⟨d, p⟩ := r
    simp only [St.ownStep, Option.some.injEq] at h
    subst h
    have hr := hr d p rfl
    constructor
    · intro u hu
      simp only [setPc] at hu
      simp only
      split at hu
      · next e => subst e; rcases hr with ⟨h1, _⟩ | ⟨h1, _⟩ <;> grind [Pc.crit]
      · next e => exact absurd (hm u hu) (by rw [hl]; simpa using fun e' => e e'.symm)
    · intro u hu
      simp only at hu
      split at hu
      · cases hu
      · rw [hl] at hu
        cases hu
        simp only [setPc]
        grind
    · intro h
      simp only at h
      split at h
      · next e => subst e; rcases hr with ⟨h1, _⟩ | ⟨_, h1⟩; · simp [Pc.crit] at h1
                  exact h1
      · rw [hl] at h; cases h
    · intro u op hu
      simp only [setPc] at hu
      split at hu
      · subst hu; simp [Pc.crit] at hr
      · exact hw u op hu

theorem Inv.lockStep {ok Q H} {s s' : St} {t : Nat} {op} (hs : Inv ok Q H s) (hc : (s.pc t).crit = false)
    (hr : Q s.d → H s.d (.locked op))
    (h : s.lockStep t op = some s') : Inv ok Q H s' := by
  obtain ⟨hm, ho, hf, hw⟩ := hs
  simp only [St.lockStep] at h
  split at h
  · next hl =>
    simp only [Option.some.injEq] at h
    subst h
    constructor
    · intro u hu
      simp only [setPc] at hu
      split at hu
      · next e => subst e; rfl
      · have := hm u hu; rw [hl] at this; cases this
    · intro u hu
      simp only [Option.some.injEq] at hu
      subst hu
      simp only [setPc, if_true]
      exact ⟨rfl, hr (hf hl)⟩
    · intro h; cases h
    · intro u op' hu
      simp only [setPc] at hu
      split at hu
      · cases hu
      · exact hw u op' hu
  · cases h

theorem Inv.free_step {ok Q H} {s : St} {t : Nat} {d : Data} (hs : Inv ok Q H s) (hc : (s.pc t).crit = false)
    (hq : Q s.d → Q d) (hh : ∀ p, p.crit = true → H s.d p → H d p) :
    Inv ok Q H { s with d := d, pc := setPc s.pc t .idle } := by
  obtain ⟨hm, ho, hf, hw⟩ := hs
  constructor
  · intro u hu
    simp only [setPc] at hu
    split at hu
    · simp [Pc.crit] at hu
    · exact hm u hu
  · intro u hu
    simp only [setPc]
    simp only at hu
    have := ho u hu
    split
    · next e => subst e; rw [hc] at this; simp at this
    · exact ⟨this.1, hh _ this.1 this.2⟩
  · intro h; exact hq (hf h)
  · intro u op' hu
    simp only [setPc] at hu
    split at hu
    · cases hu
    · exact hw u op' hu

theorem inv_step {ok Q H} (R : Rules ok Q H) {s s' : St} {c : Choice} (hs : Inv ok Q H s) (hk : ok c)
    (h : step s c = some s') : Inv ok Q H s' := by
  cases c with
  | call t op =>
    obtain ⟨hm, ho, hf, hw⟩ := hs
    simp only [step] at h
    split at h <;> simp only [Option.some.injEq, reduceCtorEq] at h
    subst h
    rename_i hp
    constructor
    · intro u hu
      simp only [setPc] at hu
      split at hu
      · simp [Pc.crit] at hu
      · exact hm u hu
    · intro u hu
      simp only at hu
      have := ho u hu
      simp only [setPc]
      split
      · next e => subst e; rw [hp] at this; simp [Pc.crit] at this
      · exact this
    · exact hf
    · intro u op' hu
      simp only [setPc] at hu
      split at hu
      · cases hu; exact ⟨_, hk⟩
      · exact hw u op' hu
  | go t =>
    simp only [step] at h
    split at h
    · next op hp =>
      have hc : (s.pc t).crit = false := by rw [hp]; rfl
      obtain ⟨u, hu⟩ := hs.waits t op hp
      cases op with
      | setPending =>
        simp only [St.begin, Option.some.injEq] at h
        subst h
        exact hs.free_step hc (R.casPendingQ _ _) (fun p hp hH => R.casPendingH _ _ _ hp hH)
      | claim =>
        simp only [St.begin, Option.some.injEq] at h
        subst h
        exact hs.free_step hc (R.casInFlyQ _ _ _ hu) (fun p hp hH => R.casInFlyH _ _ _ _ hu hp hH)
      | claimWith b =>
        exact hs.lockStep (op := .claimWith b) hc (R.acquire _ _ _ hu) h
      | chain b => exact hs.lockStep (op := .chain b) hc (R.acquire _ _ _ hu) h
      | respond code body => exact hs.lockStep (op := .respond code body) hc (R.acquire _ _ _ hu) h
      | fail code => exact hs.lockStep (op := .fail code) hc (R.acquire _ _ _ hu) h
    · next hp =>
      by_cases hc : (s.pc t).crit = true
      · refine hs.ownStep hc (fun d p hr => ?_) h
        have hh := (hs.owner t (hs.mutex t hc)).2
        rcases own_idle hr with hi | ⟨op, h1, h2, h3⟩
        · exact .inl ⟨hi, R.own _ _ _ _ _ hc hh hr (by rintro rfl; cases hi)⟩
        · rw [h1] at hh
          exact .inr ⟨h2, h3 ▸ R.release _ _ _ hh⟩
      · have : own s.d t (s.pc t) = none := by
          cases ho : own s.d t (s.pc t) with
          | none => rfl
          | some r => exact absurd (own_crit (d' := r.1) (p' := r.2) ho) hc
        rw [this] at h
        cases h
  | bookmark t acts =>
    simp only [step] at h
    cases hp : s.pc t with
    | walk op =>
      have hc : (s.pc t).crit = true := by rw [hp]; rfl
      have hh := (hs.owner t (hs.mutex t hc)).2
      refine hs.ownStep hc (fun d p hr => ?_) h
      rw [hp] at hr hh
      refine .inl ⟨?_, R.bookmark _ _ _ _ _ _ hk hh hr⟩
      simp only [enterBookmark] at hr
      split at hr <;> simp at hr
      rw [← hr.2]; rfl
    | _ => rw [hp] at h; simp [enterBookmark, St.ownStep] at h
  | responder t acts =>
    simp only [step] at h
    cases hp : s.pc t with
    | walk op =>
      have hc : (s.pc t).crit = true := by rw [hp]; rfl
      have hh := (hs.owner t (hs.mutex t hc)).2
      refine hs.ownStep hc (fun d p hr => ?_) h
      rw [hp] at hr hh
      refine .inl ⟨?_, R.responder _ _ _ _ _ _ hk hh hr⟩
      simp only [enterResponder] at hr
      split at hr <;> simp at hr
      rw [← hr.2]; rfl
    | _ => rw [hp] at h; simp [enterResponder, St.ownStep] at h

theorem inv_run {ok Q H} (R : Rules ok Q H) {cs : List Choice} : ∀ {s s' : St}, Inv ok Q H s → (∀ c ∈ cs, ok c) →
    run s cs = some s' → Inv ok Q H s' := by
  induction cs with
  | nil => intro s s' hs _ h; simp only [run, Option.some.injEq] at h; exact h ▸ hs
  | cons c cs ih =>
    intro s s' hs hk h
    simp only [run, Option.bind_eq_some_iff] at h
    obtain ⟨s1, h1, h2⟩ := h
    exact ih (inv_step R hs (hk c (by simp)) h1) (fun c hc => hk c (by simp [hc])) h2

theorem inv_reach {ok Q H} (R : Rules ok Q H) {id msg resp} (hq : Q (init id msg resp).d) {cs : List Choice} {s : St}
    (hk : ∀ c ∈ cs, ok c) (h : run (init id msg resp) cs = some s) : Inv ok Q H s := by
  refine inv_run R ?_ hk h
  constructor
  · intro t ht; cases ht
  · intro t ht; cases ht
  · intro _; exact hq
  · intro t op h; cases h

end Verif.Request
