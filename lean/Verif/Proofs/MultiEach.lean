import Verif.Proofs.MultiInv
import Verif.Spec.Multi
/-!
The channel of `Each` in runs in which `Each` is not overtaken by the last response.
-/
namespace Verif.Multi

/-- The responses which `Each` has still to move. -/
def OPc.rest : OPc → List Nat
  | .eSend l => l
  | _ => []

structure EInv (s : St) : Prop where
  sent : s.own.opened = true → ∃ d, s.ch = some d ∧ (d ++ s.own.rest).Nodup ∧
    ∀ i, i ∈ d ++ s.own.rest ↔ i ∈ s.log ∨ s.rp i = .bump
  shut : s.closed ≤ 1
  open1 : s.own.opened = false → s.closed = 0
  open2 : (∃ l, s.own = .eSend l) ∨ s.own = .eCmp ∨ s.own = .eClose → s.closed = 0
  full : s.closed = 1 → s.c = s.r
  close : ∀ i, s.rp i = .close → s.closed = 0 ∧ s.c = s.r ∧ ∀ j, s.rp j = .close → j = i
  ecl : s.own = .eClose → s.c = s.r ∧ ∀ i, s.rp i ≠ .close
  due : s.own = .eUnlock ∨ s.own = .fin .each → s.c = s.r → s.closed = 1 ∨ ∃ i, s.rp i = .close
  ok : ∀ i, s.rp i ≠ .sendPanic ∧ s.rp i ≠ .closePanic
  slow : ∀ i, s.rp i = .add ∨ s.rp i = .count → s.own.opened = false
  okO : s.own ≠ .chanPanic

theorem einv_init : EInv init := by
  constructor <;> simp [init, OPc.opened]

/-- A request which was not counted keeps the counter below the number of requests. -/
theorem Inv.short {s : St} (h : Inv s) {i : Nat} (h1 : s.rp i ≠ .idle) (h2 : (s.rp i).counted = false) : s.c < s.r := by
  have := h.all
  have h3 := h.lt i h1
  have h4 : i ∉ s.log := fun hm => by have := (h.logMem i).1 hm; rw [h2] at this; cases this
  rcases Nat.lt_or_ge s.c s.r with h5 | h5
  · exact h5
  · exact absurd (this.2 (by omega) i h3) h4

theorem due_move {s : St} {i : Nat} {p : RPc} {P : Prop}
    (h : s.own = .eUnlock ∨ s.own = .fin .each → s.c = s.r → P ∨ ∃ i, s.rp i = .close) (hp : s.rp i ≠ .close) :
    s.own = .eUnlock ∨ s.own = .fin .each → s.c = s.r → P ∨ ∃ j, set s.rp i p j = .close := by
  intro h1 h2
  rcases h h1 h2 with h3 | ⟨j, h3⟩
  · exact .inl h3
  · refine .inr ⟨j, ?_⟩
    unfold set
    rw [if_neg]
    · exact h3
    · rintro rfl
      exact hp h3

set_option maxHeartbeats 4000000 in
theorem eresp {s s' : St} {i : Nat} (h : Inv s) (e : EInv s) (hc : Calm s) (hs : stepResp s i = some s') : EInv s' := by
  have ha := h.all.1
  have hch := h.ch
  have hf := h.fast i
  have hl := h.logMem i
  have hsh := h.short (i := i)
  unfold stepResp at hs
  unfold Calm at hc
  cases hp : s.rp i <;> simp only [hp] at hs
  case idle => cases hs
  case done => cases hs
  case sendPanic => cases hs
  case closePanic => cases hs
  case look =>
    cases hs
    obtain ⟨⟩ := e
    constructor <;> first | assumption | exact due_move (i := i) ‹_› (by simp [hp]) | grind [set]
  case lock =>
    split at hs <;> cases hs
    obtain ⟨⟩ := e
    constructor <;> first | assumption | exact due_move (i := i) ‹_› (by simp [hp]) | grind [set]
  case check =>
    cases hs
    obtain ⟨⟩ := e
    constructor <;> first | assumption | exact due_move (i := i) ‹_› (by simp [hp]) | grind [set]
  case add =>
    cases hs
    obtain ⟨⟩ := e
    constructor <;> first | assumption | exact due_move (i := i) ‹_› (by simp [hp]) | grind [set]
  case count =>
    have hfa : ∀ j, s.rp j = .close → s.own.opened = true := fun j hj => h.fast j (by rw [hj]; rfl)
    split at hs <;> cases hs
    all_goals
      obtain ⟨⟩ := e
      constructor <;> first | assumption | exact due_move (i := i) ‹_› (by simp [hp]) | grind [set, OPc.locked, OPc.opened, RPc.locked]
  case unlock =>
    cases hs
    obtain ⟨⟩ := e
    constructor <;> first | assumption | exact due_move (i := i) ‹_› (by simp [hp]) | grind [set]
  case miss =>
    cases hs
    obtain ⟨⟩ := e
    constructor <;> first | assumption | exact due_move (i := i) ‹_› (by simp [hp]) | grind [set]
  case send =>
    split at hs
    · cases hs
    · split at hs <;> cases hs
      all_goals
        obtain ⟨⟩ := e
        constructor <;> first | assumption | exact due_move (i := i) ‹_› (by simp [hp]) | grind [set, RPc.counted]
  case bump =>
    have hd : s.c + 1 = s.r → ∃ j, set s.rp i (if s.c + 1 = s.r then RPc.close else .done) j = .close := by
      intro e
      exact ⟨i, by rw [if_pos e]; simp [set]⟩
    cases hs
    obtain ⟨⟩ := e
    constructor <;> first | assumption | exact fun _ h => .inr (hd h) | grind [set, RPc.counted]
  case close =>
    have hn := (e.close i hp)
    have ho : s.own.opened = true := h.fast i (by rw [hp]; rfl)
    rw [if_neg (by omega)] at hs
    cases hs
    obtain ⟨⟩ := e
    constructor <;> first | assumption | grind [set, RPc.counted]
  case remove =>
    cases hs
    obtain ⟨⟩ := e
    constructor <;> first | assumption | exact due_move (i := i) ‹_› (by simp [hp]) | grind [set, RPc.counted]

set_option maxHeartbeats 4000000 in
theorem eanswer {s : St} {i : Nat} {code : UInt32} (h : Inv s) (e : EInv s) : EInv (answer s i code) := by
  unfold answer
  cases hc : s.code i <;> simp only
  · have hp := (h.code i).1 hc
    obtain ⟨⟩ := e
    constructor <;> first | assumption | exact due_move (i := i) ‹_› (by simp [hp]) | grind [set]
  · exact e

/-- Before `Each` makes the channel there is nothing to say. -/
theorem Inv.unopened {s : St} (h : Inv s) (h1 : s.own.opened = false) (h2 : s.closed = 0) : EInv s := by
  have hf : ∀ i, (s.rp i).fast = false := by
    intro i
    cases e : (s.rp i).fast
    · rfl
    · rw [h.fast i e] at h1; cases h1
  clear h
  constructor <;> grind [OPc.opened, RPc.fast]

theorem answer_closed (s : St) (i : Nat) (x : UInt32) : (answer s i x).closed = s.closed := by
  grind [answer]

theorem EInv.canc {s : St} (e : EInv s) (f : Nat → CPc) : EInv { s with cp := f } :=
  ⟨e.sent, e.shut, e.open1, e.open2, e.full, e.close, e.ecl, e.due, e.ok, e.slow, e.okO⟩

set_option maxHeartbeats 4000000 in
theorem eowner {s s' : St} (h : Inv s) (e : EInv s) (hc : Calm s) (hs : stepOwner s = some s') : EInv s' := by
  have hch := h.ch
  have hl := h.logMem
  have hlr := h.lockR
  have hlo := h.lockO
  have hfa := h.fast
  unfold Calm at hc
  unfold stepOwner at hs
  cases hp : s.own <;> simp only [hp] at hs
  case idle => cases hs
  case fin => cases hs
  case nilPanic => cases hs
  case chanPanic => cases hs
  case eChan =>
    have h1 := h.respN (by rw [hp]; rfl) (by rw [hp]; simp)
    have h2 := h.respLog (by rw [hp]; rfl) (by rw [hp]; simp)
    have h3 := h.lockO.2 (by rw [hp]; rfl)
    cases hs
    obtain ⟨⟩ := e
    constructor <;> first | assumption | grind [OPc.opened, OPc.rest, RPc.locked, RPc.fast]
  case eSend l =>
    cases l with
    | nil =>
      cases hs
      obtain ⟨⟩ := e
      constructor <;> first | assumption | grind [OPc.opened, OPc.rest]
    | cons i l =>
      simp only at hs
      have h0 := e.open2 (.inl ⟨_, hp⟩)
      rw [if_neg (by omega)] at hs
      cases hs
      obtain ⟨d, h1, h2, h3⟩ := e.sent (by rw [hp]; rfl)
      obtain ⟨⟩ := e
      constructor <;> first | assumption | grind [OPc.opened, OPc.rest]
  case eCmp =>
    cases hs
    obtain ⟨⟩ := e
    constructor <;> first | assumption | grind [OPc.opened, OPc.rest]
  case eClose =>
    have h0 := e.open2 (.inr (.inr hp))
    rw [if_neg (by omega)] at hs
    cases hs
    obtain ⟨⟩ := e
    constructor <;> first | assumption | grind [OPc.opened, OPc.rest]
  case eUnlock =>
    cases hs
    obtain ⟨⟩ := e
    constructor <;> first | assumption | grind [OPc.opened, OPc.rest]
  all_goals
    refine (step_owner h (by unfold stepOwner; rw [hp]; exact hs)).unopened ?_ ?_
  case lock.refine_1 m => cases m <;> simp only at hs <;> split at hs <;> cases hs <;> rfl
  case lock.refine_2 m =>
    have h0 := e.open1 (by rw [hp]; rfl)
    cases m <;> simp only at hs <;> split at hs <;> cases hs <;> exact h0
  all_goals first
    | (have h0 := e.open1 (by rw [hp]; rfl)
       (repeat' split at hs) <;> first
         | (cases hs; done)
         | (cases hs; first | exact h0 | (split <;> exact h0) | exact (answer_closed s _ _).trans h0))
    | ((repeat' split at hs) <;> first | (cases hs; done) | (cases hs; first | rfl | (split <;> rfl)))

theorem einv_step {s s' : St} {c : Choice} (h : Inv s) (e : EInv s) (hc : Calm s) (hs : step s c = some s') :
    EInv s' := by
  have h' := inv_step h hs
  cases c <;> simp only [step] at hs
  case request g =>
    (repeat' split at hs) <;> cases hs
    all_goals exact h'.unopened rfl (e.open1 (by rw [‹s.own = _›]; rfl))
  case results =>
    split at hs <;> cases hs
    exact h'.unopened rfl (e.open1 (by rw [‹s.own = _›]; rfl))
  case each =>
    split at hs <;> cases hs
    exact h'.unopened rfl (e.open1 (by rw [‹s.own = _›]; rfl))
  case owner => exact eowner h e hc hs
  case answer i code =>
    split at hs <;> cases hs
    exact eanswer h e
  case resp i => exact eresp h e hc hs
  case cancel k x f =>
    split at hs <;> cases hs
    cases x
    all_goals exact ⟨e.sent, e.shut, e.open1, e.open2, e.full, e.close, e.ecl, e.due, e.ok, e.slow, e.okO⟩
  case canc k =>
    unfold stepCancel at hs
    split at hs
    all_goals
      (try split at hs) <;> first
        | (cases hs; done)
        | (cases hs; exact e.canc _)
        | (cases hs; exact (eanswer h e).canc _)

theorem einv_run {s s' : St} {cs : List Choice} (h : Inv s) (e : EInv s) (hc : Along Calm s cs)
    (hs : run s cs = some s') : EInv s' := by
  induction cs generalizing s with
  | nil => cases hs; exact e
  | cons c cs ih =>
    simp only [run] at hs
    cases e' : step s c with
    | none => rw [e'] at hs; cases hs
    | some t => rw [e'] at hs; exact ih (inv_step h e') (einv_step h e hc.1 e') (hc.2 t e') hs

end Verif.Multi
