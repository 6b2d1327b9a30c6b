import Verif.Proofs.MultiResp
import Verif.Proofs.MultiOwner
/-!
The invariant of the multi-request machine under all steps.
-/
namespace Verif.Multi

/-- What must hold of the place of a goroutine in `Cancel`. -/
structure CancOk (s : St) (p : CPc) : Prop where
  kind : p ≠ .idle → s.cancel = true ∨ s.expire = true
  readR : ∀ e c, p = .readR e c → c ≤ s.c
  lo : ∀ i n, p.loop = some (i, n) → ∀ j, j < i → s.rp j ≠ .idle
  hi : ∀ i n, p.loop = some (i, n) →
    ∀ j, n ≤ j → j < s.r → s.rp j ≠ .idle ∨ s.own.todo = some j
  X : ∀ a i n, p = .failX a i n → s.rp i ≠ .idle
  done : p = .done true → ∀ j, j < s.r → s.rp j ≠ .idle ∨ s.own.todo = some j
  N : ∀ i n, p.loop = some (i, n) → n ≤ s.r
  I : ∀ i n, p.at = some (i, n) → i < n
  K : ∀ a i n x, p = .failA a i n x → (s.cancel = true ∧ x = rcCanceled) ∨ (s.expire = true ∧ x = rcTimeout)

theorem Inv.canc {s : St} (h : Inv s) (k : Nat) : CancOk s (s.cp k) :=
  ⟨h.kind k, h.readR k, h.cLo k, h.cHi k, h.cX k, h.cDone k, h.cN k, h.cI k, h.cK k⟩

theorem Inv.cancMove {s : St} (h : Inv s) {k : Nat} {p : CPc} (hp : CancOk s p) :
    Inv { s with cp := set s.cp k p } := by
  have key : ∀ j, CancOk s (set s.cp k p j) := by
    intro j
    unfold set
    split
    · exact hp
    · exact h.canc j
  exact { h with
    kind := fun j => (key j).kind, readR := fun j => (key j).readR, cLo := fun j => (key j).lo,
    cHi := fun j => (key j).hi, cX := fun j => (key j).X, cDone := fun j => (key j).done, cN := fun j => (key j).N,
    cI := fun j => (key j).I, cK := fun j => (key j).K }

theorem step_cancel {s s' : St} {k : Nat} (h : Inv s) (hs : stepCancel s k = some s') : Inv s' := by
  have hk := h.canc k
  unfold stepCancel at hs
  cases hp : s.cp k <;> simp only [hp] at hs hk
  case idle => cases hs
  case done => cases hs
  case dead => cases hs
  case readR e c =>
    have hd : c = s.r → ∀ j, j < s.r → s.rp j ≠ .idle := fun e j hj => h.answered (h.readR k _ _ hp) e hj
    cases hs
    refine h.cancMove ?_
    obtain ⟨⟩ := hk
    constructor <;> grind [CPc.loop, CPc.at]
  case failK a i n =>
    have hf : failCode s ≠ none := by
      intro e
      have := failCode_none e
      have := h.kind k (by rw [hp]; simp)
      grind
    cases e : failCode s with
    | none => exact absurd e hf
    | some x =>
      have := failCode_some e
      rw [e] at hs
      cases hs
      refine h.cancMove ?_
      obtain ⟨⟩ := hk
      constructor <;> grind [CPc.loop, CPc.at]
  case failA a i n x =>
    cases hs
    have hn := h.cN k i n (by rw [hp]; rfl)
    have hi : i < s.r := by have := h.cI k i n (by rw [hp]; rfl); omega
    have hh := inv_answer (code := x) h hi
    have hc := answer_rp s i x h
    have hcp : (answer s i x).cp = s.cp := by grind [answer]
    have hk := hh.canc k
    rw [hcp, hp] at hk
    rw [← hcp]
    generalize answer s i x = t at *
    refine hh.cancMove ?_
    obtain ⟨⟩ := hk
    constructor <;> grind [CPc.loop, CPc.at]
  case fail a i n =>
    have hg : s.gone a i = true → s.rp i ≠ .idle := h.gone a i
    split at hs <;> cases hs <;> refine h.cancMove ?_
    · have h1 := hk.lo i n rfl
      have h2 := hk.hi i n rfl
      have h3 := hk.N i n rfl
      have h4 := hk.kind (by simp)
      clear hk
      split <;> constructor <;> grind [CPc.loop, CPc.at]
    · have h1 := hk.lo i n rfl
      have h2 := hk.hi i n rfl
      obtain ⟨⟩ := hk
      constructor <;> grind [CPc.loop, CPc.at]
  case failX a i n =>
    split at hs <;> cases hs
    refine h.cancMove ?_
    have h1 := hk.lo i n rfl
    have h2 := hk.hi i n rfl
    have h3 := hk.N i n rfl
    have h4 := hk.kind (by simp)
    have h5 := hk.X a i n rfl
    clear hk
    constructor <;> grind [CPc.loop, CPc.at]
  all_goals
    (try split at hs) <;> cases hs
    all_goals
      refine h.cancMove ?_
      obtain ⟨⟩ := hk
      constructor <;> grind [CPc.loop, CPc.at]

set_option maxHeartbeats 4000000 in
theorem inv_step {s s' : St} {c : Choice} (h : Inv s) (hs : step s c = some s') : Inv s' := by
  cases c <;> simp only [step] at hs
  case request g =>
    (repeat' split at hs) <;> cases hs
    all_goals
      obtain ⟨⟩ := h
      constructor <;> first | assumption | grind [copy, OPc.locked, OPc.opened, OPc.calling, OPc.waits, OPc.mine, OPc.todo, OPc.loop, OPc.at, OPc.code]
  case results =>
    split at hs <;> cases hs
    obtain ⟨⟩ := h
    constructor <;> first | assumption | grind [OPc.locked, OPc.opened, OPc.calling, OPc.waits, OPc.mine, OPc.todo, OPc.loop, OPc.at, OPc.code]
  case each =>
    split at hs <;> cases hs
    obtain ⟨⟩ := h
    constructor <;> first | assumption | grind [OPc.locked, OPc.opened, OPc.calling, OPc.waits, OPc.mine, OPc.todo, OPc.loop, OPc.at, OPc.code]
  case owner => exact step_owner h hs
  case answer i code =>
    split at hs <;> cases hs
    refine inv_answer h ?_
    have : s.ret ≤ s.r := by
      cases e : s.own
      case store j => have := h.store j e; omega
      case chk j | chkK j | chkA j _ | failW j => have := h.chk j (by rw [e]; rfl); omega
      all_goals have := h.quiet (by rw [e]; rfl); omega
    omega
  case resp i => exact step_resp h hs
  case cancel k e f =>
    split at hs <;> cases hs
    cases e <;> cases f
    all_goals
      obtain ⟨⟩ := h
      constructor <;> first | assumption | grind [set, CPc.loop, CPc.at]
  case canc k => exact step_cancel h hs

theorem inv_run {s s' : St} {cs : List Choice} (h : Inv s) (hs : run s cs = some s') : Inv s' := by
  induction cs generalizing s with
  | nil => cases hs; exact h
  | cons c cs ih =>
    simp only [run] at hs
    cases e : step s c with
    | none => rw [e] at hs; cases hs
    | some t => rw [e] at hs; exact ih (inv_step h e) hs

end Verif.Multi
