import Verif.Proofs.Multi
/-!
The invariant of the multi-request machine under the steps of the owner.
-/
namespace Verif.Multi

set_option maxHeartbeats 4000000 in
theorem step_owner {s s' : St} (h : Inv s) (hs : stepOwner s = some s') : Inv s' := by
  have ha := h.all
  unfold stepOwner at hs
  cases hp : s.own <;> simp only [hp] at hs
  case idle => cases hs
  case store i =>
    cases hs
    obtain ⟨⟩ := h
    constructor <;> first | assumption | grind [OPc.locked, OPc.opened, OPc.calling, OPc.waits, OPc.mine, OPc.todo, OPc.loop, OPc.at, OPc.code]
  case chk i =>
    have hm := h.chk i (by rw [hp]; rfl)
    have hk : ¬ (s.cancel = true ∨ s.expire = true) → ∀ k, s.cp k = .idle := fun hn k =>
      Decidable.byContradiction fun e => hn (h.kind k e)
    split at hs <;> cases hs
    all_goals
      obtain ⟨⟩ := h
      constructor <;> first | assumption | grind [OPc.locked, OPc.opened, OPc.calling, OPc.waits, OPc.mine, OPc.todo, OPc.loop, OPc.at, OPc.code, CPc.loop, CPc.at]
  case chkK i =>
    have hm := h.chk i (by rw [hp]; rfl)
    have hf : failCode s ≠ none := by
      intro e
      have := failCode_none e
      have := h.oC i hp
      grind
    cases e : failCode s with
    | none => exact absurd e hf
    | some x =>
      have := failCode_some e
      rw [e] at hs
      cases hs
      obtain ⟨⟩ := h
      constructor <;> first | assumption | grind [OPc.locked, OPc.opened, OPc.calling, OPc.waits, OPc.mine, OPc.todo, OPc.loop, OPc.at, OPc.code]
  case chkA i x =>
    have hm := h.chk i (by rw [hp]; rfl)
    cases hs
    have hi : i < s.r := by have := (h.chk i (by rw [hp]; rfl)); omega
    have hh := inv_answer (code := x) h hi
    have := answer_rp s i x h
    have := answer_own s i x
    generalize answer s i x = t at *
    obtain ⟨⟩ := hh
    constructor <;> first | assumption | grind [OPc.locked, OPc.opened, OPc.calling, OPc.waits, OPc.mine, OPc.todo, OPc.loop, OPc.at, OPc.code]
  case failW i =>
    have hm := h.chk i (by rw [hp]; rfl)
    split at hs <;> cases hs
    obtain ⟨⟩ := h
    constructor <;> first | assumption | grind [OPc.locked, OPc.opened, OPc.calling, OPc.waits, OPc.mine, OPc.todo, OPc.loop, OPc.at, OPc.code]
  case enter m =>
    split at hs
    · split at hs <;> cases hs
      obtain ⟨⟩ := h
      constructor <;> first | assumption | grind [OPc.locked, OPc.opened, OPc.calling, OPc.waits, OPc.mine, OPc.todo, OPc.loop, OPc.at, OPc.code]
    · cases hs
      obtain ⟨⟩ := h
      constructor <;> first | assumption | grind [OPc.locked, OPc.opened, OPc.calling, OPc.waits, OPc.mine, OPc.todo, OPc.loop, OPc.at, OPc.code]
  case fail m i n =>
    have hm := h.oN i n (by rw [hp]; rfl)
    split at hs <;> cases hs
    all_goals
      obtain ⟨⟩ := h
      constructor <;> first | assumption | grind [OPc.locked, OPc.opened, OPc.calling, OPc.waits, OPc.mine, OPc.todo, OPc.loop, OPc.at, OPc.code]
  case fail2 m i n =>
    have hm' := h.oI i n (by rw [hp]; rfl)
    have hm := h.oN i n (by rw [hp]; rfl)
    split at hs <;> cases hs
    all_goals
      obtain ⟨⟩ := h
      constructor <;> first | assumption | grind [OPc.locked, OPc.opened, OPc.calling, OPc.waits, OPc.mine, OPc.todo, OPc.loop, OPc.at, OPc.code]
  case failK m i n =>
    have hm' := h.oI i n (by rw [hp]; rfl)
    have hm := h.oN i n (by rw [hp]; rfl)
    cases e : failCode s with
    | none =>
      rw [e] at hs
      cases hs
      obtain ⟨⟩ := h
      constructor <;> first | assumption | grind [OPc.locked, OPc.opened, OPc.calling, OPc.waits, OPc.mine, OPc.todo, OPc.loop, OPc.at, OPc.code]
    | some x =>
      have := failCode_some e
      rw [e] at hs
      cases hs
      obtain ⟨⟩ := h
      constructor <;> first | assumption | grind [OPc.locked, OPc.opened, OPc.calling, OPc.waits, OPc.mine, OPc.todo, OPc.loop, OPc.at, OPc.code]
  case failA m i n x =>
    have hm := h.oN i n (by rw [hp]; rfl)
    cases hs
    have hn := h.oN i n (by rw [hp]; rfl)
    have hi : i < s.r := by have := h.oI i n (by rw [hp]; rfl); omega
    have hh := inv_answer (code := x) h hi
    have := answer_own s i x
    have : (answer s i x).r = s.r := by grind [answer]
    generalize answer s i x = t at *
    obtain ⟨⟩ := hh
    constructor <;> first | assumption | grind [OPc.locked, OPc.opened, OPc.calling, OPc.waits, OPc.mine, OPc.todo, OPc.loop, OPc.at, OPc.code]
  case failX m i n =>
    have hm := h.oN i n (by rw [hp]; rfl)
    split at hs <;> cases hs
    obtain ⟨⟩ := h
    constructor <;> first | assumption | grind [OPc.locked, OPc.opened, OPc.calling, OPc.waits, OPc.mine, OPc.todo, OPc.loop, OPc.at, OPc.code]
  case lock m =>
    cases m <;> simp only at hs <;> split at hs <;> cases hs
    all_goals
      obtain ⟨⟩ := h
      constructor <;> first | assumption | grind [OPc.locked, OPc.opened, OPc.calling, OPc.waits, OPc.mine, OPc.todo, OPc.loop, OPc.at, OPc.code]
  case rCmp =>
    split at hs <;> cases hs
    all_goals
      obtain ⟨⟩ := h
      constructor <;> first | assumption | grind [OPc.locked, OPc.opened, OPc.calling, OPc.waits, OPc.mine, OPc.todo, OPc.loop, OPc.at, OPc.code]
  case rWait b =>
    split at hs <;> cases hs
    obtain ⟨⟩ := h
    constructor <;> first | assumption | grind [OPc.locked, OPc.opened, OPc.calling, OPc.waits, OPc.mine, OPc.todo, OPc.loop, OPc.at, OPc.code]
  case rTake =>
    cases hs
    have hl : ∀ i, i ∈ s.responses ↔ i < s.r := by
      have hc := h.takes hp
      have h1 := h.lockO.2 (by rw [hp]; rfl)
      have h2 := fun i => h.respLog (by rw [hp]; rfl) (by rw [hp]; simp) i
      have h3 := fun i (e : s.rp i = .count) => (h.lockR i).2 (by rw [e]; rfl)
      intro i
      constructor
      · intro hi
        exact h.lt i (h.respMem i hi)
      · intro hi
        exact (h2 i).2 (.inl (ha.2 hc i hi))
    have hn := h.respN (by rw [hp]; rfl) (by rw [hp]; simp)
    obtain ⟨⟩ := h
    constructor <;> first | assumption | grind [OPc.locked, OPc.opened, OPc.calling, OPc.waits, OPc.mine, OPc.todo, OPc.loop, OPc.at, OPc.code]
  case eChan =>
    cases hs
    obtain ⟨⟩ := h
    constructor <;> first | assumption | grind [OPc.locked, OPc.opened, OPc.calling, OPc.waits, OPc.mine, OPc.todo, OPc.loop, OPc.at, OPc.code]
  case eSend l =>
    cases l with
    | nil =>
      cases hs
      obtain ⟨⟩ := h
      constructor <;> first | assumption | grind [OPc.locked, OPc.opened, OPc.calling, OPc.waits, OPc.mine, OPc.todo, OPc.loop, OPc.at, OPc.code]
    | cons i l =>
      simp only at hs
      have h0 := h.sendMem _ hp
      have h1 := h0 i (List.mem_cons_self ..)
      have h2 : ∀ j ∈ l, s.rp j ≠ .idle := fun j hj => h0 j (List.mem_cons_of_mem _ hj)
      clear h0
      split at hs <;> cases hs
      all_goals
        obtain ⟨⟩ := h
        constructor <;> first | assumption | grind [put, set, Option.map_eq_none_iff, OPc.locked, OPc.opened, OPc.calling, OPc.waits, OPc.mine, OPc.todo, OPc.loop, OPc.at, OPc.code]
  case eCmp =>
    cases hs
    obtain ⟨⟩ := h
    constructor <;> first | assumption | grind [OPc.locked, OPc.opened, OPc.calling, OPc.waits, OPc.mine, OPc.todo, OPc.loop, OPc.at, OPc.code]
  case eClose =>
    split at hs <;> cases hs
    all_goals
      obtain ⟨⟩ := h
      constructor <;> first | assumption | grind [OPc.locked, OPc.opened, OPc.calling, OPc.waits, OPc.mine, OPc.todo, OPc.loop, OPc.at, OPc.code]
  case eUnlock =>
    cases hs
    obtain ⟨⟩ := h
    constructor <;> first | assumption | grind [OPc.locked, OPc.opened, OPc.calling, OPc.waits, OPc.mine, OPc.todo, OPc.loop, OPc.at, OPc.code]
  case fin m => cases hs
  case nilPanic => cases hs
  case chanPanic => cases hs

end Verif.Multi
