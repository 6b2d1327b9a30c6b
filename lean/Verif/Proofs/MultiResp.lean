import Verif.Proofs.Multi
/-!
The invariant of the multi-request machine under the steps of `Respond`.
-/
namespace Verif.Multi

set_option maxHeartbeats 4000000 in
theorem step_resp {s s' : St} {i : Nat} (h : Inv s) (hs : stepResp s i = some s') : Inv s' := by
  have ha := h.all
  unfold stepResp at hs
  cases hp : s.rp i <;> simp only [hp] at hs
  case idle => cases hs
  case done => cases hs
  case sendPanic => cases hs
  case closePanic => cases hs
  case look =>
    cases hs
    obtain ⟨⟩ := h
    constructor <;> first | assumption | grind [set, RPc.counted, RPc.locked, RPc.fast]
  case lock =>
    split at hs <;> cases hs
    obtain ⟨⟩ := h
    constructor <;> first | assumption | grind [set, RPc.counted, RPc.locked, RPc.fast]
  case check =>
    cases hs
    obtain ⟨⟩ := h
    constructor <;> first | assumption | grind [set, RPc.counted, RPc.locked, RPc.fast]
  case add =>
    cases hs
    obtain ⟨⟩ := h
    constructor <;> first | assumption | grind [put, set, RPc.counted, RPc.locked, RPc.fast]
  case count =>
    split at hs <;> cases hs
    all_goals
      obtain ⟨⟩ := h
      constructor <;> first | assumption | grind [set, RPc.counted, RPc.locked, RPc.fast, OPc.locked, OPc.opened, OPc.calling, OPc.waits, OPc.mine, OPc.todo, OPc.loop, OPc.at, OPc.code]
  case unlock =>
    cases hs
    obtain ⟨⟩ := h
    constructor <;> first | assumption | grind [set, RPc.counted, RPc.locked, RPc.fast]
  case miss =>
    cases hs
    obtain ⟨⟩ := h
    constructor <;> first | assumption | grind [set, RPc.counted, RPc.locked, RPc.fast]
  case send =>
    split at hs
    · cases hs
    · split at hs <;> cases hs
      all_goals
        obtain ⟨⟩ := h
        constructor <;> first | assumption | grind [set, RPc.counted, RPc.locked, RPc.fast]
  case bump =>
    cases hs
    obtain ⟨⟩ := h
    constructor <;> first | assumption | grind [set, RPc.counted, RPc.locked, RPc.fast, OPc.opened]
  case close =>
    split at hs <;> cases hs
    all_goals
      obtain ⟨⟩ := h
      constructor <;> first | assumption | grind [set, RPc.counted, RPc.locked, RPc.fast]
  case remove =>
    cases hs
    obtain ⟨⟩ := h
    constructor <;> first | assumption | grind [set, RPc.counted, RPc.locked, RPc.fast]

end Verif.Multi
