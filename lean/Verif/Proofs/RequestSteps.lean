import Verif.Proofs.RequestInv
/-! Steps of the request machine by kind, and what they preserve. -/
namespace Verif.Request

def H11 (d : Data) (p : Pc) : Prop :=
  H1 d p ∧ match p with
    | .react _ _ | .check _ => Ev.reset ∉ d.log → d.rs = .prepared
    | _ => True

theorem rules11 : Rules (fun _ => True) Q1 H11 where
  acquire := by intro d t op _ h; exact ⟨h, trivial⟩
  casPendingQ := by intro d t h; exact rules1.casPendingQ d t h
  casPendingH := by
    intro d t p hp h
    refine ⟨rules1.casPendingH d t p hp h.1, ?_⟩
    have h2 := h.2
    cases p <;> simp only at h2 ⊢ <;> simp only [casPending, Data.note] <;> grind
  casInFlyQ := by intro d t u hk h; exact rules1.casInFlyQ d t u hk h
  casInFlyH := by
    intro d t u p hk hp h
    refine ⟨rules1.casInFlyH d t u p hk hp h.1, ?_⟩
    have h2 := h.2
    cases p <;> simp only at h2 ⊢ <;> simp only [casInFly, Data.note] <;> grind
  own := by
    intro d t p d' p' hc hh h hi
    refine ⟨rules1.own d t p d' p' hc hh.1 h hi, ?_⟩
    obtain ⟨h1, h2⟩ := hh
    unfold Request.own at h
    split at h
    case h_3 op =>
      simp only [Option.some.injEq] at h
      cases op <;> simp only [lockedStep] at h <;> grind
    case h_10 a acts =>
      cases a <;> simp only [doAct, casPending, casInFly] at h <;> grind
    case h_13 a acts =>
      cases a <;> simp only [doAct, casPending, casInFly] at h <;> grind
    all_goals grind
  release := by intro d t op h; exact rules1.release d t op h.1
  bookmark := by
    intro d op d' p' t acts hk hh h
    refine ⟨rules1.bookmark d op d' p' t acts hk hh.1 h, ?_⟩
    have h1 := hh.1
    simp only [H1] at h1
    simp only [enterBookmark] at h
    split at h <;> grind [Data.note]
  responder := by
    intro d op d' p' t acts hk hh h
    refine ⟨rules1.responder d op d' p' t acts hk hh.1 h, ?_⟩
    simp only [enterResponder] at h
    split at h <;> grind [Data.note]

abbrev I11 := Inv (fun _ => True) Q1 H11

/-- On the way to an answer. -/
def Ans : Pc → Prop
  | .wait (.fail _) | .locked (.fail _) | .fill _ _ _ _ | .mark _ | .walk _ | .react _ _ | .check _ | .fin _ _ | .finish _ | .dead => True
  | _ => False

/-- The kinds of steps. -/
inductive Kind (s s' : St) : Prop
  | call (t op) (h : s.pc t = .idle) (hd : s'.d = s.d) (hp : s'.pc = setPc s.pc t (.wait op))
  | lock (t op) (h : s.pc t = .wait op) (hl : s.lock = none) (hd : s'.d = s.d) (hp : s'.pc = setPc s.pc t (.locked op))
  | pend (t) (h : s.pc t = .wait .setPending) (hd : s'.d = (casPending s.d).note (.returned t .setPending)) (hp : s'.pc = setPc s.pc t .idle)
  | fly (t) (h : s.pc t = .wait .claim) (hd : s'.d = (casInFly s.d t).note (.returned t .claim)) (hp : s'.pc = setPc s.pc t .idle)
  | own (t p) (h : own s.d t (s.pc t) = some (s'.d, p)) (hp : s'.pc = setPc s.pc t p)
  | bookmark (t acts p) (h : enterBookmark s.d acts (s.pc t) = some (s'.d, p)) (hp : s'.pc = setPc s.pc t p)
  | responder (t acts p) (h : enterResponder s.d acts (s.pc t) = some (s'.d, p)) (hp : s'.pc = setPc s.pc t p)

theorem own_eq {s s' : St} {t x} (h : s.ownStep t x = some s') : ∃ p, x = some (s'.d, p) ∧ s'.pc = setPc s.pc t p := by
  cases x with
  | none => cases h
  | some x => obtain ⟨d, p⟩ := x; cases h; exact ⟨p, rfl, rfl⟩

theorem lock_eq {s s' : St} {t op} (hw : s.pc t = .wait op) (h : s.lockStep t op = some s') : Kind s s' := by
  simp only [St.lockStep] at h
  split at h <;> cases h
  rename_i hl
  exact .lock t op hw hl rfl rfl

theorem kinds {s s' : St} {c} (h : step s c = some s') : Kind s s' := by
  cases c with
  | call t op =>
    simp only [step] at h
    split at h <;> cases h
    rename_i hi
    exact .call t op hi rfl rfl
  | go t =>
    simp only [step] at h
    split at h
    · rename_i op hw
      cases op <;> simp only [St.begin] at h
      · cases h; exact .pend t hw rfl rfl
      · cases h; exact .fly t hw rfl rfl
      all_goals exact lock_eq hw h
    · obtain ⟨p, h1, h2⟩ := own_eq h
      exact .own t p h1 h2
  | bookmark t acts =>
    obtain ⟨p, h1, h2⟩ := own_eq h
    exact .bookmark t acts p h1 h2
  | responder t acts =>
    obtain ⟨p, h1, h2⟩ := own_eq h
    exact .responder t acts p h1 h2

theorem log_mono (s s' : St) (c : Choice) (h : step s c = some s') : ∀ e ∈ s.d.log, e ∈ s'.d.log := by
  intro e he
  cases kinds h with
  | call t op h hd hp => rw [hd]; exact he
  | lock t op h hl hd hp => rw [hd]; exact he
  | pend t h hd hp => rw [hd]; simp only [Data.note, casPending]; grind
  | fly t h hd hp => rw [hd]; simp only [Data.note, casInFly]; grind
  | own t p h hp =>
    generalize s.pc t = q at h
    generalize s'.d = d' at h
    unfold Request.own at h
    split at h
    case h_3 op => simp only [Option.some.injEq] at h; cases op <;> simp only [lockedStep, Data.note] at h <;> grind
    case h_10 a acts => cases a <;> simp only [doAct, casPending, casInFly] at h <;> grind
    case h_13 a acts => cases a <;> simp only [doAct, casPending, casInFly] at h <;> grind
    all_goals grind [Data.note]
  | bookmark t acts p h hp =>
    generalize s.pc t = q at h
    generalize s'.d = d' at h
    unfold enterBookmark at h
    split at h
    · split at h <;> grind [Data.note]
    · cases h
  | responder t acts p h hp =>
    generalize s.pc t = q at h
    generalize s'.d = d' at h
    unfold enterResponder at h
    split at h
    · split at h <;> grind [Data.note]
    · cases h

theorem performed_step (s s' : St) (c : Choice) (i : I11 s) (h : step s c = some s') (hp : s.d.rs = .performed) :
    s'.d.rs = .performed := by
  cases kinds h with
  | call t op h hd _ => rw [hd]; exact hp
  | lock t op h hl hd _ => rw [hd]; exact hp
  | pend t h hd _ => rw [hd]; simp [Data.note, casPending, hp]
  | fly t h hd _ => rw [hd]; simp [Data.note, casInFly, hp]
  | own t p h _ =>
    have hh := (i.owner t (i.mutex t (own_crit h))).2.1
    generalize s.pc t = q at h hh
    generalize s'.d = d' at h
    unfold Request.own at h
    split at h
    case h_3 op => simp only [Option.some.injEq] at h; cases op <;> simp only [lockedStep, Data.note] at h <;> grind
    case h_10 a acts => simp only [H1] at hh; cases a <;> simp only [doAct, casPending, casInFly] at h <;> grind
    case h_13 a acts => simp only [H1] at hh; cases a <;> simp only [doAct, casPending, casInFly] at h <;> grind
    all_goals (simp only [H1] at hh <;> grind [Data.note])
  | bookmark t acts p h _ =>
    generalize s.pc t = q at h
    generalize s'.d = d' at h
    unfold enterBookmark at h
    split at h
    · split at h <;> grind [Data.note]
    · cases h
  | responder t acts p h _ =>
    generalize s.pc t = q at h
    generalize s'.d = d' at h
    unfold enterResponder at h
    split at h
    · split at h <;> grind [Data.note]
    · cases h

theorem ans_step (u : Nat) (s s' : St) (c : Choice) (i : I11 s) (h : step s c = some s') (hp : Ans (s.pc u))
    (hr : Ev.reset ∉ s'.d.log) : s'.d.rs = .performed ∨ Ans (s'.pc u) := by
  cases kinds h with
  | call t op h hd e =>
    right; rw [e]; simp only [setPc]
    split
    · rename_i h0; subst h0; rw [h] at hp; exact hp.elim
    · exact hp
  | lock t op h hl hd e =>
    right; rw [e]; simp only [setPc]
    split
    · rename_i h0; subst h0; rw [h] at hp; cases op <;> simp_all [Ans]
    · exact hp
  | pend t h hd e =>
    right; rw [e]; simp only [setPc]
    split
    · rename_i h0; subst h0; rw [h] at hp; exact hp.elim
    · exact hp
  | fly t h hd e =>
    right; rw [e]; simp only [setPc]
    split
    · rename_i h0; subst h0; rw [h] at hp; exact hp.elim
    · exact hp
  | own t p h e =>
    rw [e]; simp only [setPc]
    split
    · rename_i h0
      subst h0
      obtain ⟨hh1, hh2⟩ := (i.owner u (i.mutex u (own_crit h))).2
      generalize s.pc u = q at h hh1 hh2 hp
      generalize s'.d = d' at h hr
      unfold Request.own at h
      split at h
      case h_3 op => simp only [Option.some.injEq] at h; cases op <;> simp only [lockedStep, Data.note] at h <;> simp only [H1, Q1] at hh1 <;> grind [Ans]
      case h_10 a acts => cases a <;> simp only [doAct, casPending, casInFly] at h <;> grind [Ans]
      case h_13 a acts => cases a <;> simp only [doAct, casPending, casInFly] at h <;> grind [Ans]
      all_goals grind [Ans, Data.note]
    · exact .inr hp
  | bookmark t acts p h e =>
    right; rw [e]; simp only [setPc]
    split
    · rename_i h0
      subst h0
      generalize s.pc u = q at h hp
      unfold enterBookmark at h
      split at h
      · split at h <;> grind [Ans]
      · cases h
    · exact hp
  | responder t acts p h e =>
    right; rw [e]; simp only [setPc]
    split
    · rename_i h0
      subst h0
      generalize s.pc u = q at h hp
      unfold enterResponder at h
      split at h
      · split at h <;> grind [Ans]
      · cases h
    · exact hp

end Verif.Request
