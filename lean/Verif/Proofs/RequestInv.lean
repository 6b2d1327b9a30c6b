import Verif.Proofs.Request
/-! The invariants proper. -/
namespace Verif.Request

/-! ### One delivery -/

def Q1 (d : Data) : Prop :=
  d.rs ≠ .prepared ∧ (deliveries d.log = 0 ∧ d.rs ≠ .performed ∨
    deliveries d.log = 1 ∧ d.rs = .performed ∧ d.chain = [])

def H1 (d : Data) : Pc → Prop
  | .idle | .wait _ => False
  | .locked _ | .leave _ => Q1 d
  | .claimW _ => deliveries d.log = 0 ∧ (d.rs = .pending ∨ d.rs = .inFly)
  | .claimC _ => deliveries d.log = 0 ∧ d.rs = .inFly
  | .fill _ _ _ _ | .mark _ => deliveries d.log = 0 ∧ d.rs ≠ .prepared ∧ d.rs ≠ .performed
  | .walk _ => deliveries d.log = 0 ∧ d.rs = .prepared
  | .react _ _ | .check _ => deliveries d.log = 0 ∧ d.rs ≠ .performed
  | .fin _ _ => deliveries d.log = 1 ∧ d.rs ≠ .performed ∧ d.chain = []
  | .finish _ => deliveries d.log = 1 ∧ d.chain = []
  | .dead => deliveries d.log = 0 ∨ deliveries d.log = 1 ∧ d.chain = []

theorem rules1 : Rules (fun _ => True) Q1 H1 where
  acquire := by intro d t op _ h; exact h
  casPendingQ := by intro d t h; grind [Q1, casPending, Data.note, deliveries]
  casPendingH := by
    intro d t p hp h
    cases p <;> simp only [H1, Q1] at h ⊢ <;> simp only [casPending, Data.note] <;> grind [deliveries]
  casInFlyQ := by intro d t u _ h; grind [Q1, casInFly, Data.note, deliveries]
  casInFlyH := by
    intro d t u p _ hp h
    cases p <;> simp only [H1, Q1] at h ⊢ <;> simp only [casInFly, Data.note] <;> grind [deliveries]
  own := by
    intro d t p d' p' hc hh h hi
    unfold Request.own at h
    split at h
    case h_3 op =>
      simp only [Option.some.injEq] at h
      cases op <;> simp only [lockedStep] at h <;> grind [H1, Q1, deliveries, Data.note]
    case h_10 a acts =>
      cases a <;> simp only [doAct, casPending, casInFly] at h <;> grind [H1, Q1, deliveries, Data.note]
    case h_13 a acts =>
      cases a <;> simp only [doAct, casPending, casInFly] at h <;> grind [H1, Q1, deliveries, Data.note]
    all_goals grind [H1, Q1, deliveries, Data.note]
  release := by intro d t op h; simpa [H1, Q1, Data.note, deliveries] using h
  bookmark := by
    intro d op d' p' t acts _ hh h
    simp only [enterBookmark] at h
    split at h <;> grind [H1, Data.note, deliveries]
  responder := by
    intro d op d' p' t acts _ hh h
    simp only [enterResponder] at h
    split at h <;> grind [H1, Data.note, deliveries]

theorem inv_any {ok Q H} {s : St} (hs : Inv ok Q H s) {P : Data → Prop} (hq : Q s.d → P s.d)
    (hh : ∀ p, H s.d p → P s.d) : P s.d := by
  cases hl : s.lock with
  | none => exact hq (hs.free hl)
  | some t => exact hh _ (hs.owner t hl).2

/-! ### Nothing after the delivery -/

def Ev8 : Ev → List Ev → Prop
  | .accepted _ _ _, l | .notified _ _, l | .chained _, l | .passed _, l | .delivered _, l => deliveries l = 0
  | _, _ => True

def Q8 (d : Data) : Prop := Q1 d ∧ Everywhere Ev8 d.log
def H8 (d : Data) (p : Pc) : Prop := H1 d p ∧ Everywhere Ev8 d.log

theorem rules8 : Rules (fun _ => True) Q8 H8 where
  acquire := by intro d t op _ h; exact h
  casPendingQ := by
    intro d t h
    exact ⟨rules1.casPendingQ d t h.1, by grind [Q8, casPending, Data.note, Everywhere, Ev8]⟩
  casPendingH := by
    intro d t p hp h
    exact ⟨rules1.casPendingH d t p hp h.1, by grind [H8, casPending, Data.note, Everywhere, Ev8]⟩
  casInFlyQ := by
    intro d t u hu h
    exact ⟨rules1.casInFlyQ d t u hu h.1, by grind [Q8, casInFly, Data.note, Everywhere, Ev8]⟩
  casInFlyH := by
    intro d t u p hu hp h
    exact ⟨rules1.casInFlyH d t u p hu hp h.1, by grind [H8, casInFly, Data.note, Everywhere, Ev8]⟩
  own := by
    intro d t p d' p' hc hh h hi
    refine ⟨rules1.own d t p d' p' hc hh.1 h hi, ?_⟩
    obtain ⟨hh, he⟩ := hh
    unfold Request.own at h
    split at h
    case h_3 op =>
      simp only [Option.some.injEq] at h
      cases op <;> simp only [lockedStep] at h <;> grind [H1, Q1, Everywhere, Ev8, Data.note]
    case h_10 a acts =>
      cases a <;> simp only [doAct, casPending, casInFly] at h <;> grind [H1, Q1, Everywhere, Ev8, Data.note]
    case h_13 a acts =>
      cases a <;> simp only [doAct, casPending, casInFly] at h <;> grind [H1, Q1, Everywhere, Ev8, Data.note]
    all_goals grind [H1, Q1, Everywhere, Ev8, Data.note]
  release := by
    intro d t op h
    exact ⟨rules1.release d t op h.1, by simpa [Everywhere, Ev8, Data.note] using h.2⟩
  bookmark := by
    intro d op d' p' t acts hk hh h
    refine ⟨rules1.bookmark d op d' p' t acts hk hh.1 h, ?_⟩
    obtain ⟨hh, he⟩ := hh
    simp only [enterBookmark] at h
    split at h <;> grind [H1, Data.note, Everywhere, Ev8]
  responder := by
    intro d op d' p' t acts hk hh h
    refine ⟨rules1.responder d op d' p' t acts hk hh.1 h, ?_⟩
    obtain ⟨hh, he⟩ := hh
    simp only [enterResponder] at h
    split at h <;> grind [H1, Data.note, Everywhere, Ev8]

/-! ### The delivered response -/

/-- Where an answer comes from: a call of RespondBytes on a claimed request, or a call of RespondFail. -/
def Source (ok : Choice → Prop) (l : List Ev) (k : Bool) (c : UInt32) (b : Option (List UInt8)) : Prop :=
  k = true ∧ wasClaimed l ∧ (∃ t, ok (.call t (.respond c b))) ∨ k = false ∧ b = none ∧ ∃ t, ok (.call t (.fail c))

def Good2 (ok : Choice → Prop) (id msg : UInt32) (r : Resp) (l : List Ev) : Prop :=
  r.id = id ∧ r.msg = msg ∧ ∃ k, lastAccepted l = some (k, r.code, r.body) ∧ Source ok l k r.code r.body

def Ev2 (ok : Choice → Prop) (id msg : UInt32) : Ev → List Ev → Prop
  | .delivered r, l => Good2 ok id msg r l
  | .notified _ r, l => Good2 ok id msg r l
  | _, _ => True

def C2 (ok : Choice → Prop) (id msg : UInt32) (d : Data) : Prop :=
  d.id = id ∧ d.msg = msg ∧ Everywhere (Ev2 ok id msg) d.log ∧ (d.rs = .inFly → wasClaimed d.log)

def H2 (ok : Choice → Prop) (id msg : UInt32) (d : Data) : Pc → Prop
  | .locked op => C2 ok id msg d ∧ ∃ t, ok (.call t op)
  | .fill _ k c b => C2 ok id msg d ∧ Source ok d.log k c b
  | .mark _ | .walk _ | .react _ _ | .check _ => C2 ok id msg d ∧ ∃ r, d.resp = some r ∧ Good2 ok id msg r d.log
  | _ => C2 ok id msg d

theorem wasClaimed_mono {e l} (h : wasClaimed l) : wasClaimed (e :: l) := by
  obtain ⟨t, h⟩ := h; exact ⟨t, List.mem_cons_of_mem _ h⟩

theorem wasClaimed_self {t l} : wasClaimed (.claimed t :: l) := ⟨t, by simp⟩

theorem Source.mono {ok e l k c b} (h : Source ok l k c b) : Source ok (e :: l) k c b := by
  rcases h with ⟨h1, h2, h3⟩ | h
  · exact .inl ⟨h1, wasClaimed_mono h2, h3⟩
  · exact .inr h

theorem Good2.mono {ok id msg r e l} (h : Good2 ok id msg r l) (he : ∀ k c b, e ≠ .accepted k c b) :
    Good2 ok id msg r (e :: l) := by
  obtain ⟨h1, h2, k, h3, h4⟩ := h
  refine ⟨h1, h2, k, ?_, h4.mono⟩
  cases e <;> simp_all [lastAccepted]

theorem C2_casPending {ok id msg d} (h : C2 ok id msg d) : C2 ok id msg (casPending d) := by
  simp only [casPending]
  split
  · obtain ⟨h1, h2, h3, h4⟩ := h
    exact ⟨h1, h2, ⟨trivial, h3⟩, by simp⟩
  · exact h

theorem C2_casInFly {ok id msg d t} (h : C2 ok id msg d) : C2 ok id msg (casInFly d t) := by
  simp only [casInFly]
  split
  · obtain ⟨h1, h2, h3, h4⟩ := h
    exact ⟨h1, h2, ⟨trivial, h3⟩, fun _ => wasClaimed_self⟩
  · exact h

theorem C2_note {ok id msg d t op} (h : C2 ok id msg d) : C2 ok id msg (d.note (.returned t op)) := by
  obtain ⟨h1, h2, h3, h4⟩ := h
  exact ⟨h1, h2, ⟨trivial, h3⟩, fun h => wasClaimed_mono (h4 h)⟩

theorem C2_doAct {ok id msg d t a d'} (h : C2 ok id msg d) (ha : doAct d t a = some d') : C2 ok id msg d' := by
  cases a <;> simp only [doAct] at ha
  · split at ha <;> simp only [Option.some.injEq, reduceCtorEq] at ha
    subst ha
    obtain ⟨h1, h2, h3, h4⟩ := h
    exact ⟨h1, h2, ⟨trivial, trivial, h3⟩, by simp⟩
  · split at ha <;> simp only [Option.some.injEq, reduceCtorEq] at ha
    subst ha
    obtain ⟨h1, h2, h3, h4⟩ := h
    exact ⟨h1, h2, ⟨trivial, h3⟩, by simp⟩
  · simp only [Option.some.injEq] at ha; subst ha; exact C2_casPending h
  · simp only [Option.some.injEq] at ha; subst ha; exact C2_casInFly h
  · cases ha

/-- Steps that add only events which are no answers keep the filled response good. -/
def Keeps (d d' : Data) : Prop :=
  d'.resp = d.resp ∧ ∃ es, d'.log = es ++ d.log ∧ ∀ e ∈ es, ∀ k c b, e ≠ Ev.accepted k c b

theorem Keeps.good {ok id msg r d d'} (hk : Keeps d d') (h : Good2 ok id msg r d.log) : Good2 ok id msg r d'.log := by
  obtain ⟨_, es, h1, h2⟩ := hk
  rw [h1]
  clear h1
  induction es with
  | nil => exact h
  | cons e es ih => exact Good2.mono (ih fun e he => h2 e (by simp [he])) (h2 e (by simp))

theorem Keeps.source {ok d d' k c b} (hk : Keeps d d') (h : Source ok d.log k c b) : Source ok d'.log k c b := by
  obtain ⟨_, es, h1, h2⟩ := hk
  rw [h1]
  clear h1 h2
  induction es with
  | nil => exact h
  | cons e es ih => exact ih.mono

theorem keeps_note {d t op} : Keeps d (d.note (.returned t op)) := ⟨rfl, [_], rfl, by simp⟩
theorem keeps_casPending {d} : Keeps d (casPending d) := by
  simp only [casPending]; split
  · exact ⟨rfl, [_], rfl, by simp⟩
  · exact ⟨rfl, [], rfl, by simp⟩
theorem keeps_casInFly {d t} : Keeps d (casInFly d t) := by
  simp only [casInFly]; split
  · exact ⟨rfl, [_], rfl, by simp⟩
  · exact ⟨rfl, [], rfl, by simp⟩
theorem Keeps.trans {a b c} (h : Keeps a b) (h' : Keeps b c) : Keeps a c := by
  obtain ⟨h1, es, h2, h3⟩ := h
  obtain ⟨h1', es', h2', h3'⟩ := h'
  refine ⟨h1'.trans h1, es' ++ es, by rw [h2', h2, List.append_assoc], ?_⟩
  intro e he; rcases List.mem_append.1 he with he | he
  · exact h3' e he
  · exact h3 e he
theorem keeps_doAct {d t a d'} (ha : doAct d t a = some d') : Keeps d d' := by
  cases a <;> simp only [doAct] at ha
  · split at ha <;> simp only [Option.some.injEq, reduceCtorEq] at ha
    subst ha
    exact ⟨rfl, [_, _], rfl, by simp⟩
  · split at ha <;> simp only [Option.some.injEq, reduceCtorEq] at ha
    subst ha
    exact ⟨rfl, [_], rfl, by simp⟩
  · simp only [Option.some.injEq] at ha; subst ha; exact keeps_casPending
  · simp only [Option.some.injEq] at ha; subst ha; exact keeps_casInFly
  · cases ha

theorem H2_keeps {ok id msg d d' p} (hk : Keeps d d') (hc : C2 ok id msg d') (h : H2 ok id msg d p) :
    H2 ok id msg d' p := by
  have hr := hk.1
  cases p <;> simp only [H2] at h ⊢ <;> (try exact hc) <;> refine ⟨hc, ?_⟩
  case locked => exact h.2
  case fill => exact hk.source h.2
  all_goals
    obtain ⟨_, r, h1, h2⟩ := h
    exact ⟨r, hr.trans h1, hk.good h2⟩

theorem H2_C2 {ok id msg d p} (h : H2 ok id msg d p) : C2 ok id msg d := by
  cases p <;> simp only [H2] at h <;> first | exact h | exact h.1

theorem rules2 (ok : Choice → Prop) (id msg : UInt32) : Rules ok (C2 ok id msg) (H2 ok id msg) where
  acquire := by intro d t op hk h; exact ⟨h, t, hk⟩
  casPendingQ := by intro d t h; exact C2_note (C2_casPending h)
  casPendingH := by
    intro d t p hp h
    exact H2_keeps (keeps_casPending.trans keeps_note) (C2_note (C2_casPending (H2_C2 h))) h
  casInFlyQ := by intro d t u _ h; exact C2_note (C2_casInFly h)
  casInFlyH := by
    intro d t u p _ hp h
    exact H2_keeps (keeps_casInFly.trans keeps_note) (C2_note (C2_casInFly (H2_C2 h))) h
  own := by
    intro d t p d' p' hc hh h hi
    have hcc := H2_C2 hh
    unfold Request.own at h
    split at h
    case h_3 op =>
      simp only [Option.some.injEq] at h
      obtain ⟨_, t', hk⟩ := hh
      obtain ⟨h1, h2, h3, h4⟩ := (show C2 ok id msg d from hcc)
      cases op with
      | chain b =>
        simp only [lockedStep] at h
        split at h <;> cases h
        · exact ⟨h1, h2, ⟨trivial, h3⟩, fun h => wasClaimed_mono (h4 h)⟩
        · exact hcc
      | respond c b =>
        simp only [lockedStep] at h
        split at h <;> cases h
        · next hfly => exact ⟨hcc, .inl ⟨rfl, h4 hfly, t', hk⟩⟩
        · exact ⟨h1, h2, ⟨trivial, h3⟩, fun h => wasClaimed_mono (h4 h)⟩
      | fail c =>
        simp only [lockedStep] at h
        split at h <;> cases h
        · exact ⟨h1, h2, ⟨trivial, h3⟩, fun h => wasClaimed_mono (h4 h)⟩
        · exact ⟨hcc, .inr ⟨rfl, rfl, t', hk⟩⟩
      | claimWith b =>
        simp only [lockedStep] at h
        split at h <;> cases h <;> exact hcc
      | _ => cases h; exact hcc
    all_goals try (cases h; done)
    · cases h
      obtain ⟨h1, h2, h3, h4⟩ := hcc
      exact ⟨h1, h2, ⟨trivial, h3⟩, fun _ => wasClaimed_self⟩
    · cases h
      obtain ⟨h1, h2, h3, h4⟩ := hcc
      exact ⟨h1, h2, ⟨trivial, h3⟩, fun h => wasClaimed_mono (h4 h)⟩
    · cases h
      obtain ⟨⟨h1, h2, h3, h4⟩, hs⟩ := hh
      refine ⟨⟨h1, h2, ⟨trivial, h3⟩, fun h => wasClaimed_mono (h4 h)⟩, _, rfl, ?_⟩
      unfold filled
      split <;> exact ⟨h1, h2, _, rfl, hs.mono⟩
    · cases h
      obtain ⟨⟨h1, h2, h3, h4⟩, hs⟩ := hh
      exact ⟨⟨h1, h2, h3, by simp⟩, hs⟩
    · cases h; exact hh
    · split at h <;> cases h
      · next ha => exact H2_keeps (p := .react _ _) (keeps_doAct ha) (C2_doAct hcc ha) hh
      · exact hcc
    · split at h
      · cases h
      · split at h <;> cases h
        · obtain ⟨⟨h1, h2, h3, h4⟩, r, hr, hg⟩ := hh
          exact ⟨⟨h1, h2, ⟨trivial, h3⟩, fun h => wasClaimed_mono (h4 h)⟩, r, hr, hg.mono (by simp)⟩
        · exact hcc
    · cases h; exact hcc
    · split at h <;> cases h
      · next ha => exact C2_doAct hcc ha
      · exact hcc
    · cases h
      obtain ⟨h1, h2, h3, h4⟩ := hcc
      exact ⟨h1, h2, h3, by simp⟩
    · cases h; exact absurd rfl hi
  release := by intro d t op h; exact C2_note h
  bookmark := by
    intro d op d' p' t acts _ hh h
    simp only [enterBookmark] at h
    obtain ⟨⟨h1, h2, h3, h4⟩, r, hr, hg⟩ := hh
    rw [hr] at h
    split at h <;> cases h
    next heq =>
    cases heq
    exact ⟨⟨h1, h2, ⟨hg, h3⟩, fun h => wasClaimed_mono (h4 h)⟩, r, hr, hg.mono (by simp)⟩
  responder := by
    intro d op d' p' t acts _ hh h
    simp only [enterResponder] at h
    obtain ⟨⟨h1, h2, h3, h4⟩, r, hr, hg⟩ := hh
    rw [hr] at h
    split at h <;> cases h
    next heq =>
    cases heq
    exact ⟨h1, h2, ⟨hg, h3⟩, fun h => wasClaimed_mono (h4 h)⟩

/-! ### Bookmarks -/

def Ev3 : Ev → List Ev → Prop
  | .delivered _, l => outstanding l = [] ∧ notifiedSince l = outstanding (beforeAccepted l)
  | _, _ => True

def C3 (d : Data) : Prop := Everywhere Ev3 d.log ∧ d.chain = outstanding d.log

def H3 (d : Data) : Pc → Prop
  | .mark _ | .walk _ => C3 d ∧ notifiedSince d.log ++ d.chain = outstanding (beforeAccepted d.log)
  | .react _ _ | .check _ => C3 d ∧ notifiedSince d.log ++ d.chain.drop 1 = outstanding (beforeAccepted d.log)
  | _ => C3 d

theorem rules3 : Rules (fun _ => True) C3 H3 where
  acquire := by intro d t op _ h; exact h
  casPendingQ := by intro d t h; grind [C3, casPending, Data.note, Everywhere, Ev3, outstanding]
  casPendingH := by
    intro d t p hp h
    cases p <;> simp only [H3, C3] at h ⊢ <;> simp only [casPending, Data.note] <;>
      grind [Everywhere, Ev3, outstanding, notifiedSince, beforeAccepted]
  casInFlyQ := by intro d t u _ h; grind [C3, casInFly, Data.note, Everywhere, Ev3, outstanding]
  casInFlyH := by
    intro d t u p _ hp h
    cases p <;> simp only [H3, C3] at h ⊢ <;> simp only [casInFly, Data.note] <;>
      grind [Everywhere, Ev3, outstanding, notifiedSince, beforeAccepted]
  own := by
    intro d t p d' p' hc hh h hi
    unfold Request.own at h
    split at h
    case h_3 op =>
      simp only [Option.some.injEq] at h
      cases op <;> simp only [lockedStep] at h <;> grind [H3, C3, Everywhere, Ev3, outstanding, Data.note]
    case h_10 a acts =>
      cases a <;> simp only [doAct, casPending, casInFly] at h <;>
        grind [H3, C3, Everywhere, Ev3, outstanding, notifiedSince, beforeAccepted]
    case h_13 a acts =>
      cases a <;> simp only [doAct, casPending, casInFly] at h <;>
        grind [H3, C3, Everywhere, Ev3, outstanding, notifiedSince, beforeAccepted]
    all_goals grind [H3, C3, Everywhere, Ev3, outstanding, notifiedSince, beforeAccepted]
  release := by intro d t op h; simpa [H3, C3, Everywhere, Ev3, Data.note, outstanding] using h
  bookmark := by
    intro d op d' p' t acts _ hh h
    simp only [enterBookmark] at h
    split at h <;> grind [H3, C3, Everywhere, Ev3, Data.note, outstanding, notifiedSince, beforeAccepted]
  responder := by
    intro d op d' p' t acts _ hh h
    simp only [enterResponder] at h
    split at h <;> grind [H3, C3, Everywhere, Ev3, Data.note, outstanding, notifiedSince, beforeAccepted]

/-! ### Without resets -/

def plainActs (acts : List Act) : Prop := ∀ a ∈ acts, a ≠ .resetPending ∧ a ≠ .resetNew ∧ a ≠ .stuck

theorem plainActs_of {acts : List Act} (h : acts.all (fun a => !a.isReset && a != .stuck) = true) : plainActs acts := by
  intro a ha
  have := List.all_eq_true.1 h a ha
  cases a <;> simp_all [Act.isReset]

def Ev4 : Ev → List Ev → Prop
  | .returned _ (.fail _), l => deliveries l = 1
  | .delivered _, l => allNotified l = allChained l
  | _, _ => True

def C4 (d : Data) : Prop := Everywhere Ev4 d.log ∧ (d.rs ≠ .performed → d.chain = allChained d.log ∧ allNotified d.log = []) ∧
  (d.rs = .performed → allNotified d.log = allChained d.log) ∧ Q1 d

def E4 (d : Data) : Prop := Everywhere Ev4 d.log ∧ deliveries d.log = 0

def H4 (d : Data) : Pc → Prop
  | .idle | .wait _ => False
  | .locked _ => C4 d
  | .leave op => C4 d ∧ ((∃ c, op = .fail c) → deliveries d.log = 1)
  | .claimW _ => C4 d ∧ (d.rs = .pending ∨ d.rs = .inFly)
  | .claimC _ => C4 d ∧ d.rs = .inFly
  | .fill _ _ _ _ => C4 d ∧ d.rs ≠ .performed
  | .mark _ => E4 d ∧ d.chain = allChained d.log ∧ allNotified d.log = []
  | .walk _ => E4 d ∧ d.rs = .prepared ∧ allNotified d.log ++ d.chain = allChained d.log
  | .react _ acts => E4 d ∧ d.rs = .prepared ∧ plainActs acts ∧ allNotified d.log ++ d.chain.drop 1 = allChained d.log
  | .check _ => E4 d ∧ d.rs = .prepared ∧ allNotified d.log ++ d.chain.drop 1 = allChained d.log
  | .fin _ acts => Everywhere Ev4 d.log ∧ deliveries d.log = 1 ∧ d.rs = .prepared ∧ plainActs acts ∧
      d.chain = [] ∧ allNotified d.log = allChained d.log
  | .finish _ => Everywhere Ev4 d.log ∧ deliveries d.log = 1 ∧ d.rs = .prepared ∧ d.chain = [] ∧
      allNotified d.log = allChained d.log
  | .dead => False

theorem rules4 : Rules (fun c => c.plain = true) C4 H4 where
  acquire := by intro d t op _ h; exact h
  casPendingQ := by
    intro d t h; grind [C4, Q1, casPending, Data.note, Everywhere, Ev4, deliveries, allChained, allNotified]
  casPendingH := by
    intro d t p hp h
    cases p <;> simp only [H4, C4, E4, Q1] at h ⊢ <;> simp only [casPending, Data.note] <;>
      grind [Everywhere, Ev4, deliveries, allChained, allNotified]
  casInFlyQ := by
    intro d t u _ h; grind [C4, Q1, casInFly, Data.note, Everywhere, Ev4, deliveries, allChained, allNotified]
  casInFlyH := by
    intro d t u p _ hp h
    cases p <;> simp only [H4, C4, E4, Q1] at h ⊢ <;> simp only [casInFly, Data.note] <;>
      grind [Everywhere, Ev4, deliveries, allChained, allNotified]
  own := by
    intro d t p d' p' hc hh h hi
    unfold Request.own at h
    split at h
    case h_3 op =>
      simp only [Option.some.injEq] at h
      cases op <;> simp only [lockedStep] at h <;>
        grind [H4, C4, Q1, Everywhere, Ev4, deliveries, allChained, allNotified, Data.note]
    case h_10 a acts =>
      simp only [H4] at hh
      have ha := hh.2.2.1 a (by simp)
      have has : plainActs acts := fun a h => hh.2.2.1 a (by simp [h])
      cases a <;> simp only [doAct, casPending, casInFly] at h <;>
        grind [H4, E4, Everywhere, Ev4, deliveries, allChained, allNotified]
    case h_13 a acts =>
      simp only [H4] at hh
      have ha := hh.2.2.2.1 a (by simp)
      have has : plainActs acts := fun a h => hh.2.2.2.1 a (by simp [h])
      cases a <;> simp only [doAct, casPending, casInFly] at h <;>
        grind [H4, E4, Everywhere, Ev4, deliveries, allChained, allNotified]
    all_goals grind [H4, C4, E4, Q1, Everywhere, Ev4, deliveries, allChained, allNotified]
  release := by
    intro d t op h
    cases op <;> simp [H4, C4, Q1, Everywhere, Ev4, Data.note, deliveries, allChained, allNotified] at h ⊢ <;> grind
  bookmark := by
    intro d op d' p' t acts hk hh h
    have := plainActs_of hk
    simp only [enterBookmark] at h
    split at h <;> grind [H4, E4, Everywhere, Ev4, Data.note, deliveries, allChained, allNotified]
  responder := by
    intro d op d' p' t acts hk hh h
    have := plainActs_of hk
    simp only [enterResponder] at h
    split at h <;> grind [H4, E4, Everywhere, Ev4, Data.note, deliveries, allChained, allNotified]

def Ev10 : Ev → List Ev → Prop
  | .ignored (.respond _ _), l => deliveries l = 1 ∨ ¬ wasClaimed l
  | .ignored _, l => deliveries l = 1
  | _, _ => True

def E10 (d : Data) : Prop := Everywhere Ev10 d.log ∧ (d.rs = .new ∨ d.rs = .pending → ¬ wasClaimed d.log)

theorem wasClaimed_cons {e l} (h : wasClaimed (e :: l)) (he : ∀ t, e ≠ .claimed t) : wasClaimed l := by
  obtain ⟨t, h⟩ := h
  rcases List.mem_cons.1 h with h | h
  · exact absurd h.symm (he t)
  · exact ⟨t, h⟩

theorem E10_note {d : Data} {e} (h : E10 d) (he : ∀ t, e ≠ .claimed t) (hq : Ev10 e d.log) : E10 (d.note e) :=
  ⟨⟨hq, h.1⟩, fun hr hc => h.2 hr (wasClaimed_cons hc he)⟩

theorem E10_casPending {d} (h : E10 d) : E10 (casPending d) := by
  simp only [casPending]
  split
  · next hn => exact ⟨⟨trivial, h.1⟩, fun _ hc => h.2 (.inl hn) (wasClaimed_cons hc (by simp))⟩
  · exact h

theorem E10_casInFly {d t} (h : E10 d) : E10 (casInFly d t) := by
  simp only [casInFly]
  split
  · exact ⟨⟨trivial, h.1⟩, by simp⟩
  · exact h

theorem rules10 : Rules (fun c => c.plain = true) (fun d => C4 d ∧ E10 d) (fun d p => H4 d p ∧ E10 d) where
  acquire := by intro d t op _ h; exact h
  casPendingQ := by
    intro d t h
    exact ⟨rules4.casPendingQ d t h.1, E10_note (E10_casPending h.2) (by simp) trivial⟩
  casPendingH := by
    intro d t p hp h
    exact ⟨rules4.casPendingH d t p hp h.1, E10_note (E10_casPending h.2) (by simp) trivial⟩
  casInFlyQ := by
    intro d t u hu h
    exact ⟨rules4.casInFlyQ d t u hu h.1, E10_note (E10_casInFly h.2) (by simp) trivial⟩
  casInFlyH := by
    intro d t u p hu hp h
    exact ⟨rules4.casInFlyH d t u p hu hp h.1, E10_note (E10_casInFly h.2) (by simp) trivial⟩
  own := by
    intro d t p d' p' hc hh h hi
    refine ⟨rules4.own d t p d' p' hc hh.1 h hi, ?_⟩
    obtain ⟨hh, he⟩ := hh
    unfold Request.own at h
    split at h
    case h_3 op =>
      simp only [Option.some.injEq] at h
      simp only [H4, C4, Q1] at hh
      cases op with
      | chain b =>
        simp only [lockedStep] at h
        split at h <;> cases h
        · exact E10_note (d := { d with chain := b :: d.chain }) he (by simp) trivial
        · exact he
      | respond c b =>
        simp only [lockedStep] at h
        split at h <;> cases h
        · exact he
        · refine E10_note he (by simp) ?_
          simp only [Ev10]
          have h2 := he.2
          rcases hr : d.rs with _ | _ | _ | _ | _ <;> grind
      | fail c =>
        simp only [lockedStep] at h
        split at h <;> cases h
        · refine E10_note he (by simp) ?_
          simp only [Ev10]
          grind
        · exact he
      | claimWith b =>
        simp only [lockedStep] at h
        split at h <;> cases h <;> exact he
      | _ => cases h; exact he
    case h_10 a acts =>
      simp only [H4] at hh
      have ha := hh.2.2.1 a (by simp)
      cases a <;> simp only [doAct] at h <;>
        first | (cases h; exact E10_casPending he) | (cases h; exact E10_casInFly he) | (simp at ha; done)
    case h_13 a acts =>
      simp only [H4] at hh
      have ha := hh.2.2.2.1 a (by simp)
      cases a <;> simp only [doAct] at h <;>
        first | (cases h; exact E10_casPending he) | (cases h; exact E10_casInFly he) | (simp at ha; done)
    case h_11 =>
      split at h
      · cases h
      · next b rest _ =>
        split at h <;> cases h
        · exact E10_note (d := { d with chain := rest }) he (by simp) trivial
        · exact he
    all_goals cases h
    · exact ⟨⟨trivial, he.1⟩, by simp⟩
    · next b => exact E10_note (d := { d with chain := b :: d.chain }) he (by simp) trivial
    · next op k c b => exact E10_note (d := { d with resp := some (filled d c b) }) he (by simp) trivial
    · exact ⟨he.1, by simp⟩
    · exact he
    · exact he
    · exact ⟨he.1, by simp⟩
    · exact absurd rfl hi
  release := by
    intro d t op h
    exact ⟨rules4.release d t op h.1, E10_note h.2 (by simp) trivial⟩
  bookmark := by
    intro d op d' p' t acts hk hh h
    refine ⟨rules4.bookmark d op d' p' t acts hk hh.1 h, ?_⟩
    simp only [enterBookmark] at h
    split at h <;> cases h
    exact E10_note hh.2 (by simp) trivial
  responder := by
    intro d op d' p' t acts hk hh h
    refine ⟨rules4.responder d op d' p' t acts hk hh.1 h, ?_⟩
    simp only [enterResponder] at h
    split at h <;> cases h
    exact E10_note hh.2 (by simp) trivial

/-! ### The owner of the lock makes progress -/

def H9 (d : Data) : Pc → Prop
  | .react _ _ | .check _ => d.chain ≠ []
  | _ => True

theorem rules9 : Rules (fun _ => True) (fun _ => True) H9 where
  acquire := by intro d t op _ h; trivial
  casPendingQ := by intros; trivial
  casPendingH := by
    intro d t p hp h
    cases p <;> simp only [H9] at h ⊢ <;> grind [casPending, Data.note]
  casInFlyQ := by intros; trivial
  casInFlyH := by
    intro d t u p _ hp h
    cases p <;> simp only [H9] at h ⊢ <;> grind [casInFly, Data.note]
  own := by
    intro d t p d' p' hc hh h hi
    unfold Request.own at h
    split at h
    case h_3 op =>
      simp only [Option.some.injEq] at h
      cases op <;> simp only [lockedStep] at h <;> grind [H9, Data.note]
    case h_10 a acts =>
      cases a <;> simp only [doAct, casPending, casInFly] at h <;> grind [H9]
    case h_13 a acts =>
      cases a <;> simp only [doAct, casPending, casInFly] at h <;> grind [H9]
    all_goals grind [H9]
  release := by intros; trivial
  bookmark := by
    intro d op d' p' t acts hk hh h
    simp only [enterBookmark] at h
    split at h <;> grind [H9, Data.note]
  responder := by
    intro d op d' p' t acts hk hh h
    simp only [enterResponder] at h
    split at h <;> grind [H9, Data.note]

/-- An upper bound of the owner's steps until it unlocks, when the user code it has yet to call does nothing. -/
def work (d : Data) : Pc → Nat
  | .leave _ => 1
  | .finish _ | .claimC _ => 2
  | .claimW _ => 3
  | .fin _ acts => 3 + acts.length
  | .check _ => 5 * d.chain.length + 1
  | .react _ acts => 5 * d.chain.length + 2 + acts.length
  | .walk _ => 5 * d.chain.length + 4
  | .mark _ => 5 * d.chain.length + 5
  | .fill _ _ _ _ => 5 * d.chain.length + 6
  | .locked _ => 5 * d.chain.length + 7
  | _ => 0

theorem doAct_chain {d t a d'} (h : doAct d t a = some d') : d'.chain = d.chain := by
  cases a <;> simp only [doAct, casPending, casInFly] at h <;> grind

theorem own_work {d t p d' p'} (h : own d t p = some (d', p')) (hd : p' ≠ .dead) (hp : p ≠ .dead) :
    work d' p' < work d p := by
  unfold own at h
  split at h
  case h_3 op =>
    simp only [Option.some.injEq] at h
    cases op <;> simp only [lockedStep] at h <;> grind [work]
  case h_10 a acts => grind [work, doAct_chain]
  case h_13 a acts => grind [work, doAct_chain]
  all_goals grind [work]

/-- Entries of the schedule that move goroutine `t` inside a method. -/
def Choice.moves (t : Nat) : Choice → Prop
  | .go u => u = t
  | .bookmark u _ => u = t
  | .responder u _ => u = t
  | .call _ _ => False

structure AllInv (ok : Choice → Prop) (id msg : UInt32) (s : St) : Prop where
  i2 : Inv ok (C2 ok id msg) (H2 ok id msg) s
  i4 : Inv (fun c => c.plain = true) C4 H4 s
  i9 : Inv (fun _ => True) (fun _ => True) H9 s

theorem owner_progress {ok id msg s t} (hi : AllInv ok id msg s) (hl : s.lock = some t) :
    ∃ c s', c.moves t ∧ c.plain = true ∧ step s c = some s' ∧
      (s'.lock = none ∨ s'.lock = some t ∧ work s'.d (s'.pc t) < work s.d (s.pc t)) := by
  have h2 := (hi.i2.owner t hl).2
  have h4 := (hi.i4.owner t hl).2
  have h9 := (hi.i9.owner t hl).2
  have hcrit := (hi.i9.owner t hl).1
  by_cases hw : ∃ op, s.pc t = .walk op
  · obtain ⟨op, hp⟩ := hw
    rw [hp] at h2
    obtain ⟨_, r, hr, _⟩ := h2
    cases hc : s.d.chain with
    | nil =>
      refine ⟨.responder t [], { d := s.d.note (.delivered r), lock := s.lock, pc := setPc s.pc t (.fin op []) },
        rfl, rfl, ?_, .inr ⟨hl, ?_⟩⟩
      · simp [step, hp, enterResponder, hc, hr, St.ownStep]
      · simp [setPc, hp, work, hc]
    | cons b l =>
      refine ⟨.bookmark t [], { d := s.d.note (.notified b r), lock := s.lock, pc := setPc s.pc t (.react op []) },
        rfl, rfl, ?_, .inr ⟨hl, ?_⟩⟩
      · simp [step, hp, enterBookmark, hc, hr, St.ownStep]
      · simp [setPc, hp, work, Data.note]
  · have hown : ∃ d' p', own s.d t (s.pc t) = some (d', p') ∧ p' ≠ .dead := by
      cases hp : s.pc t <;> rw [hp] at h4 h9 hcrit
      case idle => simp [Pc.crit] at hcrit
      case wait => simp [Pc.crit] at hcrit
      case walk op => exact absurd ⟨op, hp⟩ hw
      case dead => exact h4.elim
      case locked op => cases op <;> simp only [own, lockedStep] <;> grind
      case react op acts =>
        cases acts with
        | nil => exact ⟨_, _, rfl, by simp⟩
        | cons a acts =>
          have ha := h4.2.2.1 a (by simp)
          cases a <;> first | (simp at ha; done) | exact ⟨_, _, rfl, by simp⟩
      case fin op acts =>
        cases acts with
        | nil => exact ⟨_, _, rfl, by simp⟩
        | cons a acts =>
          have ha := h4.2.2.2.1 a (by simp)
          cases a <;> first | (simp at ha; done) | exact ⟨_, _, rfl, by simp⟩
      case check op =>
        simp only [H9] at h9
        simp only [H4] at h4
        cases hc : s.d.chain with
        | nil => exact absurd hc h9
        | cons b l => exact ⟨_, _, by simp only [own, hc, h4.2.1, if_true]; rfl, by simp⟩
      all_goals exact ⟨_, _, rfl, by simp⟩
    obtain ⟨d', p', ho, hd⟩ := hown
    refine ⟨.go t, { d := d', lock := if p' = .idle then none else s.lock, pc := setPc s.pc t p' }, rfl, rfl, ?_, ?_⟩
    · simp only [step]
      split
      · next hp => rw [hp] at hcrit; simp [Pc.crit] at hcrit
      · simp [ho, St.ownStep]
    · by_cases hi : p' = .idle
      · left; simp [hi]
      · right
        refine ⟨by simp [hi, hl], ?_⟩
        simp only [setPc, if_true]
        refine own_work ho hd ?_
        rintro h; rw [h] at h4; exact h4

theorem AllInv.step {ok id msg s s' c} (hi : AllInv ok id msg s) (hk : ok c) (hp : c.plain = true)
    (h : step s c = some s') : AllInv ok id msg s' :=
  ⟨inv_step (rules2 _ _ _) hi.i2 hk h, inv_step rules4 hi.i4 hp h, inv_step rules9 hi.i9 trivial h⟩

theorem owner_releases {id msg} (n : Nat) : ∀ {s : St} {t : Nat}, AllInv (fun _ => True) id msg s → s.lock = some t →
    work s.d (s.pc t) ≤ n → ∃ cs s', (∀ c ∈ cs, c.moves t) ∧ run s cs = some s' ∧ s'.lock = none := by
  induction n with
  | zero =>
    intro s t hi hl hw
    obtain ⟨c, s', h1, h2, h3, h4 | h4⟩ := owner_progress hi hl
    · exact ⟨[c], s', by simpa using h1, by simp [run, h3], h4⟩
    · omega
  | succ n ih =>
    intro s t hi hl hw
    obtain ⟨c, s', h1, h2, h3, h4 | h4⟩ := owner_progress hi hl
    · exact ⟨[c], s', by simpa using h1, by simp [run, h3], h4⟩
    · obtain ⟨cs, s'', h5, h6, h7⟩ := ih (hi.step trivial h2 h3) h4.1 (by omega)
      exact ⟨c :: cs, s'', by simpa using ⟨h1, h5⟩, by simp [run, h3, h6], h7⟩

/-! ### Claims -/

def noReset (acts : List Act) : Prop := ∀ a ∈ acts, a ≠ .resetPending ∧ a ≠ .resetNew

theorem noReset_of {acts : List Act} (h : acts.all (fun a => !a.isReset) = true) : noReset acts := by
  intro a ha
  have := List.all_eq_true.1 h a ha
  cases a <;> simp_all [Act.isReset]

def Ev5 : Ev → List Ev → Prop
  | .claimed _, l => Ev.sent ∈ l ∧ deliveries l = 0
  | _, _ => True

def E5 (d : Data) : Prop := Everywhere Ev5 d.log ∧ (d.rs = .pending → Ev.sent ∈ d.log)

def H5 (d : Data) : Pc → Prop
  | .idle | .wait _ => False
  | .locked _ | .leave _ => E5 d ∧ Q1 d
  | .claimW _ => E5 d ∧ deliveries d.log = 0 ∧ (d.rs = .pending ∨ d.rs = .inFly) ∧ Ev.sent ∈ d.log
  | .claimC _ => E5 d ∧ deliveries d.log = 0 ∧ d.rs = .inFly
  | .fill _ _ _ _ | .mark _ => E5 d ∧ deliveries d.log = 0 ∧ d.rs ≠ .prepared ∧ d.rs ≠ .performed
  | .walk _ => E5 d ∧ deliveries d.log = 0 ∧ d.rs = .prepared
  | .react _ _ | .check _ => E5 d ∧ deliveries d.log = 0 ∧ d.rs ≠ .performed
  | .fin _ acts => E5 d ∧ deliveries d.log = 1 ∧ d.rs = .prepared ∧ d.chain = [] ∧ noReset acts
  | .finish _ => E5 d ∧ deliveries d.log = 1 ∧ d.rs = .prepared ∧ d.chain = []
  | .dead => E5 d ∧ (deliveries d.log = 0 ∨ d.rs = .prepared)

theorem rules5 : Rules (fun c => c.finalPlain = true) (fun d => E5 d ∧ Q1 d) H5 where
  acquire := by intro d t op _ h; exact h
  casPendingQ := by intro d t h; grind [E5, Q1, casPending, Data.note, Everywhere, Ev5, deliveries]
  casPendingH := by
    intro d t p hp h
    cases p <;> simp only [H5, E5, Q1] at h ⊢ <;> simp only [casPending, Data.note] <;>
      grind [Everywhere, Ev5, deliveries]
  casInFlyQ := by intro d t u _ h; grind [E5, Q1, casInFly, Data.note, Everywhere, Ev5, deliveries]
  casInFlyH := by
    intro d t u p _ hp h
    cases p <;> simp only [H5, E5, Q1] at h ⊢ <;> simp only [casInFly, Data.note] <;>
      grind [Everywhere, Ev5, deliveries]
  own := by
    intro d t p d' p' hc hh h hi
    unfold Request.own at h
    split at h
    case h_3 op =>
      simp only [Option.some.injEq] at h
      cases op <;> simp only [lockedStep] at h <;> grind [H5, E5, Q1, Everywhere, Ev5, deliveries, Data.note]
    case h_10 a acts =>
      cases a <;> simp only [doAct, casPending, casInFly] at h <;> grind [H5, E5, Everywhere, Ev5, deliveries]
    case h_13 a acts =>
      simp only [H5] at hh
      have ha := hh.2.2.2.2 a (by simp)
      have has : noReset acts := fun a h => hh.2.2.2.2 a (by simp [h])
      cases a <;> simp only [doAct, casPending, casInFly] at h <;> grind [H5, E5, Everywhere, Ev5, deliveries]
    all_goals grind [H5, E5, Q1, Everywhere, Ev5, deliveries]
  release := by
    intro d t op h
    simpa [H5, E5, Q1, Everywhere, Ev5, Data.note, deliveries] using h
  bookmark := by
    intro d op d' p' t acts hk hh h
    simp only [enterBookmark] at h
    split at h <;> grind [H5, E5, Everywhere, Ev5, Data.note, deliveries]
  responder := by
    intro d op d' p' t acts hk hh h
    have := noReset_of hk
    simp only [enterResponder] at h
    split at h <;> grind [H5, E5, Everywhere, Ev5, Data.note, deliveries]

def C6 (d : Data) : Prop := claimsSinceSent d.log ≤ 1 ∧ (d.rs = .pending → claimsSinceSent d.log = 0)

/-- Claims without bookmarks only. -/
def H6 (d : Data) : Pc → Prop
  | .claimW _ => False
  | .locked (.claimWith _) => False
  | _ => C6 d

theorem rules6 : Rules (fun c => c.noClaimWith = true) C6 H6 where
  acquire := by intro d t op hk h; cases op <;> simp_all [Choice.noClaimWith, H6]
  casPendingQ := by intro d t h; grind [C6, casPending, Data.note, claimsSinceSent]
  casPendingH := by
    intro d t p hp h
    unfold H6 at h ⊢
    split at h <;> grind [C6, casPending, Data.note, claimsSinceSent]
  casInFlyQ := by intro d t u _ h; grind [C6, casInFly, Data.note, claimsSinceSent]
  casInFlyH := by
    intro d t u p _ hp h
    unfold H6 at h ⊢
    split at h <;> grind [C6, casInFly, Data.note, claimsSinceSent]
  own := by
    intro d t p d' p' hc hh h hi
    unfold Request.own at h
    split at h
    case h_3 op =>
      simp only [Option.some.injEq] at h
      cases op <;> simp only [lockedStep] at h <;> grind [H6, C6, claimsSinceSent, Data.note]
    case h_10 a acts =>
      cases a <;> simp only [doAct, casPending, casInFly] at h <;> grind [H6, C6, claimsSinceSent, Data.note]
    case h_13 a acts =>
      cases a <;> simp only [doAct, casPending, casInFly] at h <;> grind [H6, C6, claimsSinceSent, Data.note]
    all_goals grind [H6, C6, claimsSinceSent]
  release := by
    intro d t op h
    simpa [H6, C6, Data.note, claimsSinceSent] using h
  bookmark := by
    intro d op d' p' t acts hk hh h
    simp only [enterBookmark] at h
    split at h <;> grind [H6, C6, Data.note, claimsSinceSent]
  responder := by
    intro d op d' p' t acts hk hh h
    simp only [enterResponder] at h
    split at h <;> grind [H6, C6, Data.note, claimsSinceSent]

def noClaim (acts : List Act) : Prop := ∀ a ∈ acts, a ≠ .claim

theorem noClaim_of {acts : List Act} (h : acts.all (fun a => a != .claim) = true) : noClaim acts := by
  intro a ha
  have := List.all_eq_true.1 h a ha
  simpa using this

/-- Claims with bookmarks only. -/
def H7 (d : Data) : Pc → Prop
  | .claimW _ => C6 d ∧ d.rs = .pending
  | .react _ acts | .fin _ acts => C6 d ∧ noClaim acts
  | _ => C6 d

theorem rules7 : Rules (fun c => c.noPlainClaim = true) C6 H7 where
  acquire := by intro d t op hk h; exact h
  casPendingQ := by intro d t h; grind [C6, casPending, Data.note, claimsSinceSent]
  casPendingH := by
    intro d t p hp h
    cases p <;> simp only [H7] at h ⊢ <;> grind [C6, casPending, Data.note, claimsSinceSent]
  casInFlyQ := by intro d t u h; simp [Choice.noPlainClaim] at h
  casInFlyH := by intro d t u p h; simp [Choice.noPlainClaim] at h
  own := by
    intro d t p d' p' hc hh h hi
    unfold Request.own at h
    split at h
    case h_3 op =>
      simp only [Option.some.injEq] at h
      cases op <;> simp only [lockedStep] at h <;> grind [H7, C6, claimsSinceSent, Data.note]
    case h_10 a acts =>
      have ha := hh.2 a (by simp)
      have has : noClaim acts := fun a h => hh.2 a (by simp [h])
      cases a <;> simp only [doAct, casPending, casInFly] at h <;> grind [H7, C6, claimsSinceSent, Data.note]
    case h_13 a acts =>
      have ha := hh.2 a (by simp)
      have has : noClaim acts := fun a h => hh.2 a (by simp [h])
      cases a <;> simp only [doAct, casPending, casInFly] at h <;> grind [H7, C6, claimsSinceSent, Data.note]
    all_goals grind [H7, C6, claimsSinceSent]
  release := by
    intro d t op h
    simpa [H7, C6, Data.note, claimsSinceSent] using h
  bookmark := by
    intro d op d' p' t acts hk hh h
    have := noClaim_of hk
    simp only [enterBookmark] at h
    split at h <;> grind [H7, C6, Data.note, claimsSinceSent]
  responder := by
    intro d op d' p' t acts hk hh h
    have := noClaim_of hk
    simp only [enterResponder] at h
    split at h <;> grind [H7, C6, Data.note, claimsSinceSent]

end Verif.Request
