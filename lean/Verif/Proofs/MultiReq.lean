import Verif.Spec.MultiReq
import Verif.Proofs.RequestSteps
import Verif.Proofs.MultiMisc
/-! Invariants of the multi-request with its requests. -/
namespace Verif.MultiReq
open Verif.Request (Data Pc Ev Op casPending casInFly own lockedStep doAct enterBookmark enterResponder I11 setPc Rules H1 Q1 deliveries)

/-! ### One request -/

/-- User code does nothing to the request. -/
def Still : Request.Choice → Prop
  | .bookmark _ acts | .responder _ acts => acts = []
  | _ => True

/-- The code delivered. -/
def dcode : List Ev → Option UInt32
  | [] => none
  | .delivered x :: _ => some x.code
  | _ :: l => dcode l

theorem dcode_none (l : List Ev) : dcode l = none ↔ deliveries l = 0 := by
  induction l with
  | nil => simp [dcode, deliveries]
  | cons e l ih => cases e <;> simp [dcode, deliveries, ih]

theorem dcode_some {l : List Ev} {c : UInt32} (h : dcode l = some c) : ∃ x, .delivered x ∈ l ∧ x.code = c := by
  induction l with
  | nil => cases h
  | cons e l ih =>
    cases e
    case delivered x => simp only [dcode, Option.some.injEq] at h; exact ⟨x, by simp, h⟩
    all_goals
      obtain ⟨x, h1, h2⟩ := ih h
      exact ⟨x, List.mem_cons_of_mem _ h1, h2⟩

def isFail : Op → Bool
  | .fail _ => true
  | _ => false

/-- The method a goroutine is in. -/
def opOf : Pc → Option Op
  | .wait op | .locked op | .fill op _ _ _ | .mark op | .walk op | .react op _ | .check op | .fin op _ | .finish op | .leave op => some op
  | .claimW b | .claimC b => some (.claimWith b)
  | .idle | .dead => none

def H13 (d : Data) (p : Pc) : Prop :=
  H1 d p ∧ match p with
    | .fill op _ c _ => code op = some c
    | .mark op | .walk op => ∃ x, d.resp = some x ∧ code op = some x.code
    | .react op acts => acts = [] ∧ d.rs = .prepared ∧ ∃ x, d.resp = some x ∧ code op = some x.code
    | .check op => d.rs = .prepared ∧ ∃ x, d.resp = some x ∧ code op = some x.code
    | .fin op acts => acts = [] ∧ dcode d.log = code op ∧ code op ≠ none
    | .finish op => dcode d.log = code op ∧ code op ≠ none
    | .leave op => isFail op = true → d.rs = .performed
    | .dead => False
    | _ => True

theorem filled_code (d : Data) (c : UInt32) (b) : (Request.filled d c b).code = c := by
  unfold Request.filled; split <;> rfl

theorem rules13 : Rules Still Q1 H13 where
  acquire := by intro d t op _ h; exact ⟨h, trivial⟩
  casPendingQ := by intro d t h; exact Request.rules1.casPendingQ d t h
  casPendingH := by
    intro d t p hp h
    refine ⟨Request.rules1.casPendingH d t p hp h.1, ?_⟩
    have h2 := h.2
    cases p <;> first | trivial | (simp only [casPending, Data.note]; grind [dcode])
  casInFlyQ := by intro d t u hk h; exact Request.rules1.casInFlyQ d t u trivial h
  casInFlyH := by
    intro d t u p hk hp h
    refine ⟨Request.rules1.casInFlyH d t u p trivial hp h.1, ?_⟩
    have h2 := h.2
    cases p <;> first | trivial | (simp only [casInFly, Data.note]; grind [dcode])
  own := by
    intro d t p d' p' hc hh h hi
    refine ⟨Request.rules1.own d t p d' p' hc hh.1 h hi, ?_⟩
    obtain ⟨h1, h2⟩ := hh
    unfold Request.own at h
    split at h
    case h_3 op =>
      simp only [H1, Q1] at h1
      simp only [Option.some.injEq] at h
      cases op <;> simp only [lockedStep, Data.note] at h <;> grind [code, isFail]
    case h_10 a acts => simp only at h2; grind
    case h_13 a acts => simp only at h2; grind
    all_goals (simp only [H1, Q1] at h1 <;> simp only at h2 <;> grind [filled_code, dcode, isFail])
  release := by intro d t op h; exact Request.rules1.release d t op h.1
  bookmark := by
    intro d op d' p' t acts hk hh h
    refine ⟨Request.rules1.bookmark d op d' p' t acts trivial hh.1 h, ?_⟩
    obtain ⟨h1, h2⟩ := hh
    simp only [H1] at h1
    simp only at h2
    simp only [Still] at hk
    simp only [enterBookmark] at h
    split at h <;> grind [Data.note]
  responder := by
    intro d op d' p' t acts hk hh h
    refine ⟨Request.rules1.responder d op d' p' t acts trivial hh.1 h, ?_⟩
    obtain ⟨h1, h2⟩ := hh
    simp only at h2
    simp only [Still] at hk
    simp only [enterResponder] at h
    split at h <;> grind [Data.note, dcode]

abbrev I13 := Request.Inv Still Q1 H13

/-- Not yet in the Responder. -/
def early : Pc → Bool
  | .fin .. | .finish _ => false
  | _ => true

/-- In the Responder or after it. -/
def late : Pc → Bool
  | .fin .. | .finish _ | .leave _ => true
  | _ => false

/-- What a step of a request does to the goroutines and to the history. -/
inductive Did (r r' : Request.St) : Request.Choice → Prop
  | call (t op) (h : r.pc t = .idle) (hp : r'.pc = setPc r.pc t (.wait op)) (hd : r'.d = r.d) : Did r r' (.call t op)
  | cas (t op) (h : r.pc t = .wait op) (hf : isFail op = false) (hp : r'.pc = setPc r.pc t .idle) (hd : dcode r'.d.log = dcode r.d.log)
      (hr : r'.d.rs = .performed → r.d.rs = .performed) : Did r r' (.go t)
  | go (t p) (hp : r'.pc = setPc r.pc t p) (ho : opOf p = opOf (r.pc t)) (hne : opOf p ≠ none) (hq : r.pc t ≠ .idle)
      (he : early (r.pc t) = true → early p = true) (hl : late (r.pc t) = true → late p = true)
      (hd : dcode r'.d.log = dcode r.d.log)
      (hr : r'.d.rs = .performed → r.d.rs = .performed ∨ ∃ op, r.pc t = .finish op)
      (hnl : ∀ op, r.pc t ≠ .leave op) (hfi : ∀ op, p = .finish op → ∃ op l, r.pc t = .fin op l) : Did r r' (.go t)
  | leave (t op) (h : r.pc t = .leave op) (hp : r'.pc = setPc r.pc t .idle) (hd : dcode r'.d.log = dcode r.d.log)
      (hr : r'.d.rs = r.d.rs) : Did r r' (.go t)
  | bookmark (t op acts) (h : r.pc t = .walk op) (hp : r'.pc = setPc r.pc t (.react op acts)) (hd : dcode r'.d.log = dcode r.d.log)
      (hr : r'.d.rs = r.d.rs) : Did r r' (.bookmark t acts)
  | responder (t op x acts) (h : r.pc t = .walk op) (hx : r.d.resp = some x) (hp : r'.pc = setPc r.pc t (.fin op acts))
      (hd : dcode r'.d.log = some x.code) (hr : r'.d.rs = r.d.rs) : Did r r' (.responder t acts)

theorem did {r r' : Request.St} {c : Request.Choice} (i : I13 r) (h : Request.step r c = some r') : Did r r' c := by
  cases c with
  | call t op =>
    simp only [Request.step] at h
    split at h <;> cases h
    rename_i hi
    exact .call t op hi rfl rfl
  | go t =>
    simp only [Request.step] at h
    split at h
    · rename_i op hw
      cases op <;> simp only [Request.St.begin, Request.St.lockStep] at h
      · cases h; exact .cas t _ hw rfl rfl (by simp only [casPending, Data.note, dcode]; split <;> rfl) (by simp only [casPending, Data.note]; grind)
      · cases h; exact .cas t _ hw rfl rfl (by simp only [casInFly, Data.note, dcode]; split <;> rfl) (by simp only [casInFly, Data.note]; grind)
      all_goals
        split at h <;> cases h
        exact .go t _ rfl (by rw [hw]; rfl) (by simp [opOf]) (by rw [hw]; simp) (fun _ => rfl) (by rw [hw]; simp [late]) rfl (fun h => .inl h)
          (by rw [hw]; simp) (by simp)
    · obtain ⟨p, h1, h2⟩ := Request.own_eq h
      have hc := Request.own_crit h1
      have hH := (i.owner t (i.mutex t hc)).2
      generalize hq : r.pc t = q at h1 hH
      have fin : ∀ d, r'.d = d → opOf p = opOf q → opOf p ≠ none → (early q = true → early p = true) → (late q = true → late p = true) →
          dcode d.log = dcode r.d.log → (d.rs = .performed → r.d.rs = .performed ∨ ∃ op, q = .finish op) → (∀ op, q ≠ .leave op) →
          (∀ op, p = .finish op → ∃ op l, q = .fin op l) → Did r r' (.go t) := by
        intro d e1 e2 e3 e4 e5 e6 e7 e8 e9
        subst e1
        exact .go t p h2 (by rw [hq]; exact e2) e3 (by rw [hq]; intro e; rw [e] at e2; exact e3 e2) (by rw [hq]; exact e4) (by rw [hq]; exact e5) e6
          (by rw [hq]; exact e7) (by rw [hq]; exact e8) (by rw [hq]; exact e9)
      generalize hd : r'.d = d at h1 fin
      unfold Request.own at h1
      split at h1
      case h_3 op =>
        simp only [Option.some.injEq] at h1
        cases op <;> simp only [lockedStep] at h1 <;> (try split at h1) <;> cases h1 <;> refine fin _ rfl rfl (by simp [opOf]) ?_ ?_ ?_ ?_ ?_ ?_ <;>
          simp_all [early, late, dcode, Data.note]
      case h_10 a acts => simp [H13] at hH
      case h_13 a acts => simp [H13] at hH
      case h_11 op =>
        have h3 := hH.2
        simp only at h3
        split at h1
        · cases h1
        · rw [if_pos h3.1] at h1
          cases h1
          refine fin _ rfl rfl (by simp [opOf]) ?_ ?_ ?_ ?_ ?_ ?_ <;> simp_all [early, late, dcode, Data.note]
      case h_15 op =>
        cases h1
        exact .leave t op hq h2 (by rw [hd]; rfl) (by rw [hd]; rfl)
      case h_1 => cases h1
      case h_2 => cases h1
      case h_8 => cases h1
      case h_16 => cases h1
      all_goals
        cases h1
        refine fin _ rfl rfl (by simp [opOf]) ?_ ?_ ?_ ?_ ?_ ?_ <;> simp_all [early, late, dcode, Data.note]
  | bookmark t acts =>
    obtain ⟨p, h1, h2⟩ := Request.own_eq h
    unfold enterBookmark at h1
    split at h1
    · rename_i op hw
      split at h1
      · simp only [Option.some.injEq, Prod.mk.injEq] at h1
        obtain ⟨hd, rfl⟩ := h1
        exact .bookmark t op acts hw h2 (by rw [← hd]; rfl) (by rw [← hd]; rfl)
      · cases h1
    · cases h1
  | responder t acts =>
    obtain ⟨p, h1, h2⟩ := Request.own_eq h
    unfold enterResponder at h1
    split at h1
    · rename_i op hw
      split at h1
      · simp only [Option.some.injEq, Prod.mk.injEq] at h1
        obtain ⟨hd, rfl⟩ := h1
        exact .responder t op _ acts hw ‹_› h2 (by rw [← hd]; rfl) (by rw [← hd]; rfl)
      · cases h1
    · cases h1

end Verif.MultiReq
