import Verif.Spec.Parallel
/-!
Invariants of the parallel service.
-/
namespace Verif.Parallel

def DPc.req : DPc → Option Nat
  | .got r => some r
  | .grab r => some r
  | .slot r => some r
  | .claim r => some r
  | .refuse r => some r
  | _ => none

def DPc.drains : DPc → Bool
  | .drain => true
  | .refuse _ => true
  | _ => false

structure Inv (s : St) : Prop where
  spawned : ∀ r, r ∈ s.spawned ↔ s.h r ≠ .idle
  nodup : s.spawned.Nodup
  ctx : ∀ r, s.ctxReq r = true ↔ s.rs r = .inFly
  perf : ∀ r, s.rs r = .performed ↔ s.ans r ≠ none
  pend : ∀ r, s.rs r = .pending → s.h r = .idle
  fresh : ∀ r, s.rs r = .new → s.h r = .idle
  fly : ∀ r, s.rs r = .inFly → s.h r ≠ .idle
  chNodup : s.ch.Nodup
  chIdle : ∀ r, r ∈ s.ch → s.h r = .idle
  chNew : ∀ r, r ∈ s.ch → s.rs r = .pending ∨ s.rs r = .performed
  reqCh : ∀ r, s.d.req = some r → r ∉ s.ch
  reqIdle : ∀ r, s.d.req = some r → s.h r = .idle
  reqNew : ∀ r, s.d.req = some r → s.rs r = .pending ∨ s.rs r = .performed
  drCh : ∀ r, r ∈ s.drained → r ∉ s.ch
  drIdle : ∀ r, r ∈ s.drained → s.h r = .idle
  drNew : ∀ r, r ∈ s.drained → s.rs r = .pending ∨ s.rs r = .performed
  drAns : ∀ r src c, r ∈ s.drained → s.ans r = some (src, c) → src = .other
  chAns : ∀ r src c, r ∈ s.ch → s.ans r = some (src, c) → src = .other
  reqAns : ∀ r src c, s.d.req = some r → s.ans r = some (src, c) → src = .other
  newAns : ∀ r src c, s.rs r = .performed → s.h r = .idle → s.ans r = some (src, c) → src = .other ∨ src = .shutdown
  dr : s.d.drains = true ↔ s.stop = .done
  drEmpty : s.d.drains = false → s.drained = []
  wait : ∀ r, s.rs r = .pending → r ∈ s.ch ∨ s.d.req = some r ∨ r ∈ s.drained
  refuse : ∀ r, s.d = .refuse r → r ∈ s.drained
  out : ∀ r, s.out r ≠ none → s.h r ≠ .idle ∧ s.h r ≠ .look ∧ s.h r ≠ .running
  outA : ∀ r c, s.h r = .answer c → s.out r = some (.returned c)
  finFly : ∀ r, s.h r = .fin → s.rs r = .inFly → s.out r = some .panicked ∨ s.out r = some (.returned rcTimeout)
  rel : ∀ r, s.h r = .release ∨ s.h r = .ended → s.rs r = .performed
  srcH : ∀ r c, s.ans r = some (.handler, c) → s.out r = some (.returned c) ∧ c ≠ rcTimeout
  srcD : ∀ r c, s.ans r = some (.done, c) →
    c = rcInternalError ∧ (s.out r = some .panicked ∨ s.out r = some (.returned rcTimeout))
  srcS : ∀ r c, s.ans r = some (.shutdown, c) → c = rcShutdown
  sending : s.stop = .sending → s.spawned.length = s.atStop ∨ s.spawned.length = s.atStop + 1 ∧ s.d = .top
  done : s.stop = .done → s.spawned.length ≤ s.atStop + 1

theorem inv_init (n : Nat) : Inv (init n) := by
  constructor <;> simp [init, DPc.req, DPc.drains]

/-- The result of an answer that is delivered. -/
def answered (s : St) (cx : Nat → Nat) (src : Src) (r code : Nat) : St :=
  { s with cx, ctxReq := set s.ctxReq r false, rs := set s.rs r .performed, ans := set s.ans r (some (src, code)) }

theorem set_id {α : Type} {f : Nat → α} {r : Nat} {v : α} (h : f r = v) : set f r v = f := by
  funext j
  unfold set
  split
  · subst_vars; rfl
  · rfl

theorem chain_cases {s : St} (h : Inv s) (src : Src) (r code : Nat) :
    ∃ cx, chainResponse s src r code = answered s cx src r code ∧ (code = rcTimeout → s.rs r ≠ .inFly) ∨
      chainResponse s src r code = { s with cx } ∧ code = rcTimeout ∧ s.rs r = .inFly := by
  unfold chainResponse answered
  have hx := h.ctx r
  cases hc : s.ctxReq r
  · refine ⟨s.cx, .inl ⟨?_, ?_⟩⟩
    · rw [set_id hc]; rfl
    · intro _ e; rw [hx.2 e] at hc; cases hc
  · by_cases ht : code = rcTimeout
    · exact ⟨_, .inr ⟨by rw [if_pos rfl, if_pos ht, set_id (hx.1 hc)], ht, hx.1 hc⟩⟩
    · exact ⟨_, .inl ⟨by rw [if_pos rfl, if_neg ht], fun e => absurd e ht⟩⟩

theorem fail_cases {s : St} (h : Inv s) (src : Src) (r code : Nat) :
    ∃ cx, respondFail s src r code = s ∧ s.rs r = .performed ∨
      respondFail s src r code = answered s cx src r code ∧ s.rs r ≠ .performed ∧ (code = rcTimeout → s.rs r ≠ .inFly) ∨
      respondFail s src r code = { s with cx } ∧ code = rcTimeout ∧ s.rs r = .inFly := by
  unfold respondFail
  split
  · exact ⟨s.cx, .inl ⟨rfl, ‹_›⟩⟩
  · obtain ⟨cx, h⟩ := chain_cases h src r code
    refine ⟨cx, .inr ?_⟩
    rcases h with h | h
    · exact .inl ⟨h.1, ‹_›, h.2⟩
    · exact .inr h

theorem respond_cases {s : St} (h : Inv s) (src : Src) (r code : Nat) :
    ∃ cx, respond s src r code = s ∧ s.rs r ≠ .inFly ∨
      respond s src r code = answered s cx src r code ∧ s.rs r = .inFly ∧ code ≠ rcTimeout ∨
      respond s src r code = { s with cx } ∧ code = rcTimeout ∧ s.rs r = .inFly := by
  unfold respond
  split
  · obtain ⟨cx, h⟩ := chain_cases h src r code
    refine ⟨cx, .inr ?_⟩
    rcases h with h | h
    · exact .inl ⟨h.1, ‹_›, fun e => h.2 e ‹_›⟩
    · exact .inr h
  · exact ⟨s.cx, .inl ⟨rfl, ‹_›⟩⟩

set_option maxHeartbeats 4000000 in
theorem inv_disp {s s' : St} (h : Inv s) (hs : stepDisp s = some s') : Inv s' := by
  unfold stepDisp at hs
  cases hp : s.d <;> simp only [hp, exiting, leave, decide_eq_true_eq] at hs
  case got r =>
    obtain ⟨cx, he⟩ := fail_cases h .shutdown r rcShutdown
    split at hs <;> cases hs
    · unfold answered at he
      rcases he with ⟨e, e'⟩ | ⟨e, e', e''⟩ | ⟨e, e', _⟩ <;> rw [e]
      case inr.inr => cases e'
      all_goals
        try unfold leave
        obtain ⟨⟩ := h
        constructor <;> first | assumption | grind [set, DPc.req, DPc.drains]
    · obtain ⟨⟩ := h
      constructor <;> first | assumption | grind [set, DPc.req, DPc.drains]
  case refuse r =>
    obtain ⟨cx, he⟩ := respond_cases h .shutdown r rcShutdown
    have h0 := h.reqNew r (by rw [hp]; rfl)
    unfold answered at he
    rcases he with ⟨e, e'⟩ | ⟨e, e', e''⟩ | ⟨e, e', _⟩
    case inr.inl => rw [e'] at h0; simp at h0
    case inr.inr => cases e'
    rw [e] at hs
    cases hs
    obtain ⟨⟩ := h
    constructor <;> first | assumption | grind [set, DPc.req, DPc.drains]
  all_goals
    (try unfold leave at hs)
    (repeat' split at hs) <;> cases hs
  all_goals
    obtain ⟨⟩ := h
    constructor <;> first | assumption | grind [set, DPc.req, DPc.drains]

set_option maxHeartbeats 4000000 in
theorem inv_exit {s s' : St} (h : Inv s) (hs : stepDispExit s = some s') : Inv s' := by
  unfold stepDispExit at hs
  split at hs
  · rename_i hx
    unfold exiting at hx
    cases hp : s.d <;> simp only [hp] at hs
    case slot r =>
      cases hs
      obtain ⟨cx, he⟩ := fail_cases h .shutdown r rcShutdown
      unfold answered at he
      rcases he with ⟨e, e'⟩ | ⟨e, e', e''⟩ | ⟨e, e', _⟩ <;> rw [e]
      case inr.inr => cases e'
      all_goals
        try unfold leave
        obtain ⟨⟩ := h
        constructor <;> first | assumption | grind [set, DPc.req, DPc.drains]
    case block =>
      cases hs
      unfold leave
      obtain ⟨⟩ := h
      constructor <;> first | assumption | grind [set, DPc.req, DPc.drains]
    all_goals cases hs
  · cases hs

set_option maxHeartbeats 4000000 in
theorem inv_hand {s s' : St} {r : Nat} (h : Inv s) (hs : stepHand s r = some s') : Inv s' := by
  unfold stepHand at hs
  cases hp : s.h r <;> simp only [hp] at hs
  case answer code =>
    obtain ⟨cx, he⟩ := respond_cases h .handler r code
    unfold answered at he
    rcases he with ⟨e, e'⟩ | ⟨e, e', e''⟩ | ⟨e, e', _⟩ <;> rw [e] at hs <;> cases hs
    all_goals
      obtain ⟨⟩ := h
      constructor <;> first | assumption | grind [set, DPc.req, DPc.drains]
  case fin =>
    obtain ⟨cx, he⟩ := fail_cases h .done r rcInternalError
    split at hs
    · unfold answered at he
      rcases he with ⟨e, e'⟩ | ⟨e, e', e''⟩ | ⟨e, e', _⟩ 
      case inr.inr => cases e'
      all_goals
        rw [e] at hs
        cases hs
      all_goals
        obtain ⟨⟩ := h
        constructor <;> first | assumption | grind [set, DPc.req, DPc.drains]
    · have hq : s.rs r = .performed := by
        have h1 := h.pend r
        have h2 := h.fresh r
        have h3 := h.ctx r
        cases e : s.rs r <;> simp_all
      cases hs
      obtain ⟨⟩ := h
      constructor <;> first | assumption | grind [set, DPc.req, DPc.drains]
  all_goals
    (repeat' split at hs) <;> cases hs
  all_goals
    obtain ⟨⟩ := h
    constructor <;> first | assumption | grind [set, DPc.req, DPc.drains]

set_option maxHeartbeats 4000000 in
theorem inv_step {s s' : St} {c : Choice} (h : Inv s) (hs : step s c = some s') : Inv s' := by
  cases c <;> simp only [step] at hs
  case disp => exact inv_disp h hs
  case dispExit => exact inv_exit h hs
  case hand r => exact inv_hand h hs
  case fail r code =>
    obtain ⟨cx, he⟩ := fail_cases h .other r code
    cases hs
    unfold answered at he
    rcases he with ⟨e, e'⟩ | ⟨e, e', e''⟩ | ⟨e, e', _⟩ <;> rw [e]
    case inl => exact h
    case inr.inr => exact { h with }
    obtain ⟨⟩ := h
    constructor <;> first | assumption | grind [set]
  case answer r code =>
    obtain ⟨cx, he⟩ := respond_cases h .other r code
    cases hs
    unfold answered at he
    rcases he with ⟨e, e'⟩ | ⟨e, e', e''⟩ | ⟨e, e', _⟩ <;> rw [e]
    case inl => exact h
    case inr.inr => exact { h with }
    obtain ⟨⟩ := h
    constructor <;> first | assumption | grind [set]
  all_goals
    (repeat' split at hs) <;> cases hs
  all_goals
    obtain ⟨⟩ := h
    constructor <;> first | assumption | grind [set, DPc.req, DPc.drains]

theorem inv_run {s s' : St} {cs : List Choice} (h : Inv s) (hr : run s cs = some s') : Inv s' := by
  induction cs generalizing s with
  | nil => cases hr; exact h
  | cons c cs ih =>
    simp only [run, Option.bind_eq_some_iff] at hr
    obtain ⟨s1, hs, hr⟩ := hr
    exact ih (inv_step h hs) hr

/-! The slots. -/

/-- The requests whose handlers have not ended. -/
def busy (s : St) : List Nat := s.spawned.filter fun r => s.h r ≠ .ended

structure Cnt (s : St) : Prop where
  cap : 0 < s.cap
  cnt : s.sema + (busy s).length + holds s.d = s.cap

theorem busy_same {s s' : St} (hp : s'.spawned = s.spawned) (hh : ∀ r, s'.h r = .ended ↔ s.h r = .ended) :
    busy s' = busy s := by
  unfold busy
  rw [hp]
  apply List.filter_congr
  intro r _
  simp [hh r]

theorem filter_set {l : List Nat} {r : Nat} {f : Nat → HPc} (hn : l.Nodup) (hm : r ∈ l) (hf : f r ≠ .ended) :
    (l.filter fun x => set f r .ended x ≠ .ended).length + 1 = (l.filter fun x => f x ≠ .ended).length := by
  induction l with
  | nil => cases hm
  | cons a l ih =>
    rw [List.nodup_cons] at hn
    by_cases ha : a = r
    · subst ha
      have : (l.filter fun x => set f a .ended x ≠ .ended) = l.filter fun x => f x ≠ .ended := by
        apply List.filter_congr
        intro x hx
        have : x ≠ a := fun e => hn.1 (e ▸ hx)
        simp [set, this]
      simp only [List.filter_cons]
      rw [this]
      simp [set, hf]
    · have hm' : r ∈ l := by
        rcases List.mem_cons.1 hm with h | h
        · exact absurd h.symm ha
        · exact h
      have := ih hn.2 hm'
      simp only [List.filter_cons, set, ha, if_false] at *
      split <;> simp_all <;> omega

theorem fail_same {s : St} (src : Src) (r code : Nat) :
    (respondFail s src r code).spawned = s.spawned ∧ (respondFail s src r code).h = s.h ∧
      (respondFail s src r code).sema = s.sema ∧ (respondFail s src r code).cap = s.cap ∧
      (respondFail s src r code).d = s.d := by
  unfold respondFail chainResponse
  (repeat' split) <;> exact ⟨rfl, rfl, rfl, rfl, rfl⟩

theorem respond_same {s : St} (src : Src) (r code : Nat) :
    (respond s src r code).spawned = s.spawned ∧ (respond s src r code).h = s.h ∧
      (respond s src r code).sema = s.sema ∧ (respond s src r code).cap = s.cap ∧
      (respond s src r code).d = s.d := by
  unfold respond chainResponse
  (repeat' split) <;> exact ⟨rfl, rfl, rfl, rfl, rfl⟩

theorem cnt_of {s s' : St} (h : Cnt s) (hc : s'.cap = s.cap) (hp : s'.spawned = s.spawned)
    (hh : ∀ r, s'.h r = .ended ↔ s.h r = .ended) (hs : s'.sema + holds s'.d = s.sema + holds s.d) : Cnt s' := by
  obtain ⟨h1, h2⟩ := h
  constructor
  · rw [hc]; exact h1
  · rw [busy_same hp hh, hc]; omega

theorem cnt_step {s s' : St} {c : Choice} (hi : Inv s) (h : Cnt s) (hs : step s c = some s') : Cnt s' := by
  cases c <;> simp only [step] at hs
  case send r =>
    split at hs <;> cases hs
    · exact cnt_of h rfl rfl (fun _ => .rfl) rfl
    · exact h
  case fail r code =>
    cases hs
    obtain ⟨h1, h2, h3, h4, h5⟩ := @fail_same s .other r code
    exact cnt_of h h4 h1 (fun _ => by rw [h2]) (by rw [h3, h5])
  case answer r code =>
    cases hs
    obtain ⟨h1, h2, h3, h4, h5⟩ := @respond_same s .other r code
    exact cnt_of h h4 h1 (fun _ => by rw [h2]) (by rw [h3, h5])
  case stop =>
    split at hs <;> cases hs
    exact cnt_of h rfl rfl (fun _ => .rfl) rfl
  case dispExit =>
    unfold stepDispExit at hs
    split at hs
    · cases hp : s.d <;> simp only [hp] at hs <;> cases hs
      · exact cnt_of h rfl rfl (fun _ => .rfl) (by rw [hp]; rfl)
      · rename_i r
        obtain ⟨h1, h2, h3, h4, h5⟩ := @fail_same s .shutdown r rcShutdown
        exact cnt_of h h4 h1 (fun _ => by unfold leave; simp only; rw [h2]) (by rw [hp]; unfold leave; simp only; rw [h3]; rfl)
    · cases hs
  case result r o =>
    split at hs
    · cases o <;> cases hs <;> refine cnt_of h rfl rfl (fun x => ?_) rfl <;> simp only [set] <;> split <;> simp_all
    · cases hs
  case hand r =>
    unfold stepHand at hs
    cases hp : s.h r <;> simp only [hp] at hs
    case release =>
      split at hs <;> cases hs
      have := @filter_set s.spawned r s.h hi.nodup ((hi.spawned r).2 (by rw [hp]; simp)) (by rw [hp]; simp)
      obtain ⟨h1, h2⟩ := h
      unfold busy at h2
      constructor
      · exact h1
      · show s.sema + 1 + (s.spawned.filter fun x => set s.h r .ended x ≠ .ended).length + holds s.d = s.cap
        omega
    case look =>
      cases hs
      refine cnt_of h rfl rfl (fun x => ?_) rfl
      simp only [set]
      split
      · subst_vars; rw [hp]; split <;> simp
      · rfl
    case answer code =>
      cases hs
      obtain ⟨h1, h2, h3, h4, h5⟩ := @respond_same s .handler r code
      refine cnt_of h h4 h1 (fun x => ?_) (by rw [← h3, ← h5])
      simp only [set, h2]
      split
      · subst_vars; rw [hp]; simp
      · rfl
    case fin =>
      cases hs
      obtain ⟨h1, h2, h3, h4, h5⟩ := @fail_same s .done r rcInternalError
      split
      · refine cnt_of h h4 h1 (fun x => ?_) (by rw [← h3, ← h5])
        simp only [set, h2]
        split
        · subst_vars; rw [hp]; simp
        · rfl
      · refine cnt_of h rfl rfl (fun x => ?_) rfl
        simp only [set]
        split
        · subst_vars; rw [hp]; simp
        · rfl
    all_goals cases hs
  case disp =>
    unfold stepDisp at hs
    cases hp : s.d <;> simp only [hp] at hs
    case got r =>
      obtain ⟨h1, h2, h3, h4, h5⟩ := @fail_same s .shutdown r rcShutdown
      split at hs <;> cases hs
      · exact cnt_of h h4 h1 (fun _ => by unfold leave; simp only; rw [h2]) (by rw [hp]; unfold leave; simp only; rw [h3]; rfl)
      · exact cnt_of h rfl rfl (fun _ => .rfl) (by rw [hp]; rfl)
    case refuse r =>
      obtain ⟨h1, h2, h3, h4, h5⟩ := @respond_same s .shutdown r rcShutdown
      cases hs
      exact cnt_of h h4 h1 (fun _ => by rw [← h2]) (by rw [hp]; simp only; rw [h3]; rfl)
    case claim r =>
      split at hs <;> cases hs
      · have hid : s.h r = .idle := hi.reqIdle r (by rw [hp]; rfl)
        have hno : r ∉ s.spawned := by rw [hi.spawned]; simp [hid]
        obtain ⟨h1, h2⟩ := h
        constructor
        · exact h1
        · have e : ((r :: s.spawned).filter fun x => set s.h r .look x ≠ .ended) = r :: busy s := by
            simp only [List.filter_cons, busy]
            rw [if_pos (by simp [set])]
            congr 1
            apply List.filter_congr
            intro x hx
            have : x ≠ r := fun e => hno (e ▸ hx)
            simp [set, this]
          show s.sema + ((r :: s.spawned).filter fun x => set s.h r .look x ≠ .ended).length + holds .top = s.cap
          rw [e]
          rw [hp] at h2
          simp only [holds, List.length_cons] at *
          omega
      · exact cnt_of h rfl rfl (fun _ => .rfl) (by rw [hp]; rfl)
    all_goals
      (repeat' split at hs) <;> cases hs
      all_goals exact cnt_of h rfl rfl (fun _ => .rfl) (by rw [hp]; simp only [holds, leave] <;> omega)

theorem cnt_init (n : Nat) : Cnt (init n) := by
  constructor
  · simp only [init]; split <;> omega
  · simp [init, busy, holds]

theorem cnt_run {s s' : St} {cs : List Choice} (hi : Inv s) (h : Cnt s) (hr : run s cs = some s') : Cnt s' := by
  induction cs generalizing s with
  | nil => cases hr; exact h
  | cons c cs ih =>
    simp only [run, Option.bind_eq_some_iff] at hr
    obtain ⟨s1, hs, hr⟩ := hr
    exact ih (inv_step hi hs) (cnt_step hi h hs) hr

theorem cap_step {s s' : St} {c : Choice} (hs : step s c = some s') : s'.cap = s.cap := by
  have h1 := fun src r code => (@fail_same s src r code).2.2.2.1
  have h2 := fun src r code => (@respond_same s src r code).2.2.2.1
  cases c <;> simp only [step, stepDisp, stepDispExit, stepHand, leave] at hs
  all_goals (repeat' split at hs) <;> cases hs
  all_goals first | rfl | exact h1 .. | exact h2 .. | (split <;> first | rfl | exact h1 ..)

theorem cap_run {s s' : St} {cs : List Choice} (hr : run s cs = some s') : s'.cap = s.cap := by
  induction cs generalizing s with
  | nil => cases hr; rfl
  | cons c cs ih =>
    simp only [run, Option.bind_eq_some_iff] at hr
    obtain ⟨s1, hs, hr⟩ := hr
    rw [ih hr, cap_step hs]

end Verif.Parallel
