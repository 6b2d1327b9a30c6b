import Verif.Props.Parallel
/-!
The parallel service goes on: a measure that each step of the dispatcher and of the handlers lowers.
-/
namespace Verif.Parallel

/-- What is left to do for a handler goroutine. -/
def hw : HPc → Nat
  | .idle => 0
  | .look => 6
  | .running => 5
  | .answer _ => 4
  | .fin => 3
  | .release => 2
  | .ended => 0

/-- ... and for the dispatcher. -/
def dw : DPc → Nat
  | .block => 0
  | .poll => 1
  | .top => 2
  | .giveBack => 3
  | .claim _ => 9
  | .slot _ => 10
  | .grab _ => 11
  | .got _ => 12
  | _ => 0

def sum (f : Nat → HPc) (l : List Nat) : Nat := (l.map fun r => hw (f r)).sum

def work (s : St) : Nat := dw s.d + 13 * s.ch.length + sum s.h s.spawned

theorem sum_other {f : Nat → HPc} {l : List Nat} {r : Nat} {v : HPc} (h : r ∉ l) : sum (set f r v) l = sum f l := by
  unfold sum
  congr 1
  apply List.map_congr_left
  intro x hx
  have : x ≠ r := fun e => h (e ▸ hx)
  simp [set, this]

theorem sum_set {f : Nat → HPc} {l : List Nat} {r : Nat} {v : HPc} (hn : l.Nodup) (h : r ∈ l) :
    sum (set f r v) l + hw (f r) = sum f l + hw v := by
  induction l with
  | nil => cases h
  | cons a l ih =>
    rw [List.nodup_cons] at hn
    by_cases e : a = r
    · subst e
      have := sum_other (f := f) (v := v) hn.1
      unfold sum at *
      simp only [List.map_cons, List.sum_cons, set, if_true] at *
      omega
    · have hm : r ∈ l := by
        rcases List.mem_cons.1 h with h | h
        · exact absurd h.symm e
        · exact h
      have := ih hn.2 hm
      unfold sum at *
      simp only [List.map_cons, List.sum_cons, set, e, if_false] at *
      omega

theorem fail_rest (s : St) (src : Src) (r code : Nat) : (respondFail s src r code).ch = s.ch ∧ (respondFail s src r code).stop = s.stop := by
  unfold respondFail chainResponse
  (repeat' split) <;> exact ⟨rfl, rfl⟩

theorem respond_rest (s : St) (src : Src) (r code : Nat) : (respond s src r code).ch = s.ch ∧ (respond s src r code).stop = s.stop := by
  unfold respond chainResponse
  (repeat' split) <;> exact ⟨rfl, rfl⟩

/-- A handler goroutine goes on. -/
theorem hand_goes {n : Nat} {cs : List Choice} {s : St} (h : run (init n) cs = some s) (o : Outcome) {x : Nat} (hl : Live s x) :
    ∃ c s', (c = .hand x ∨ c = .result x o) ∧ step s c = some s' ∧ work s' < work s ∧ s'.stop = s.stop := by
  obtain ⟨hi, hc, -⟩ := good h
  have hm : x ∈ s.spawned := (hi.spawned x).2 hl.1
  have lt : ∀ {s' : St} {v : HPc}, s'.d = s.d → s'.ch = s.ch → s'.spawned = s.spawned → s'.h = set s.h x v → hw v < hw (s.h x) →
      work s' < work s := by
    intro s' v e1 e2 e3 e4 hv
    unfold work
    rw [e1, e2, e3, e4]
    have := sum_set (f := s.h) (v := v) hi.nodup hm
    omega
  cases e : s.h x with
  | idle => exact absurd e hl.1
  | ended => exact absurd e hl.2
  | look =>
    refine ⟨.hand x, { s with h := set s.h x (if s.ctxReq x then .running else .fin) }, .inl rfl, by simp only [step, stepHand, e], ?_, rfl⟩
    refine lt rfl rfl rfl rfl ?_
    rw [e]
    split <;> decide
  | running =>
    cases o with
    | returned code =>
      refine ⟨.result x (.returned code), { s with out := set s.out x (some (.returned code)), h := set s.h x (.answer code) }, .inr rfl,
        by simp only [step, e, if_true], lt rfl rfl rfl rfl (by rw [e]; simp [hw]), rfl⟩
    | panicked =>
      refine ⟨.result x .panicked, { s with out := set s.out x (some .panicked), h := set s.h x .fin }, .inr rfl,
        by simp only [step, e, if_true], lt rfl rfl rfl rfl (by rw [e]; decide), rfl⟩
  | answer code =>
    obtain ⟨e1, e2, e3, e4, e5⟩ := respond_same (s := s) .handler x code
    obtain ⟨e6, e7⟩ := respond_rest s .handler x code
    refine ⟨.hand x, { respond s .handler x code with h := set (respond s .handler x code).h x .fin }, .inl rfl,
      by simp only [step, stepHand, e], lt (v := .fin) e5 e6 e1 ?_ (by rw [e]; simp [hw]), e7⟩
    simp only [e2]
  | fin =>
    obtain ⟨e1, e2, e3, e4, e5⟩ := fail_same (s := s) .done x rcInternalError
    obtain ⟨e6, e7⟩ := fail_rest s .done x rcInternalError
    by_cases hx : s.ctxReq x = true
    · refine ⟨.hand x, { respondFail s .done x rcInternalError with h := set (respondFail s .done x rcInternalError).h x .release }, .inl rfl,
        by simp only [step, stepHand, e, hx, if_true], lt (v := .release) e5 e6 e1 ?_ (by rw [e]; simp [hw]), e7⟩
      simp only [e2]
    · refine ⟨.hand x, { s with h := set s.h x .release }, .inl rfl, by simp only [step, stepHand, e, hx]; rfl,
        lt rfl rfl rfl rfl (by rw [e]; simp [hw]), rfl⟩
  | release =>
    have hb : x ∈ busy s := ((busy_live hi).2 x).2 hl
    have := List.length_pos_of_mem hb
    have hcnt := hc.cnt
    have hlt : s.sema < s.cap := by omega
    exact ⟨.hand x, { s with sema := s.sema + 1, h := set s.h x .ended }, .inl rfl, by simp only [step, stepHand, e, if_pos hlt],
      lt rfl rfl rfl rfl (by rw [e]; simp [hw]), rfl⟩

/-- While a request is not answered, somebody goes on. -/
theorem goes {n : Nat} {cs : List Choice} {s : St} (h : run (init n) cs = some s) (hs : s.stop = .idle) (ret : Nat → Outcome) {r : Nat}
    (hr : s.rs r ≠ .new) (ha : s.ans r = none) :
    ∃ c s', Onward ret c ∧ step s c = some s' ∧ work s' < work s ∧ s'.stop = .idle := by
  obtain ⟨hi, hc, -⟩ := good h
  have hx : exiting s = false := by simp [exiting, hs]
  have hand : ∀ {x}, Live s x → ∃ c s', Onward ret c ∧ step s c = some s' ∧ work s' < work s ∧ s'.stop = .idle := by
    intro x hl
    obtain ⟨c, s', h1, h2, h3, h4⟩ := hand_goes h (ret x) hl
    exact ⟨c, s', .inr ⟨x, h1⟩, h2, h3, h4.trans hs⟩
  have hdr : s.d.drains = false := by
    cases e : s.d.drains with
    | false => rfl
    | true => rw [hi.dr.1 e] at hs; cases hs
  have disp : ∀ s', stepDisp s = some s' → work s' < work s → s'.stop = .idle →
      ∃ c s', Onward ret c ∧ step s c = some s' ∧ work s' < work s ∧ s'.stop = .idle :=
    fun s' h1 h2 h3 => ⟨.disp, s', .inl rfl, h1, h2, h3⟩
  cases e : s.d with
  | top =>
    refine disp { s with d := .poll } (by simp [stepDisp, e, hx]) ?_ hs
    simp only [work, e, dw]; omega
  | poll =>
    cases hch : s.ch with
    | nil =>
      refine disp { s with d := .block } (by simp [stepDisp, e, hch]) ?_ hs
      simp only [work, e, dw]; omega
    | cons x l =>
      refine disp { s with ch := l, d := .got x } (by simp [stepDisp, e, hch]) ?_ hs
      simp only [work, e, dw, hch, List.length_cons]; omega
  | block =>
    cases hch : s.ch with
    | nil =>
      rcases Props.C50_not_lost_partial h hr ha with g | g | g | g
      · rw [hch] at g; cases g
      · unfold Held at g; rw [e] at g; simp at g
      · exact hand g
      · rw [hi.drEmpty hdr] at g; cases g
    | cons x l =>
      refine disp { s with ch := l, d := .got x } (by simp [stepDisp, e, hch]) ?_ hs
      simp only [work, e, dw, hch, List.length_cons]; omega
  | got x =>
    refine disp { s with d := .grab x } (by simp [stepDisp, e, hx]) ?_ hs
    simp only [work, e, dw]; omega
  | grab x =>
    by_cases hp : 0 < s.sema
    · refine disp { s with sema := s.sema - 1, d := .claim x } (by simp [stepDisp, e, hp]) ?_ hs
      simp only [work, e, dw]; omega
    · refine disp { s with d := .slot x } (by simp only [stepDisp, e, if_neg hp]) ?_ hs
      simp only [work, e, dw]; omega
  | slot x =>
    by_cases hp : 0 < s.sema
    · refine disp { s with sema := s.sema - 1, d := .claim x } (by simp [stepDisp, e, hp]) ?_ hs
      simp only [work, e, dw]; omega
    · have h1 := hc.cnt
      have h2 := hc.cap
      rw [e] at h1
      simp only [holds] at h1
      cases hb : busy s with
      | nil => rw [hb] at h1; simp at h1; omega
      | cons y l => exact hand (((busy_live hi).2 y).1 (by rw [hb]; exact List.mem_cons_self ..))
  | claim x =>
    have hid := hi.reqIdle x (by rw [e]; rfl)
    have hn : x ∉ s.spawned := fun hm => (hi.spawned x).1 hm hid
    by_cases hp : s.rs x = .pending
    · refine disp { s with rs := set s.rs x .inFly, ctxReq := set s.ctxReq x true, h := set s.h x .look, spawned := x :: s.spawned, d := .top }
        (by simp only [stepDisp, e, if_pos hp]) ?_ hs
      have := sum_other (f := s.h) (v := .look) hn
      simp only [work, e, dw]
      unfold sum at *
      simp only [List.map_cons, List.sum_cons, set, if_true, hw] at *
      omega
    · refine disp { s with d := .giveBack } (by simp only [stepDisp, e, if_neg hp]) ?_ hs
      simp only [work, e, dw]; omega
  | giveBack =>
    have h1 := hc.cnt
    rw [e] at h1
    simp only [holds] at h1
    have hlt : s.sema < s.cap := by omega
    refine disp { s with sema := s.sema + 1, d := .top } (by simp only [stepDisp, e, if_pos hlt]) ?_ hs
    simp only [work, e, dw]; omega
  | drain => rw [e] at hdr; cases hdr
  | refuse x => rw [e] at hdr; cases hdr

/-- The states of requests that were sent stay so. -/
theorem sent_stays {s s' : St} {c : Choice} (h : step s c = some s') {r : Nat} (hr : s.rs r ≠ .new) : s'.rs r ≠ .new := by
  intro e
  have hf : ∀ src x code, (respondFail s src x code).rs r = .new → s.rs r = .new := by
    intro src x code
    unfold respondFail chainResponse
    (repeat' split) <;> grind [set]
  have hr' : ∀ src x code, (respond s src x code).rs r = .new → s.rs r = .new := by
    intro src x code
    unfold respond chainResponse
    (repeat' split) <;> grind [set]
  cases c <;> simp only [step, stepDisp, stepDispExit, stepHand, leave] at h
  all_goals (repeat' split at h) <;> cases h
  all_goals first
    | exact hr e
    | exact hr (hf _ _ _ e)
    | exact hr (hr' _ _ _ e)
    | (simp only [set] at e; split at e <;> first | (cases e; done) | exact hr e)
    | (dsimp only at e; split at e <;> first | exact hr (hf _ _ _ e) | exact hr e)

theorem run_snoc {s s1 s2 : St} {cs : List Choice} {c : Choice} (h : run s cs = some s1) (h2 : step s1 c = some s2) :
    run s (cs ++ [c]) = some s2 := by
  induction cs generalizing s with
  | nil => cases h; simp [run, h2]
  | cons a cs ih =>
    simp only [run, List.cons_append] at *
    cases e : step s a with
    | none => rw [e] at h; cases h
    | some t => rw [e] at h; simp only [Option.bind_some] at *; exact ih h

theorem disp_lowers {n : Nat} {cs : List Choice} {s s' : St} (h : run (init n) cs = some s) (hs : s.stop = .idle)
    (hd : stepDisp s = some s') : work s' < work s ∧ s'.stop = .idle := by
  obtain ⟨hi, hc, -⟩ := good h
  have hx : exiting s = false := by simp [exiting, hs]
  have hdr : s.d.drains = false := by
    cases e : s.d.drains with
    | false => rfl
    | true => rw [hi.dr.1 e] at hs; cases hs
  unfold stepDisp at hd
  cases e : s.d with
  | claim x =>
    have hid := hi.reqIdle x (by rw [e]; rfl)
    have hn : x ∉ s.spawned := fun hm => (hi.spawned x).1 hm hid
    have := sum_other (f := s.h) (v := .look) hn
    rw [e] at hd
    dsimp only at hd
    split at hd <;> cases hd
    · refine ⟨?_, hs⟩
      simp only [work, e, dw]
      unfold sum at *
      simp only [List.map_cons, List.sum_cons, set, if_true, hw] at *
      omega
    · refine ⟨?_, hs⟩
      simp only [work, e, dw]
      omega
  | drain => rw [e] at hdr; cases hdr
  | refuse x => rw [e] at hdr; cases hdr
  | _ =>
    rw [e] at hd
    simp only [hx] at hd
    (repeat' split at hd) <;> cases hd
    all_goals first
      | (refine ⟨?_, hs⟩; simp only [work, e, dw]; omega)
      | (refine ⟨?_, hs⟩; simp only [work, e, dw, *, List.length_cons]; omega)
      | (exfalso; contradiction)

theorem hand_lowers {n : Nat} {cs : List Choice} {s s' : St} (h : run (init n) cs = some s) {x : Nat} {o : Outcome} {c : Choice}
    (hc : c = .hand x ∨ c = .result x o) (hd : step s c = some s') : work s' < work s ∧ s'.stop = s.stop := by
  have hl : Live s x := by
    constructor <;> intro e <;> rcases hc with rfl | rfl <;> simp [step, stepHand, e] at hd
  obtain ⟨c', s1, h1, h2, h3, h4⟩ := hand_goes h o hl
  have : c = c' := by
    rcases hc with rfl | rfl <;> rcases h1 with rfl | rfl
    · rfl
    · exfalso
      by_cases e : s.h x = .running
      · simp [step, stepHand, e] at hd
      · simp [step, e] at h2
    · exfalso
      by_cases e : s.h x = .running
      · simp [step, stepHand, e] at h2
      · simp [step, e] at hd
    · rfl
  subst this
  rw [h2] at hd
  cases hd
  exact ⟨h3, h4⟩

theorem lowers {n : Nat} {cs : List Choice} {s s' : St} (h : run (init n) cs = some s) (hs : s.stop = .idle) {ret : Nat → Outcome} {c : Choice}
    (hc : Onward ret c) (hd : step s c = some s') : work s' < work s ∧ s'.stop = .idle := by
  rcases hc with rfl | ⟨x, hc⟩
  · exact disp_lowers h hs hd
  · have := hand_lowers h hc hd
    exact ⟨this.1, this.2.trans hs⟩

theorem onward_run {n : Nat} {cs : List Choice} {s s' : St} (h : run (init n) cs = some s) (hs : s.stop = .idle) {ret : Nat → Outcome}
    {ds : List Choice} (hc : ∀ c ∈ ds, Onward ret c) (hd : run s ds = some s') :
    ds.length + work s' ≤ work s ∧ s'.stop = .idle ∧ (∃ cs', run (init n) cs' = some s') ∧ ∀ r, s.rs r ≠ .new → s'.rs r ≠ .new := by
  induction ds generalizing s cs with
  | nil => cases hd; exact ⟨by simp, hs, ⟨_, h⟩, fun _ hr => hr⟩
  | cons a ds ih =>
    simp only [run] at hd
    cases e : step s a with
    | none => rw [e] at hd; cases hd
    | some t =>
      rw [e] at hd
      obtain ⟨l1, l2⟩ := lowers h hs (hc a (by simp)) e
      obtain ⟨i1, i2, i3, i4⟩ := ih (run_snoc h e) l2 (fun c hm => hc c (by simp [hm])) hd
      refine ⟨?_, i2, i3, fun r hr => i4 r (sent_stays e hr)⟩
      simp only [List.length_cons]
      omega

end Verif.Parallel
