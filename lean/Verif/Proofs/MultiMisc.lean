import Verif.Proofs.MultiEach
/-!
Smaller invariants of the multi-request machine.
-/
namespace Verif.Multi

/-- An invariant which needs `Inv` and a condition on every state of the run. -/
theorem along_run {I P : St → Prop} (hI : ∀ s c s', Inv s → I s → P s → step s c = some s' → I s') {s s' : St}
    {cs : List Choice} (h : Inv s) (hi : I s) (hc : Along P s cs) (hs : run s cs = some s') : I s' := by
  induction cs generalizing s with
  | nil => cases hs; exact hi
  | cons c cs ih =>
    simp only [run] at hs
    cases e' : step s c with
    | none => rw [e'] at hs; cases hs
    | some t => rw [e'] at hs; exact ih (inv_step h e') (hI s c t h hi hc.1 e') (hc.2 t e') hs

theorem along_true (s : St) (cs : List Choice) : Along (fun _ => True) s cs := by
  induction cs generalizing s with
  | nil => trivial
  | cons c cs ih => exact ⟨trivial, fun s' _ => ih s'⟩

theorem answer_c (s : St) (i : Nat) (x : UInt32) : (answer s i x).c = s.c := by grind [answer]
theorem answer_r (s : St) (i : Nat) (x : UInt32) : (answer s i x).r = s.r := by grind [answer]
theorem answer_cp (s : St) (i k : Nat) (x : UInt32) : (answer s i x).cp k = s.cp k := by grind [answer]
theorem answer_gone (s : St) (i : Nat) (x : UInt32) : (answer s i x).gone = s.gone := by grind [answer]
theorem answer_arr (s : St) (i : Nat) (x : UInt32) : (answer s i x).arr = s.arr := by grind [answer]
theorem answer_look (s : St) (i j : Nat) (x : UInt32) : (answer s i x).rp j = s.rp j ∨ (answer s i x).rp j = .look := by
  unfold answer
  (repeat' split) <;> simp only [set] <;> (try split) <;> simp

/-- The goroutine which is to close the channel was the last one. -/
def Last (s : St) : Prop := ∀ i, s.rp i = .close → s.c = s.r

set_option maxHeartbeats 1000000 in
theorem last_step (s : St) (c : Choice) (s' : St) (h : Inv s) (hl : Last s) (hs : step s c = some s') : Last s' := by
  have hall := h.all.1
  have hf : ∀ i, s.rp i = .close → s.own.opened = true := fun i hi => h.fast i (by rw [hi]; rfl)
  unfold Last at *
  cases c
  case resp i =>
    have hsh := h.short (i := i)
    simp only [step, stepResp] at hs
    cases hp : s.rp i <;> simp only [hp] at hs <;> (repeat' split at hs) <;> cases hs <;> grind [set, RPc.counted]
  case owner =>
    simp only [step, stepOwner] at hs
    clear h
    (repeat' split at hs) <;> cases hs <;> first | assumption | grind [answer_c, answer_r, answer_look, set, OPc.opened]
  case canc k =>
    simp only [step, stepCancel] at hs
    clear h
    (repeat' split at hs) <;> cases hs <;> first | assumption | grind [answer_c, answer_r, answer_cp, answer_gone, answer_own, answer_look, set]
  all_goals
    simp only [step, answer] at hs
    clear h
    (repeat' split at hs) <;> cases hs <;> first | assumption | grind [set]

theorem last_run {cs : List Choice} {s : St} (h : run init cs = some s) : Last s :=
  along_run (P := fun _ => True) (fun s c s' h1 h2 _ h3 => last_step s c s' h1 h2 h3) inv_init
    (fun i hi => by simp [init] at hi) (along_true _ _) h

/-- `RemoveCanceler` has been called, or is about to be. -/
def Gone (s : St) : Prop := s.closed ≠ 0 → s.removed = true ∨ ∃ i, s.rp i = .remove

theorem gone_move {s : St} {i : Nat} {p : RPc} (h : Gone s) (hp : s.rp i ≠ .remove) :
    s.closed ≠ 0 → s.removed = true ∨ ∃ j, set s.rp i p j = .remove := by
  intro h1
  rcases h h1 with h2 | ⟨j, h2⟩
  · exact .inl h2
  · refine .inr ⟨j, ?_⟩
    unfold set
    rw [if_neg]
    · exact h2
    · rintro rfl
      exact hp h2

theorem gone_answer {s : St} {i : Nat} {c : UInt32} (hI : Inv s) (h : Gone s) : Gone (answer s i c) := by
  unfold answer
  split
  · exact h
  · have := (hI.code i).1 ‹_›
    exact gone_move (i := i) h (by rw [this]; simp)

theorem gone_step (s : St) (c : Choice) (s' : St) (h : Inv s) (hl : Gone s) (hc : s.own ≠ .eClose)
    (hs : step s c = some s') : Gone s' := by
  cases c
  case resp i =>
    simp only [step, stepResp] at hs
    cases hp : s.rp i <;> simp only [hp] at hs <;> (repeat' split at hs) <;> cases hs <;>
      first
        | exact fun _ => .inl rfl
        | exact gone_move (i := i) hl (by rw [hp]; simp)
        | exact fun _ => .inr ⟨i, by simp [set]⟩
  case owner =>
    simp only [step, stepOwner] at hs
    (repeat' split at hs) <;> cases hs <;>
      first | exact hl | exact gone_answer h hl | exact absurd ‹_› hc | exact fun _ => .inl rfl
  case canc k =>
    simp only [step, stepCancel] at hs
    (repeat' split at hs) <;> cases hs <;> first | exact hl | exact gone_answer h hl
  case answer i c =>
    simp only [step] at hs
    (repeat' split at hs) <;> cases hs
    exact gone_answer h hl
  all_goals
    simp only [step] at hs
    (repeat' split at hs) <;> cases hs <;> exact hl

theorem gone_run {cs : List Choice} {s : St} (hc : Along (fun s => s.own ≠ .eClose) init cs)
    (h : run init cs = some s) : Gone s :=
  along_run (P := fun s => s.own ≠ .eClose) gone_step inv_init (fun h => by simp [init] at h) hc h

/-- What `performFailAll` looked at is still there. -/
structure There (s : St) : Prop where
  canc : ∀ k a i n, s.cp k = .fail2 a i n → s.gone a i = false
  own : ∀ m i n, s.own = .fail2 m i n → s.gone s.arr i = false
  arr1 : ∀ k a i n, s.cp k = .fail a i n → a ≤ s.arr
  arr2 : ∀ k a i n, s.cp k = .fail2 a i n → a ≤ s.arr
  arr3 : ∀ k a i n, s.cp k = .failK a i n → a ≤ s.arr
  arr5 : ∀ k a i n x, s.cp k = .failA a i n x → a ≤ s.arr
  arr4 : ∀ k a i n, s.cp k = .failX a i n → a ≤ s.arr
  okC : ∀ k, s.cp k ≠ .dead
  okO : s.own ≠ .nilPanic

set_option maxHeartbeats 1000000 in
theorem there_step (s : St) (c : Choice) (s' : St) (_ : Inv s) (hl : There s) (hc : Apart s)
    (hs : step s c = some s') : There s' := by
  obtain ⟨h1, h2, h5, h6, h7, h9, h8, h3, h4⟩ := hl
  unfold Apart at hc
  cases c
  case resp i =>
    simp only [step, stepResp] at hs
    cases hp : s.rp i <;> simp only [hp] at hs <;> (repeat' split at hs) <;> cases hs <;> constructor <;>
      first | assumption | grind [copy, put, set]
  case owner =>
    simp only [step, stepOwner] at hs
    (repeat' split at hs) <;> cases hs <;> constructor <;> first | assumption | grind [answer_c, answer_r, answer_cp, answer_gone, answer_arr, put, answer_own, answer_look, set]
  case canc k =>
    simp only [step, stepCancel] at hs
    (repeat' split at hs) <;> cases hs <;> constructor <;> first | assumption | grind [answer_c, answer_r, answer_cp, answer_gone, answer_arr, put, answer_own, answer_look, set]
  all_goals
    simp only [step, answer] at hs
    (repeat' split at hs) <;> cases hs <;> constructor <;> first | assumption | grind [copy, put, set]

theorem there_run {cs : List Choice} {s : St} (hc : Along Apart init cs) (h : run init cs = some s) : There s :=
  along_run there_step inv_init (by constructor <;> simp [init]) hc h

end Verif.Multi
