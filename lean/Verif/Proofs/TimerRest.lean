import Verif.Spec.TimerRest
import Verif.Props.Timer
/-!
The timer goroutine comes to rest while the clock stands still.
-/
namespace Verif.TimerLoop
open Verif.Props.TimerAux

/-- What is left to do for the goroutine, if the clock shows `now`. A scan that uses an older reading of the clock may
set the runtime timer to a time that has passed. -/
def pw (now : Int) : Pc → Nat
  | .wait => 0
  | .sleep => 1
  | .top => 3
  | .woken => 4
  | .scan t0 re => if t0 = now then (if re then 4 else 2) else 8
  | .expire _ t0 => if t0 = now then 5 else 9

def due (s : St) : Nat :=
  match s.rt with
  | some t => if t ≤ s.now then 5 else 0
  | none => 0

def work (s : St) : Nat := 5 * s.armed.length + pw s.now s.pc + due s

theorem earliest_mem : ∀ {l : List (Nat × Int)} {p : Nat × Int}, earliest l = some p → p ∈ l
  | [], _, h => by cases h
  | a :: l, p, h => by
    simp only [earliest] at h
    split at h
    · cases h; simp
    · rename_i q hq
      split at h <;> cases h
      · simp
      · exact List.mem_cons_of_mem _ (earliest_mem hq)

theorem signal_pw (now : Int) (p : Pc) : pw now p.signal ≤ pw now p + 4 := by
  cases p <;> simp [Pc.signal, pw]

/-- The clock does not show a deadline. -/
def Off (s : St) : Prop := ∀ p ∈ s.armed, p.2 ≠ s.now

theorem lowers {s s' : St} {c : Choice} (hc : Alone c) (ho : Off s) (hs : step s c = some s') :
    work s' < work s ∧ Off s' ∧ s'.now = s.now := by
  rcases hc with rfl | rfl
  · simp only [step] at hs
    split at hs
    · rename_i t ht
      split at hs <;> cases hs
      rename_i hl
      refine ⟨?_, ho, rfl⟩
      have := signal_pw s.now s.pc
      simp only [work, due, ht, if_pos hl]
      omega
    · cases hs
  · simp only [step] at hs
    have hd : due s ≤ 5 := by unfold due; split <;> (try split) <;> omega
    split at hs
    · rename_i e
      cases hs
      refine ⟨?_, ho, rfl⟩
      simp only [work, e, pw, if_true, due, Bool.false_eq_true, if_false]
      omega
    · rename_i t0 re e
      split at hs
      · cases hs
        refine ⟨?_, ho, rfl⟩
        have : ¬ (s.now + 3600 ≤ s.now) := by omega
        simp only [work, e, pw, due, if_neg this]
        (repeat' split) <;> omega
      · rename_i x ex he
        have hm := earliest_mem he
        split at hs
        · rename_i hge
          split at hs
          · cases hs
            refine ⟨?_, ho, rfl⟩
            rename_i hre
            simp only [work, e, pw, due, hre, if_true]
            (repeat' split) <;> omega
          · cases hs
            refine ⟨?_, ho, rfl⟩
            rename_i hre
            have hx := ho _ hm
            simp only [work, e, pw, due]
            (repeat' split) <;> first | omega | (exfalso; dsimp only at *; omega)
        · cases hs
          refine ⟨?_, ?_, rfl⟩
          · have hl := List.length_erase_of_mem hm
            have hp := List.length_pos_of_mem hm
            simp only [work, e, pw, due, hl]
            (repeat' split) <;> omega
          · intro p hp
            exact ho p (List.mem_of_mem_erase hp)
    · rename_i x t0 e
      cases hs
      refine ⟨?_, ho, rfl⟩
      simp only [work, e, pw, due, if_true]
      (repeat' split) <;> omega
    · rename_i e
      cases hs
      refine ⟨?_, ho, rfl⟩
      simp only [work, e, pw, due]
      (repeat' split) <;> omega
    · cases hs
    · rename_i e
      cases hs
      refine ⟨?_, ho, rfl⟩
      simp only [work, e, pw, due]
      (repeat' split) <;> omega

theorem bounded {s s' : St} {ds : List Choice} (hc : ∀ c ∈ ds, Alone c) (ho : Off s) (hr : run s ds = some s') :
    ds.length + work s' ≤ work s := by
  induction ds generalizing s with
  | nil => cases hr; simp
  | cons c ds ih =>
    simp only [run] at hr
    cases e : step s c with
    | none => rw [e] at hr; cases hr
    | some t =>
      rw [e] at hr
      obtain ⟨l1, l2, -⟩ := lowers (hc c (by simp)) ho e
      have := ih (fun c hm => hc c (by simp [hm])) l2 hr
      simp only [List.length_cons]
      omega

/-- A timer is armed, or expired, or just about to expire. -/
def Acc (p : Nat × Int) (s : St) : Prop := p ∈ s.armed ∨ p.1 ∈ s.expired ∨ ∃ t0, s.pc = .expire p.1 t0

theorem acc_step {s s' : St} {c : Choice} {p : Nat × Int} (hc : Alone c) (ha : Acc p s) (hs : step s c = some s') : Acc p s' := by
  rcases hc with rfl | rfl
  · simp only [step] at hs
    split at hs
    · split at hs <;> cases hs
      rcases ha with h | h | ⟨t0, h⟩
      · exact .inl h
      · exact .inr (.inl h)
      · exact .inr (.inr ⟨t0, by simp [h, Pc.signal]⟩)
    · cases hs
  · simp only [step] at hs
    split at hs
    case h_1 e =>
      cases hs
      rcases ha with h | h | ⟨t0, h⟩
      · exact .inl h
      · exact .inr (.inl h)
      · rw [e] at h; cases h
    case h_2 t0 re e =>
      have ha : p ∈ s.armed ∨ p.1 ∈ s.expired := by
        rcases ha with h | h | ⟨t0, h⟩
        · exact .inl h
        · exact .inr h
        · rw [e] at h; cases h
      split at hs
      · cases hs
        exact ha.elim .inl (fun h => .inr (.inl h))
      · rename_i x ex he
        split at hs
        · split at hs <;> cases hs <;> exact ha.elim .inl (fun h => .inr (.inl h))
        · cases hs
          rcases ha with h | h
          · by_cases hp : p = (x, ex)
            · subst hp; exact .inr (.inr ⟨t0, rfl⟩)
            · exact .inl ((List.mem_erase_of_ne hp).2 h)
          · exact .inr (.inl h)
    case h_3 x t0 e =>
      cases hs
      rcases ha with h | h | ⟨t1, h⟩
      · exact .inl h
      · exact .inr (.inl (List.mem_cons_of_mem _ h))
      · rw [e] at h; cases h; exact .inr (.inl (by simp))
    case h_4 e =>
      cases hs
      rcases ha with h | h | ⟨t0, h⟩
      · exact .inl h
      · exact .inr (.inl h)
      · rw [e] at h; cases h
    case h_5 => cases hs
    case h_6 e =>
      cases hs
      rcases ha with h | h | ⟨t0, h⟩
      · exact .inl h
      · exact .inr (.inl h)
      · rw [e] at h; cases h

theorem now_step {s s' : St} {c : Choice} (hc : Alone c) (hs : step s c = some s') : s'.now = s.now := by
  rcases hc with rfl | rfl
  · simp only [step] at hs
    (repeat' split at hs) <;> cases hs <;> rfl
  · simp only [step] at hs
    (repeat' split at hs) <;> cases hs <;> rfl

theorem acc_run {s s' : St} {ds : List Choice} {p : Nat × Int} (hc : ∀ c ∈ ds, Alone c) (ha : Acc p s) (hr : run s ds = some s') :
    Acc p s' ∧ s'.now = s.now := by
  induction ds generalizing s with
  | nil => cases hr; exact ⟨ha, rfl⟩
  | cons c ds ih =>
    simp only [run] at hr
    cases e : step s c with
    | none => rw [e] at hr; cases hr
    | some t =>
      rw [e] at hr
      have hc' := hc c (by simp)
      obtain ⟨h1, h2⟩ := ih (fun c hm => hc c (by simp [hm])) (acc_step hc' ha e) hr
      exact ⟨h1, h2.trans (now_step hc' e)⟩

theorem run_append {s s1 : St} {cs ds : List Choice} (h : run s cs = some s1) : run s (cs ++ ds) = run s1 ds := by
  induction cs generalizing s with
  | nil => cases h; rfl
  | cons a cs ih =>
    simp only [run, List.cons_append] at *
    cases e : step s a with
    | none => rw [e] at h; cases h
    | some t => rw [e] at h; exact ih h

/-- At rest the goroutine waits. -/
theorem rest_wait {s : St} (hq : ∀ c, Alone c → step s c = none) : s.pc = .wait := by
  have h := hq .loop (.inr rfl)
  simp only [step] at h
  (repeat' split at h) <;> first | cases h; done | assumption

end Verif.TimerLoop
