import Verif.Spec.BufferRest
import Verif.Props.Buffer
/-!
The queue comes to rest: a measure that every step lowers which begins nothing new.
-/
namespace Verif.Buffer.Rest

def sumTo : Nat → (Nat → Nat) → Nat
  | 0, _ => 0
  | n + 1, f => sumTo n f + f n

theorem sum_same {B : Nat} {f g : Nat → Nat} (h : ∀ j, j < B → g j = f j) : sumTo B g = sumTo B f := by
  induction B with
  | zero => rfl
  | succ n ih => simp only [sumTo]; rw [ih fun j hj => h j (by omega), h n (by omega)]

theorem sum_one {B i : Nat} {f g : Nat → Nat} (hi : i < B) (h : ∀ j, j ≠ i → g j = f j) : sumTo B g + f i = sumTo B f + g i := by
  induction B with
  | zero => omega
  | succ n ih =>
    simp only [sumTo]
    by_cases e : i = n
    · subst e
      rw [sum_same fun j hj => h j (by omega)]; omega
    · have := ih (by omega)
      rw [h n (fun e' => e e'.symm)]; omega

/-- What is left to do for a `push` that has been called. -/
def ppw : PPc → Nat
  | .idle | .done | .panicked => 0
  | .start => 34
  | .gotTail _ | .gotHead _ => 33
  | .direct => 32
  | .reserve => 31
  | .readRow _ => 18
  | .lookup _ => 17
  | .chain .. => 16
  | .markSet .. | .markFree .. => 15
  | .signal => 14

def lpw : LPc → Nat
  | .wait => 1
  | .exited => 0
  | .cmp => 12
  | .row => 11
  | .look _ => 10
  | .take _ => 9
  | .free .. => 8
  | .pend _ => 7
  | .send _ => 6
  | .inc => 2

def lifew : Life → Nat
  | .prepared => 2
  | .told => 1
  | .live | .gone => 0

def sumP (B : Nat) (f : Nat → PPc) : Nat := sumTo B fun r => ppw (f r)

def sumL (B : Nat) (f : Nat → Life) : Nat := sumTo B fun r => lifew (f r)

def measure (B : Nat) (s : St) : Nat :=
  sumP B s.push + sumL B s.life + 12 * (s.tail - s.head) + lpw s.loop +
    (if s.sig then 12 else 0) + 2 * s.chan.length

theorem sum_push {B r : Nat} (f : Nat → PPc) (v : PPc) (h : r < B) :
    sumP B (set f r v) + ppw (f r) = sumP B f + ppw v := by
  have := sum_one (f := fun j => ppw (f j)) (g := fun j => ppw (set f r v j)) h (fun j hj => by simp [set, hj])
  simpa [set, sumP] using this

theorem sum_life {B r : Nat} (f : Nat → Life) (v : Life) (h : r < B) :
    sumL B (set f r v) + lifew (f r) = sumL B f + lifew v := by
  have := sum_one (f := fun j => lifew (f j)) (g := fun j => lifew (set f r v j)) h (fun j hj => by simp [set, hj])
  simpa [set, sumL] using this

/-- What the log says. -/
structure Said (s : St) : Prop where
  call : ∀ r, .call r ∈ s.log → s.push r ≠ .idle
  answered : ∀ r, .answered r ∈ s.log → s.life r ≠ .live
  ret : ∀ r, s.push r = .done → .ret r ∈ s.log

theorem said_init : Said init := by
  constructor <;> simp [init]

theorem said_step {R cap : Nat} {s s' : St} {c : Choice} (h : Said s) (hs : step R cap s c = some s') : Said s' := by
  obtain ⟨h1, h2, h3⟩ := h
  cases c with
  | push r =>
    simp only [step, stepPush] at hs
    (repeat' split at hs) <;> cases hs
    all_goals constructor
    all_goals grind [set]
  | headFirst r =>
    simp only [step] at hs
    split at hs <;> cases hs
    constructor <;> grind [set]
  | loop =>
    simp only [step, stepLoop] at hs
    (repeat' split at hs) <;> cases hs
    all_goals constructor
    all_goals grind
  | close =>
    simp only [step, stepClose] at hs
    (repeat' split at hs) <;> cases hs
    all_goals exact ⟨h1, h2, h3⟩
  | answer r =>
    simp only [step, stepAnswer] at hs
    (repeat' split at hs) <;> cases hs
    all_goals constructor
    all_goals grind [set]
  | recv =>
    simp only [step] at hs
    split at hs <;> cases hs
    exact ⟨h1, h2, h3⟩

/-- Requests from `B` on have not been touched. -/
def Bnd (B : Nat) (s : St) : Prop := ∀ r, B ≤ r → s.push r = .idle ∧ s.life r = .live

theorem bnd_step {R cap B : Nat} {s s' : St} {c : Choice} (h : Bnd B s)
    (hc : ∀ r, c = .push r ∨ c = .headFirst r ∨ c = .answer r → r < B) (hs : step R cap s c = some s') : Bnd B s' := by
  unfold Bnd at *
  cases c with
  | push r =>
    have := hc r (.inl rfl)
    simp only [step, stepPush] at hs
    (repeat' split at hs) <;> cases hs
    all_goals grind [set]
  | headFirst r =>
    have := hc r (.inr (.inl rfl))
    simp only [step] at hs
    split at hs <;> cases hs
    grind [set]
  | loop =>
    simp only [step, stepLoop] at hs
    (repeat' split at hs) <;> cases hs
    all_goals exact h
  | close =>
    simp only [step, stepClose] at hs
    (repeat' split at hs) <;> cases hs
    all_goals exact h
  | answer r =>
    have := hc r (.inr (.inr rfl))
    simp only [step, stepAnswer] at hs
    (repeat' split at hs) <;> cases hs
    all_goals grind [set]
  | recv =>
    simp only [step] at hs
    split at hs <;> cases hs
    exact h

theorem bnd_init : Bnd 0 init := by
  simp [Bnd, init]

theorem bnd_run {R cap : Nat} {s s' : St} {cs : List Choice} (hb : ∃ B, Bnd B s) (hs : run R cap s cs = some s') : ∃ B, Bnd B s' := by
  induction cs generalizing s with
  | nil => cases hs; exact hb
  | cons c cs ih =>
    simp only [run] at hs
    cases e : step R cap s c with
    | none => rw [e] at hs; cases hs
    | some t =>
      rw [e] at hs
      refine ih ?_ hs
      obtain ⟨B, hB⟩ := hb
      obtain ⟨r, hr⟩ : ∃ r0, ∀ r, c = .push r ∨ c = .headFirst r ∨ c = .answer r → r = r0 := by
        cases c with
        | push r => exact ⟨r, fun x hx => by simp at hx; exact hx.symm⟩
        | headFirst r => exact ⟨r, fun x hx => by simp at hx; exact hx.symm⟩
        | answer r => exact ⟨r, fun x hx => by simp at hx; exact hx.symm⟩
        | loop => exact ⟨0, by simp⟩
        | close => exact ⟨0, by simp⟩
        | recv => exact ⟨0, by simp⟩
      have : Bnd (B + r + 1) s := fun x hx => hB x (by omega)
      exact ⟨_, bnd_step this (fun x hx => by have := hr x hx; omega) e⟩

theorem said_run {R cap : Nat} {s s' : St} {cs : List Choice} (h : Said s) (hs : run R cap s cs = some s') : Said s' := by
  induction cs generalizing s with
  | nil => cases hs; exact h
  | cons c cs ih =>
    simp only [run] at hs
    cases e : step R cap s c with
    | none => rw [e] at hs; cases hs
    | some t => rw [e] at hs; exact ih (said_step h e) hs

theorem touched {R cap B : Nat} {s s' : St} {c : Choice} (h : Said s) (hb : Bnd B s) (hc : Begun s.log c) (hs : step R cap s c = some s') :
    ∀ r, c = .push r ∨ c = .headFirst r ∨ c = .answer r → r < B := by
  intro r hr
  refine Classical.byContradiction fun hn => ?_
  obtain ⟨b1, b2⟩ := hb r (by omega)
  rcases hr with rfl | rfl | rfl
  · exact h.call r hc b1
  · simp [step, b1] at hs
  · exact h.answered r hc b2

/-- Every step that begins nothing new lowers the measure. -/
theorem lowers {R cap B : Nat} {s s' : St} {c : Choice} {S : List Nat} (hi : Inv R s S) (h : Said s) (hb : Bnd B s) (hc : Begun s.log c)
    (hs : step R cap s c = some s') : measure B s' < measure B s := by
  have hlt := touched h hb hc hs
  have hle := hi.headle
  cases c with
  | push r =>
    have hr := hlt r (.inl rfl)
    have hne := h.call r hc
    have hp := fun v => sum_push s.push v hr
    have hsig : (if s.sig = true then 12 else 0) ≤ 12 := by split <;> omega
    simp only [step, stepPush] at hs
    cases e : s.push r with
    | idle => exact absurd e hne
    | chain n o =>
      have a := hp (.markSet n o)
      have b := hp (.markFree n o)
      simp only [e, ppw] at a b
      rw [e] at hs
      dsimp only at hs
      split at hs <;> cases hs <;> simp only [measure] <;> omega
    | start =>
      have a := hp (.gotTail s.tail)
      simp only [e, ppw] at a
      rw [e] at hs
      cases hs
      simp only [measure]
      omega
    | readRow n =>
      have a := hp (.chain n s.tRow)
      have b := hp (.lookup n)
      simp only [e, ppw] at a b
      rw [e] at hs
      dsimp only at hs
      split at hs <;> cases hs <;> simp only [measure] <;> omega
    | lookup n =>
      have a := fun o => hp (.chain n o)
      simp only [e, ppw] at a
      rw [e] at hs
      dsimp only at hs
      split at hs <;> cases hs
      · rename_i o _
        have := a o
        simp only [measure]
        omega
      · have := a s.ids.length
        simp only [measure]
        omega
    | _ =>
      rw [e] at hs
      dsimp only at hs
      (repeat' split at hs) <;> cases hs
      all_goals
        simp only [measure, List.length_append, List.length_cons, List.length_nil, if_true]
        first
          | (have a := hp .direct; simp only [e, ppw] at a; omega)
          | (have a := hp .reserve; simp only [e, ppw] at a; omega)
          | (have a := hp (.readRow s.tail); simp only [e, ppw] at a; omega)
          | (have a := hp (.gotTail s.tail); simp only [e, ppw] at a; omega)
          | (have a := hp .done; simp only [e, ppw] at a; omega)
          | (have a := hp .panicked; simp only [e, ppw] at a; omega)
          | (have a := hp .signal; simp only [e, ppw] at a; omega)
  | headFirst r =>
    have hr := hlt r (.inr (.inl rfl))
    simp only [step] at hs
    split at hs <;> cases hs
    rename_i e
    have a := sum_push s.push (.gotHead s.head) hr
    rw [e] at a
    simp only [ppw] at a
    simp only [measure]
    omega
  | loop =>
    have hbusy := hi.busy
    simp only [step, stepLoop] at hs
    cases e : s.loop with
    | inc =>
      rw [e] at hs hbusy
      cases hs
      have := hbusy trivial
      simp only [measure, e, lpw]
      omega
    | wait =>
      rw [e] at hs
      dsimp only at hs
      split at hs
      · rename_i hsig
        cases hs
        simp only [measure, e, lpw, hsig, if_true, Bool.false_eq_true, if_false]
        omega
      · split at hs <;> cases hs
        simp only [measure, e, lpw]
        omega
    | pend q =>
      rw [e] at hs
      cases q with
      | none =>
        cases hs
        simp only [measure, e, lpw]
        omega
      | some q =>
        cases hs
        by_cases hq : s.life q = .live <;> simp only [measure, e, hq, if_true, if_false, lpw] <;> omega
    | cmp =>
      rw [e] at hs
      cases hs
      by_cases hq : s.head < s.tail <;> simp only [measure, e, hq, if_true, if_false, lpw] <;> omega
    | _ =>
      rw [e] at hs
      try dsimp only at hs
      (repeat' split at hs) <;> cases hs
      all_goals
        simp only [measure, e, lpw, List.length_append, List.length_cons, List.length_nil]
        omega
  | close => exact hc.elim
  | answer r =>
    have hr := hlt r (.inr (.inr rfl))
    have hne := h.answered r hc
    have hp := fun v => sum_life s.life v hr
    simp only [step, stepAnswer] at hs
    cases e : s.life r with
    | live => exact absurd e hne
    | _ =>
      rw [e] at hs
      try dsimp only at hs
      (repeat' split at hs) <;> cases hs
      all_goals
        simp only [measure]
        first
          | (have a := hp .told; rw [e] at a; simp only [lifew] at a; omega)
          | (have a := hp .gone; rw [e] at a; simp only [lifew] at a; omega)
  | recv =>
    simp only [step] at hs
    split at hs <;> cases hs
    rename_i e
    simp only [measure, e, List.length_cons]
    omega

theorem closing_step {R cap : Nat} {s s' : St} {c : Choice} (hc : Begun s.log c) (hs : step R cap s c = some s') : s'.closing = s.closing := by
  cases c with
  | close => exact hc.elim
  | push r => simp only [step, stepPush] at hs; (repeat' split at hs) <;> cases hs <;> rfl
  | headFirst r => simp only [step] at hs; split at hs <;> cases hs; rfl
  | loop => simp only [step, stepLoop] at hs; (repeat' split at hs) <;> cases hs <;> rfl
  | answer r => simp only [step, stepAnswer] at hs; (repeat' split at hs) <;> cases hs <;> rfl
  | recv => simp only [step] at hs; split at hs <;> cases hs; rfl

theorem log_step {R cap : Nat} {s s' : St} {c : Choice} (hs : step R cap s c = some s') {e : Ev} (he : e ∈ s.log) : e ∈ s'.log := by
  cases c with
  | close => simp only [step, stepClose] at hs; (repeat' split at hs) <;> cases hs <;> simp [he]
  | push r => simp only [step, stepPush] at hs; (repeat' split at hs) <;> cases hs <;> simp [he]
  | headFirst r => simp only [step] at hs; split at hs <;> cases hs; simp [he]
  | loop => simp only [step, stepLoop] at hs; (repeat' split at hs) <;> cases hs <;> simp [he]
  | answer r => simp only [step, stepAnswer] at hs; (repeat' split at hs) <;> cases hs <;> simp [he]
  | recv => simp only [step] at hs; split at hs <;> cases hs; simp [he]

theorem run_snoc {R cap : Nat} {s s1 s2 : St} {cs : List Choice} {c : Choice} (h : run R cap s cs = some s1) (h2 : step R cap s1 c = some s2) :
    run R cap s (cs ++ [c]) = some s2 := by
  induction cs generalizing s with
  | nil => cases h; simp [run, h2]
  | cons a cs ih =>
    simp only [run, List.cons_append] at *
    cases e : step R cap s a with
    | none => rw [e] at h; cases h
    | some t => rw [e] at h; simp only [Option.bind_some] at *; exact ih h

theorem onward {R cap : Nat} (hR : 0 < R) {B : Nat} {cs ds : List Choice} {s s' : St} (h : run R cap init cs = some s) (hb : Bnd B s)
    (hd : Onward R cap s ds s') : ds.length + measure B s' ≤ measure B s ∧ (∃ cs', run R cap init cs' = some s') ∧ s'.closing = s.closing ∧
      ∀ e, e ∈ s.log → e ∈ s'.log := by
  induction ds generalizing s cs with
  | nil => cases hd; exact ⟨by simp, ⟨_, h⟩, rfl, fun _ he => he⟩
  | cons c ds ih =>
    obtain ⟨hc, t, ht, hd⟩ := hd
    obtain ⟨S, hi⟩ := inv_run hR inv_init h
    have hsaid := said_run said_init h
    have h1 := lowers hi hsaid hb hc ht
    obtain ⟨i1, i2, i3, i4⟩ := ih (run_snoc h ht) (bnd_step hb (touched hsaid hb hc ht) ht) hd
    refine ⟨?_, i2, i3.trans (closing_step hc ht), fun e he => i4 e (log_step ht he)⟩
    simp only [List.length_cons]
    omega

/-- At rest. -/
theorem at_rest {R cap : Nat} (hR : 0 < R) (hcap : 0 < cap) {cs : List Choice} {s : St} (h : run R cap init cs = some s) (hcl : s.closing = 0)
    (hq : ∀ c, Begun s.log c → step R cap s c = none) :
    s.chan = [] ∧ s.loop = .wait ∧ s.sig = false ∧ (∀ r, .call r ∈ s.log → s.push r = .done) ∧ ∀ r, .answered r ∈ s.log → s.life r = .gone := by
  obtain ⟨S, hi⟩ := inv_run hR inv_init h
  have hsaid := said_run said_init h
  have c1 : s.chan = [] := by
    have := hq .recv trivial
    cases e : s.chan with
    | nil => rfl
    | cons a l => simp [step, e] at this
  have c2 : ∀ r, .answered r ∈ s.log → s.life r = .gone := by
    intro r hr
    have := hq (.answer r) hr
    have hne := hsaid.answered r hr
    simp only [step, stepAnswer] at this
    cases e : s.life r with
    | live => exact absurd e hne
    | gone => rfl
    | _ =>
      rw [e] at this
      dsimp only at this
      split at this <;> cases this
  have hl := hq .loop trivial
  simp only [step, stepLoop] at hl
  have c3 : s.loop = .wait ∧ s.sig = false := by
    cases e : s.loop with
    | wait =>
      rw [e] at hl
      dsimp only at hl
      cases es : s.sig with
      | false => exact ⟨rfl, rfl⟩
      | true => rw [es] at hl; simp at hl
    | exited =>
      have := (hi.exited e).1
      omega
    | send q =>
      rw [e] at hl
      dsimp only at hl
      rw [c1] at hl
      simp [hcap] at hl
    | row =>
      exfalso
      rw [e] at hl
      dsimp only at hl
      split at hl
      · cases hl
      · split at hl <;> cases hl
    | look o =>
      exfalso
      rw [e] at hl
      dsimp only at hl
      split at hl <;> cases hl
    | pend q => exfalso; rw [e] at hl; cases q <;> cases hl
    | _ => exfalso; rw [e] at hl; cases hl
  refine ⟨c1, c3.1, c3.2, fun r hr => ?_, c2⟩
  have hp := hq (.push r) hr
  have hne := hsaid.call r hr
  simp only [step, stepPush] at hp
  cases e : s.push r with
  | idle => exact absurd e hne
  | done => rfl
  | panicked => exact absurd e (Props.C65_no_panic_before_close_partial h (by omega) r)
  | chain n o =>
    exfalso
    rw [e] at hp
    dsimp only at hp
    split at hp
    · cases hp
    · cases hp
    · rename_i x1 x2
      have hl : s.life r ≠ .live := fun e => x1 e
      exact x2 (c2 r (hi.life r hl))
  | direct =>
    exfalso
    rw [e] at hp
    dsimp only at hp
    split at hp <;> cases hp
  | lookup n =>
    exfalso
    rw [e] at hp
    dsimp only at hp
    split at hp <;> cases hp
  | signal =>
    exfalso
    rw [e] at hp
    dsimp only at hp
    split at hp <;> cases hp
  | _ => exfalso; rw [e] at hp; cases hp

end Verif.Buffer.Rest
