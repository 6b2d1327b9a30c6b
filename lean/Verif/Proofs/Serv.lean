import Verif.Spec.Serv
/-!
Invariants of a server connection.
-/
namespace Verif.Serv

theorem keys_append (a b : List Item) : keys (a ++ b) = keys a ++ keys b := by
  induction a with
  | nil => rfl
  | cons m a ih => cases m <;> simp [keys, ih]

theorem ids_append (a b : List Item) : ids (a ++ b) = ids a ++ ids b := by
  induction a with
  | nil => rfl
  | cons m a ih => cases m <;> simp [ids, ih]

theorem mem_keys {k : Nat} {l : List Item} : k ∈ keys l ↔ ∃ id, Item.resp id k ∈ l := by
  induction l with
  | nil => simp [keys]
  | cons m l ih => cases m <;> simp [keys, ih]; grind

structure Inv (s : St) : Prop where
  buf : s.buf = []
  lock1 : ∀ k, s.lock = some k → s.rs k = .busy
  lock2 : ∀ k, s.rs k = .busy → s.lock = some k
  new : ∀ k, s.n ≤ k → s.rs k = .new
  fly : ∀ id k, (id, k) ∈ s.inFly → s.idOf k = id ∧ (s.rs k = .sent ∨ s.rs k = .called)
  rd1 : s.rdClosed = true → s.rp = .done
  rd2 : .readClosed ∈ s.q → s.rp = .done ∧ s.rdClosed = false ∧ s.cp ≠ .rlock
  rd3 : s.cp = .rlock → s.rp = .done ∧ s.rdClosed = false
  q : s.q.Nodup
  clo : s.outClosed = true → s.rdClosed = true ∧ s.inFly = [] ∧ s.out = [] ∧ s.lock = none
  emp : s.wp = .empty → s.rdClosed = true ∧ s.inFly = [] ∧ s.out = [] ∧ s.lock = none ∧ .inFlyEmpty ∉ s.q
  empq : .inFlyEmpty ∈ s.q → s.rdClosed = true ∧ s.inFly = [] ∧ s.out = [] ∧ s.lock = none ∧
    (s.wp = .fin false ∨ s.wp = .fin true ∨ s.wp = .done false ∨ s.wp = .done true)
  fin : s.wp = .fin false ∨ s.wp = .done false → s.rdClosed = true ∧ s.inFly = [] ∧ s.out = [] ∧ s.lock = none
  wr1 : s.wrClosed = true → s.wp = .done false ∨ s.wp = .done true
  wr2 : .writeClosed ∈ s.q → s.wp = .done false ∨ s.wp = .done true
  cl : s.cp = .closing ∨ s.cp = .done → s.wrClosed = true
  item : ∀ id k, .resp id k ∈ flow s → s.idOf k = id ∧ s.rs k = .done
  nodup : (keys (flow s)).Nodup
  pong1 : ∀ id, .pong id ∈ flow s → id ∈ s.pings
  pong2 : ∀ id, s.rp = .pong id → id ∈ s.pings
  olen : s.out.length ≤ cap
  wake : s.rdClosed = true → s.inFly = [] → s.out = [] → s.lock = none → s.wp = .flush ∨ s.wp = .wait → s.outClosed = true

theorem inv_init : Inv init := by
  constructor <;> simp [init, flow, held, keys]

attribute [grind] set held closeOut
attribute [grind =] keys_append mem_keys List.nodup_append keys

theorem has_false {l : List (Nat × Nat)} {id : Nat} (h : has l id = false) : ∀ p, p ∈ l → p.1 ≠ id := by
  unfold has at h
  simpa using h

theorem del_mem {l : List (Nat × Nat)} {id : Nat} {p : Nat × Nat} : p ∈ del l id ↔ p ∈ l ∧ p.1 ≠ id := by
  unfold del
  simp

attribute [grind =] del_mem

theorem has_ne {l : List (Nat × Nat)} {id : Nat} (h : has l id = true) : l ≠ [] := by
  intro e
  rw [e] at h
  cases h

set_option maxHeartbeats 4000000 in
theorem inv_begin {s : St} {k : Nat} (h : Inv s) (hk : s.rs k = .called) (hl : s.lock = none) : Inv (beginRespond s k) := by
  unfold beginRespond
  split
  · rename_i h1
    have h2 := has_ne h1
    split
    · obtain ⟨⟩ := h
      constructor <;> simp only [flow] at * <;> first | assumption | grind
    · exact absurd h.buf ‹_›
  · rename_i h1
    have h2 := has_false (Bool.eq_false_iff.mpr h1)
    obtain ⟨⟩ := h
    constructor <;> simp only [flow] at * <;> first | assumption | grind

set_option maxHeartbeats 4000000 in
theorem inv_step {s s' : St} {c : Choice} (h : Inv s) (hs : step s c = some s') : Inv s' := by
  unfold step at hs
  split at hs
  · cases hs
  · cases c with
    | rl =>
      simp only [step1, stepR] at hs
      (repeat' split at hs) <;> cases hs <;>
        (obtain ⟨⟩ := h; constructor <;> simp only [flow] at * <;> first | assumption | grind)
    | wl =>
      simp only [step1, stepW] at hs
      (repeat' split at hs) <;> cases hs <;>
        (obtain ⟨⟩ := h; constructor <;> simp only [flow] at * <;> first | assumption | grind [cases Bool])
    | ctl =>
      simp only [step1, stepC] at hs
      (repeat' split at hs) <;> cases hs <;>
        (obtain ⟨⟩ := h; constructor <;> simp only [flow] at * <;> first | assumption | grind)
    | begin k =>
      simp only [step1] at hs
      split at hs <;> cases hs
      rename_i h1
      exact inv_begin h h1.1 h1.2
    | _ =>
      simp only [step1] at hs
      (repeat' split at hs) <;> cases hs <;>
        (obtain ⟨⟩ := h; constructor <;> simp only [flow] at * <;> first | assumption | grind [List.append_eq_nil_iff])

theorem inv_run {cs : List Choice} {s s' : St} (h : Inv s) (hs : run s cs = some s') : Inv s' := by
  induction cs generalizing s with
  | nil => cases hs; exact h
  | cons c cs ih =>
    simp only [run] at hs
    cases e : step s c with
    | none => rw [e] at hs; cases hs
    | some s1 =>
      rw [e] at hs
      exact ih (inv_step h e) hs

/-- The write loop has not failed. -/
def Sound (s : St) : Prop := s.wp ≠ .fin true ∧ s.wp ≠ .done true

structure Full (s : St) : Prop where
  le : s.fresh.length ≤ s.n
  known : ∀ k, k < s.n → s.rs k ≠ .new
  uniq : ∀ id k k', (id, k) ∈ s.inFly → (id, k') ∈ s.inFly → k = k'
  fly : s.fresh.length = s.n → s.wp ≠ .fin true → s.wp ≠ .done true → ∀ k, s.rs k = .sent ∨ s.rs k = .called → (s.idOf k, k) ∈ s.inFly
  dn : s.fresh.length = s.n → s.wp ≠ .fin true → s.wp ≠ .done true → ∀ k, s.rs k = .done → .resp (s.idOf k) k ∈ flow s

theorem full_init : Full init := by
  constructor <;> simp [init]

theorem has_true {l : List (Nat × Nat)} {id : Nat} (h : has l id = true) : ∃ p, p ∈ l ∧ p.1 = id := by
  unfold has at h
  simpa using h

set_option maxHeartbeats 4000000 in
theorem full_begin {s : St} {k : Nat} (i : Inv s) (h : Full s) (hk : s.rs k = .called) : Full (beginRespond s k) := by
  unfold beginRespond
  split
  · split
    · obtain ⟨⟩ := i
      obtain ⟨⟩ := h
      constructor <;> simp only [flow] at * <;> first | assumption | grind
    · exact absurd i.buf ‹_›
  · rename_i h1
    have h2 := has_false (Bool.eq_false_iff.mpr h1)
    obtain ⟨⟩ := i
    obtain ⟨⟩ := h
    constructor <;> simp only [flow] at * <;> first | assumption | grind

set_option maxHeartbeats 4000000 in
theorem full_step {s s' : St} {c : Choice} (i : Inv s) (h : Full s) (hs : step s c = some s') : Full s' := by
  unfold step at hs
  split at hs
  · cases hs
  · cases c with
    | rl =>
      have h2 : ∀ id, has s.inFly id = false → ∀ p, p ∈ s.inFly → p.1 ≠ id := fun _ => has_false
      simp only [step1, stepR] at hs
      (repeat' split at hs) <;> cases hs <;>
        (obtain ⟨⟩ := i; obtain ⟨⟩ := h; constructor <;> simp only [flow] at * <;> first | assumption | grind)
    | wl =>
      by_cases hf : ∃ e, s.wp = .fin e
      · obtain ⟨e, he⟩ := hf
        simp only [step1, stepW, he] at hs
        split at hs <;> cases hs
        have f1 := h.fly
        have f2 := h.dn
        simp only [flow, he, held] at f1 f2
        cases e <;> exact ⟨h.le, h.known, h.uniq, by first | (simp; done) | simpa using f1,
          by first | (simp; done) | simpa [flow, held] using f2⟩
      · simp only [step1, stepW] at hs
        (repeat' split at hs) <;> cases hs <;>
          (obtain ⟨⟩ := i; obtain ⟨⟩ := h; constructor <;> simp only [flow] at * <;> first | assumption | grind)
    | ctl =>
      simp only [step1, stepC] at hs
      (repeat' split at hs) <;> cases hs <;>
        (obtain ⟨⟩ := i; obtain ⟨⟩ := h; constructor <;> simp only [flow] at * <;> first | assumption | grind)
    | begin k =>
      simp only [step1] at hs
      split at hs <;> cases hs
      rename_i h1
      exact full_begin i h h1.1
    | _ =>
      simp only [step1] at hs
      (repeat' split at hs) <;> cases hs <;>
        (obtain ⟨⟩ := i; obtain ⟨⟩ := h; constructor <;> simp only [flow] at * <;> first | assumption | grind)

theorem full_run {cs : List Choice} {s s' : St} (i : Inv s) (h : Full s) (hs : run s cs = some s') : Full s' := by
  induction cs generalizing s with
  | nil => cases hs; exact h
  | cons c cs ih =>
    simp only [run] at hs
    cases e : step s c with
    | none => rw [e] at hs; cases hs
    | some s1 =>
      rw [e] at hs
      exact ih (inv_step i e) (full_step i h e) hs

end Verif.Serv
