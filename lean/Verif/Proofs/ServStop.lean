import Verif.Model.ServStop
/-!
Invariants of the server.
-/
namespace Verif.ServStop

structure Inv (s : St) : Prop where
  conns : ∀ i, i < s.cur → i ∈ s.conns ∨ (s.con i).w = .reported
  lt : ∀ i, i ∈ s.conns → i < s.cur ∧ ((s.con i).w ≠ .reported ∨ s.got = some (.closed i))
  new : ∀ i, s.cur ≤ i → (s.con i).w = .up
  ended : s.running = false → s.closing = true ∧ s.conns = []
  ended' : s.running = false → s.got = none
  stop : s.stop = 1 → s.closing = true
  gstop : s.got = some .stop → s.closing = true
  gclosed : ∀ i, s.got = some (.closed i) → (s.con i).w = .reported
  held : s.lock = true → s.closing = true
  todo : s.closing = true → s.running = true → s.conns = [] → s.stop = 1 ∨ s.got = some .stop
  st : s.stop = 0 ∨ s.stop = 1

theorem inv_init : Inv init := by
  constructor <;> simp [init]

attribute [grind] set

theorem onClosed_eq (s : St) (i : Nat) : (onClosed s i).cur = s.cur ∧ (onClosed s i).con = s.con ∧
    (onClosed s i).closing = s.closing ∧ (onClosed s i).conns = s.conns.filter (· ≠ i) ∧
    (onClosed s i).lock = s.lock ∧ (onClosed s i).got = s.got := by
  unfold onClosed
  dsimp only
  split <;> simp

set_option maxHeartbeats 1000000 in
theorem inv_step {s s' : St} {c : Choice} (h : Inv s) (hs : step s c = some s') : Inv s' := by
  cases c <;> simp only [step, onClosed] at hs <;> (repeat' split at hs) <;> cases hs <;>
    (obtain ⟨⟩ := h; constructor <;> dsimp only <;> first | assumption | grind)

theorem inv_run {cs : List Choice} {s s' : St} (h : Inv s) (hs : run s cs = some s') : Inv s' := by
  induction cs generalizing s with
  | nil => cases hs; exact h
  | cons c cs ih =>
    simp only [run] at hs
    cases e : step s c with
    | none => rw [e] at hs; cases hs
    | some s1 =>
      rw [e] at hs
      exact ih (inv_step h e) hs

end Verif.ServStop
