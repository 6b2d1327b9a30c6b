import Verif.Model.Multi
/-!
Notions used to state the properties of multi-requests.
-/
namespace Verif.Multi

/-- `P` holds in every state of the run from `s` by the schedule `cs`. -/
def Along (P : St → Prop) : St → List Choice → Prop
  | s, [] => P s
  | s, c :: cs => P s ∧ ∀ s', step s c = some s' → Along P s' cs

/-- `n` times the same step. -/
def times (n : Nat) (c : Choice) : List Choice := List.replicate n c

/-- A goroutine is dead by a panic. -/
def Panicked (s : St) : Prop :=
  s.own = .nilPanic ∨ s.own = .chanPanic ∨ (∃ i, s.rp i = .sendPanic ∨ s.rp i = .closePanic) ∨ ∃ k, s.cp k = .dead

/-- While `Each` moves the responses which came before it, `Respond` for the last request does not come to close the
channel. -/
def Calm (s : St) : Prop :=
  ((∃ l, s.own = .eSend l) ∨ s.own = .eCmp) → ∀ i, s.rp i ≠ .close

/-- No response to request `i` is stored between the two looks of `performFailAll` at its entry. -/
def Apart (s : St) : Prop :=
  ∀ i, (∃ k a n, s.cp k = .fail2 a i n) ∨ (∃ m n, s.own = .fail2 m i n) → s.rp i ≠ .add ∧ ∀ l, s.own ≠ .eSend (i :: l)

/-- Every request that was created has been answered, and the `Respond` of each is through. -/
def Settled (s : St) : Prop := ∀ i, i < s.r → s.rp i = .done

end Verif.Multi
