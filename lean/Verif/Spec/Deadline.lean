/-!
Timeouts as the peer sees them: what it sends is a list of (time, number of bytes).
-/
namespace Verif.Spec.Deadline

def total : List (Nat × Nat) → Nat
  | [] => 0
  | (_, k) :: r => k + total r

/-- When the last of these has been received by one who waits for them from `t` on. -/
def last (t : Nat) : List (Nat × Nat) → Nat
  | [] => t
  | (a, _) :: r => last (max t a) r

/-- The waiting for each of them, from the one before (at first from `t`), is less than `timeout`. -/
def Steady (timeout : Nat) : Nat → List (Nat × Nat) → Prop
  | _, [] => True
  | t, (a, _) :: r => a < t + timeout ∧ Steady timeout (max t a) r

/-- Nothing more comes within `timeout` of `t`. -/
def Stalled (timeout t : Nat) : List (Nat × Nat) → Prop
  | [] => True
  | (a, _) :: _ => t + timeout ≤ a

end Verif.Spec.Deadline
