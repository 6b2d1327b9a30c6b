import Verif.Model.Timer
/-!
What timers are supposed to do, without any heap: a collection of armed timers (expirator, deadline).
-/
namespace Verif.Timer

abbrev Armed := List (Nat × Int)

/-- The timer of `x` is armed. -/
def isArmed (A : Armed) (x : Nat) : Prop := ∃ e, (x, e) ∈ A

/-- One operation with its observable result, from the armed timers `A` to the armed timers `B` (up to order). -/
def Allowed (A : Armed) (o : Op) (r : Res) (B : Armed) : Prop :=
  match o, r with
  | .after x e, .signal b => B.Perm ((x, e) :: A) ∧ (b = true ↔ ∀ p ∈ A, e < p.2)
  | .stop x, .none => B.Perm (A.filter fun p => p.1 ≠ x)
  | .scan now, .none => B.Perm A ∧ ∀ p ∈ A, now ≤ p.2
  | .scan now, .expired x => ∃ e, (x, e) ∈ A ∧ e < now ∧ (∀ p ∈ A, e ≤ p.2) ∧ A.Perm ((x, e) :: B)
  | _, _ => False

/-- A whole history. -/
inductive AllowedRun : Armed → List Op → List Res → Armed → Prop
  | nil {A B} : B.Perm A → AllowedRun A [] [] B
  | cons {A B C o r os rs} : Allowed A o r B → AllowedRun B os rs C → AllowedRun A (o :: os) (r :: rs) C

/-- The slots that can be reached from the top of the heap along the child entries. -/
inductive Reach (H : Heap) : Nat → Prop
  | top : H.top ≠ 0 → Reach H H.top
  | kid {i k} : Reach H i → k < (H.h i).downl → Reach H ((H.h i).kid k)

/-- The heap and the timers' own fields say that exactly the timers `A` are armed. -/
structure Holds (s : St) (A : Armed) : Prop where
  /-- what is in the heap is in `A` -/
  sound : ∀ i, Reach s.hp i → ∃ x, (s.hp.h i).x = some x ∧ s.ti x = i ∧ (x, (s.hp.h i).e) ∈ A
  /-- what is in `A` is in the heap, at the place the timer remembers -/
  complete : ∀ x e, (x, e) ∈ A → Reach s.hp (s.ti x) ∧ (s.hp.h (s.ti x)).x = some x ∧ (s.hp.h (s.ti x)).e = e
  /-- a timer that is not armed knows that -/
  unarmed : ∀ x, ¬ isArmed A x → s.ti x = 0
  once : (A.map (·.1)).Nodup
  size : s.hp.size = A.length
  top : A ≠ [] → ∀ p ∈ A, (s.hp.h s.hp.top).e ≤ p.2

end Verif.Timer
