import Verif.Model.Parallel
/-!
Terms in which the theorems about the parallel service are stated.
-/
namespace Verif.Parallel

/-- A handler goroutine was started for `r` and has not ended. -/
def Live (s : St) (r : Nat) : Prop := s.h r ≠ .idle ∧ s.h r ≠ .ended

/-- `l` lists the live handlers, each once. -/
def LiveList (s : St) (l : List Nat) : Prop := l.Nodup ∧ ∀ r, r ∈ l ↔ Live s r

/-- The dispatcher holds a slot. -/
def holds : DPc → Nat
  | .claim _ => 1
  | .giveBack => 1
  | _ => 0

/-- The dispatcher has received `r` in its loop and not yet decided about it. -/
def Held (s : St) (r : Nat) : Prop := s.d = .got r ∨ s.d = .grab r ∨ s.d = .slot r ∨ s.d = .claim r

/-- Steps of the dispatcher. -/
def IsDisp (c : Choice) : Prop := c = .disp ∨ c = .dispExit

/-- The program goes on by itself: steps of the dispatcher and of handler goroutines, where the handler of `r`, when it ends, does as `ret r`
says. -/
def Onward (ret : Nat → Outcome) (c : Choice) : Prop := c = .disp ∨ ∃ r, c = .hand r ∨ c = .result r (ret r)

end Verif.Parallel
