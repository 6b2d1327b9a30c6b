import Verif.Model.Lost
/-!
Terms in which it is stated that the loss of a connection is noticed.
-/
namespace Verif.Lost

/-- What nobody outside the connection has to do: everything but sending requests, stopping the connection and closing it at the other end. -/
def Inner : Choice → Bool
  | .send _ => false
  | .stop => false
  | .hangUp => false
  | _ => true

/-- Nothing more happens unless somebody outside does something. -/
def Rest (s : St) : Prop := ∀ c, Inner c = true → step s c = none

/-- Nothing more happens before the next ping, unless somebody outside does something. -/
def Rests (s : St) : Prop := ∀ c, Inner c = true → c ≠ .tick → step s c = none

/-- Every request that was taken was answered, and once. -/
def AllAnswered (s : St) : Prop := ∀ r, (s.ans.map Prod.fst).count r = s.taken.count r

end Verif.Lost
