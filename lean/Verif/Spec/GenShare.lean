import Verif.Model.GenShare

/-! Notions used to state the property of shared generators. -/
namespace Verif.GenShare

/-- The user does nothing in `cs`. -/
def Quits (u : Nat) (cs : List Choice) : Prop := .go u ∉ cs ∧ ∀ v, .call u v ∉ cs

/-- `Done` is called only between the requests a user makes, and the user makes no requests afterwards. -/
def Orderly (cap : Nat) : St → List Choice → Prop
  | _, [] => True
  | s, c :: cs => (∀ u, c = .done u → s.pc u = .idle ∧ Quits u cs) ∧ ∀ s', step cap s c = some s' → Orderly cap s' cs

/-- No request was handed out twice. -/
def Distinct (s : St) : Prop := (s.out.map fun o => (o.slab, o.i)).Nodup

/-- Every request has the body asked for. -/
def OwnBody (s : St) : Prop := ∀ o ∈ s.out, o.body = [o.val]

end Verif.GenShare
