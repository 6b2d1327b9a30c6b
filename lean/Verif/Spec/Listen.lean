import Verif.Model.Listen

/-! What the log of a server says about its sockets. Only the types of events and of choices are used. -/
namespace Verif.Listen.Spec

/-- The events in which something becomes of socket k: it is served or closed. -/
def fates (k : Nat) : List Ev → Nat
  | [] => 0
  | .started j _ :: es => (if j = k then 1 else 0) + fates k es
  | .shut j :: es => (if j = k then 1 else 0) + fates k es
  | _ :: es => fates k es

/-- Nothing becomes of a socket before it was accepted, and not two things. -/
def Once (log : List Ev) : Prop := ∀ k, fates k log ≤ 1 ∧ (0 < fates k log → .accepted k ∈ log)

/-- No two sockets are served under one id. -/
def Apart (log : List Ev) : Prop := ∀ k j id, .started k id ∈ log → .started j id ∈ log → k = j

/-- No connection is started after `e`. -/
def NoneAfter (e : Ev) (log : List Ev) : Prop := ∀ a b k id, log = a ++ e :: b → .started k id ∉ b

/-- Every connection that was started was told to stop, or has reported its end. -/
def Told (log : List Ev) : Prop := ∀ k id, .started k id ∈ log → .told id ∈ log ∨ .gone id ∈ log

/-- Every connection that was started has reported its end. -/
def Gone (log : List Ev) : Prop := ∀ k id, .started k id ∈ log → .gone id ∈ log

/-- How many of the choices are steps of `listenLoop`. -/
def loops : List Choice → Nat
  | [] => 0
  | .accept :: cs | .fail :: cs | .listen :: cs => loops cs + 1
  | _ :: cs => loops cs

end Verif.Listen.Spec
