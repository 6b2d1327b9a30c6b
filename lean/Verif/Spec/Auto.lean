import Verif.Model.Auto
/-!
Terms in which the theorems about `client.Auto` are stated.
-/
namespace Verif.Auto

/-- `serv` was created for `addr` and not stopped. -/
def Live (s : St) (addr serv : Nat) : Prop := Ev.made addr serv ∈ s.log ∧ Ev.stopped serv ∉ s.log

/-- The states that can be reached. -/
def Reach (s : St) : Prop := ∃ cs, run init cs = some s

/-- No goroutine has called `Get` with the empty address. -/
def NoEmpty (s : St) : Prop := ∀ t, Ev.called t 0 ∉ s.log

/-- The history up to the end of the last `Stop`. -/
def upToStop (log : List Ev) : List Ev := log.dropWhile (· ≠ .cleared)

/-- The history up to the last call of `Get` by goroutine `t`. -/
def upToCall (t : Nat) : List Ev → List Ev
  | [] => []
  | .called u _ :: log => if u = t then log else upToCall t log
  | _ :: log => upToCall t log

/-- How many steps a goroutine that holds the lock makes before it has released it. -/
def todo (s : St) : Pc → Nat
  | .make _ => 2
  | .unlock1 _ => 1
  | .again _ => 5
  | .create _ => 4
  | .fill _ _ => 3
  | .publish _ _ _ => 2
  | .unlock2 _ _ => 1
  | .sCheck => (entries s.servers).length + 3
  | .sLoop rest => rest.length + 2
  | .sUnlock => 1
  | _ => 0

end Verif.Auto
