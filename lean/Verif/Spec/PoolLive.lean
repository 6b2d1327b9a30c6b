import Verif.Spec.Pool
/-!
Terms in which the recovery of a connection pool is stated.
-/
namespace Verif.Pool

/-- The pool is never stopped, and `SetConnections` never asks for fewer connections than before (`n` at first). -/
def Raises : Int → List Choice → Prop
  | _, [] => True
  | _, .exit :: _ => False
  | n, .setConns m :: cs => n ≤ m ∧ Raises m cs
  | n, _ :: cs => Raises n cs

/-- Nothing goes wrong, and nobody asks the pool for anything: dialing succeeds, no read loop ends, and only connections whose read loop has ended
(which are closed for writing too, connection.go:167) fail to write. -/
def Mends (s : St) : Choice → Prop
  | .exit => False
  | .setConns _ => False
  | .dialed _ ok => ok = true
  | .rErr _ => False
  | .wErr i => (s.con i).rp = .done
  | _ => True

/-- Such steps, made one after the other. -/
def Mended : St → List Choice → St → Prop
  | s, [], s' => s' = s
  | s, c :: cs, s' => Mends s c ∧ ∃ t, step s c = some t ∧ Mended t cs s'

/-- A step in which something changes in the pool: a report is received, a connection is dialed, started, found broken or taken down. (What is left is
the ticker, and the write loops that go round.) -/
def Works : Choice → Bool
  | .recv => true
  | .dialed _ _ => true
  | .lp _ => true
  | .wErr _ => true
  | .ctl _ => true
  | _ => false

/-- From now on nothing changes any more, whatever the ticker does: there are no such steps, and no connections are opened. -/
def Settled (s : St) : Prop := ∀ ds s', Mended s ds s' → ds.countP Works = 0 ∧ s'.cur = s.cur

/-- Both sides of the connection are running. -/
def Alive (c : Con) : Bool := c.lp = .running ∧ c.rp = .run ∧ (c.wp = .top ∨ c.wp = .body ∨ c.wp = .wait)

end Verif.Pool
