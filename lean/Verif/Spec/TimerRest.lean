import Verif.Model.TimerLoop
/-!
Terms in which the theorems about expiring timers are stated.
-/
namespace Verif.TimerLoop

/-- A step of the timer goroutine or of the runtime timer: nobody arms or stops timers, and the clock stands still. -/
def Alone (c : Choice) : Prop := c = .timer ∨ c = .loop

end Verif.TimerLoop
