/-!
The statistics of the benchmark, examples/bench/bench.go. The sum of squares, a float64, is left out: its rounding depends on the order of the
measurements. `time.Duration` is converted to `uint64` (bench.go:32): a measurement here is the result of that.
-/
namespace Verif.Bench

/-- `Accum` (bench.go:20-25). -/
structure Accum where
  count : UInt64
  bad : UInt64
  min : UInt64
  max : UInt64
  sum : UInt64
deriving DecidableEq

/-- `Accum{Min: ^uint64(0)}` (bench.go:115, 132). -/
def fresh : Accum := ⟨0, 0, ~~~0, 0, 0⟩

/-- `Epoch` (bench.go:27-41). -/
def Accum.epoch (a : Accum) (d : UInt64) (good : Bool) : Accum :=
  { count := a.count + 1, bad := if !good then a.bad + 1 else a.bad, sum := a.sum + d,
    min := if a.min > d then d else a.min, max := if a.max < d then d else a.max }

/-- `Accum.Accum` (bench.go:43-54). -/
def Accum.add (a o : Accum) : Accum :=
  { count := a.count + o.count, bad := a.bad + o.bad, sum := a.sum + o.sum,
    min := if a.min > o.min then o.min else a.min, max := if a.max < o.max then o.max else a.max }

/-- What a goroutine has after its measurements (bench.go:132-147). -/
def record (ms : List (UInt64 × Bool)) : Accum := ms.foldl (fun a m => a.epoch m.1 m.2) fresh

/-- What is printed: the results of the goroutines in the order in which they come (bench.go:115, 156-159). -/
def total (gs : List Accum) : Accum := gs.foldl Accum.add fresh

end Verif.Bench
