import Verif.Props.IfaceField
import Verif.Conform.Marshal

/-!
The vectors of `TestEncodeSIFace` (`/repo/marshal/marshal_test.go:265-288`) run on the model: tests of the model, not proofs of
properties.
-/
namespace Verif.Conform
open Verif.Marshal Verif.Reflect Verif.Props Verif.IfaceField

/-- `SIFace1` (marshal_test.go:131-134). -/
def siface1 : XFl := [(.use false (.cnt .i16), .any), (.use false (.cnt .i16), .anys)]

/-- `SIFace2` (marshal_test.go:136-138). -/
def siface2 : XFl := [(.use false (.size .ber), .any)]

/-- `SInts1` and the value with the four fields equal to 1. -/
def ints1 : Dyn := some (.struct (flds bare (sig.map .scal)), four sig [1, 1, 1, 1])

/-- `SInts3{4, 444, 444444, 4444444444}`. -/
def ints3 : Dyn := some (.struct (flds (.use true .none) (uns.map .scal)), four uns [4, 444, 444444, 4444444444])

/-- `[]SInts11{{4}, {444}, {444444}, {4444444444}}`. -/
def ints11 : Dyn := some (.sl (.struct (flds (.use true (.size .ber)) [.scal .u64])),
  .seq ([4, 444, 444444, 4444444444].map fun n => .seq [num .u64 n]))

example : out (write siface1 [.any ints11, .anys [ints1, ints3]]) =
    some [4, 0, 1, 4, 2, 131, 60, 3, 155, 144, 28, 5, 144, 199, 163, 174, 28, 2, 0, 1, 1, 0, 1, 0, 0, 0, 1, 0, 0, 0, 0, 0, 0, 0, 4, 131,
      60, 155, 144, 28, 144, 199, 163, 174, 28] := by
  decide +kernel
example : out (write siface1 [.any ints1, .anys []]) = some [1, 0, 1, 1, 0, 1, 0, 0, 0, 1, 0, 0, 0, 0, 0, 0, 0, 0, 0] := by
  decide +kernel
example : out (write siface2 [.any (some (.scal .i32, num .i32 1))]) = some [4, 1, 0, 0, 0] := by
  decide +kernel
example : out (write siface2 [.any none]) = some [0] := by
  decide +kernel

end Verif.Conform
