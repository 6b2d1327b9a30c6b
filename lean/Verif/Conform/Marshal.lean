import Verif.Props.Reflect
import Verif.Props.Iface

/-!
Test vectors of `/repo/marshal/marshal_test.go:135-189` run on the model: tests that the model agrees with what the repository's
own tests expect of the code. These are tests of the model, not proofs of properties.

Each vector is written with `Write` and read back with `Read` (`TestEncode`, `TestDecode`, marshal_test.go:255-267).
-/
namespace Verif.Conform
open Verif.Marshal Verif.Reflect Verif.Props

/-- The fields of a struct, all with the same tag. -/
def flds (g : Tag) : List Ty → Fl
  | [] => .nil
  | t :: ts => .cons g t (flds g ts)

/-- The fields of a struct with their tags. -/
def tagged : List (Tag × Ty) → Fl
  | [] => .nil
  | (g, t) :: ts => .cons g t (tagged ts)

/-- No tag. -/
def bare : Tag := .use false .none

/-- A value of an integer kind. -/
def num (k : Kind) (n : Int) : Val := .scal <| match k with
  | .u8 => .u8 (UInt8.ofInt n) | .u16 => .u16 (UInt16.ofInt n) | .u32 => .u32 (UInt32.ofInt n) | .u64 => .u64 (UInt64.ofInt n)
  | .i8 => .i8 (Int8.ofInt n) | .i16 => .i16 (Int16.ofInt n) | .i32 => .i32 (Int32.ofInt n) | .i64 => .i64 (Int64.ofInt n)
  | .f32 => .f32 0 | .f64 => .f64 0

/-- A sequence of integers. -/
def nums (k : Kind) (ns : List Int) : Val := .seq (ns.map (num k))

/-- A struct of four integers of the kinds `ks`. -/
def four (ks : List Kind) (ns : List Int) : Val := .seq ((ks.zip ns).map fun q => num q.1 q.2)

/-- The signed and the unsigned kinds. -/
def sig : List Kind := [.i8, .i16, .i32, .i64]
@[inherit_doc sig]
def uns : List Kind := [.u8, .u16, .u32, .u64]

/-- `Write` gives the bytes. -/
def writes (t : Ty) (v : Val) (m : Bytes) : Bool := out (write t v) = some m

/-- `Read` of the bytes gives the value. -/
def reads (t : Ty) (v : Val) (m : Bytes) : Bool := Reflect.read t m = some (⟨[], none⟩, v)

/-- `TestEncode` and `TestDecode`. -/
def ok (t : Ty) (v : Val) (m : Bytes) : Bool := writes t v m && reads t v m

example : ok .str (.str [97, 98, 99]) [3, 0, 0, 0, 97, 98, 99] = true := by
  decide +kernel
example : ok (.arr 2 .str) (.seq [.str [97, 98, 99], .str [99, 100, 101]]) [3, 0, 0, 0, 97, 98, 99, 3, 0, 0, 0, 99, 100, 101] = true := by
  decide +kernel
example : ok (.sl .str) (.seq [.str [97, 98, 99], .str [99, 100, 101]]) [2, 0, 0, 0, 3, 0, 0, 0, 97, 98, 99, 3, 0, 0, 0, 99, 100, 101] =
    true := by
  decide +kernel
example : ok (.scal .u32) (num .u32 1234) [210, 4, 0, 0] = true := by
  decide +kernel
example : ok (.scal .u32) (num .u32 12345678) [78, 97, 188, 0] = true := by
  decide +kernel
example : ok (.arr 2 (.scal .u32)) (nums .u32 [1234, 12345678]) [210, 4, 0, 0, 78, 97, 188, 0] = true := by
  decide +kernel
example : writes (.ptr (.arr 2 (.scal .u32))) (.ref (nums .u32 [1234, 12345678])) [210, 4, 0, 0, 78, 97, 188, 0] = true := by
  decide +kernel
example : ok (.sl (.scal .u32)) (nums .u32 [1234, 12345678]) [2, 0, 0, 0, 210, 4, 0, 0, 78, 97, 188, 0] = true := by
  decide +kernel
example : writes (.ptr (.sl (.scal .u32))) (.ref (nums .u32 [1234, 12345678])) [2, 0, 0, 0, 210, 4, 0, 0, 78, 97, 188, 0] = true := by
  decide +kernel
example : ok (.struct (flds bare (sig.map .scal))) (four sig [1, 1, 1, 1]) [1, 1, 0, 1, 0, 0, 0, 1, 0, 0, 0, 0, 0, 0, 0] = true := by
  decide +kernel
example : writes (.ptr (.struct (flds bare (sig.map .scal)))) (.ref (four sig [1, 1, 1, 1])) [1, 1, 0, 1, 0, 0, 0, 1, 0, 0, 0, 0, 0, 0, 0]
    = true := by
  decide +kernel
example : ok (.struct (flds bare (sig.map .scal))) (four sig [-2, -2, -2, -2]) [254, 254, 255, 254, 255, 255, 255, 254, 255, 255, 255,
    255, 255, 255, 255] = true := by
  decide +kernel
example : ok (.struct (flds bare (uns.map .scal))) (four uns [3, 3, 3, 3]) [3, 3, 0, 3, 0, 0, 0, 3, 0, 0, 0, 0, 0, 0, 0] = true := by
  decide +kernel
example : ok (.struct (flds (.use true .none) (uns.map .scal))) (four uns [4, 444, 444444, 4444444444]) [4, 131, 60, 155, 144, 28, 144,
    199, 163, 174, 28] = true := by
  decide +kernel
example : ok (.struct (flds (.use true .none) (uns.map .scal))) (four uns [5, 5, 5, 5]) [5, 5, 5, 5] = true := by
  decide +kernel
example : ok (.struct (flds (.use false (.size .ber)) (sig.map .scal))) (four sig [6, 6, 6, 6]) [1, 6, 2, 6, 0, 4, 6, 0, 0, 0, 8, 6, 0, 0,
    0, 0, 0, 0, 0] = true := by
  decide +kernel
example : ok (.struct (flds (.use false (.size .ber)) (sig.map .scal))) (four sig [-7, -7, -7, -7]) [1, 249, 2, 249, 255, 4, 249, 255,
    255, 255, 8, 249, 255, 255, 255, 255, 255, 255, 255] = true := by
  decide +kernel
example : ok (.struct (flds (.use false (.size .i16)) (sig.map .scal))) (four sig [-8, -8, -8, -8]) [1, 0, 248, 2, 0, 248, 255, 4, 0, 248,
    255, 255, 255, 8, 0, 248, 255, 255, 255, 255, 255, 255, 255] = true := by
  decide +kernel
example : ok (.struct (flds (.use false (.size .i16)) (sig.map .scal))) (four sig [9, 9, 9, 9]) [1, 0, 9, 2, 0, 9, 0, 4, 0, 9, 0, 0, 0, 8,
    0, 9, 0, 0, 0, 0, 0, 0, 0] = true := by
  decide +kernel
example : ok (.struct (flds (.use false (.size .i32)) (sig.map .scal))) (four sig [-10, -10, -10, -10]) [1, 0, 0, 0, 246, 2, 0, 0, 0, 246,
    255, 4, 0, 0, 0, 246, 255, 255, 255, 8, 0, 0, 0, 246, 255, 255, 255, 255, 255, 255, 255] = true := by
  decide +kernel
example : ok (.struct (flds (.use false (.size .i32)) (sig.map .scal))) (four sig [11, 11, 11, 11]) [1, 0, 0, 0, 11, 2, 0, 0, 0, 11, 0, 4,
    0, 0, 0, 11, 0, 0, 0, 8, 0, 0, 0, 11, 0, 0, 0, 0, 0, 0, 0] = true := by
  decide +kernel
example : ok (.struct (flds (.use true (.size .i32)) (uns.map .scal))) (four uns [4, 444, 444444, 4444444444]) [1, 0, 0, 0, 4, 2, 0, 0, 0,
    131, 60, 3, 0, 0, 0, 155, 144, 28, 5, 0, 0, 0, 144, 199, 163, 174, 28] = true := by
  decide +kernel
example : ok (.arr 4 (.struct (.cons (.use true (.size .ber)) (.scal .u64) .nil))) (.seq ([4, 444, 444444, 4444444444].map fun n => .seq
    [num .u64 n])) [1, 4, 2, 131, 60, 3, 155, 144, 28, 5, 144, 199, 163, 174, 28] = true := by
  decide +kernel
example : ok (.sl (.struct (.cons (.use true (.size .ber)) (.scal .u64) .nil))) (.seq ([4, 444].map fun n => .seq [num .u64 n])) [2, 0, 0,
    0, 1, 4, 2, 131, 60] = true := by
  decide +kernel
example : ok (.struct (tagged [(bare, .arr 2 (.scal .u32)), ((.use false (.size .ber)), .arr 2 (.scal .u32)), ((.use false (.size .i16)),
    .arr 2 (.scal .u32)), ((.use false (.cnt .ber)), .arr 2 (.scal .u32)), ((.use false (.cnt .i16)), .arr 2 (.scal .u32)), ((.use true
    (.size .ber)), .arr 2 (.scal .u32)), ((.use true (.cnt .ber)), .arr 2 (.scal .u32))])) (.seq [nums .u32 [1, 2], nums .u32 [3, 4], nums
    .u32 [5, 6], nums .u32 [7, 8], nums .u32 [9, 10], nums .u32 [11, 12], nums .u32 [13, 14]]) [1, 0, 0, 0, 2, 0, 0, 0, 8, 3, 0, 0, 0, 4,
    0, 0, 0, 8, 0, 5, 0, 0, 0, 6, 0, 0, 0, 2, 7, 0, 0, 0, 8, 0, 0, 0, 2, 0, 9, 0, 0, 0, 10, 0, 0, 0, 2, 11, 12, 2, 13, 14] = true := by
  decide +kernel
example : ok (.struct (tagged [(bare, .sl (.scal .u32)), ((.use false (.size .ber)), .sl (.scal .u32)), ((.use false (.size .i16)), .sl
    (.scal .u32)), ((.use false (.cnt .ber)), .sl (.scal .u32)), ((.use false (.cnt .i16)), .sl (.scal .u32)), ((.use true (.size .ber)),
    .sl (.scal .u32)), ((.use true (.cnt .ber)), .sl (.scal .u32))])) (.seq [nums .u32 [1, 2], nums .u32 [3, 4], nums .u32 [5, 6], nums
    .u32 [7, 8], nums .u32 [9, 10], nums .u32 [11, 12], nums .u32 [13, 14]]) [2, 0, 0, 0, 1, 0, 0, 0, 2, 0, 0, 0, 8, 3, 0, 0, 0, 4, 0, 0,
    0, 8, 0, 5, 0, 0, 0, 6, 0, 0, 0, 2, 7, 0, 0, 0, 8, 0, 0, 0, 2, 0, 9, 0, 0, 0, 10, 0, 0, 0, 2, 11, 12, 2, 13, 14] = true := by
  decide +kernel
example : ok (.struct (tagged [(.use false (.cnt .ber), .struct (flds bare [.scal .i32, .scal .i16])), (.use false (.cnt .i16), .sl
    (.struct (flds bare [.scal .i16, .scal .i32])))])) (.seq [.seq [num .i32 1, num .i16 2], .seq [.seq [num .i16 3, num .i32 4], .seq
    [num .i16 5, num .i32 6]]]) [1, 1, 0, 0, 0, 2, 0, 2, 0, 3, 0, 4, 0, 0, 0, 5, 0, 6, 0, 0, 0] = true := by
  decide +kernel
example : ok (.struct (flds bare [.str])) (.seq [.str [97, 115, 100, 102]]) [4, 0, 0, 0, 97, 115, 100, 102] = true := by
  decide +kernel
example : ok (.struct (tagged [(bare, .scal .u8), (bare, .sl (.scal .u8)), (.use false (.size .ber), .sl (.scal .i8))])) (.seq [num .u8 1,
    nums .u8 [1, 2, 3, 4], nums .i8 [2, 3]]) [1, 4, 0, 0, 0, 1, 2, 3, 4, 2, 2, 3] = true := by
  decide +kernel

end Verif.Conform
