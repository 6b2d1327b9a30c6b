import Verif.Conform.Marshal
import Verif.Props.Sbox

/-!
Test vectors of `/repo/sbox/tuple_test.go:25-34,109-118` and `/repo/sbox/sbox_test.go:17-105` run on the model: tests of the model, not
proofs of properties. (A named type is as its underlying type; reading into a `[]interface{}` of pointers,
tuple_test.go:100-108, is not modelled.)
-/
namespace Verif.Conform
open Verif.Marshal Verif.Reflect Verif.Props Verif.Sbox

/-- `WriteTuple` gives the bytes, `ReadRawTuple` of the bytes gives the value (`TestWriteTuple`, `TestReadTuple`). -/
def tup (t : Ty) (v : Val) (m : Bytes) : Bool :=
  out (tuple (.val t v)) = some m && readRaw t ⟨m, none⟩ = some (⟨[], none⟩, v)

/-- "asdf" as bytes. -/
def asdf : Bytes := [97, 115, 100, 102]

example : tup .str (.str asdf) ([1, 0, 0, 0, 4] ++ asdf) = true := by decide +kernel
example : tup (.sl (.scal .u8)) (.seq (asdf.map fun x => .scal (.u8 x))) ([1, 0, 0, 0, 4] ++ asdf) = true := by
  decide +kernel
example : tup (.scal .i32) (num .i32 0x3def) [1, 0, 0, 0, 4, 0xef, 0x3d, 0, 0] = true := by decide +kernel
example : tup (.sl (.scal .i32)) (nums .i32 [0x3def, 0xff00])
    [2, 0, 0, 0, 4, 0xef, 0x3d, 0, 0, 4, 0, 0xff, 0, 0] = true := by decide +kernel
example : tup (.ptr (.sl (.scal .i32))) (.ref (nums .i32 [0x3def, 0xff00]))
    [2, 0, 0, 0, 4, 0xef, 0x3d, 0, 0, 4, 0, 0xff, 0, 0] = true := by decide +kernel
example : tup (.struct (flds bare [.scal .i32, .scal .u8, .sl (.scal .u8), .str]))
    (.seq [num .i32 0x3def, num .u8 0xfe, nums .u8 [1, 2, 3], .str [97, 98, 99, 100]])
    [4, 0, 0, 0, 4, 0xef, 0x3d, 0, 0, 1, 0xfe, 3, 1, 2, 3, 4, 97, 98, 99, 100] = true := by decide +kernel

/-- `TestReadGeneral`, the part with `[][]byte`. -/
example : readRaw (.sl (.sl (.scal .u8))) ⟨[2, 0, 0, 0, 4, 0xff, 0xfe, 0, 0, 4, 0, 0, 0xff, 0xfe], none⟩ =
    some (⟨[], none⟩, .seq [nums .u8 [0xff, 0xfe, 0, 0], nums .u8 [0, 0, 0xff, 0xfe]]) := by decide +kernel

/-- `SKey`. -/
def skey : Ty := .struct (flds bare [.scal .i32, .str])
/-- `SKey{1, "mail.ru"}` and `SKey{-1, "google.com"}`, and how they are written. -/
def k1 : Val := .seq [num .i32 1, .str [109, 97, 105, 108, 46, 114, 117]]
@[inherit_doc k1]
def k2 : Val := .seq [num .i32 (-1), .str [103, 111, 111, 103, 108, 101, 46, 99, 111, 109]]
@[inherit_doc k1]
def b1 : Bytes := [2, 0, 0, 0, 4, 1, 0, 0, 0, 7, 109, 97, 105, 108, 46, 114, 117]
@[inherit_doc k1]
def b2 : Bytes := [2, 0, 0, 0, 4, 255, 255, 255, 255, 10, 103, 111, 111, 103, 108, 101, 46, 99, 111, 109]
/-- The part of the request before the keys. -/
def head : Bytes := [3, 0, 0, 0, 2, 0, 0, 0, 4, 0, 0, 0, 100, 0, 0, 0]

/-- `TestSelect`. -/
def sel (k : Keys) (m : Bytes) : Bool := out (SelectReq.write ⟨3, 2, 4, 100, k⟩) = some (head ++ m)

example : sel (.val skey k1) ([1, 0, 0, 0] ++ b1) = true := by decide +kernel
example : sel (.val (.ptr skey) (.ref k1)) ([1, 0, 0, 0] ++ b1) = true := by decide +kernel
example : sel (.val (.sl skey) (.seq [k1, k2])) ([2, 0, 0, 0] ++ b1 ++ b2) = true := by decide +kernel
example : sel (.val (.ptr (.sl skey)) (.ref (.seq [k1, k2]))) ([2, 0, 0, 0] ++ b1 ++ b2) = true := by decide +kernel
example : sel (.val (.sl (.ptr skey)) (.seq [.ref k1, .ref k2])) ([2, 0, 0, 0] ++ b1 ++ b2) = true := by decide +kernel
example : sel (.list [.val (.scal .i32) (num .i32 1), .val (.arr 1 (.scal .i32)) (nums .i32 [1]),
      .val (.sl (.scal .i32)) (nums .i32 [-1]), .val (.ptr skey) (.ref k2)])
    ([4, 0, 0, 0] ++ [1, 0, 0, 0, 4, 1, 0, 0, 0] ++ [1, 0, 0, 0, 4, 1, 0, 0, 0] ++ [1, 0, 0, 0, 4, 255, 255, 255, 255] ++ b2) =
    true := by decide +kernel

end Verif.Conform
