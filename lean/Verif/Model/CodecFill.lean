import Verif.Model.CodecCache
import Verif.Model.Reflect

/-! `Fill` as a program that asks the cache for the codecs of the parts, for the types of Model/Reflect.lean (which are
not recursive) with whole codecs, and for recursive types with the sizes only. -/
namespace Verif.CodecCache
open Verif.Reflect Verif.Marshal

-- Types are told apart by their structure; in Go distinct named types of the same structure are distinct, which
-- gives them equal but separate codecs.
deriving instance DecidableEq for Ty, Fl

/-- The field loop of `TWriter.FillStruct` (marshal/writer_reflect.go:712-855) with the codecs of the first fields. -/
def fillFl : Int → Bool → Fl → List TW → List (Option FW) → Act Ty TW
  | size, _, .nil, _, acc => .done (structW size acc)
  | size, nosize, .cons .hidden _ fs, got, acc => fillFl size nosize fs got (acc ++ [none])
  | size, nosize, .cons .skip _ fs, got, acc =>
    if nosize then .panic else fillFl size nosize fs got (acc ++ [none])
  | size, nosize, .cons (.use ber d) t fs, got, acc =>
    if nosize then .panic else match got with
      | [] => .dep t
      | x :: got =>
        let size := dirSize x.sz x.cnt d (if ber then -1 else size)
        if x.sz = 0 ∧ d.bare then fillFl size (d = .no) fs got (acc ++ [none])
        else
          let size := if 0 ≤ size then size + x.sz else size
          match (if ber then berFor t else some x) with
          | none => .panic
          | some y => fillFl size (d = .no) fs got (acc ++ [some ⟨y, d⟩])

/-- `TWriter.Fill` (marshal/writer_reflect.go:374-524). -/
def fillW : Ty → List TW → Act Ty TW
  | .scal k, _ => .done (scalW k)
  | .str, _ => .done strW
  | .arr _ t, [] => .dep t
  | .arr n t, e :: _ => .done (arrW n t.kind? e)
  | .sl t, [] => .dep t
  | .sl t, e :: _ => .done (slW t.kind? e)
  | .ptr t, [] => .dep t
  | .ptr _, e :: _ => .done (ptrW e)
  | .struct fs, got => fillFl 0 false fs got []

/-- The writers of `marshal`. The codec of a type that is being filled is `scalW .u8` here; it plays no role. -/
def writers : Env Ty TW := ⟨fillW, fun _ => scalW .u8⟩

/-- The field loop of `TReader.FillStruct` (marshal/reader_reflect.go:998-1174). -/
def fillRFl : Int → Bool → Fl → List TR → List (Option FR) → Act Ty TR
  | size, _, .nil, _, acc => .done (structR size acc)
  | size, nosize, .cons .hidden _ fs, got, acc => fillRFl size nosize fs got (acc ++ [none])
  | size, nosize, .cons .skip _ fs, got, acc =>
    if nosize then .panic else fillRFl size nosize fs got (acc ++ [none])
  | size, nosize, .cons (.use ber d) t fs, got, acc =>
    if nosize then .panic else match got with
      | [] => .dep t
      | x :: got =>
        let size := dirSize x.sz x.cnt d (if ber then -1 else size)
        if x.sz = 0 ∧ d.bare then fillRFl size (d = .no) fs got (acc ++ [none])
        else
          let size := if 0 ≤ size then size + x.sz else size
          match (if ber then berForR t else some x) with
          | none => .panic
          | some y => fillRFl size (d = .no) fs got (acc ++ [some ⟨y, d⟩])

/-- `TReader.Fill` (marshal/reader_reflect.go:559-770). -/
def fillR : Ty → List TR → Act Ty TR
  | .scal k, _ => .done (scalR k)
  | .str, _ => .done strR
  | .arr _ t, [] => .dep t
  | .arr n t, e :: _ => .done (arrR n t.kind? e)
  | .sl t, [] => .dep t
  | .sl t, e :: _ => .done (slR t.kind? (zero t) e)
  | .ptr t, [] => .dep t
  | .ptr t, e :: _ => .done (ptrR (zero t) e)
  | .struct fs, got => fillRFl 0 false fs got []

/-- The readers of `marshal`. -/
def readers : Env Ty TR := ⟨fillR, fun _ => scalR .u8⟩

/-! ### Recursive types -/

/-- A type, given by its parts; the parts are type numbers, so that types can be recursive. Struct fields are exported
and carry one directive. -/
inductive Shape
  | scal (k : Kind)
  | str
  | arr (n m : Nat)
  | sl (m : Nat)
  | ptr (m : Nat)
  | struct (fs : List (Dir × Nat))

/-- `Sz`, `Cnt` and whether `SzGet` is set, of a `TWriter`. -/
structure Sizes where
  sz : Int
  cnt : Int
  szGet : Bool
deriving DecidableEq, Repr

/-- The field loop of `TWriter.FillStruct` (marshal/writer_reflect.go:712-855), the sizes only. -/
def shapeFl : Int → Bool → List (Dir × Nat) → List Sizes → Act Nat Sizes
  | size, _, [], _ => .done ⟨size, 1, false⟩
  | size, nosize, (d, m) :: fs, got =>
    if nosize then .panic else match got with
      | [] => .dep m
      | x :: got =>
        let size := dirSize x.sz x.cnt d size
        if x.sz = 0 ∧ d.bare then shapeFl size (d = .no) fs got
        else shapeFl (if 0 ≤ size then size + x.sz else size) (d = .no) fs got

/-- `TWriter.Fill` (marshal/writer_reflect.go:374-524), the sizes only. -/
def shapeFill : Shape → List Sizes → Act Nat Sizes
  | .scal k, _ => .done ⟨kindSz k, 1, false⟩
  | .str, _ => .done ⟨-1, -1, true⟩
  | .arr _ m, [] => .dep m
  | .arr n _, e :: _ => .done ⟨if 0 ≤ e.sz then n * e.sz else -1, n, false⟩
  | .sl m, [] => .dep m
  | .sl _, e :: _ => .done ⟨-1, -1, decide (0 ≤ e.sz)⟩
  | .ptr m, [] => .dep m
  | .ptr _, _ :: _ => .done ⟨-1, -1, false⟩
  | .struct fs, got => shapeFl 0 false fs got

/-- `Sz: -1, Cnt: -1` (marshal/writer_reflect.go:249); structs and arrays set `Cnt` first (:533,:712), but arrays
only once they have the codec of the elements. -/
def shapeInit : Shape → Sizes
  | .struct _ => ⟨-1, 1, false⟩
  | _ => ⟨-1, -1, false⟩

/-- The writers of the types with the given shapes. -/
def shaped (sh : Nat → Shape) : Env Nat Sizes := ⟨fun n => shapeFill (sh n), fun n => shapeInit (sh n)⟩

/-- `TWriter.Size` (marshal/writer_reflect.go:279-300) of a slice of `len` elements by the codec `c`; `Elem` is its only
part, and its `Sz` is read at the time of the call. -/
def St.sliceSize (s : St Nat Sizes) (c len : Nat) : Option Int :=
  match s.cods c with
  | none => none
  | some x => if 0 ≤ x.att.sz then some x.att.sz else if x.att.szGet then match x.refs with
      | [r] => (s.cods r).map fun y => len * y.att.sz
      | _ => none
    else some (-1)

end Verif.CodecCache
