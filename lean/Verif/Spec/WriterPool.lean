import Verif.Model.WriterPool
import Verif.Spec.Codec

/-! Specification for pooled writers. -/
namespace Verif.Spec
open Verif.Marshal Verif.WriterPool

/-- What a sequence of writes gives: the bytes of each, one after the other. -/
def written (log : List WOp) : Bytes := (log.map opBytes).flatten

/-- Bytes after some stores of their owner. -/
def edited (b : Bytes) : List (Nat × Bytes) → Bytes
  | [] => b
  | (pos, d) :: es => edited (b.take pos ++ d ++ b.drop (pos + d.length)) es

/-- The bytes of a result as its owner expects them: what was written, with the owner's own changes. -/
def expected (r : Res) : Bytes := edited (written r.log) r.edits

/-- All writes of a choice are well typed (the compiler sees to that). -/
def Typed : Choice → Prop
  | .op _ o => wellTyped o
  | _ => True

/-- Slices that share no bytes. -/
def apart (s t : Slc) : Prop := s.blk ≠ t.blk ∨ s.off + s.cap ≤ t.off ∨ t.off + t.cap ≤ s.off

end Verif.Spec
