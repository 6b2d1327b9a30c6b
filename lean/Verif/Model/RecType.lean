import Verif.Model.CodecCache
import Verif.Model.Reflect

/-! Recursive types in the reflective codec (marshal/writer_reflect.go, marshal/reader_reflect.go), together with the
caches that make their codecs (Model/CodecCache.lean).

Types have numbers, and a type names its parts by their numbers. Struct fields are exported; a field carries no directive
or `cnt(p)`. `size(p)`, `ber`, `skip` and fields without a prefix (`no`) are not modelled here: for types that are not
recursive they are in Model/Reflect.lean, and for the sizes of recursive types see C95. Types may have methods of their own for
encoding and decoding (marshal/marshal.go:12-60). -/
namespace Verif.RecType
open Verif.Marshal Verif.Reflect Verif.CodecCache

/-- How a method is declared: whether it takes the value as an argument too (`IWrite(self, w)`, the interfaces without `Short`), and
whether its receiver is a pointer. -/
structure Recv where
  long : Bool
  onPtr : Bool
deriving DecidableEq, Repr

/-- A type with methods `IWrite`, `IRead`, and maybe `ICount`, `ISetCount`. (`ISize`, `ISetSize` and `IReadTail` are for `size`
directives and tails, which are not modelled here.) `IWrite` appends bytes that depend on the value, by any calls of the writer.
If `T` has pointer methods, then `*T` is another such type, with other receivers: nil pointers are left to the methods. -/
structure Own where
  iwrite : Option Recv
  icount : Option Recv
  iread : Option Recv
  isetcount : Option Recv
  enc : Val → Bytes
  count : Val → Nat
  /-- what is read, and what the destination is afterwards -/
  read : RdF
  setCount : Val → Int → Option (Option RErr × Val)
  zero : Val

/-- A type, given by its parts. -/
inductive Sh
  | scal (k : Kind)
  | str
  | arr (n m : Nat)
  | sl (m : Nat)
  | ptr (m : Nat)
  | struct (fs : List (Option Pfx × Nat))
  | own (o : Own)

/-- The directive of a field. -/
def dir : Option Pfx → Dir
  | none => .none
  | some p => .cnt p

/-- What other codecs read of a codec while they are filled (`Sz`, `Cnt`), and which of its fields a struct has in `Flds`. -/
structure Att where
  sz : Int
  cnt : Int
  inc : List Bool
deriving DecidableEq, Repr

/-- The field loop of `FillStruct` (marshal/writer_reflect.go:692-854, marshal/reader_reflect.go:998-1174), after the
fields `inc`. A field whose codec has `Sz == 0` is passed over (writer_reflect.go:807-809, reader_reflect.go:1112-1114). -/
def fillFields : Int → List Bool → List (Option Pfx × Nat) → List Att → Act Nat Att
  | size, inc, [], _ => .done ⟨size, 1, inc⟩
  | _, _, (_, m) :: _, [] => .dep m
  | size, inc, (p, _) :: fs, x :: got =>
    let size := dirSize x.sz x.cnt (dir p) size
    if x.sz = 0 ∧ (dir p).bare then fillFields size (inc ++ [false]) fs got
    else fillFields (if 0 ≤ size then size + x.sz else size) (inc ++ [true]) fs got

/-- `Fill` (marshal/writer_reflect.go:374-524; `rd`: marshal/reader_reflect.go:559-770). Slices of elements of size 0 have
size 0 in readers only (reader_reflect.go:864-866). -/
def fill (rd : Bool) : Sh → List Att → Act Nat Att
  | .scal k, _ => .done ⟨kindSz k, 1, []⟩
  | .str, _ => .done ⟨-1, -1, []⟩
  | .arr _ m, [] => .dep m
  | .arr n _, e :: _ => .done ⟨if 0 ≤ e.sz then n * e.sz else -1, n, []⟩
  | .sl m, [] => .dep m
  | .sl _, e :: _ => .done ⟨if rd = true ∧ e.sz = 0 then 0 else -1, -1, []⟩
  | .ptr m, [] => .dep m
  | .ptr _, _ :: _ => .done ⟨-1, -1, []⟩
  | .struct fs, got => fillFields 0 [] fs got
  | .own _, _ => .done ⟨-1, -1, []⟩

/-- `Sz: -1, Cnt: -1` (marshal/writer_reflect.go:249, marshal/reader_reflect.go:375); `Cnt = 1` comes first in structs
(writer_reflect.go:690, reader_reflect.go:997). -/
def start : Sh → Att
  | .struct _ => ⟨-1, 1, []⟩
  | _ => ⟨-1, -1, []⟩

/-- The cache of writers, of the types `sh`. -/
def writers (sh : Nat → Sh) : Env Nat Att := ⟨fun n => fill false (sh n), fun n => start (sh n)⟩

/-- The cache of readers. -/
def readers (sh : Nat → Sh) : Env Nat Att := ⟨fun n => fill true (sh n), fun n => start (sh n)⟩

/-- `t.Type.Elem().Kind()`, where it is a scalar. -/
def kind? (sh : Nat → Sh) (m : Nat) : Option Kind :=
  match sh m with
  | .scal k => some k
  | _ => none

/-- The zero value, as far as `d` levels of structs and arrays. (A Go type has finitely many.) -/
def zero (sh : Nat → Sh) : Nat → Nat → Val
  | 0, _ => .nilp
  | d + 1, n => match sh n with
    | .scal k => .scal k.zero
    | .str => .str []
    | .arr k m => .seq (List.replicate k (zero sh d m))
    | .sl _ => .seq []
    | .ptr _ => .nilp
    | .struct fs => .seq (fs.map fun f => zero sh d f.2)
    | .own o => o.zero

/-- A writer that does not return. -/
def stuckW : TW :=
  { write := fun _ _ _ => none, auto := fun _ _ _ => none, sz := -1, szGet := none, cnt := -1, cntGet := none, ptr := none }

/-- A reader that does not return. -/
def stuckR : TR :=
  { fixed := fun _ _ => none, tail := fun _ _ => none, auto := fun _ _ => none, autoCount := none, autoSize := none
    sz := -1, cnt := -1, setSize := fun _ _ => none, setCount := fun _ _ => none }

/-- `rt.Implements(i)`, or `reflect.PtrTo(rt).Implements(i)` if `ptr`, where `i` is the interface with the method, in the long form or not. -/
def has (m : Option Recv) (long ptr : Bool) : Bool :=
  match m with
  | some r => r.long == long && (ptr || !r.onPtr)
  | none => false

/-- Which of the four cases applies (marshal/writer_reflect.go:377,396,415,432, marshal/reader_reflect.go:562,587,612,637). -/
def form (m : Option Recv) : Option (Bool × Bool) :=
  if has m true false then some (true, false)
  else if has m true true then some (true, true)
  else if has m false false then some (false, false)
  else if has m false true then some (false, true)
  else none

/-- Is `CntGet` set? (marshal/writer_reflect.go:389,408,425,442) -/
def Own.cntGet (o : Own) : Bool :=
  match form o.iwrite with
  | some (l, p) => has o.icount l p
  | none => false

/-- Is `CntSet` set? (marshal/reader_reflect.go:580,605,630,655) The second case asks the type, not its pointer type (:605). -/
def Own.cntSet (o : Own) : Bool :=
  match form o.iread with
  | some (true, true) => has o.isetcount true false
  | some (l, p) => has o.isetcount l p
  | none => false

/-- The writer of a type with an `IWrite` (marshal/writer_reflect.go:374-450). `v.Addr()` panics for values that cannot be addressed. -/
def ownW (o : Own) : TW :=
  match form o.iwrite with
  | none => stuckW
  | some (_, p) => TW.fillauto
    { write := fun addr v w => if p && !addr then none else w.bytes (o.enc v)
      auto := fun _ _ _ => none, sz := -1, szGet := none, cnt := -1
      cntGet := if o.cntGet then some o.count else none, ptr := none }

/-- The reader of a type with an `IRead` (marshal/reader_reflect.go:559-662, 541-557). Destinations can be addressed. `SetCount` panics
without `CntSet` (:516-518). -/
def ownR (o : Own) : TR :=
  match form o.iread with
  | none => stuckR
  | some _ =>
    let x : TR :=
      { fixed := o.read, tail := o.read, auto := o.read, autoCount := none, autoSize := none, sz := -1, cnt := -1
        setSize := plainSetSize (-1), setCount := if o.cntSet then o.setCount else fun _ _ => none }
    if o.cntSet then x.autoCnt else x

/-- `t.Flds`, with `none` for the fields that are passed over. -/
def fields {X F : Type} (mk : X → Dir → F) (c : Nat → X) : List (Option Pfx × Nat) → List Bool → List Nat → List (Option F)
  | (p, _) :: fs, b :: inc, r :: refs => (if b then some (mk (c r) (dir p)) else none) :: fields mk c fs inc refs
  | _, _, _ => []

/-- The writer `c` of the cache, as far as calls of it follow pointers to other writers (`Elem`, `Flds`) at most `d` deep;
deeper calls do not return. `refs` has the parts asked for last in front. (`Sz` and `SzGet` of the parts are not used by calls
without `size` directives.) -/
def writer (sh : Nat → Sh) (s : St Nat Att) : Nat → Nat → TW
  | 0, _ => stuckW
  | d + 1, c => match s.cods c with
    | none => stuckW
    | some x => match sh x.ty, x.refs with
      | .scal k, _ => scalW k
      | .str, _ => strW
      | .arr n m, [r] => arrW n (kind? sh m) (writer sh s d r)
      | .sl m, [r] => slW (kind? sh m) (writer sh s d r)
      | .ptr _, [r] => ptrW (writer sh s d r)
      | .struct fs, rs => structW x.att.sz (fields FW.mk (writer sh s d) fs x.att.inc rs.reverse)
      | .own o, _ => ownW o
      | _, _ => stuckW

/-- The reader `c` of the cache, likewise. -/
def reader (sh : Nat → Sh) (s : St Nat Att) : Nat → Nat → TR
  | 0, _ => stuckR
  | d + 1, c => match s.cods c with
    | none => stuckR
    | some x => match sh x.ty, x.refs with
      | .scal k, _ => scalR k
      | .str, _ => strR
      | .arr n m, [r] => arrR n (kind? sh m) (reader sh s d r)
      | .sl m, [r] => slR (kind? sh m) (zero sh d m) (reader sh s d r)
      | .ptr m, [r] => ptrR (zero sh d m) (reader sh s d r)
      | .struct fs, rs => structR x.att.sz (fields FR.mk (reader sh s d) fs x.att.inc rs.reverse)
      | .own o, _ => ownR o
      | _, _ => stuckR

end Verif.RecType
