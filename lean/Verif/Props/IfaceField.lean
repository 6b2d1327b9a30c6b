import Verif.Proofs.IfaceField
import Verif.Props.Iface

/-! C117, C118: struct fields of type `interface{}` and `[]interface{}`. -/
namespace Verif.IfaceField
open Verif.Marshal Verif.Reflect Verif.Spec
open Verif.Props (out)

/-- The values in a field, without their types (types are not compared in the examples). -/
def XVal.vals : XVal → List (Option Val)
  | .of v => [some v]
  | .any d => [d.map (·.2)]
  | .anys l => l.map (·.map (·.2))

/-- What `read` gives: the rest, the error and the values. -/
def got (fs : XFl) (b : Bytes) (vs : List XVal) : Option (Rd × List (List (Option Val))) :=
  (read fs b vs).map fun q => (q.1, q.2.map XVal.vals)

/-- `struct { N uint8; A interface{} "size(ber)"; B interface{} "cnt(i16)"; C interface{}; D []interface{}; x int }` -/
def exFs : XFl :=
  [(.use false .none, .of (.scal .u8)), (.use false (.size .ber), .any), (.use false (.cnt .i16), .any), (.use false .none, .any),
   (.use false .none, .anys), (.hidden, .of (.scal .i32))]

/-- `{ 7, uint16(300), []uint16{1, 2}, "ab", []interface{}{ int32(-1), &uint8(9) }, 5 }` -/
def exVs : List XVal :=
  [.of (.scal (.u8 7)), .any (some (.scal .u16, .scal (.u16 300))),
   .any (some (.sl (.scal .u16), .seq [.scal (.u16 1), .scal (.u16 2)])), .any (some (.str, .str [97, 98])),
   .anys [some (.scal .i32, .scal (.i32 (-1))), some (.ptr (.scal .u8), .ref (.scal (.u8 9)))], .of (.scal (.i32 5))]

/-- The bytes of the example. -/
def exBs : Bytes := [7, 2, 44, 1, 2, 0, 1, 0, 2, 0, 2, 0, 0, 0, 97, 98, 2, 0, 0, 0, 255, 255, 255, 255, 9]

theorem ex_ok : XOk exFs exVs := by
  simp [exFs, exVs, XOk, SoundFl, Sound, FitsFl, Fits, FitsDir, DynOk, Enc, AnysOk, Bare, pfxOk, SizeOk, fits, pay, countOf, counted,
    bulky, codeSz, Scal.kind, hiddenX, width, exact, Ty.kind?, size?, asSz]

theorem ex_back : XBack exFs exVs := by
  simp [exFs, exVs, XBack, SoundFl, Sound, DynBack, Back, AnysBack, FixedSize, pay, countOf, counted, bulky, codeSz, width, exact,
    scalBytes, le, Scal.kind]

/-! ### C117 -/

/-- C117 (partial: for what C18 has for fields of the other types, without 64-bit prefixes, and no values with a count in a
`[]interface{}`; see below). `Write` of the struct appends the bytes of its fields: an `interface{}` gives what a field of the type of
its value would give. -/
theorem C117_layout_partial (fs : XFl) (vs : List XVal) (h : XOk fs vs) (w : Wr) (hw : w.Ok) :
    ∃ w', write fs vs w = some w' ∧ w'.Ok ∧ w'.pending = w.pending ++ xbytes fs vs := by
  obtain ⟨l, h1, h2⟩ := write_ext fs vs h
  obtain ⟨w', h3, e⟩ := h2 w hw
  exact ⟨w', by simp only [write, h1, h3], e.ok, e.data⟩

example : XOk exFs exVs ∧ out (write exFs exVs) = some exBs ∧ xbytes exFs exVs = exBs := by
  refine ⟨ex_ok, ?_, ?_⟩ <;> decide +kernel

/-- An `interface{}` field gives the same bytes as the field with the type of its value (partial as above). -/
theorem C117_transparent_partial (d : Dir) (t : Ty) (v : Val) (hp : ∀ u x, ¬(t = .ptr u ∧ v = .ref x))
    (h : XOk [(.use false d, .any)] [.any (some (t, v))]) (g : XOk [(.use false d, .of t)] [.of v]) (w : Wr) (hw : w.Ok) :
    ∃ a b, write [(.use false d, .any)] [.any (some (t, v))] w = some a ∧ write [(.use false d, .of t)] [.of v] w = some b ∧
      a.pending = b.pending := by
  obtain ⟨a, ha, _, ea⟩ := C117_layout_partial _ _ h w hw
  obtain ⟨b, hb, _, eb⟩ := C117_layout_partial _ _ g w hw
  refine ⟨a, b, ha, hb, ?_⟩
  rw [ea, eb]
  have e : dynBytes d t v = Spec.tagged t v d (pay t v) := by
    unfold dynBytes
    split <;> simp_all
  simp [xbytes, anyBytes, e]

example : XOk [(.use false (.size .i16), .any)] [.any (some (.str, .str [1, 2]))] ∧
    XOk [(.use false (.size .i16), .of .str)] [.of (.str [1, 2])] ∧
    out (write [(.use false (.size .i16), .any)] [.any (some (.str, .str [1, 2]))]) = some [2, 0, 1, 2] := by
  refine ⟨?_, ?_, by decide +kernel⟩ <;>
  simp [XOk, SoundFl, Sound, FitsFl, Fits, FitsDir, DynOk, Enc, pfxOk, SizeOk, fits, pay, codeSz, hiddenX]

/-- `struct { A []interface{} }`: the elements are written without the count they have as values of their own, so that different
lists have the same encoding. The same list as the argument of `Write` has the counts. -/
theorem C117_list_violated :
    let fs : XFl := [(.use false .none, .anys)]
    let str (b : Bytes) : Dyn := some (.str, .str b)
    out (write fs [.anys [str [97, 98], str [99]]]) = some [2, 0, 0, 0, 97, 98, 99] ∧
    out (write fs [.anys [str [97], str [98, 99]]]) = some [2, 0, 0, 0, 97, 98, 99] ∧
    out (Iface.writeAny (.list [.val .str (.str [97, 98]), .val .str (.str [99])])) =
      some [2, 0, 0, 0, 2, 0, 0, 0, 97, 98, 1, 0, 0, 0, 99] := by
  decide +kernel

/-! ### C118 -/

/-- C118 (partial: the struct that is read into has pointers to variables of the types that were written, and as many of them; and
only for the cases of `XBack`; what they exclude is shown to fail below). Reading back what `Write` appended, in front of any other
data, puts the values into the variables and consumes exactly the encoding. -/
theorem C118_roundtrip_partial (fs : XFl) (vs : List XVal) (h : XOk fs vs) (hb : XBack fs vs) (w : Wr) (hw : w.Ok) :
    ∃ w' d, write fs vs w = some w' ∧ w'.Ok ∧ w'.pending = w.pending ++ d ∧
      ∀ rest, read fs (d ++ rest) (freshX fs vs) = some (⟨rest, none⟩, gotX fs vs) := by
  obtain ⟨w', h1, ok, e⟩ := C117_layout_partial fs vs h w hw
  obtain ⟨l, h2, h3⟩ := read_back fs vs h hb
  exact ⟨w', _, h1, ok, e, fun rest => by simp only [read, h2, h3]⟩

example : XOk exFs exVs ∧ XBack exFs exVs ∧
    got exFs (exBs ++ [77]) (freshX exFs exVs) = some (⟨[77], none⟩,
      [[some (.scal (.u8 7))], [some (.scal (.u16 300))], [some (.seq [.scal (.u16 1), .scal (.u16 2)])], [some (.str [97, 98])],
       [some (.scal (.i32 (-1))), some (.scal (.u8 9))], [some (.scal (.i32 0))]]) :=
  ⟨ex_ok, ex_back, by decide +kernel⟩

/-- Structs of the same types have the same encoding only if the same values were written (partial as above). -/
theorem C118_injective_partial (fs : XFl) (vs us : List XVal) (hv : XOk fs vs) (hu : XOk fs us) (bv : XBack fs vs) (bu : XBack fs us)
    (hs : freshX fs vs = freshX fs us) (h : xbytes fs vs = xbytes fs us) : gotX fs vs = gotX fs us := by
  obtain ⟨l, h1, h2⟩ := read_back fs vs hv bv
  obtain ⟨l', h3, h4⟩ := read_back fs us hu bu
  rw [h1] at h3
  cases h3
  have a := h2 []
  have b := h4 []
  rw [h, hs, b] at a
  simpa using a.symm

/-- `struct { A interface{} }` with a slice: written with its count, read without it. Nothing is read, and no error is reported. -/
theorem C118_slice_violated :
    let fs : XFl := [(.use false .none, .any)]
    let t : Ty := .sl (.scal .u16)
    out (write fs [.any (some (t, .seq [.scal (.u16 1), .scal (.u16 2)]))]) = some [2, 0, 0, 0, 1, 0, 2, 0] ∧
    got fs [2, 0, 0, 0, 1, 0, 2, 0] [.any (some (t, .seq []))] = some (⟨[2, 0, 0, 0, 1, 0, 2, 0], none⟩, [[some (.seq [])]]) := by
  decide +kernel

/-- `struct { A interface{} "size(ber)" }` with a string: reading it back is an error. -/
theorem C118_string_violated :
    let fs : XFl := [(.use false (.size .ber), .any)]
    out (write fs [.any (some (.str, .str [97, 98]))]) = some [2, 97, 98] ∧
    got fs [2, 97, 98] [.any (some (.str, .str []))] = some (⟨[], some .other⟩, [[some (.str [])]]) := by
  decide +kernel

/-- The same with a value of size 0: the reader panics. So it does for an empty slice with `cnt(ber)`, and for a nil with
`cnt(ber)`. -/
theorem C118_empty_violated :
    let fs : XFl := [(.use false (.size .ber), .any)]
    let gs : XFl := [(.use false (.cnt .ber), .any)]
    out (write fs [.any (some (.str, .str []))]) = some [0] ∧ got fs [0] [.any (some (.str, .str []))] = none ∧
    out (write gs [.any (some (.sl (.scal .u8), .seq []))]) = some [0] ∧ got gs [0] [.any (some (.sl (.scal .u8), .seq []))] = none ∧
    out (write gs [.any none]) = some [0] ∧ got gs [0] [.any none] = none := by
  decide +kernel

/-- A peer that sends the length 0 for an `interface{}` field with a prefix makes the reader panic, whatever the variable is. -/
theorem C118_zero_violated (d : Dir) (p : Pfx) (hd : d = .size p ∨ d = .cnt p) (hp : p ≠ .i64) (t : Ty) (v : Val) (rest : Bytes) :
    read [(.use false d, .any)] (pfxBytes p 0 ++ rest) [.any (some (t, v))] = none := by
  have hr := pfx_read p hp 0 (by cases p <;> simp [fits]) rest
  rcases hd with rfl | rfl <;> simp [read, fillR, fieldR, fldsR, anyR, hr, anySetSize, anySetCount]

/-- A peer that sends another number of elements than there are variables: they are dropped, nothing is read, and no error is
reported. -/
theorem C118_count_violated (l : List Dyn) (n : Nat) (hn : n < 2 ^ 31) (hl : l.length ≠ n) (rest : Bytes) :
    read [(.use false .none, .anys)] (le 4 n ++ rest) [.anys l] = some (⟨rest, none⟩, [.anys (List.replicate n none)]) := by
  have e : le 4 n = pfxBytes .i32 n := rfl
  have hr := pfx_read .i32 (by decide) n (by simp [fits]; omega) rest
  have hg : ∀ m r, elemsR r (List.replicate m none) = some (r, List.replicate m none) := by
    intro m
    induction m with
    | zero => intro r; rfl
    | succ m ih => intro r; simp [List.replicate_succ, elemsR, anyFixed, ih]
  have h1 : ¬ (l.length : Int) = n := by omega
  have h2 : ¬ ((n : Int) < 0 ∨ 2 ^ 48 ≤ (n : Int)) := by omega
  simp only [e, read, fillR, fieldR, fldsR, anysR, hr, anysSet, h1, h2, hg, Bool.false_eq_true, if_false, ne_eq, not_true_eq_false,
    Option.map_some, Int.toNat_natCast]

example : got [(.use false .none, .anys)] [2, 0, 0, 0, 8, 9] [.anys [some (.scal .u8, .scal (.u8 1))]] =
    some (⟨[8, 9], none⟩, [[none, none]]) := by
  decide +kernel

end Verif.IfaceField
