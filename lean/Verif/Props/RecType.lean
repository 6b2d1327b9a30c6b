import Verif.Proofs.RecRound
import Verif.Props.Reflect
import Verif.Props.CodecCache

/-! C153: values of recursive types. -/
namespace Verif.Props
open Verif.Marshal Verif.Reflect Verif.RecType Verif.Spec Verif.Spec.RecType
open Verif.CodecCache (Reach run init ask any_some)

/-- C153, the format (partial: for `Firm` types, see `C153_field_violated`). Whatever codecs were asked for before, and by however
many goroutines: the writer of a type appends the bytes prescribed for the value, once it is followed deep enough. -/
theorem C153_layout_partial {sh : Nat → Sh} (hf : Firm sh) {s : CodecCache.St Nat Att} (hs : Reach (RecType.writers sh) s) {n c : Nat}
    (hc : (n, some c) ∈ s.rets) {v : Val} {addr : Bool} (hv : Fit sh addr n v) (hb : Bare sh n v) :
    ∃ d0, ∀ d, d0 ≤ d → ∀ w, w.Ok →
      ∃ w', (RecType.writer sh s d c).auto addr v w = some w' ∧ w'.Ok ∧ w'.pending = w.pending ++ full sh n v := by
  obtain ⟨d0, h⟩ := writer_ok hs.inv (link_w hf hs) v addr n c hv (hs.inv.thr.ret n c hc)
  refine ⟨d0, fun d hd w hw => ?_⟩
  obtain ⟨w', h1, h2⟩ := (h d hd).au hb w hw
  exact ⟨w', h1, h2.ok, h2.data⟩

/-- C153 (partial: for `Firm` types, see `C153_order_violated`). What one process writes with the writer it has for the type, another
one reads with the reader it has, whatever codecs each has asked for before: the same value, and exactly the bytes of the
encoding are consumed. -/
theorem C153_roundtrip_partial {sh : Nat → Sh} (hf : Firm sh) {s q : CodecCache.St Nat Att} (hs : Reach (RecType.writers sh) s)
    (hq : Reach (RecType.readers sh) q) {n c e : Nat} (hc : (n, some c) ∈ s.rets) (he : (n, some e) ∈ q.rets) {v : Val}
    {addr : Bool} (hv : Fit sh addr n v) (hb : Bare sh n v) :
    ∃ d0, ∀ d, d0 ≤ d → ∀ w, w.Ok →
      ∃ w' b, (RecType.writer sh s d c).auto addr v w = some w' ∧ w'.Ok ∧ w'.pending = w.pending ++ b ∧
        ∀ rest, (RecType.reader sh q d e).auto ⟨b ++ rest, none⟩ (RecType.zero sh d n) = some (⟨rest, none⟩, v) := by
  obtain ⟨d1, h1⟩ := C153_layout_partial hf hs hc hv hb
  obtain ⟨d2, h2⟩ := reader_ok hq.inv (link_r hf hq) v addr n e hv (hq.inv.thr.ret n e he)
  refine ⟨max d1 d2, fun d hd w hw => ?_⟩
  obtain ⟨w', k1, k2, k3⟩ := h1 d (by omega) w hw
  exact ⟨w', _, k1, k2, k3, fun rest => (h2 d (by omega)).au hb rest⟩

/-- `type T struct { X uint16; Kids []T }` is 0, `[]T` is 1, `uint16` is 2; `type L struct { X uint8; Next *L "cnt(i8)" }` is 3,
`*L` is 4, `uint8` is 5. -/
def exRec : Nat → Sh
  | 0 => .struct [(none, 2), (none, 1)]
  | 1 => .sl 0
  | 2 => .scal .u16
  | 3 => .struct [(none, 5), (some .i8, 4)]
  | 4 => .ptr 3
  | _ => .scal .u8

/-- A tree with two leaves. -/
def exTree : Val :=
  .seq [.scal (.u16 1), .seq [.seq [.scal (.u16 2), .seq []], .seq [.scal (.u16 3), .seq []]]]

/-- A list of two members. -/
def exList : Val := .seq [.scal (.u8 6), .ref (.seq [.scal (.u8 7), .nilp])]

theorem exRec_firm : Firm exRec := by
  intro n
  match n with
  | 0 => right; decide
  | 1 | 2 => trivial
  | 3 => right; decide
  | 4 => trivial
  | n + 5 => trivial

theorem exTree_fit : Fit exRec false 0 exTree ∧ Bare exRec 0 exTree := by
  simp [exTree, exRec, Fit, FitParts, FitAll, Bare, IsPtr, Counts, number, orOwn, Scal.kind]

theorem exList_fit : Fit exRec false 3 exList ∧ Bare exRec 3 exList := by
  simp [exList, exRec, Fit, FitParts, Bare, IsPtr, Target, Countable, Counts, number, orOwn, Scal.kind, fits]

/-- The hypotheses can be met: the cache of writers was asked for `[]T` first, the one of readers for `L` and `T`; a tree and a
list are written and read back. -/
theorem C153_example : Firm exRec ∧ Fit exRec false 0 exTree ∧ Fit exRec false 3 exList ∧
    (∃ s q, Reach (RecType.writers exRec) s ∧ Reach (RecType.readers exRec) q ∧
      (0, some 1) ∈ s.rets ∧ (3, some 3) ∈ s.rets ∧ (3, some 0) ∈ q.rets ∧ (0, some 3) ∈ q.rets ∧
      out ((RecType.writer exRec s 6 1).auto false exTree) =
        some [1, 0, 2, 0, 0, 0, 2, 0, 0, 0, 0, 0, 3, 0, 0, 0, 0, 0] ∧
      (RecType.reader exRec q 6 3).auto ⟨[1, 0, 2, 0, 0, 0, 2, 0, 0, 0, 0, 0, 3, 0, 0, 0, 0, 0, 99], none⟩ (RecType.zero exRec 6 0) =
        some (⟨[99], none⟩, exTree) ∧
      out ((RecType.writer exRec s 6 3).auto false exList) = some [6, 1, 7, 0] ∧
      (RecType.reader exRec q 6 0).auto ⟨[6, 1, 7, 0, 99], none⟩ (RecType.zero exRec 6 3) = some (⟨[99], none⟩, exList)) := by
  refine ⟨exRec_firm, exTree_fit.1, exList_fit.1, ?_⟩
  obtain ⟨s, h1, h2⟩ := any_some (o := run (RecType.writers exRec) init (ask 1 16 ++ ask 0 2 ++ ask 3 16))
    (p := fun s => (0, some 1) ∈ s.rets ∧ (3, some 3) ∈ s.rets ∧
      out ((RecType.writer exRec s 6 1).auto false exTree) =
        some [1, 0, 2, 0, 0, 0, 2, 0, 0, 0, 0, 0, 3, 0, 0, 0, 0, 0] ∧
      out ((RecType.writer exRec s 6 3).auto false exList) = some [6, 1, 7, 0]) (by decide +kernel)
  obtain ⟨q, h3, h4⟩ := any_some (o := run (RecType.readers exRec) init (ask 3 16 ++ ask 0 16))
    (p := fun q => (3, some 0) ∈ q.rets ∧ (0, some 3) ∈ q.rets ∧
      (RecType.reader exRec q 6 3).auto ⟨[1, 0, 2, 0, 0, 0, 2, 0, 0, 0, 0, 0, 3, 0, 0, 0, 0, 0, 99], none⟩ (RecType.zero exRec 6 0) =
        some (⟨[99], none⟩, exTree) ∧
      (RecType.reader exRec q 6 0).auto ⟨[6, 1, 7, 0, 99], none⟩ (RecType.zero exRec 6 3) = some (⟨[99], none⟩, exList))
      (by decide +kernel)
  exact ⟨s, q, ⟨_, h1⟩, ⟨_, h3⟩, h2.1, h2.2.1, h4.1, h4.2.1, h2.2.2.1, h4.2.2.1, h2.2.2.2, h4.2.2.2⟩

/-- A type of bytes with the methods `IWrite`, `IRead`, `ICount`, `ISetCount` of its own, in the short form; those that change the
value have pointer receivers, the others do not. `IRead` reads as many bytes as `ISetCount` has made room for. -/
def exName : Own where
  iwrite := some ⟨false, false⟩
  icount := some ⟨false, false⟩
  iread := some ⟨false, true⟩
  isetcount := some ⟨false, true⟩
  enc
    | .str b => b.reverse
    | _ => []
  count
    | .str b => b.length
    | _ => 0
  read
    | r, .str b => some (if r.body.length < b.length then ({ r with err := some .short }, .str b)
        else ({ r with body := r.body.drop b.length }, .str (r.body.take b.length).reverse))
    | r, v => some (r, v)
  setCount _ n := some (none, .str (List.replicate n.toNat 0))
  zero := .str []

/-- `type Dir struct { Name Name; Files []Name; Dirs []Dir; Owner Name "cnt(i8)" }` is 0, `[]Dir` is 1, `Name` is 2, `[]Name` is 3. -/
def exDir : Nat → Sh
  | 0 => .struct [(none, 2), (none, 3), (none, 1), (some .i8, 2)]
  | 1 => .sl 0
  | 2 => .own exName
  | 3 => .sl 2
  | _ => .scal .u8

theorem exDir_firm : Firm exDir := by
  intro n
  match n with
  | 0 => exact Or.inl ⟨2, _, rfl, rfl⟩
  | 1 | 2 | 3 => trivial
  | n + 4 => trivial

theorem exName_fit (addr : Bool) (b : Bytes) : OwnFit exName addr (.str b) := by
  refine ⟨⟨⟨false, false⟩, ⟨false, true⟩, rfl, rfl, Or.inr ⟨⟨false, false⟩, ⟨false, true⟩, rfl, rfl, rfl, rfl, by simp, by simp, by simp⟩⟩, ?_, ?_⟩
  · rw [Inverse, if_pos (by rfl)]
    refine ⟨.str (List.replicate b.length 0), by simp [exName], ?_⟩
    intro rest
    simp [exName]
  · intro w hw hp
    cases hw
    cases hp

/-- A directory with one file and one directory inside. -/
def exRoot : Val :=
  .seq [.str [1, 2], .seq [.str [3, 4, 5]], .seq [.seq [.str [6], .seq [], .seq [], .str []]], .str [7, 8]]

theorem exRoot_fit : Fit exDir false 0 exRoot ∧ Bare exDir 0 exRoot := by
  simp [exRoot, exDir, Fit, FitParts, FitAll, Bare, IsPtr, Countable, Counts, number, orOwn, fits, exName_fit]
  simp [exName]

/-- Types with methods of their own are among those that C153 is about: a tree of such is written and read back. -/
theorem C153_own_example : Firm exDir ∧ Fit exDir false 0 exRoot ∧
    (∃ s q, Reach (RecType.writers exDir) s ∧ Reach (RecType.readers exDir) q ∧ (0, some 0) ∈ s.rets ∧ (0, some 2) ∈ q.rets ∧
      out ((RecType.writer exDir s 6 0).auto false exRoot) = some [2, 0, 0, 0, 2, 1, 1, 0, 0, 0, 3, 0, 0, 0, 5, 4, 3, 1, 0, 0, 0,
        1, 0, 0, 0, 6, 0, 0, 0, 0, 0, 0, 0, 0, 0, 2, 8, 7] ∧
      (RecType.reader exDir q 6 2).auto ⟨[2, 0, 0, 0, 2, 1, 1, 0, 0, 0, 3, 0, 0, 0, 5, 4, 3, 1, 0, 0, 0,
        1, 0, 0, 0, 6, 0, 0, 0, 0, 0, 0, 0, 0, 0, 2, 8, 7, 99], none⟩ (RecType.zero exDir 6 0) = some (⟨[99], none⟩, exRoot)) := by
  refine ⟨exDir_firm, exRoot_fit.1, ?_⟩
  obtain ⟨s, h1, h2⟩ := any_some (o := run (RecType.writers exDir) init (ask 0 21))
    (p := fun s => (0, some 0) ∈ s.rets ∧
      out ((RecType.writer exDir s 6 0).auto false exRoot) = some [2, 0, 0, 0, 2, 1, 1, 0, 0, 0, 3, 0, 0, 0, 5, 4, 3, 1, 0, 0, 0,
        1, 0, 0, 0, 6, 0, 0, 0, 0, 0, 0, 0, 0, 0, 2, 8, 7]) (by decide +kernel)
  obtain ⟨q, h3, h4⟩ := any_some (o := run (RecType.readers exDir) init (ask 3 12 ++ ask 0 16))
    (p := fun q => (0, some 2) ∈ q.rets ∧
      (RecType.reader exDir q 6 2).auto ⟨[2, 0, 0, 0, 2, 1, 1, 0, 0, 0, 3, 0, 0, 0, 5, 4, 3, 1, 0, 0, 0,
        1, 0, 0, 0, 6, 0, 0, 0, 0, 0, 0, 0, 0, 0, 2, 8, 7, 99], none⟩ (RecType.zero exDir 6 0) = some (⟨[99], none⟩, exRoot))
      (by decide +kernel)
  exact ⟨s, q, ⟨_, h1⟩, ⟨_, h3⟩, h2.1, h4.1, h2.2, h4.2⟩

/-- `type T struct { X uint8; Next []T }` is 0, `[]T` is 1, `uint8` is 2; `type U struct { B []T }` is 3; `type V struct { A T }` is 4. -/
def exLoose : Nat → Sh
  | 0 => .struct [(none, 2), (none, 1)]
  | 1 => .sl 0
  | 3 => .struct [(none, 1)]
  | 4 => .struct [(none, 0)]
  | _ => .scal .u8

/-- `U{B: []T{{X: 5}}}`. -/
def exU : Val := .seq [.seq [.seq [.scal (.u8 5), .seq []]]]

/-- C153 is violated for types that are not `Firm`: what a process reads depends on what it has read before. If it was asked for
`T` first, it reads back a `U`; if not, the field `B` is passed over, its bytes are left, and no error is reported. It is written,
nevertheless. -/
theorem C153_order_violated : Fit exLoose false 3 exU ∧ ∃ q q' c c',
    Reach (RecType.readers exLoose) q ∧ Reach (RecType.readers exLoose) q' ∧ (3, some c) ∈ q.rets ∧ (3, some c') ∈ q'.rets ∧
    (RecType.reader exLoose q 9 c).auto ⟨full exLoose 3 exU, none⟩ (RecType.zero exLoose 9 3) = some (⟨[], none⟩, exU) ∧
    (RecType.reader exLoose q' 9 c').auto ⟨full exLoose 3 exU, none⟩ (RecType.zero exLoose 9 3) =
      some (⟨full exLoose 3 exU, none⟩, .seq [.seq []]) ∧ full exLoose 3 exU ≠ [] ∧
    ∃ s c, Reach (RecType.writers exLoose) s ∧ (3, some c) ∈ s.rets ∧ out ((RecType.writer exLoose s 9 c).auto false exU) = some (full exLoose 3 exU) := by
  refine ⟨by simp [exU, exLoose, Fit, FitParts, FitAll, Bare, IsPtr, Counts, number, orOwn, Scal.kind], ?_⟩
  obtain ⟨q, h1, h2⟩ := any_some (o := run (RecType.readers exLoose) init (ask 0 16 ++ ask 3 10))
    (p := fun q => (3, some 3) ∈ q.rets ∧
      (RecType.reader exLoose q 9 3).auto ⟨full exLoose 3 exU, none⟩ (RecType.zero exLoose 9 3) = some (⟨[], none⟩, exU)) (by decide +kernel)
  obtain ⟨q', h3, h4⟩ := any_some (o := run (RecType.readers exLoose) init (ask 3 19))
    (p := fun q => (3, some 0) ∈ q.rets ∧
      (RecType.reader exLoose q 9 0).auto ⟨full exLoose 3 exU, none⟩ (RecType.zero exLoose 9 3) =
        some (⟨full exLoose 3 exU, none⟩, .seq [.seq []])) (by decide +kernel)
  obtain ⟨s, h5, h6⟩ := any_some (o := run (RecType.writers exLoose) init (ask 3 19))
    (p := fun s => (3, some 0) ∈ s.rets ∧ out ((RecType.writer exLoose s 9 0).auto false exU) = some (full exLoose 3 exU)) (by decide +kernel)
  exact ⟨q, q', 3, 0, ⟨_, h1⟩, ⟨_, h3⟩, h2.1, h4.1, h2.2, h4.2, by decide +kernel, s, 0, ⟨_, h5⟩, h6.1, h6.2⟩

/-- C153 is violated in writers as well: a field of type `T` is not written at all, while `T` by itself is. -/
theorem C153_field_violated : Fit exLoose false 4 (.seq [.seq [.scal (.u8 5), .seq []]]) ∧ ∃ s c c',
    Reach (RecType.writers exLoose) s ∧ (4, some c) ∈ s.rets ∧ (0, some c') ∈ s.rets ∧
    (∀ d, 9 ≤ d → out ((RecType.writer exLoose s d c).auto false (.seq [.seq [.scal (.u8 5), .seq []]])) = some []) ∧
    out ((RecType.writer exLoose s 9 c').auto false (.seq [.scal (.u8 5), .seq []])) = some [5, 0, 0, 0, 0] := by
  refine ⟨by simp [exLoose, Fit, FitParts, FitAll, Bare, IsPtr, Counts, number, orOwn, Scal.kind], ?_⟩
  obtain ⟨s, h1, h2⟩ := any_some (o := run (RecType.writers exLoose) init (ask 4 19 ++ ask 0 2))
    (p := fun s => (4, some 0) ∈ s.rets ∧ (0, some 1) ∈ s.rets ∧
      (s.cods 0).map (fun x => (x.ty, x.att.inc)) = some (4, [false]) ∧ (s.cods 0).map (·.refs) = some [1] ∧
      out ((RecType.writer exLoose s 9 1).auto false (.seq [.scal (.u8 5), .seq []])) = some [5, 0, 0, 0, 0]) (by decide +kernel)
  refine ⟨s, 0, 1, ⟨_, h1⟩, h2.1, h2.2.1, ?_, h2.2.2.2.2⟩
  intro d hd
  obtain ⟨d, rfl⟩ : ∃ k, d = k + 1 := ⟨d - 1, by omega⟩
  obtain ⟨_, _, h3, h4, _⟩ := h2
  cases hx : s.cods 0 with
  | none => simp [hx] at h3
  | some x =>
    simp only [hx, Option.map_some, Option.some.injEq, Prod.mk.injEq] at h3 h4
    simp only [RecType.writer, hx, h3.1, h3.2, h4, exLoose, List.reverse_singleton, RecType.fields]
    rfl

end Verif.Props
