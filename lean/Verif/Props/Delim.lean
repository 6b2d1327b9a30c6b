import Verif.Proofs.ReflectExt
import Verif.Props.Rpc

/-! C122: a read that succeeds takes what it takes, whatever follows; a value cut short is never read. -/
namespace Verif.Delim
open Verif.Marshal Verif.Reflect Verif.Spec Verif.Iface

theorem count_ext : EX fun r => some (count r) := (scal_ext .u32).map Rd.Scal.nat

theorem fast_ext {t : Ty} {f : RdF} (h : fastR t = some f) (v : Val) : EX fun r => f r v := by
  have cs : ∀ (g : Bytes → Val), EX fun r => if (count r).1.err = none then match (count r).1.slice (count r).2 with
      | none => none
      | some (r, b) => some (r, g b)
    else some ((count r).1, v) := by
    intro g
    have := count_ext.bind (g := fun (n : Nat) r => if r.err ≠ none then some (r, v) else (r.slice n).map fun q => (q.1, g q.2))
      fun n => ((slice_ext n).map g).guard v
    have e : (fun r => if (count r).1.err = none then match (count r).1.slice (count r).2 with
        | none => none
        | some (r, b) => some (r, g b)
      else some ((count r).1, v)) = fun r => (some (count r)).bind fun q => if q.1.err ≠ none then some (q.1, v) else
        (q.1.slice q.2).map fun p => (p.1, g p.2) := by
      funext r
      simp only [Option.bind_some]
      by_cases hc : (count r).1.err = none
      · simp only [hc, if_true, ne_eq, not_true_eq_false, if_false]
        cases (count r).1.slice (count r).2 <;> rfl
      · simp only [hc, if_false, ne_eq, not_false_eq_true, if_true]
    rw [e]
    exact this
  simp only [fastR.eq_def] at h
  split at h
  · cases h; exact (scal_ext _).map Val.scal
  · cases h; exact cs _
  · cases h; exact cs _
  · cases h
    rename_i k _
    have := count_ext.bind (g := fun (n : Nat) r => if r.err ≠ none then some (r, v) else
      (some (r.scalSl k (List.replicate n k.zero))).map fun q => (q.1, Val.seq (q.2.map .scal)))
      fun n => ((scalSl_ext k _).map fun xs => Val.seq (xs.map .scal)).guard v
    have e : (fun r => if (count r).1.err = none then
        let q := (count r).1.scalSl k (List.replicate (count r).2 k.zero)
        some (q.1, Val.seq (q.2.map .scal))
      else some ((count r).1, v)) = fun r => (some (count r)).bind fun q => if q.1.err ≠ none then some (q.1, v) else
        (some (q.1.scalSl k (List.replicate q.2 k.zero))).map fun p => (p.1, Val.seq (p.2.map .scal)) := by
      funext r
      simp only [Option.bind_some]
      by_cases hc : (count r).1.err = none
      · simp only [hc, if_true, ne_eq, not_true_eq_false, if_false]; rfl
      · simp only [hc, if_false, ne_eq, not_false_eq_true, if_true]
    rw [e]
    exact this
  · cases h

theorem slow_ext (t : Ty) (v : Val) : EX fun r => slowR t r v := by
  simp only [slowR]
  cases h : tr t with
  | none => exact EX.none
  | some x => exact (tr_ext t x h).auto v

theorem hooks_ext (fs : List (Rd → Option Rd)) (h : ∀ f ∈ fs, DelimitedHook f) : DelimitedHook (runHooksR fs) := by
  induction fs with
  | nil =>
    intro r r' e he
    cases e
    exact ⟨he, [], rfl, fun c => rfl⟩
  | cons f fs ih =>
    intro r r' e he
    simp only [runHooksR] at e
    cases h1 : f r with
    | none => simp [h1] at e
    | some r1 =>
      simp only [h1] at e
      obtain ⟨g1, u, g2, g3⟩ := ih (fun f hf => h f (List.mem_cons_of_mem _ hf)) r1 r' e he
      obtain ⟨g4, u', g5, g6⟩ := h f (List.mem_cons_self ..) r r1 h1 g1
      exact ⟨g4, u' ++ u, by rw [g5, g2, List.append_assoc], fun c => by simp [runHooksR, g6, g3]⟩

theorem hook_map {α : Type} {f : Rd → Option Rd} (h : DelimitedHook f) (v : α) : EX fun r => (f r).map fun q => (q, v) := by
  intro r r' w e he
  simp only [Option.map_eq_some_iff] at e
  obtain ⟨r1, e1, e2⟩ := e
  cases e2
  obtain ⟨h1, u, h2, h3⟩ := h r _ e1 he
  exact ⟨h1, u, h2, fun c => by simp [h3 c]⟩

/-- The list with its count in front. -/
theorem counted_ext {α : Type} {f : Rd → Option (Rd × α)} (h : EX f) (n : Nat) (v : α) : EX fun r =>
    if (count r).1.err ≠ none then some ((count r).1, v)
    else if (count r).2 ≠ n then some ({ (count r).1 with err := some .other }, v)
    else f (count r).1 := by
  have := count_ext.bind (g := fun (m : Nat) r => if r.err ≠ none then some (r, v) else
      if m ≠ n then some ({ r with err := some .other }, v) else f r) fun m => by
    refine EX.guard ?_ v
    by_cases hm : m ≠ n
    · simp only [hm, ne_eq, not_false_eq_true, if_true]; exact EX.fail _ _
    · simp only [hm, if_false]; exact h
  exact this

/-- C122. `Read` into any destination takes, if it succeeds, a prefix of the body which alone decides the value: with any other bytes
behind it, it gives the same and leaves exactly these bytes. (For reading methods of the user the same must hold of them.) -/
theorem C122_read (d : Dst) (hd : HooksDelimited d) : Delimited fun r => readAny r d := by
  refine Dst.rec (motive_1 := fun d => HooksDelimited d → EX fun r => readAny r d)
    (motive_2 := fun ds => AllHooksDelimited ds → EX fun r => readAll r ds) ?_ ?_ ?_ ?_ ?_ ?_ ?_ ?_ ?_ ?_ d hd
  · intro _
    simp only [readAny]
    exact EX.none.guard _
  · intro t v _
    simp only [readAny, readPtr]
    refine EX.map ?_ (Dst.ptr t)
    cases hf : fastR t with
    | none => exact (slow_ext t v).guard v
    | some f => exact (fast_ext hf v).guard v
  · intro k xs _
    simp only [readAny]
    exact ((scalSl_ext k xs).map (Dst.sl k)).guard _
  · intro ds ih h
    simp only [readAny]
    exact ((ih h).map Dst.list).guard _
  · intro ds ih h
    simp only [readAny]
    exact (counted_ext ((ih h).map Dst.plist) _ _).guard _
  · intro f h
    simp only [readAny]
    exact (hook_map h _).guard _
  · intro fs h
    simp only [readAny]
    exact (hook_map (hooks_ext fs h) _).guard _
  · intro fs h
    simp only [readAny]
    exact (counted_ext (hook_map (hooks_ext fs h) _) _ _).guard _
  · intro _
    simp only [readAll]
    exact EX.pure []
  · intro d ds ih1 ih2 h
    have e : (fun r => readAll r (d :: ds)) = fun r => (readAny r d).bind fun q => (readAll q.1 ds).map fun p => (p.1, q.2 :: p.2) := by
      funext r
      simp only [readAll]
      cases readAny r d with
      | none => rfl
      | some q =>
        simp only [Option.bind_some]
        cases readAll q.1 ds <;> rfl
    rw [e]
    exact (ih1 h.1).bind (g := fun d r => (readAll r ds).map fun p => (p.1, d :: p.2)) fun d => (ih2 h.2).map _

/-- C122 for `ReadWithSize` into a pointer. -/
theorem C122_sized (p : Pfx) (t : Ty) (v : Val) : Delimited fun r => readSized p t r v := by
  have sz : ∀ (g : Bytes → Val), EX fun r => match (p.read r).1.slice (p.read r).2.toInt with
      | none => none
      | some (r, b) => some (r, g b) := by
    intro g
    have e : (fun r => match (p.read r).1.slice (p.read r).2.toInt with
        | none => none
        | some (r, b) => some (r, g b)) = fun r => (some (p.read r)).bind fun q => (q.1.slice q.2.toInt).map fun p => (p.1, g p.2) := by
      funext r
      simp only [Option.bind_some]
      cases (p.read r).1.slice (p.read r).2.toInt <;> rfl
    rw [e]
    exact (pfx_ext p).bind (g := fun (n : Int64) r => (r.slice n.toInt).map fun p => (p.1, g p.2)) fun n => (slice_ext _).map g
  simp only [readSized]
  refine EX.guard ?_ v
  split
  · rename_i k
    have := (pfx_ext p).bind (g := fun (n : Int64) r => if n.toInt = kindSz k then (some (r.scal k)).map fun q => (q.1, Val.scal q.2)
      else some (r, v)) fun n => by
        by_cases hn : n.toInt = kindSz k
        · simp only [hn, if_true]; exact (scal_ext k).map Val.scal
        · simp only [hn, if_false]; exact EX.pure v
    exact this
  · exact sz _
  · exact sz _
  · exact slow_ext t v

/-- C122: what is cut short is not read. If `Read` succeeds and takes the bytes `u`, it does not succeed on a proper prefix of
them. -/
theorem C122_short (d : Dst) (hd : HooksDelimited d) (u rest : Bytes) (w : Dst) (h : readAny ⟨u ++ rest, none⟩ d = some (⟨rest, none⟩, w))
    (p : Bytes) (hp : CutShort p u) (r : Rd) (w' : Dst) (h' : readAny ⟨p, none⟩ d = some (r, w')) : r.err ≠ none := by
  intro he
  obtain ⟨s, hs, rfl⟩ := hp
  obtain ⟨-, q, hq, g⟩ := C122_read d hd _ _ _ h' he
  have hq : p = q ++ r.body := hq
  have g := g (r.body ++ s ++ rest)
  simp only at g
  rw [show q ++ (r.body ++ s ++ rest) = p ++ s ++ rest by rw [hq]; simp only [List.append_assoc], h] at g
  simp only [Option.some.injEq, Prod.mk.injEq, Rd.mk.injEq, and_true] at g
  have := congrArg List.length g.1
  simp only [List.length_append] at this
  have : s.length ≠ 0 := by simpa using hs
  omega

/-- C122 for `marshal.Read` into a new variable: bytes after the value change nothing. -/
theorem C122_more (t : Ty) (b c : Bytes) (v : Val) (h : Rpc.marshalRead t b = some (none, v)) :
    Rpc.marshalRead t (b ++ c) = some (none, v) := by
  have e : ∀ b, Rpc.marshalRead t b = (slowR t ⟨b, none⟩ (zero t)).map fun q => (q.1.err, q.2) := fun b => by
    rw [Rpc.marshalRead, C99_read_new t _ rfl]
  rw [e] at h ⊢
  simp only [Option.map_eq_some_iff, Prod.mk.injEq] at h
  obtain ⟨⟨r, v'⟩, h1, h2, rfl⟩ := h
  obtain ⟨-, u, h3, h4⟩ := slow_ext t (zero t) _ _ _ h1 h2
  have h3 : b = u ++ r.body := h3
  have h4 := h4 (r.body ++ c)
  simp only at h4
  rw [← List.append_assoc, ← h3] at h4
  rw [h4]
  rfl

/-- C122 for values that C18 covers (partial as C18): what `marshal.Write` made of the value, cut short anywhere, is not read
without an error. -/
theorem C122_cut_partial {t : Ty} {v : Val} (h : Rpc.Sendable t v) (b : Bytes) (hb : Rpc.toBody (.val t v) = some b) (p : Bytes)
    (hp : CutShort p b) (w : Val) : Rpc.marshalRead t p ≠ some (none, w) := by
  intro hw
  rw [Rpc.toBody, Rpc.write_layout h] at hb
  cases hb
  have e : ∀ b, Rpc.marshalRead t b = (slowR t ⟨b, none⟩ (zero t)).map fun q => (q.1.err, q.2) := fun b => by
    rw [Rpc.marshalRead, C99_read_new t _ rfl]
  obtain ⟨x, hx, g⟩ := tr_ok t false h.1
  have g := g.au rfl false v [] h.2.1 h.2.2
  rw [e] at hw
  simp only [Option.map_eq_some_iff, Prod.mk.injEq] at hw
  obtain ⟨⟨r, w'⟩, h1, h2, rfl⟩ := hw
  obtain ⟨-, u, h3, h4⟩ := slow_ext t (zero t) _ _ _ h1 h2
  obtain ⟨s, hs, hb⟩ := hp
  have h3 : p = u ++ r.body := h3
  have h4 := h4 (r.body ++ s)
  rw [← List.append_assoc, ← h3, ← hb] at h4
  simp only [slowR, hx] at h4
  rw [List.append_nil, h4] at g
  simp only [Option.some.injEq, Prod.mk.injEq, Rd.mk.injEq, List.append_eq_nil_iff, and_true] at g
  exact hs g.1.2

/-! Examples. -/

-- C122_read, C122_short: a string and a list of two variables behind a count, with a byte behind them; the reader stops there.
def exDst : Dst := .list [.ptr .str (.str []), .plist [.ptr (.scal .u8) (.scal (.u8 0)), .ptr (.sl (.scal .u16)) (.seq [])]]
def exRead : Bytes := [1, 0, 0, 0, 7, 2, 0, 0, 0, 9, 1, 0, 0, 0, 3, 2]
theorem exDst_hooks : HooksDelimited exDst := by simp [exDst, HooksDelimited, AllHooksDelimited]
example : (readAny ⟨exRead ++ [77], none⟩ exDst).map (·.1) = some ⟨[77], none⟩ := by decide +kernel
example : CutShort (exRead.take 11) exRead := ⟨exRead.drop 11, by decide, by decide⟩
example : ((readAny ⟨exRead.take 11, none⟩ exDst).map (·.1.err)) = some (some .short) := by decide +kernel

-- C122_sized: a string behind a size of one byte.
example : readSized .i8 .str ⟨[2, 5, 6, 7], none⟩ (.str []) = some (⟨[7], none⟩, .str [5, 6]) := by decide +kernel

-- C122_more, C122_cut_partial: the example of C18.
example : Rpc.Sendable Props.exTy Props.exVal := ⟨Props.exTy_sound, Props.exVal_fits, by simp [Props.exTy, counted]⟩
example : (Rpc.marshalRead Props.exTy [2, 1, 2, 0, 0, 0, 2, 0, 0, 0, 7, 8, 1, 9, 0, 0, 0, 0, 0, 2, 0, 130, 44, 5]) = some (none, Props.exVal) ∧
    (Rpc.marshalRead Props.exTy [2, 1, 2, 0, 0, 0, 2, 0, 0, 0, 7, 8, 1, 9, 0, 0, 0, 0, 0, 2, 0, 130, 44]).map (·.1) = some (some .short) := by
  decide +kernel

end Verif.Delim
