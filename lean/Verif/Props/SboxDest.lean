import Verif.Model.SboxDest
import Verif.Proofs.SboxResult
import Verif.Props.Sbox

/-! C89: `ReadMany` into arrays, single values and lists. -/
namespace Verif.SboxDest
open Verif.Marshal Verif.Reflect Verif.Spec Verif.Sbox

/-- The slice case is the one of C25. -/
theorem slice_eq (t : Ty) (b : Bytes) : readManyTo (.slice t) b = readMany t b := by
  simp only [readManyTo, readInterface, readMany]
  by_cases hm : manyOk t
  · simp only [hm, if_true]
    cases tupR t with
    | none => rfl
    | some f =>
      simp only [fill]
      rw [List.take_of_length_le (by simp), List.drop_of_length_le (by simp)]
      cases manyLoop f _ none _ with
      | none => rfl
      | some q => simp
  · simp [hm]

theorem oneOk_of (t : Ty) (h : Single t) : oneOk t = true := by
  cases t with
  | arr n u => exact absurd rfl (h.1 n u)
  | sl u => exact absurd rfl (h.2 u)
  | _ => rfl

/-- The tuples of `ts` decode as `vs`. -/
def All (t : Ty) (ts : List Bytes) (vs : List Val) : Prop :=
  ts.length = vs.length ∧ (∀ u ∈ ts, Framed u) ∧ ∀ p ∈ ts.zip vs, Reads t p.1 p.2

theorem All.take {t : Ty} {ts vs} (h : All t ts vs) (n : Nat) : All t (ts.take n) (vs.take n) := by
  refine ⟨by simp [h.1], fun u hu => h.2.1 u (List.mem_of_mem_take hu), fun p hp => h.2.2 p ?_⟩
  rw [List.zip_eq_zipWith, ← List.take_zipWith] at hp
  exact List.mem_of_mem_take hp

/-- C89 for arrays (partial: complete responses all of whose tuples decode). The first `min n total` places hold the
tuples in order, the others stay as they were, the count is right and there is no error. -/
theorem C89_array_partial (n : Nat) (t : Ty) (hm : Row t) (ht : Tagged t) (ts : List Bytes)
    (vs : List Val) (extra : Bytes) (hn : ts.length < 2 ^ 32) (h : All t ts vs) :
    readManyTo (.array n t) (response ts ++ extra) =
      some (min n ts.length, (ts.length : Int), none, vs.take n ++ List.replicate (n - ts.length) (zero t)) := by
  obtain ⟨f, hf⟩ := tupR_tagged t ht
  have hc := count_read ts.length hn ((ts.map framed).flatten ++ extra)
  obtain ⟨h1, h2, h3⟩ := h.take n
  have key := many_all f (zero t) (((ts.drop n).map framed).flatten ++ extra) (ts.take n) (vs.take n) h1 h2
    fun p hp => (reads_iff t f hf _ _).1 (h3 p hp)
  rw [← List.append_assoc, ← List.flatten_append, ← List.map_append, List.take_append_drop] at key
  simp only [readManyTo, readInterface, manyOk_of t hm, if_true, hf, response, List.append_assoc, hc.1, hc.2, Int.toNat_natCast,
    fill, List.take_replicate, List.drop_replicate]
  rw [List.length_take] at key
  rw [show min ts.length n = min n ts.length by omega] at *
  simp [key]

/-- C89 for a single value (partial: at least one tuple, which decodes). -/
theorem C89_one_partial (t : Ty) (ho : Single t) (u : Bytes) (ts : List Bytes) (v : Val) (extra : Bytes)
    (hn : (u :: ts).length < 2 ^ 32) (hu : Framed u) (hd : Reads t u v) :
    readManyTo (.one t) (response (u :: ts) ++ extra) = some (1, ((u :: ts).length : Int), none, [v]) := by
  obtain ⟨r, hr, he⟩ := hd
  have hc := count_read (u :: ts).length hn (((u :: ts).map framed).flatten ++ extra)
  cases hf : tupR t with
  | none => simp [readRaw, hf] at hr
  | some f =>
    simp only [readRaw, hf] at hr
    simp only [readManyTo, readInterface, oneOk_of t ho, if_true, hf, response, List.append_assoc, hc.1, hc.2]
    simp only [List.map_cons, List.flatten_cons, List.append_assoc]
    rw [oneTuple_frame f u _ hu, hr]
    rfl

/-- C89 is violated: on an empty response a single value counts as read, and there is an error. -/
theorem C89_one_empty_violated (t : Ty) (ho : Single t) (ht : Tagged t) :
    readManyTo (.one t) (response []) = some (1, 0, some .short, [zero t]) := by
  obtain ⟨f, hf⟩ := tupR_tagged t ht
  have hc := count_read 0 (by decide) []
  have e : response [] = le 4 0 ++ [] := rfl
  simp only [readManyTo, readInterface, oneOk_of t ho, if_true, hf, e, hc.1, hc.2, oneTuple, ne_eq, not_true_eq_false, if_false,
    short_read [] (by decide)]
  simp [Rd.slice]

/-- C89 is violated: a slice of pointers is never filled, the call panics on every non-empty response. -/
theorem C89_ptrs_violated (n : Nat) (t : Ty) (u : Bytes) (ts : List Bytes) (extra : Bytes)
    (hn : (u :: ts).length < 2 ^ 32) (hu : Framed u) :
    readManyTo (.ptrs (n + 1) t) (response (u :: ts) ++ extra) = none := by
  have hc := count_read (u :: ts).length hn (((u :: ts).map framed).flatten ++ extra)
  simp only [readManyTo, readInterface, response, List.append_assoc, hc.1, hc.2, Int.toNat_natCast]
  cases tupR (.sl (.ptr t)) with
  | none => rfl
  | some _ =>
    simp only [fill, List.length_cons, List.replicate_succ, List.take_succ_cons, manyLoop, List.map_cons,
      List.flatten_cons, List.append_assoc]
    rw [oneTuple_frame _ u _ hu]
    rfl

/-- C89 is violated: nor a slice of slices, unless the tuple has no fields. -/
theorem C89_slices_violated (n : Nat) (k : Kind) (fs : List Bytes) (hfs : fs ≠ []) (hl : fs.length < 2 ^ 32)
    (ts : List Bytes) (extra : Bytes) (hn : ts.length + 1 < 2 ^ 32) (hu : Framed (tupleBytes fs)) :
    readManyTo (.slices (n + 1) k) (response (tupleBytes fs :: ts) ++ extra) = none := by
  have hc := count_read (tupleBytes fs :: ts).length (by simpa using hn)
    (((tupleBytes fs :: ts).map framed).flatten ++ extra)
  have hf := count_read fs.length hl (fs.map fieldBytes).flatten
  have hp : 0 < fs.length := List.length_pos_iff.2 hfs
  simp only [readManyTo, readInterface, response, List.append_assoc, hc.1, hc.2, Int.toNat_natCast]
  cases tupR (.sl (.sl (.scal k))) with
  | none => rfl
  | some _ =>
    simp only [fill, List.length_cons, List.replicate_succ, List.take_succ_cons, manyLoop, List.map_cons,
      List.flatten_cons, List.append_assoc]
    rw [oneTuple_frame _ _ _ hu]
    have : slElR ⟨tupleBytes fs, none⟩ (.seq []) = none := by
      simp only [slElR, tupleBytes, hf.2]
      rw [if_neg (by omega)]
    simp [this]

/-- C89 is violated: nor a list of destinations. -/
theorem C89_list_violated (n : Nat) (m : Nat) (hm : m + 1 < 2 ^ 32) (rest : Bytes) :
    readManyTo (.list (n + 1)) (le 4 (m + 1) ++ rest) = none := by
  have hc := count_read (m + 1) hm rest
  simp only [readManyTo, readInterface, hc.1, hc.2]
  rw [if_neg (by omega)]

/-- An array shorter and an array longer than the response, a single value. -/
example :
    let b := response [tupleBytes [[7]], tupleBytes [[8]]]
    Row (.scal .u8) ∧ Single (.scal .u8) ∧
    All (.scal .u8) [tupleBytes [[7]], tupleBytes [[8]]] [.scal (.u8 7), .scal (.u8 8)] ∧
    readManyTo (.array 1 (.scal .u8)) b = some (1, 2, none, [.scal (.u8 7)]) ∧
    readManyTo (.array 3 (.scal .u8)) b = some (2, 2, none, [.scal (.u8 7), .scal (.u8 8), .scal (.u8 0)]) ∧
    readManyTo (.one (.scal .u8)) b = some (1, 2, none, [.scal (.u8 7)]) ∧
    readManyTo (.slices 1 .u8) (response [tupleBytes []]) = some (1, 1, none, [.seq []]) ∧
    readManyTo (.list 1) (response []) = some (0, 0, none, [.nilp]) := by
  refine ⟨trivial, by simp [Single], ⟨rfl, ?_, ?_⟩, by decide +kernel, by decide +kernel, by decide +kernel, by decide +kernel,
    by decide +kernel⟩
  · intro u hu
    simp only [List.mem_cons, List.not_mem_nil, or_false] at hu
    rcases hu with rfl | rfl <;> exact ⟨by decide +kernel, by decide +kernel⟩
  · intro p hp
    simp only [List.zip_cons_cons, List.zip_nil_right, List.mem_cons, List.not_mem_nil, or_false] at hp
    rcases hp with rfl | rfl <;> exact ⟨⟨[], none⟩, by decide +kernel, rfl⟩

end Verif.SboxDest
