import Verif.Props.MultiReq
import Verif.Props.Misc
/-! C133: the sorted responses of a multi-request. -/
namespace Verif.Props
open Verif.MultiReq
open Verif.Request (deliveries)
open Verif.Misc (MResp swaps less)

/-- What sorting sees of a response. -/
def seen (x : Request.Resp) : MResp := ⟨x.id, x.code.toNat⟩

theorem log_none {l : List Request.Ev} {x : Request.Resp} (h : .delivered x ∈ l) : Request.deliveries l ≠ 0 := by
  induction l with
  | nil => cases h
  | cons e l ih =>
    cases e
    case delivered y => simp [Request.deliveries]
    all_goals
      rcases List.mem_cons.1 h with h | h
      · cases h
      · exact ih h

theorem log_uniq {l : List Request.Ev} {x y : Request.Resp} (hx : .delivered x ∈ l) (hy : .delivered y ∈ l) (h : Request.deliveries l = 1) : x = y := by
  induction l with
  | nil => cases hx
  | cons e l ih =>
    cases e
    case delivered z =>
      have h0 : Request.deliveries l = 0 := by simpa [Request.deliveries] using h
      rcases List.mem_cons.1 hx with e1 | e1
      · rcases List.mem_cons.1 hy with e2 | e2
        · cases e1; cases e2; rfl
        · exact absurd h0 (log_none e2)
      · exact absurd h0 (log_none e1)
    all_goals
      rcases List.mem_cons.1 hx with e1 | e1
      · cases e1
      · rcases List.mem_cons.1 hy with e2 | e2
        · cases e2
        · exact ih e1 e2 h

/-- C133: after `Sort`, the responses that `Results` has returned are in the order of the requests: there is one per request, and the `i`-th is the one that was delivered for the `i`-th
request, if there are at most 2^32 requests. `sort.Sort` is trusted for its contract, as in C63. -/
theorem C133_in_order {msg : Nat → UInt32} {cs : List Choice} {s : St} {l : List Nat} (h : run (init msg) cs = some s) (hg : s.m.got = some l) (hr : s.m.ret ≤ 2 ^ 32)
    {m : Array MResp} (hl : m.size = l.length) (hm : ∀ k i : Nat, l[k]? = some i → ∃ x, Got s i x ∧ m[k]? = some (seen x))
    (sw : List (Nat × Nat)) (done : ∀ i, less (swaps m sw) (i + 1) i = false) :
    (swaps m sw).size = s.m.ret ∧ ∀ i, i < s.m.ret → ∃ x, Got s i x ∧ x.id = UInt32.ofNat i ∧ x.msg = msg i ∧ (swaps m sw)[i]? = some (seen x) := by
  obtain ⟨nd, len, mem, gots⟩ := C120_results h hg
  obtain ⟨pm, so⟩ := C63_sort m sw done
  have uniq : ∀ i x y, Got s i x → Got s i y → x = y := by
    intro i x y ⟨h1, h2⟩ ⟨h3, _⟩
    exact log_uniq h1 h3 h2
  have idof : ∀ k i : Nat, l[k]? = some i → ∃ x, Got s i x ∧ x.id = UInt32.ofNat i ∧ x.msg = msg i ∧ m[k]? = some (seen x) := by
    intro k i hk
    obtain ⟨x, g, e⟩ := hm k i hk
    obtain ⟨y, g', e1, e2⟩ := gots i (List.mem_of_getElem? hk)
    rw [uniq i x y g g'] at e
    exact ⟨y, g', e1, e2, e⟩
  have ids : m.toList.map (·.id) = l.map UInt32.ofNat := by
    refine List.ext_getElem? fun k => ?_
    simp only [List.getElem?_map, Array.getElem?_toList]
    cases e : l[k]? with
    | none =>
      have := List.getElem?_eq_none_iff.1 e
      rw [Array.getElem?_eq_none (by omega)]; rfl
    | some i =>
      obtain ⟨x, _, e1, _, e2⟩ := idof k i e
      rw [e2]; simp [seen, e1]
  have pl : l.Perm (List.range s.m.ret) := (List.perm_ext_iff_of_nodup nd List.nodup_range).2 fun i => by rw [mem i, List.mem_range]
  have sz : (swaps m sw).size = s.m.ret := by rw [pm.size_eq, hl, len]
  have key : (swaps m sw).toList.map (·.id) = (List.range s.m.ret).map UInt32.ofNat := by
    refine List.Perm.eq_of_pairwise (le := fun a b : UInt32 => a ≤ b) (fun a b _ _ h1 h2 => UInt32.le_antisymm h1 h2) ?_ ?_ ?_
    · rw [List.pairwise_map, List.pairwise_iff_getElem]
      intro i j hi hj hij
      exact so i j hij (by simpa using hj)
    · rw [List.pairwise_map]
      refine List.pairwise_lt_range.imp_of_mem fun {a b} ha hb hab => ?_
      rw [List.mem_range] at ha hb
      rw [UInt32.le_iff_toNat_le, UInt32.toNat_ofNat', UInt32.toNat_ofNat', Nat.mod_eq_of_lt (by omega), Nat.mod_eq_of_lt (by omega)]
      omega
    · exact (pm.toList.map _).trans (ids ▸ pl.map _)
  refine ⟨sz, fun i hi => ?_⟩
  have hi' : i < (swaps m sw).size := by omega
  have hid : (swaps m sw)[i].id = UInt32.ofNat i := by
    have := congrArg (fun a : List UInt32 => a[i]?) key
    simpa [List.getElem?_map, Array.getElem?_toList, Array.getElem?_eq_getElem hi', List.getElem?_range hi] using this
  have hmem : (swaps m sw)[i] ∈ m := (pm.mem_iff).1 (Array.getElem_mem hi')
  obtain ⟨k, hk, ek⟩ := Array.getElem_of_mem hmem
  have hkl : k < l.length := by omega
  obtain ⟨x, g, e1, e2, e3⟩ := idof k l[k] (List.getElem?_eq_getElem hkl)
  rw [Array.getElem?_eq_getElem hk, ek] at e3
  have e3 := Option.some.inj e3
  have hlk : l[k] = i := by
    have hlt := (mem l[k]).1 (List.getElem_mem hkl)
    have : (swaps m sw)[i].id = x.id := by rw [e3]; rfl
    rw [hid, e1] at this
    have := congrArg UInt32.toNat this
    rw [UInt32.toNat_ofNat', UInt32.toNat_ofNat', Nat.mod_eq_of_lt (by omega), Nat.mod_eq_of_lt (by omega)] at this
    exact this.symm
  rw [hlk] at g e1 e2
  exact ⟨x, g, e1, e2, by rw [Array.getElem?_eq_getElem hi', e3]⟩

/-- Two requests, answered in the other order: `Results` returns the second first, and one `Swap` sorts them. -/
def outOfOrder : List MultiReq.Choice := MultiReq.mk ++ MultiReq.mk ++ serve 1 2 ++ serve 0 4 ++ [.multi .results] ++ reps 4 (.multi .owner)

example : (run (init fun _ => 5) outOfOrder).map (fun s => (s.m.got, s.m.ret, deliveries (s.r 0).d.log, deliveries (s.r 1).d.log)) = some (some [1, 0], 2, 1, 1) := by decide +kernel

example : swaps #[⟨1, 7⟩, ⟨0, 7⟩] [(0, 1)] = #[⟨0, 7⟩, ⟨1, 7⟩] := by decide

end Verif.Props
