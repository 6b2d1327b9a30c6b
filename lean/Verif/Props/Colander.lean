import Verif.Model.Colander
import Verif.Spec.Colander
import Verif.Props.Rpc
/-!
C139: the example server computes what it says; a failure it does not report.
-/
namespace Verif.Colander
open Verif.Marshal Verif.Reflect Verif.Spec

theorem fits_num (a : Bool) (x : UInt32) : Fits a numTy (.seq [.scal (.u32 x)]) := by
  simp [numTy, Fits, FitsFl, FitsDir, counted, Scal.kind]

theorem sendable_num (x : UInt32) : Rpc.Sendable numTy (.seq [.scal (.u32 x)]) :=
  ⟨by simp [numTy, Sound, SoundFl, codeSz, width], fits_num _ x, by simp [numTy, counted]⟩

theorem sendable_u32 (x : UInt32) : Rpc.Sendable (.scal .u32) (.scal (.u32 x)) := by
  simp [Rpc.Sendable, Sound, Fits, counted, Scal.kind]

theorem le_le32 (x : UInt32) : le 4 x.toNat = le32 x := by
  simp only [le, le32, List.range, List.range.loop, List.map]
  congr 1
  · apply UInt8.toNat_inj.1; simp
  congr 1
  · apply UInt8.toNat_inj.1; simp [Nat.shiftRight_eq_div_pow]
  congr 1
  · apply UInt8.toNat_inj.1; simp [Nat.shiftRight_eq_div_pow]
  congr 1
  · apply UInt8.toNat_inj.1; simp [Nat.shiftRight_eq_div_pow]

theorem layout_num (x : UInt32) : layout numTy (.seq [.scal (.u32 x)]) = le32 x := by
  simp [layout, numTy, withCnt, pay, payFl, tagged, counted, scalBytes, pattern, width, Scal.kind, le_le32]

theorem layout_u32 (x : UInt32) : layout (.scal .u32) (.scal (.u32 x)) = le32 x := by
  simp [layout, withCnt, pay, counted, scalBytes, pattern, width, Scal.kind, le_le32]

theorem read_num (x : UInt32) : Rpc.marshalRead numTy (le32 x) = some (none, .seq [.scal (.u32 x)]) := by
  have := Rpc.read_layout (sendable_num x) []
  rwa [layout_num, List.append_nil] at this

theorem bytes_num (x : UInt32) : Rpc.toBody (.val (.scal .u32) (.scal (.u32 x))) = some (le32 x) := by
  rw [← layout_u32]
  exact Rpc.write_layout (sendable_u32 x)

theorem ask_num (x : UInt32) : askBody x = some (le32 (x * x)) := by
  obtain ⟨y, hy, g⟩ := tw_ok numTy false (sendable_num 0).1
  have hw := Marshal.Wr.ok_new 512
  obtain ⟨w', h1, e⟩ := g.au true (.seq [.scal (.u32 (x * x))]) _ hw (fits_num _ _) (by simp [numTy, counted])
  have hv := (Wr.written_spec w' e.ok).2.2.1
  have : write (.ptr numTy) (.ref (.seq [.scal (.u32 (x * x))])) (Wr.new 512) = some w' := by
    simp only [write, tw, hy, ptrW]
    exact h1
  simp only [askBody, Rpc.marshalWrite, Iface.C99_write _ _ _ hw, this, Option.map_some, hv, e.data, layout_num]
  rfl

theorem sumLoop_good (l : List Nat) (s : UInt32) : sumLoop (l.map good) s = some (s + UInt32.ofNat l.sum, false) := by
  induction l generalizing s with
  | nil => simp [sumLoop]
  | cons x l ih =>
    simp only [List.map, sumLoop, good, ne_eq, not_true_eq_false, if_false, read_num, fieldJ]
    have := ih (s + UInt32.ofNat x)
    rw [this]
    simp [UInt32.add_assoc]

theorem sumLoop_bad (l : List Nat) (s : UInt32) (c : UInt32) (hc : c ≠ 0) (b : Spec.Bytes) (rs : List (UInt32 × Spec.Bytes)) :
    sumLoop (l.map good ++ (c, b) :: rs) s = some (s + UInt32.ofNat l.sum, true) := by
  induction l generalizing s with
  | nil => simp [sumLoop, hc]
  | cons x l ih =>
    simp only [List.map, List.cons_append, sumLoop, good, ne_eq, not_true_eq_false, if_false, read_num, fieldJ]
    have := ih (s + UInt32.ofNat x)
    rw [this]
    simp [UInt32.add_assoc]

theorem perm_map {α β : Type} {f : α → β} {xs rs : List β} (h : xs.Perm rs) : ∀ l : List α, xs = l.map f → ∃ l' : List α, rs = l'.map f ∧ l'.Perm l := by
  induction h with
  | nil => intro l hl; exact ⟨l, hl, .refl _⟩
  | cons x _ ih =>
    intro l hl
    cases l with
    | nil => cases hl
    | cons a l =>
      simp only [List.map, List.cons.injEq] at hl
      obtain ⟨l', h1, h2⟩ := ih l hl.2
      exact ⟨a :: l', by simp [h1, hl.1], h2.cons a⟩
  | swap x y _ =>
    intro l hl
    match l, hl with
    | a :: b :: l, hl =>
      simp only [List.map, List.cons.injEq] at hl
      exact ⟨b :: a :: l, by simp [hl], .swap a b l⟩
  | trans _ _ ih1 ih2 =>
    intro l hl
    obtain ⟨l', h1, h2⟩ := ih1 l hl
    obtain ⟨m, h3, h4⟩ := ih2 l' h1
    exact ⟨m, h3, h4.trans h2⟩

end Verif.Colander

namespace Verif.Props
open Verif.Colander Verif.Spec

/-- C139: four bytes are answered with themselves, once. -/
theorem C139_echo (b : Bytes) (h : b.length = 4) : opTest b = ([(0, b)], true) := by
  match b, h with
  | [a, b, c, d], _ => rfl

/-- C139: the answer to a sum request is the sum of the numbers in the answers of the second server, if these are all good, in whatever order
they come. -/
theorem C139_adds (l : List Nat) (rs : List (UInt32 × Bytes)) (h : rs.Perm (l.map good)) : sumTest rs = some (good l.sum) := by
  obtain ⟨l', rfl, hp⟩ := perm_map h.symm l rfl
  simp only [sumTest, sumLoop_good, bytes_num, good, hp.sum_nat]
  simp

/-- C139: if the second server is one of these servers too and answers all 32 requests, the answer is the sum of the squares of the numbers
below 32. -/
theorem C139_sum (rs : List (UInt32 × Bytes))
    (h : (rs.map some).Perm ((List.range chknum).map fun i => (askBody (UInt32.ofNat i)).bind echoAnswer)) : sumTest rs = some (good (squares 32)) := by
  have e : (List.range chknum).map (fun i => (askBody (UInt32.ofNat i)).bind echoAnswer) = (((List.range chknum).map fun i => i * i).map good).map some := by
    rw [List.map_map, List.map_map]
    apply List.map_congr_left
    intro i _
    simp [ask_num, echoAnswer, C139_echo _ (show (le32 _).length = 4 from rfl), good]
  rw [e] at h
  obtain ⟨rs', h1, h2⟩ := perm_map h.symm _ rfl
  have : rs = rs' := (List.map_inj_right fun _ _ h => Option.some.inj h).1 h1
  rw [this, C139_adds _ rs' h2]
  rfl

example : ((List.range chknum).reverse.map fun i => (askBody (UInt32.ofNat i)).bind echoAnswer).all (·.isSome) = true ∧
    sumTest ((List.range chknum).reverse.map fun i => good (i * i)) = some (0, [176, 40, 0, 0]) ∧ squares 32 = 10416 := by decide +kernel

/-- C139: the same from outside: a request of type 1, whatever its body is, to a server whose second server is one of these servers too. -/
theorem C139_served (body : Bytes) (rs : List (UInt32 × Bytes))
    (h : (rs.map some).Perm ((List.range 32).map fun i => (askBody (UInt32.ofNat i)).bind fun b => answer askMsg b [])) : answer 1 body rs = some (good (squares 32)) :=
  C139_sum rs h

/-- C139: a request of type 2 with four bytes is answered with these. -/
theorem C139_echoed (b : Bytes) (h : b.length = 4) (rs : List (UInt32 × Bytes)) : answer 2 b rs = some (0, b) := by
  have : answer 2 b rs = echoAnswer b := rfl
  rw [this, echoAnswer, C139_echo b h]
  rfl

/-- C139 is violated: requests of other types are never answered. -/
theorem C139_silent_violated (msg : UInt32) (h : msg ≠ 1 ∧ msg ≠ 2) (body : Bytes) (rs : List (UInt32 × Bytes)) : answer msg body rs = none := by
  simp [answer, rootService, h]

example : answer 1 [] ((List.range 32).map fun i => good (i * i)) = some (0, [176, 40, 0, 0]) ∧ answer 2 [1, 2, 3, 4] [] = some (0, [1, 2, 3, 4]) ∧
    answer 2 [1, 2, 3, 4, 5] [] = some (1, []) ∧ answer 3 [] [] = none := by decide +kernel

/-- C139 is violated: if a request to the second server fails, the answer is a good one nevertheless, with the sum of what came before. -/
theorem C139_failure_violated (l : List Nat) (c : UInt32) (hc : c ≠ 0) (b : Bytes) (rs : List (UInt32 × Bytes)) :
    sumTest (l.map good ++ (c, b) :: rs) = some (good l.sum) := by
  simp only [sumTest, sumLoop_bad l 0 c hc b rs, bytes_num, good]
  simp

/-- C139 is violated: less than four bytes to echo end the server's process (nothing recovers from the panic of the handler, which runs in the
goroutine that reads from the connection). -/
theorem C139_short_violated (b : Bytes) (h : b.length < 4) : (opTest b).2 = false := by
  match b, h with
  | [], _ => rfl
  | [_], _ => rfl
  | [_, _], _ => rfl
  | [_, _, _], _ => rfl

example : sumTest [good 1, (0x300, []), good 4] = some (good 1) ∧ opTest [1, 2, 3] = ([(1, [])], false) ∧
    opTest [1, 2, 3, 4, 5] = ([(1, []), (0, [1, 2, 3, 4])], true) ∧ echoAnswer [1, 2, 3, 4, 5] = some (1, []) := by decide +kernel

end Verif.Props
