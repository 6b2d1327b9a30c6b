import Verif.Spec.BoxAnswer
import Verif.Props.Box

/-! C159: what the answer to a `StoreReq` is read as. -/
namespace Verif.Box
open Verif.Marshal Verif.Reflect Verif.Spec Verif.Sbox Verif.ByteLink Verif.Props

section
variable {e : Env} {dial : Bool} {cs : List Choice} {b : ByteLink.St}

/-- The answer to a `StoreReq` with mode "insert or replace". -/
theorem answered (he : e.Fits) (hc : Sane e dial cs) (h : ByteLink.run e (init dial) cs = some b) (hy : Conn.Young b.c) (hbox : Answers e b)
    {r i d : Nat} {space : UInt32} {ret : Bool} {t : Ty} {v : Val}
    (hr : e.msg r = 13 ∧ Rpc.marshalWrite (.hook (StoreReq.write ⟨space, ret, 0, .val t v⟩)) = some (e.body r))
    (ht : TupTy t) (hv : TupVal false t v) (ha : b.c.ans r = some (.response i d)) :
    ∃ id, b.read d = some ⟨13, id, 0, stores (if ret then 1 else 0) (fields t v)⟩ := by
  obtain ⟨k, id, _, s1, r1, _⟩ := C114_end_to_end_partial he hc h hy ha
  have hok : TupOk (.val t v) := ⟨ht, hv⟩
  have b1 : e.body r = (Req.store space.toNat (if ret then 1 else 0) (fields t v)).body := by
    have := marshal_adds (store_adds ⟨space, ret, 0, .val t v⟩ hok)
    rw [hr.2] at this
    simpa [Req.body, tupFields] using this
  have f1 : (Req.store space.toNat (if ret then 1 else 0) (fields t v)).Fits :=
    ⟨space.toNat_lt, by split <;> omega, tupFields_lt _ hok⟩
  obtain ⟨c1, a1⟩ := hbox k _ s1 _ _ _ f1 (by split <;> rfl) hr.1 b1
  have h0 : e.carried (e.sent (e.code k)) = 0 := by
    have : e.sent 0 = 0 := by simp [Env.sent]
    simp only [c1, this, Env.carried]
    cases e.rc <;> rfl
  exact ⟨id, by rw [r1, h0, a1, hr.1]⟩

/-- C159 (partial: with `Return`; as C114, for tuples that C22 covers). From the answer to a `StoreReq` that asks for the tuple, `ReadFirst` and `ReadMany` read
the value that was stored. -/
theorem C159_returned_partial (he : e.Fits) (hc : Sane e dial cs) (h : ByteLink.run e (init dial) cs = some b) (hy : Conn.Young b.c)
    (hbox : Answers e b) {r i d : Nat} {space : UInt32} {t : Ty} {v : Val}
    (hr : e.msg r = 13 ∧ Rpc.marshalWrite (.hook (StoreReq.write ⟨space, true, 0, .val t v⟩)) = some (e.body r))
    (ht : TupTy t) (hv : TupVal false t v) (hv' : TupVal true t v) (hrow : Row t) (hsz : (tupleBytes (fields t v)).length < 2 ^ 32)
    (ha : b.c.ans r = some (.response i d)) :
    ∃ q, b.read d = some q ∧ q.code = 0 ∧ readFirst t q.body = some (true, 1, none, v) ∧ readMany t q.body = some (1, 1, none, [v]) := by
  obtain ⟨id, hq⟩ := answered he hc h hy hbox hr ht hv ha
  refine ⟨_, hq, rfl, ?_, ?_⟩
  · have hfr : Framed (tupleBytes (fields t v)) := ⟨by simp [tupleBytes], by omega⟩
    have := C26_complete_partial t 1 (by decide) (by decide) (tupleBytes (fields t v)) [] hfr
    obtain ⟨f, h4, h5⟩ := tupR_ok t ht
    have h6 := h5 false v [] hv
    rw [List.append_nil] at h6
    simp only [readRaw, h4, h6] at this
    simpa [stores, Spec.response] using this
  · have := C25_written_partial t hrow ht [v] (by simpa using hv') (by simp) (by simpa using hsz) []
    simpa [stores] using this

/-- C159 is violated without `Return`: the request has been done, and both report an error, for all values and all types of destinations. -/
theorem C159_count_violated (he : e.Fits) (hc : Sane e dial cs) (h : ByteLink.run e (init dial) cs = some b) (hy : Conn.Young b.c)
    (hbox : Answers e b) {r i d : Nat} {space : UInt32} {t : Ty} {v : Val}
    (hr : e.msg r = 13 ∧ Rpc.marshalWrite (.hook (StoreReq.write ⟨space, false, 0, .val t v⟩)) = some (e.body r))
    (ht : TupTy t) (hv : TupVal false t v) (ha : b.c.ans r = some (.response i d)) :
    ∃ q, b.read d = some q ∧ q.code = 0 ∧ (∀ u, ∃ err, readFirst u q.body = some (false, 1, some err, zero u)) ∧
      ∀ u, TupTy u → Row u → ∃ err, readMany u q.body = some (0, 1, some err, [zero u]) := by
  obtain ⟨id, hq⟩ := answered he hc h hy hbox hr ht hv ha
  have hc := count_read 1 (by decide) []
  have hs := short_read [] (by decide)
  rw [List.append_nil] at hc
  refine ⟨_, hq, rfl, fun u => ?_, fun u hu hrow => ?_⟩
  · refine ⟨.short, ?_⟩
    simp [stores, readFirst, hc.1, hc.2, hs]
  · obtain ⟨f, h4, _⟩ := tupR_ok u hu
    refine ⟨.short, ?_⟩
    simp [stores, readMany, hc.1, hc.2, manyOk_of u hrow, h4, manyLoop, oneTuple, hs, Rd.slice]

end

/-! ### Examples: request 3 stores the row, with and without `Return` -/

def envR : Env where
  rc := .rc0
  msg r := if r = 3 then 13 else 99
  body r := if r = 3 then (Rpc.marshalWrite (.hook (StoreReq.write ⟨1, true, 0, .val rowTy rowVal⟩))).getD [] else []
  code _ := 0
  answer _ := Spec.response [row7]
  map := none

/-- All hypotheses of C159_returned_partial hold. -/
example : envR.Fits ∧ Sane envR true (shake ++ storing) ∧ TupTy rowTy ∧ TupVal false rowTy rowVal ∧ TupVal true rowTy rowVal ∧ Row rowTy ∧
    (tupleBytes (fields rowTy rowVal)).length < 2 ^ 32 ∧
    (envR.msg 3 = 13 ∧ Rpc.marshalWrite (.hook (StoreReq.write ⟨1, true, 0, .val rowTy rowVal⟩)) = some (envR.body 3)) ∧
    ∃ b, ByteLink.run envR (init true) (shake ++ storing) = some b ∧ Answers envR b ∧ Conn.Young b.c ∧ b.c.ans 3 = some (.response 1 1) ∧
      b.read 1 = some ⟨13, 1, 0, Spec.response [row7]⟩ ∧ readFirst rowTy (Spec.response [row7]) = some (true, 1, none, rowVal) := by
  have hb : ∃ b, ByteLink.run envR (init true) (shake ++ storing) = some b ∧ (b.got.length = 1 ∧
      b.seen 0 = some ⟨13, 1, (Req.store 1 1 (fields rowTy rowVal)).body⟩ ∧ Conn.Young b.c ∧ b.c.ans 3 = some (.response 1 1) ∧
      b.read 1 = some ⟨13, 1, 0, Spec.response [row7]⟩) := by
    refine any_some ?_
    decide +kernel
  obtain ⟨b, h, h1, h2, h3, h4, h5⟩ := hb
  refine ⟨⟨fun r => ⟨?_, ?_⟩, fun k => ?_⟩, .inl rfl, (flat_tup _ rowTy_flat _ rowVal_has rowVal_small).1,
    (flat_tup _ rowTy_flat _ rowVal_has rowVal_small).2, ?_, by simp [Row, rowTy], by decide +kernel, ⟨rfl, by decide +kernel⟩, b, h, ?_, h3, h4, h5,
    by decide +kernel⟩
  · simp only [envR]
    split <;> decide
  · have : (envR.body 3).length < 2 ^ 32 := by decide +kernel
    by_cases h3 : r = 3
    · rw [h3]; exact this
    · simp [envR, h3]
  · show (Spec.response [row7]).length + 4 < 2 ^ 32
    decide +kernel
  · simp [rowTy, rowVal, plain, TupVal, TupVals, FieldVal, Fits, Scal.kind, pay, scalBytes, le, width, Ty.kind?, counted, withCnt]
  · intro k q hk space flags t hx _ hm hbd
    have := seen_lt hk
    obtain rfl : k = 0 := by omega
    rw [h2] at hk
    cases hk
    have f0 : (Req.store 1 1 (fields rowTy rowVal)).Fits := ⟨by decide, by decide, by decide +kernel⟩
    cases body_inj f0 hx hm hbd
    exact ⟨rfl, rfl⟩

/-- All hypotheses of C159_count_violated hold. -/
example : Sane envU true (shake ++ storing) ∧ TupTy rowTy ∧ TupVal false rowTy rowVal ∧
    (envU.msg 3 = 13 ∧ Rpc.marshalWrite (.hook (StoreReq.write ⟨1, false, 0, .val rowTy rowVal⟩)) = some (envU.body 3)) ∧
    ∃ b, ByteLink.run envU (init true) (shake ++ storing) = some b ∧ Answers envU b ∧ Conn.Young b.c ∧ b.c.ans 3 = some (.response 1 1) ∧
      b.read 1 = some ⟨13, 1, 0, [1, 0, 0, 0]⟩ ∧ readFirst rowTy [1, 0, 0, 0] = some (false, 1, some .short, zero rowTy) := by
  have hb : ∃ b, ByteLink.run envU (init true) (shake ++ storing) = some b ∧ (b.got.length = 1 ∧
      b.seen 0 = some ⟨13, 1, (Req.store 1 0 (fields rowTy rowVal)).body⟩ ∧ Conn.Young b.c ∧ b.c.ans 3 = some (.response 1 1) ∧
      b.read 1 = some ⟨13, 1, 0, [1, 0, 0, 0]⟩) := by
    refine any_some ?_
    decide +kernel
  obtain ⟨b, h, h1, h2, h3, h4, h5⟩ := hb
  refine ⟨.inl rfl, (flat_tup _ rowTy_flat _ rowVal_has rowVal_small).1,
    (flat_tup _ rowTy_flat _ rowVal_has rowVal_small).2, ⟨rfl, by decide +kernel⟩, b, h, ?_, h3, h4, h5, by decide +kernel⟩
  intro k q hk space flags t hx _ hm hbd
  have := seen_lt hk
  obtain rfl : k = 0 := by omega
  rw [h2] at hk
  cases hk
  have f0 : (Req.store 1 0 (fields rowTy rowVal)).Fits := ⟨by decide, by decide, by decide +kernel⟩
  cases body_inj f0 hx hm hbd
  exact ⟨rfl, rfl⟩

end Verif.Box
