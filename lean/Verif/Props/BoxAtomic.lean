import Verif.Props.Box

/-! C161: what becomes of requests that fail. -/
namespace Verif.Box
open Verif.Marshal Verif.Reflect Verif.Spec Verif.Sbox Verif.ByteLink Verif.Props

section
variable {e : Env} {dial : Bool} {cs ds : List Choice} {b b' : ByteLink.St}

/-- C161 (partial: as C114). Whatever becomes of the requests at the client, the server receives none of them twice: each request that it has received belongs to a request
of the client, and no two to the same. -/
theorem C161_once_partial (he : e.Fits) (hc : Sane e dial cs) (h : ByteLink.run e (init dial) cs = some b) (hy : Conn.Young b.c) :
    ∃ of : Nat → Nat, (∀ k q, b.seen k = some q → q.msg = e.msg (of k) ∧ (q.body = [] ∨ q.body = e.body (of k))) ∧
      ∀ k k', k < b.got.length → k' < b.got.length → of k = of k' → k = k' := by
  refine ⟨fun k => (b.c.wire[k]?.map (·.2.1)).getD 0, fun k q hq => ?_, fun k k' hk hk' hkk => ?_⟩
  · obtain ⟨i0, r0, x, hw, hm, _, hb, hb0⟩ := C114_requests_partial he hc h hy hq
    simp only [hw, Option.map_some, Option.getD_some]
    refine ⟨hm, ?_⟩
    cases x with
    | false => exact .inl (hb0 rfl)
    | true => exact .inr (hb rfl)
  · have hs : ∀ k, k < b.got.length → ∃ q, b.seen k = some q := fun k hk => by
      simp only [ByteLink.St.seen, List.getElem?_eq_getElem hk, Option.map_some]
      exact ⟨_, rfl⟩
    obtain ⟨q, hq⟩ := hs k hk
    obtain ⟨q', hq'⟩ := hs k' hk'
    obtain ⟨i0, r0, x, hw, _⟩ := C114_requests_partial he hc h hy hq
    obtain ⟨i1, r1, x1, hw1, _⟩ := C114_requests_partial he hc h hy hq'
    simp only [hw, hw1, Option.map_some, Option.getD_some] at hkk
    subst hkk
    exact wire_once h hw hw1

/-- As `untouched`, by what is received. -/
theorem kept {S : Nat → Db} {k k' : Nat} {space : Nat} {key : Bytes} {v : List (List Bytes)} (hS : States e b' S)
    (hfree : ∀ j q, k < j → j < k' → b'.seen j = some q → q.msg ≠ 22 ∧ ∀ x : Req, x.Fits → q.msg = x.msg → q.body = x.body → ¬ x.On space key)
    (hlt : k < k') (hk' : k' < b'.got.length) (i1 : (S (k + 1)).only space key = v) : (S k').only space key = v := by
  have hmid : ∀ n, k + 1 + n ≤ k' → (S (k + 1 + n)).only space key = v := by
    intro n
    induction n with
    | zero => intro _; exact i1
    | succ n ih =>
      intro hle
      have hs : ∃ q, b'.seen (k + 1 + n) = some q := by
        simp only [ByteLink.St.seen, List.getElem?_eq_getElem (show k + 1 + n < b'.got.length by omega), Option.map_some]
        exact ⟨_, rfl⟩
      obtain ⟨q, hq⟩ := hs
      obtain ⟨h22, hno⟩ := hfree _ q (by omega) (by omega) hq
      have hSq := hS _ q hq
      rw [← ih (by omega), show k + 1 + (n + 1) = k + 1 + n + 1 by omega]
      by_cases hx : ∃ x : Req, x.Fits ∧ q.msg = x.msg ∧ q.body = x.body
      · obtain ⟨x, x1, x2, x3⟩ := hx
        exact after_other _ _ x (hSq.1 x x1 x2 x3).1 (hno x x1 x2 x3)
      · rw [hSq.2 (fun x x1 x2 x3 => hx ⟨x, x1, x2, x3⟩) h22]
  have := hmid (k' - (k + 1)) (by omega)
  rwa [show k + 1 + (k' - (k + 1)) = k' by omega] at this

/-- C161 (partial: as C114, for tuples that C22 covers). Request `r0` stores the value `v0` and was answered before request `r'` was written, which selects by its primary key.
Request `r` stores the value `v` with the same key, and may have been sent before, after or never; it may have been answered, cancelled or timed out, or failed with the connection, or may still wait.
Nobody else on this connection touches the tuples with that key in this space. If the server is a box, then what `ReadMany` makes of the response to `r'` is
`v0` or `v`. -/
theorem C161_atomic_partial (he : e.Fits) (hc : Sane e dial (cs ++ ds)) (h : ByteLink.run e (init dial) cs = some b)
    (h' : ByteLink.run e b ds = some b') (hy : Conn.Young b'.c) (hbox : Serves e b') {r0 r r' i i' d d' : Nat}
    {space : UInt32} {ret0 ret : Bool} {t : Ty} {v0 v : Val} {limit : Int32} {keys : Keys} {key : Bytes}
    (hr0 : e.msg r0 = 13 ∧ Rpc.marshalWrite (.hook (StoreReq.write ⟨space, ret0, 0, .val t v0⟩)) = some (e.body r0))
    (hr : e.msg r = 13 ∧ Rpc.marshalWrite (.hook (StoreReq.write ⟨space, ret, 0, .val t v⟩)) = some (e.body r))
    (hr' : e.msg r' = 17 ∧ Rpc.marshalWrite (.hook (SelectReq.write ⟨space, 0, 0, limit, keys⟩)) = some (e.body r'))
    (ht : TupTy t) (hrow : Row t)
    (hv0 : TupVal false t v0 ∧ TupVal true t v0 ∧ (tupleBytes (fields t v0)).length < 2 ^ 32 ∧ (fields t v0).head? = some key)
    (hv : TupVal false t v ∧ TupVal true t v ∧ (tupleBytes (fields t v)).length < 2 ^ 32 ∧ (fields t v).head? = some key)
    (hl : limit ≠ 0) (hk : KeysOk keys) (hkey : keysOf keys = [[key]])
    (hothers : ∀ r'', ¬ (r'' = r0 ∨ r'' = r) → ¬ Touches e space.toNat key r'')
    (ha : b.c.ans r0 = some (.response i d)) (hn : ∀ i f, (i, r', f) ∉ b.c.wire) (ha' : b'.c.ans r' = some (.response i' d')) :
    ∃ q, b'.read d' = some q ∧ q.code = 0 ∧ ∃ u, (u = v0 ∨ u = v) ∧ readMany t q.body = some (1, 1, none, [u]) := by
  have hrun := run_append h h'
  obtain ⟨k, k', id', hlt, w1, w2, s2, hread⟩ := places he hc h h' hy ha hn ha'
  have hgot := seen_lt s2
  obtain ⟨id, s1⟩ := at_wire he hc hrun hy w1 (Nat.lt_trans hlt hgot)
  obtain ⟨S, hS⟩ := hbox
  have key0 : ∃ u, (u = v0 ∨ u = v) ∧ (S k').only space.toNat key = [fields t u] := by
    have i1 := stored hS hr0 ht hv0.1 hv0.2.2.2 s1
    by_cases hm : ∃ j i, k < j ∧ j < k' ∧ b'.c.wire[j]? = some (i, r, true)
    · obtain ⟨j, i, j1, j2, wj⟩ := hm
      obtain ⟨idj, sj⟩ := at_wire he hc hrun hy wj (Nat.lt_trans j2 hgot)
      refine ⟨v, .inr rfl, untouched hS (fun n q n1 _ hq => free he hc hrun hy hothers hq fun ra i x hra hw => ?_) j2 hgot
        (stored hS hr ht hv.1 hv.2.2.2 sj)⟩
      rcases hra with rfl | rfl
      · have := wire_once hrun hw w1
        omega
      · have := wire_once hrun hw wj
        omega
    · refine ⟨v0, .inl rfl, kept hS (fun n q n1 n2 hq => ?_) hlt hgot i1⟩
      obtain ⟨i0, ra, x, hw, hmsg, _, hb, hb0⟩ := C114_requests_partial he hc hrun hy hq
      by_cases hra : ra = r0 ∨ ra = r
      · have hx : x = false := by
          cases x with
          | false => rfl
          | true =>
            rcases hra with rfl | rfl
            · have := wire_once hrun hw w1
              omega
            · exact absurd ⟨n, i0, n1, n2, hw⟩ hm
        have h13 : e.msg ra = 13 := by rcases hra with rfl | rfl; exact hr0.1; exact hr.1
        exact ⟨by rw [hmsg, h13]; decide, fun y _ _ y3 => absurd (y3.symm.trans (hb0 hx)) (body_ne_nil y)⟩
      · have hno := hothers ra hra
        refine ⟨fun h22 => hno (.inl (by rw [← hmsg, h22])), fun y y1 y2 y3 ho => ?_⟩
        cases x with
        | false => exact body_ne_nil y (y3.symm.trans (hb0 rfl))
        | true => exact hno (.inr ⟨y, y1, by rw [← hmsg, y2], by rw [← hb rfl, y3], ho⟩)
  obtain ⟨u, hu, i2⟩ := key0
  refine ⟨_, selected hS hr' hl hk hkey s2 hread i2 (by simp), rfl, u, hu, ?_⟩
  have hu' : TupVal true t u ∧ (tupleBytes (fields t u)).length < 2 ^ 32 := by
    rcases hu with rfl | rfl
    · exact ⟨hv0.2.1, hv0.2.2.1⟩
    · exact ⟨hv.2.1, hv.2.2.1⟩
  have := C25_written_partial t hrow ht [u] (by simpa using hu'.1) (by simp) (by simpa using hu'.2) []
  simpa using this

end

/-! ### Example: request 3 stores the row, request 4 times out after it was sent and is stored nevertheless, request 5 selects -/

def envA : Env where
  rc := .rc0
  msg r := if r = 3 then 13 else if r = 4 then 13 else if r = 5 then 17 else 99
  body r := if r = 3 then (Rpc.marshalWrite (.hook (StoreReq.write ⟨1, false, 0, .val rowTy rowVal⟩))).getD []
    else if r = 4 then (Rpc.marshalWrite (.hook (StoreReq.write ⟨1, false, 0, .val rowTy newVal⟩))).getD []
    else if r = 5 then (Rpc.marshalWrite (.hook (SelectReq.write ⟨1, 0, 0, -1, keys7⟩))).getD [] else []
  code _ := 0
  answer k := if k = 2 then Spec.response [tupleBytes (fields rowTy newVal)] else [1, 0, 0, 0]
  map := none

def failing : List Choice :=
  [.client (.take 4), .client .header, .write none, .flush none, .client (.fail 4), .arriveUp 100, .up, .server .rl, .server (.call 1), .server (.begin 1),
   .server (.send 1), .put none, .put none, .put none, .put none, .put none, .arriveDown 100, .down, .client .reply]

/-- All hypotheses of C161_atomic_partial hold that are not the same as in the examples for C157. -/
example : envA.Fits ∧ (∀ r, ¬ (r = 3 ∨ r = 4) → ¬ Touches envA 1 [7, 0, 0, 0] r) ∧
    (envA.msg 4 = 13 ∧ Rpc.marshalWrite (.hook (StoreReq.write ⟨1, false, 0, .val rowTy newVal⟩)) = some (envA.body 4)) ∧
    (TupVal false rowTy newVal ∧ TupVal true rowTy newVal ∧ (tupleBytes (fields rowTy newVal)).length < 2 ^ 32 ∧ (fields rowTy newVal).head? = some [7, 0, 0, 0]) ∧
    ∃ b, ByteLink.run envA (init true) (shake ++ storing) = some b ∧ (b.c.ans 3 = some (.response 1 1) ∧ (∀ w ∈ b.c.wire, w.2.1 ≠ 5)) ∧
      ∃ b', ByteLink.run envA b (failing ++ selecting5) = some b' ∧ Serves envA b' ∧ Conn.Young b'.c ∧ b'.c.ans 4 = some .other ∧
        b'.c.ans 5 = some (.response 3 3) ∧ b'.read 3 = some ⟨17, 3, 0, Spec.response [tupleBytes (fields rowTy newVal)]⟩ := by
  have hb : ∃ b, ByteLink.run envA (init true) (shake ++ storing) = some b ∧
      (b.c.ans 3 = some (.response 1 1) ∧ (∀ w ∈ b.c.wire, w.2.1 ≠ 5) ∧
        ((ByteLink.run envA b (failing ++ selecting5)).any fun b' => decide (b'.got.length = 3 ∧
          b'.seen 0 = some ⟨13, 1, (Req.store 1 0 (fields rowTy rowVal)).body⟩ ∧
          b'.seen 1 = some ⟨13, 2, (Req.store 1 0 (fields rowTy newVal)).body⟩ ∧
          b'.seen 2 = some ⟨17, 3, (Req.select 1 0 0 2147483647 [[[7, 0, 0, 0]]]).body⟩ ∧
          Conn.Young b'.c ∧ b'.c.ans 4 = some .other ∧ b'.c.ans 5 = some (.response 3 3) ∧
          b'.read 3 = some ⟨17, 3, 0, Spec.response [tupleBytes (fields rowTy newVal)]⟩)) = true) := by
    refine any_some ?_
    decide +kernel
  obtain ⟨b, h, h1, h2, k5⟩ := hb
  obtain ⟨b', h4, h5, h6, h7, h7', h8, h8', h9, h10⟩ := any_some k5
  have tv : ∀ b, TupVal b rowTy newVal := by
    intro b
    cases b <;>
      simp [rowTy, newVal, plain, TupVal, TupVals, FieldVal, Fits, Scal.kind, pay, scalBytes, le, width, Ty.kind?, counted, withCnt]
  have ho : (fields rowTy rowVal).head? = some [7, 0, 0, 0] := by decide +kernel
  have hw : (fields rowTy newVal).head? = some [7, 0, 0, 0] := by decide +kernel
  refine ⟨⟨fun r => ⟨?_, ?_⟩, fun k => ?_⟩, ?_, ⟨rfl, by decide +kernel⟩, ⟨tv _, tv _, by decide +kernel, hw⟩, b, h, ⟨h1, h2⟩, b', h4, ?_, h8, h8', h9, h10⟩
  · simp only [envA]
    (repeat' split) <;> decide
  · have g1 : (envA.body 3).length < 2 ^ 32 := by decide +kernel
    have g2 : (envA.body 4).length < 2 ^ 32 := by decide +kernel
    have g3 : (envA.body 5).length < 2 ^ 32 := by decide +kernel
    by_cases e3 : r = 3
    · rw [e3]; exact g1
    by_cases e4 : r = 4
    · rw [e4]; exact g2
    by_cases e5 : r = 5
    · rw [e5]; exact g3
    simp [envA, e3, e4, e5]
  · have g1 : (Spec.response [tupleBytes (fields rowTy newVal)]).length + 4 < 2 ^ 32 := by decide +kernel
    simp only [envA]
    split
    · exact g1
    · decide
  · rintro r hr (hm | ⟨x, _, hm, _, hx⟩)
    · by_cases h4 : r = 5 <;> simp_all [envA]
    · by_cases h4 : r = 5
      · cases x <;> simp [envA, h4, Req.msg, Req.On] at hm hx
      · cases x <;> simp_all [envA, Req.msg]
  · have f0 : (Req.store 1 0 (fields rowTy rowVal)).Fits := ⟨by decide, by decide, by decide +kernel⟩
    have f1 : (Req.store 1 0 (fields rowTy newVal)).Fits := ⟨by decide, by decide, by decide +kernel⟩
    have f2 : (Req.select 1 0 0 2147483647 [[[7, 0, 0, 0]]]).Fits := ⟨by decide, by decide, by decide, by decide, by decide, by simp⟩
    refine ⟨fun k s => if s = 1 then if k = 0 then [] else if k = 1 then [fields rowTy rowVal] else [fields rowTy newVal] else [], fun k q hk => ?_⟩
    have hlt : k < 3 := by
      have := seen_lt hk
      omega
    match k, hlt with
    | 0, _ =>
      rw [h6] at hk
      cases hk
      refine ⟨fun x hx hm hbd => ?_, fun hx => absurd rfl (hx _ f0 rfl)⟩
      obtain rfl := body_inj f0 hx hm hbd
      refine ⟨?_, by simp⟩
      funext s
      by_cases hs : s = 1 <;> simp [Db.put, hs]
    | 1, _ =>
      rw [h7] at hk
      cases hk
      refine ⟨fun x hx hm hbd => ?_, fun hx => absurd rfl (hx _ f1 rfl)⟩
      obtain rfl := body_inj f1 hx hm hbd
      refine ⟨?_, by simp⟩
      funext s
      by_cases hs : s = 1 <;> simp [Db.put, hs, ho, hw]
    | 2, _ =>
      rw [h7'] at hk
      cases hk
      refine ⟨fun x hx hm hbd => ?_, fun hx => absurd rfl (hx _ f2 rfl)⟩
      obtain rfl := body_inj f2 hx hm hbd
      refine ⟨rfl, ?_⟩
      intro sp o l ks he
      cases he
      refine ⟨rfl, ?_⟩
      decide +kernel

end Verif.Box
