import Verif.Props.Box

/-! C157: what was stored by several requests is selected by one, in the order of the keys. -/
namespace Verif.Box
open Verif.Marshal Verif.Reflect Verif.Spec Verif.Sbox Verif.ByteLink Verif.Props

theorem found_keys (db : Db) (space limit : Nat) : ∀ ps : List (Bytes × List Bytes), (∀ p ∈ ps, db.only space p.1 = [p.2]) → ps.length ≤ limit →
    db.found space 0 limit (ps.map fun p => [p.1]) = ps.map (·.2) := by
  intro ps hp hl
  have : (ps.map fun p => [p.1]).flatMap (fun k => (db space).filter (k.isPrefixOf ·)) = ps.map (·.2) := by
    clear hl
    induction ps with
    | nil => rfl
    | cons p ps ih =>
      have h1 := found_key db space ((db.only space p.1).length) p.1
      simp only [Db.found, List.flatMap_cons, List.flatMap_nil, List.append_nil, List.drop_zero, List.take_length] at h1
      have h2 : (db space).filter (([p.1] : List Bytes).isPrefixOf ·) = db.only space p.1 := by
        unfold Db.only
        apply List.filter_congr
        intro u _
        cases u with
        | nil => simp [List.isPrefixOf]
        | cons a u => simp [List.isPrefixOf, eq_comm, Bool.beq_eq_decide_eq]
      rw [List.map_cons, List.flatMap_cons, h2, hp p (by simp), ih fun q hq => hp q (by simp [hq])]
      rfl
  rw [Db.found, this, List.drop_zero, List.take_of_length_le (by simpa using hl)]

theorem limit_keys (l : Int32) (n : Nat) (hn : n < 2 ^ 31) (hl : l < 0 ∨ (n : Int) ≤ l.toInt) :
    ∃ m, n ≤ m ∧ m < 2 ^ 32 ∧ scalBytes (.i32 (sentLimit l n)) = le 4 m := by
  have h3 := Int32.toInt_lt (sentLimit l n)
  have h1 : (n : Int) ≤ (sentLimit l n).toInt := by
    unfold sentLimit
    split
    · rename_i h0
      have h0 : (0 : Int) ≤ l.toInt := by simpa using Int32.le_iff_toInt_le.1 h0
      rcases hl with hl | hl
      · have : l.toInt < 0 := by simpa using Int32.lt_iff_toInt_lt.1 hl
        omega
      · exact hl
    · split
      · have : (Int32.ofNat n).toInt = n := Int32.toInt_ofNat_of_lt hn
        omega
      · show (n : Int) ≤ 2147483647
        omega
  refine ⟨pattern (.i32 (sentLimit l n)), ?_, ?_, rfl⟩ <;> simp only [pattern] <;> omega

section
variable {e : Env} {dial : Bool} {cs ds : List Choice} {b b' : ByteLink.St}

/-- A value that was stored by a request: with which primary key. -/
structure Stored where
  r : Nat
  v : Val
  key : Bytes

/-- C157 (partial: as C114, for tuples that C22 covers). Each of some requests stores a value, with mode "insert or replace", and was answered before request `r'`
was written, which selects by the primary keys of the values; nobody else on this connection touches the tuples with these keys in
this space. If the server is a box, then what `ReadMany` makes of the response to `r'` are the values, in the order of the keys. Keys may be given more than once. -/
theorem C157_keys_partial (he : e.Fits) (hc : Sane e dial (cs ++ ds)) (h : ByteLink.run e (init dial) cs = some b)
    (h' : ByteLink.run e b ds = some b') (hy : Conn.Young b'.c) (hbox : Serves e b') {r' i' d' : Nat}
    {space : UInt32} {t : Ty} {limit : Int32} {keys : Keys} {ps : List Stored}
    (hr : ∀ p ∈ ps, e.msg p.r = 13 ∧ (∃ ret, Rpc.marshalWrite (.hook (StoreReq.write ⟨space, ret, 0, .val t p.v⟩)) = some (e.body p.r)) ∧
      TupVal false t p.v ∧ TupVal true t p.v ∧ (tupleBytes (fields t p.v)).length < 2 ^ 32 ∧ (fields t p.v).head? = some p.key ∧
      (∀ r'', r'' ≠ p.r → ¬ Touches e space.toNat p.key r'') ∧ ∃ i d, b.c.ans p.r = some (.response i d))
    (hr' : e.msg r' = 17 ∧ Rpc.marshalWrite (.hook (SelectReq.write ⟨space, 0, 0, limit, keys⟩)) = some (e.body r'))
    (ht : TupTy t) (hrow : Row t) (hlen : ps.length < 2 ^ 31) (hl : limit < 0 ∨ (ps.length : Int) ≤ limit.toInt)
    (hk : KeysOk keys) (hkey : keysOf keys = ps.map fun p => [p.key])
    (hn : ∀ i f, (i, r', f) ∉ b.c.wire) (ha' : b'.c.ans r' = some (.response i' d')) :
    ∃ q, b'.read d' = some q ∧ q.code = 0 ∧ readMany t q.body = some (ps.length, (ps.length : Int), none, ps.map (·.v)) := by
  have hrun := run_append h h'
  obtain ⟨k', id', w2, s2, hread, _⟩ := C114_end_to_end_partial he hc hrun hy ha'
  obtain ⟨S, hS⟩ := hbox
  have hall : ∀ p ∈ ps, (S k').only space.toNat p.key = [fields t p.v] := by
    intro p hp
    obtain ⟨p1, ⟨ret, p2⟩, p3, p4, p5, p6, p7, i, d, ha⟩ := hr p hp
    obtain ⟨k, k2, id2, hlt, w1, w2', _, _⟩ := places he hc h h' hy ha hn ha'
    obtain rfl := wire_once hrun w2 w2'
    obtain ⟨id, s1⟩ := at_wire he hc hrun hy w1 (Nat.lt_trans hlt (seen_lt s2))
    exact untouched hS (fun j q h1 _ hq => free he hc hrun hy p7 hq
      fun r0 i x h0 hw => by subst h0; have := wire_once hrun hw w1; omega) hlt (seen_lt s2) (stored hS ⟨p1, p2⟩ ht p3 p6 s1)
  obtain ⟨m, m1, m2, m3⟩ := limit_keys limit ps.length hlen hl
  have b2 : e.body r' = (Req.select space.toNat 0 0 m (ps.map fun p => [p.key])).body := by
    have := marshal_adds (select_adds ⟨space, 0, 0, limit, keys⟩ hk (by rw [hkey]; simp; omega))
    rw [hr'.2] at this
    simpa [Req.body, hkey, m3] using this
  have f2 : (Req.select space.toNat 0 0 m (ps.map fun p => [p.key])).Fits :=
    ⟨space.toNat_lt, by decide, by decide, m2, by simp; omega, by simp⟩
  obtain ⟨c2, a2⟩ := ((hS k' _ s2).1 _ f2 hr'.1 b2).2 _ _ _ _ rfl
  have hf := found_keys (S k') space.toNat m (ps.map fun p => (p.key, fields t p.v)) (by simpa using hall) (by simpa using m1)
  simp only [List.map_map, Function.comp_def] at hf
  have h0 : e.carried (e.sent (e.code k')) = 0 := by
    have : e.sent 0 = 0 := by simp [Env.sent]
    simp only [c2, this, Env.carried]
    cases e.rc <;> rfl
  refine ⟨_, hread, h0, ?_⟩
  have := C25_written_partial t hrow ht (ps.map (·.v)) (by simpa using fun p hp => (hr p hp).2.2.2.1) (by simp; omega)
    (by simpa using fun p hp => (hr p hp).2.2.2.2.1) []
  simp only [a2, hf]
  simpa [Function.comp_def] using this

/-- C157 (partial: as C114, for tuples that C22 covers). Nobody has to wait for the answer to the first request: it is enough that it was written to the connection
before the second. -/
theorem C157_pipelined_partial (he : e.Fits) (hc : Sane e dial cs) (h : ByteLink.run e (init dial) cs = some b) (hy : Conn.Young b.c) (hbox : Serves e b)
    {r r' k k' i i' d' : Nat} {space : UInt32} {ret : Bool} {t : Ty} {v : Val} {limit : Int32} {keys : Keys} {key : Bytes}
    (hr : e.msg r = 13 ∧ Rpc.marshalWrite (.hook (StoreReq.write ⟨space, ret, 0, .val t v⟩)) = some (e.body r))
    (hr' : e.msg r' = 17 ∧ Rpc.marshalWrite (.hook (SelectReq.write ⟨space, 0, 0, limit, keys⟩)) = some (e.body r'))
    (ht : TupTy t) (hv : TupVal false t v) (hv' : TupVal true t v) (hrow : Row t) (hsz : (tupleBytes (fields t v)).length < 2 ^ 32)
    (hl : limit ≠ 0) (hk : KeysOk keys) (hkey : keysOf keys = [[key]]) (hfst : (fields t v).head? = some key)
    (hothers : ∀ r'', r'' ≠ r → ¬ Touches e space.toNat key r'')
    (hw : b.c.wire[k]? = some (i, r, true)) (hw' : ∃ f, b.c.wire[k']? = some (i', r', f)) (hlt : k < k')
    (ha' : b.c.ans r' = some (.response i' d')) :
    ∃ q, b.read d' = some q ∧ q.code = 0 ∧ readMany t q.body = some (1, 1, none, [v]) := by
  obtain ⟨f, hw'⟩ := hw'
  obtain ⟨k2, id', w2, s2, hread, _⟩ := C114_end_to_end_partial he hc h hy ha'
  obtain rfl := wire_once h hw' w2
  obtain ⟨id, s1⟩ := at_wire he hc h hy hw (Nat.lt_trans hlt (seen_lt s2))
  obtain ⟨S, hS⟩ := hbox
  have i2 := untouched hS (fun j q h1 _ hq => free he hc h hy hothers hq
    fun r0 i x h0 hw0 => by subst h0; have := wire_once h hw0 hw; omega) hlt (seen_lt s2) (stored hS hr ht hv hfst s1)
  refine ⟨_, selected hS hr' hl hk hkey s2 hread i2 (by simp), rfl, ?_⟩
  have := C25_written_partial t hrow ht [v] (by simpa using hv') (by simp) (by simpa using hsz) []
  simpa using this

end

/-! ### Example: request 4 is written before request 3 is answered -/

def pipelining : List Choice :=
  [.client (.take 3), .client .header, .write none, .client (.take 4), .client .header, .write none, .flush none, .arriveUp 200,
   .up, .server .rl, .up, .server .rl, .server (.call 0), .server (.call 1), .server (.begin 1), .server (.send 1), .server (.begin 0), .server (.send 0),
   .put none, .put none, .put none, .put none, .put none, .put none, .put none, .arriveDown 200, .down, .client .reply, .down, .client .reply]

/-- The answer to request 4 comes first. Those hypotheses of C157_pipelined_partial hold that are not the same as in the example for C157_own_write_partial. -/
example : ∃ b, ByteLink.run env (init true) (shake ++ pipelining) = some b ∧ (Conn.Young b.c ∧
    b.seen 0 = some ⟨13, 1, (Req.store 1 1 (fields rowTy rowVal)).body⟩ ∧ b.seen 1 = some ⟨17, 2, (Req.select 1 0 0 2147483647 [[[7, 0, 0, 0]]]).body⟩ ∧
    b.c.wire[0]? = some (1, 3, true) ∧ b.c.wire[1]? = some (2, 4, true) ∧ b.c.ans 4 = some (.response 2 1) ∧ b.c.ans 3 = some (.response 1 2) ∧
    b.read 1 = some ⟨17, 2, 0, Spec.response [row7]⟩) := by
  refine any_some ?_
  decide +kernel

/-! ### Example: requests 3 and 4 store rows with keys 7 and 8, request 5 selects 8, 7 and 8 -/

def row8 : Val := .seq [.scal (.i32 8), .str [], .seq []]
def keys878 : Keys := .val (.sl (.scal .i32)) (.seq [.scal (.i32 8), .scal (.i32 7), .scal (.i32 8)])
def t7 : List Verif.Bytes := fields rowTy rowVal
def t8 : List Verif.Bytes := fields rowTy row8
def both : List Stored := [⟨4, row8, [8, 0, 0, 0]⟩, ⟨3, rowVal, [7, 0, 0, 0]⟩, ⟨4, row8, [8, 0, 0, 0]⟩]

def envK : Env where
  rc := .rc0
  msg r := if r = 3 then 13 else if r = 4 then 13 else if r = 5 then 17 else 99
  body r := if r = 3 then (Rpc.marshalWrite (.hook (StoreReq.write ⟨1, false, 0, .val rowTy rowVal⟩))).getD []
    else if r = 4 then (Rpc.marshalWrite (.hook (StoreReq.write ⟨1, false, 0, .val rowTy row8⟩))).getD []
    else if r = 5 then (Rpc.marshalWrite (.hook (SelectReq.write ⟨1, 0, 0, 3, keys878⟩))).getD [] else []
  code _ := 0
  answer k := if k = 2 then Spec.response [tupleBytes t8, tupleBytes t7, tupleBytes t8] else [1, 0, 0, 0]
  map := none

/-- All hypotheses of C157_keys_partial hold. -/
example : envK.Fits ∧ Sane envK true ((shake ++ (storing ++ selecting)) ++ selecting5) ∧ TupTy rowTy ∧ Row rowTy ∧ KeysOk keys878 ∧
    keysOf keys878 = both.map (fun p => [p.key]) ∧
    (envK.msg 5 = 17 ∧ Rpc.marshalWrite (.hook (SelectReq.write ⟨1, 0, 0, 3, keys878⟩)) = some (envK.body 5)) ∧
    ∃ b, ByteLink.run envK (init true) (shake ++ (storing ++ selecting)) = some b ∧
      (∀ p ∈ both, envK.msg p.r = 13 ∧ (∃ ret, Rpc.marshalWrite (.hook (StoreReq.write ⟨1, ret, 0, .val rowTy p.v⟩)) = some (envK.body p.r)) ∧
        TupVal false rowTy p.v ∧ TupVal true rowTy p.v ∧ (tupleBytes (fields rowTy p.v)).length < 2 ^ 32 ∧ (fields rowTy p.v).head? = some p.key ∧
        (∀ r'', r'' ≠ p.r → ¬ Touches envK 1 p.key r'') ∧ ∃ i d, b.c.ans p.r = some (.response i d)) ∧
      (∀ w ∈ b.c.wire, w.2.1 ≠ 5) ∧
      ∃ b', ByteLink.run envK b selecting5 = some b' ∧ Serves envK b' ∧ Conn.Young b'.c ∧ b'.c.ans 5 = some (.response 3 3) ∧
        b'.read 3 = some ⟨17, 3, 0, Spec.response [tupleBytes t8, tupleBytes t7, tupleBytes t8]⟩ := by
  have hb : ∃ b, ByteLink.run envK (init true) (shake ++ (storing ++ selecting)) = some b ∧
      (b.c.ans 3 = some (.response 1 1) ∧ b.c.ans 4 = some (.response 2 2) ∧ (∀ w ∈ b.c.wire, w.2.1 ≠ 5) ∧
        ((ByteLink.run envK b selecting5).any fun b' => decide (b'.got.length = 3 ∧
          b'.seen 0 = some ⟨13, 1, (Req.store 1 0 t7).body⟩ ∧
          b'.seen 1 = some ⟨13, 2, (Req.store 1 0 t8).body⟩ ∧
          b'.seen 2 = some ⟨17, 3, (Req.select 1 0 0 3 [[[8, 0, 0, 0]], [[7, 0, 0, 0]], [[8, 0, 0, 0]]]).body⟩ ∧
          Conn.Young b'.c ∧ b'.c.ans 5 = some (.response 3 3) ∧
          b'.read 3 = some ⟨17, 3, 0, Spec.response [tupleBytes t8, tupleBytes t7, tupleBytes t8]⟩)) = true) := by
    refine any_some ?_
    decide +kernel
  obtain ⟨b, h, h1, h2, k4, k5⟩ := hb
  obtain ⟨b', h4, h5, h6, h7, h7', h8, h9, h10⟩ := any_some k5
  have h87 : ([8, 0, 0, 0] : Verif.Bytes) ≠ [7, 0, 0, 0] := by decide
  have ho : t7.head? = some [7, 0, 0, 0] := by decide +kernel
  have hw : t8.head? = some [8, 0, 0, 0] := by decide +kernel
  have f0 : (Req.store 1 0 t7).Fits := ⟨by decide, by decide, by decide +kernel⟩
  have f1 : (Req.store 1 0 t8).Fits := ⟨by decide, by decide, by decide +kernel⟩
  have g0 : envK.body 3 = (Req.store 1 0 t7).body := by decide +kernel
  have g1 : envK.body 4 = (Req.store 1 0 t8).body := by decide +kernel
  have tv : ∀ b, TupVal b rowTy rowVal ∧ TupVal b rowTy row8 := by
    intro b
    cases b <;>
      simp [rowTy, rowVal, row8, plain, TupVal, TupVals, FieldVal, Fits, Scal.kind, pay, scalBytes, le, width, Ty.kind?, counted, withCnt]
  have others : ∀ key r'', Touches envK 1 key r'' → (r'' = 3 ∧ key = [7, 0, 0, 0]) ∨ (r'' = 4 ∧ key = [8, 0, 0, 0]) := by
    rintro key r (hm | ⟨x, fx, hm, hb, hx⟩)
    · by_cases e3 : r = 3 <;> by_cases e4 : r = 4 <;> by_cases e5 : r = 5 <;> simp [envK, e3, e4, e5] at hm
    · by_cases e3 : r = 3
      · subst e3
        rw [g0] at hb
        obtain rfl := body_inj f0 fx hm hb
        have := hx.2.symm.trans ho
        exact .inl ⟨rfl, by simpa using this⟩
      by_cases e4 : r = 4
      · subst e4
        rw [g1] at hb
        obtain rfl := body_inj f1 fx hm hb
        have := hx.2.symm.trans hw
        exact .inr ⟨rfl, by simpa using this⟩
      by_cases e5 : r = 5
      · cases x <;> simp [envK, e5, Req.msg, Req.On] at hm hx
      · cases x <;> simp [envK, e3, e4, e5, Req.msg] at hm
  refine ⟨⟨fun r => ⟨?_, ?_⟩, fun k => ?_⟩, .inl rfl, (flat_tup _ rowTy_flat _ rowVal_has rowVal_small).1, by simp [Row, rowTy], ?_, by decide +kernel,
    ⟨rfl, by decide +kernel⟩, b, h, ?_, k4, b', h4, ?_, h8, h9, h10⟩
  · simp only [envK]
    (repeat' split) <;> decide
  · have g1 : (envK.body 3).length < 2 ^ 32 := by decide +kernel
    have g2 : (envK.body 4).length < 2 ^ 32 := by decide +kernel
    have g3 : (envK.body 5).length < 2 ^ 32 := by decide +kernel
    by_cases e3 : r = 3
    · rw [e3]; exact g1
    by_cases e4 : r = 4
    · rw [e4]; exact g2
    by_cases e5 : r = 5
    · rw [e5]; exact g3
    simp [envK, e3, e4, e5]
  · have g1 : (Spec.response [tupleBytes t8, tupleBytes t7, tupleBytes t8]).length + 4 < 2 ^ 32 := by decide +kernel
    simp only [envK]
    split
    · exact g1
    · decide
  · have hf := flat_tup (.scal .i32) rfl (.scal (.i32 8)) (by simp [HasTy, Scal.kind]) (by simp [Small, fields, pay, scalBytes, le, width, Scal.kind])
    simp only [KeysOk, keys878, KeyVal]
    refine ⟨_, rfl, hf.1, fun u hu => ?_⟩
    simp only [List.mem_cons, List.not_mem_nil, or_false] at hu
    rcases hu with rfl | rfl | rfl <;> simp [TupVal, FieldVal, Fits, Scal.kind, pay, scalBytes, le, width]
  · intro p hp
    simp only [both, List.mem_cons, List.not_mem_nil, or_false] at hp
    have p4 : envK.msg 4 = 13 ∧ (∃ ret, Rpc.marshalWrite (.hook (StoreReq.write ⟨1, ret, 0, .val rowTy row8⟩)) = some (envK.body 4)) ∧
        TupVal false rowTy row8 ∧ TupVal true rowTy row8 ∧ (tupleBytes (fields rowTy row8)).length < 2 ^ 32 ∧ (fields rowTy row8).head? = some [8, 0, 0, 0] ∧
        (∀ r'', r'' ≠ 4 → ¬ Touches envK 1 [8, 0, 0, 0] r'') ∧ ∃ i d, b.c.ans 4 = some (.response i d) :=
      ⟨rfl, ⟨false, by decide +kernel⟩, (tv _).2, (tv _).2, by decide +kernel, hw,
        fun r hr ht => (others _ r ht).elim (fun h => h87 h.2) (fun h => hr h.1), _, _, h2⟩
    have p3 : envK.msg 3 = 13 ∧ (∃ ret, Rpc.marshalWrite (.hook (StoreReq.write ⟨1, ret, 0, .val rowTy rowVal⟩)) = some (envK.body 3)) ∧
        TupVal false rowTy rowVal ∧ TupVal true rowTy rowVal ∧ (tupleBytes (fields rowTy rowVal)).length < 2 ^ 32 ∧ (fields rowTy rowVal).head? = some [7, 0, 0, 0] ∧
        (∀ r'', r'' ≠ 3 → ¬ Touches envK 1 [7, 0, 0, 0] r'') ∧ ∃ i d, b.c.ans 3 = some (.response i d) :=
      ⟨rfl, ⟨false, by decide +kernel⟩, (tv _).1, (tv _).1, by decide +kernel, ho,
        fun r hr ht => (others _ r ht).elim (fun h => hr h.1) (fun h => h87 h.2.symm), _, _, h1⟩
    rcases hp with rfl | rfl | rfl
    · exact p4
    · exact p3
    · exact p4
  · have f2 : (Req.select 1 0 0 3 [[[8, 0, 0, 0]], [[7, 0, 0, 0]], [[8, 0, 0, 0]]]).Fits := ⟨by decide, by decide, by decide, by decide, by decide, by simp⟩
    refine ⟨fun k s => if s = 1 then if k = 0 then [] else if k = 1 then [t7] else [t7, t8] else [], fun k q hk => ?_⟩
    have hlt : k < 3 := by
      have := seen_lt hk
      omega
    match k, hlt with
    | 0, _ =>
      rw [h6] at hk
      cases hk
      refine ⟨fun x hx hm hbd => ?_, fun hx => absurd rfl (hx _ f0 rfl)⟩
      obtain rfl := body_inj f0 hx hm hbd
      refine ⟨?_, by simp⟩
      funext s
      by_cases hs : s = 1 <;> simp [Db.put, hs]
    | 1, _ =>
      rw [h7] at hk
      cases hk
      refine ⟨fun x hx hm hbd => ?_, fun hx => absurd rfl (hx _ f1 rfl)⟩
      obtain rfl := body_inj f1 hx hm hbd
      refine ⟨?_, by simp⟩
      funext s
      by_cases hs : s = 1 <;> simp [Db.put, hs, ho, hw]
    | 2, _ =>
      rw [h7'] at hk
      cases hk
      refine ⟨fun x hx hm hbd => ?_, fun hx => absurd rfl (hx _ f2 rfl)⟩
      obtain rfl := body_inj f2 hx hm hbd
      refine ⟨rfl, ?_⟩
      intro sp o l ks he
      cases he
      refine ⟨rfl, ?_⟩
      decide +kernel

end Verif.Box
