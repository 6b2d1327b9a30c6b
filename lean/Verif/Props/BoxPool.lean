import Verif.Spec.BoxPool
import Verif.Props.Box

/-! C160: what was stored through one connection is selected through another. -/
namespace Verif.Box
open Verif.Marshal Verif.Reflect Verif.Spec Verif.Sbox Verif.ByteLink Verif.Props

section
variable {e : Nat → Env} {dial : Nat → Bool} {cs ds : Nat → List Choice} {b b' : Nat → ByteLink.St}

/-- What is known of two requests, of which one was answered before the other was written, and of what the box does in between. -/
structure Two (e : Nat → Env) (b' : Nat → ByteLink.St) (c r c' r' d' space : Nat) (key : Bytes) (k k' : Nat) (S : Nat → Db) (j j' : Nat) : Prop where
  lt : j < j'
  fst : ∃ id, (b' c).seen k = some ⟨(e c).msg r, id, (e c).body r⟩
  snd : ∃ id, (b' c').seen k' = some ⟨(e c').msg r', id, (e c').body r'⟩ ∧
    (b' c').read d' = some ⟨(e c').msg r', id, (e c').carried ((e c').sent ((e c').code k')), (e c').answer k'⟩
  does : ∀ q, (b' c).seen k = some q → ∀ x : Req, x.Fits → q.msg = x.msg → q.body = x.body → (S j).After (S (j + 1)) x
  says : ∀ q, (b' c').seen k' = some q → ∀ space offset limit keys, (Req.select space 0 offset limit keys).Fits → q.msg = 17 →
    q.body = (Req.select space 0 offset limit keys).body →
    (e c').code k' = 0 ∧ (e c').answer k' = response (((S j').found space offset limit keys).map tupleBytes)
  keeps : (S j').only space key = (S (j + 1)).only space key

theorem two (he : ∀ c, (e c).Fits) (hc : ∀ c, Sane (e c) (dial c) (cs c ++ ds c)) (h : ∀ c, ByteLink.run (e c) (init (dial c)) (cs c) = some (b c))
    (h' : ∀ c, ByteLink.run (e c) (b c) (ds c) = some (b' c)) (hy : ∀ c, Conn.Young (b' c).c) (hbox : ServesAll e b b')
    {c r c' r' i i' d d' space : Nat} {key : Bytes} (hothers : ∀ c'' r'', (c'', r'') ≠ (c, r) → ¬ Touches (e c'') space key r'')
    (ha : (b c).c.ans r = some (.response i d)) (hn : ∀ i f, (i, r', f) ∉ (b c').c.wire) (ha' : (b' c').c.ans r' = some (.response i' d')) :
    ∃ k k' S j j', Two e b' c r c' r' d' space key k k' S j j' := by
  obtain ⟨H, H', S, hnd, hg, hg', hH, hH', hS⟩ := hbox
  have hrun := fun c => run_append (h c) (h' c)
  have hy1 : ∀ c, Conn.Young (b c).c := fun c => Nat.le_trans (run_got (h' c)) (hy c)
  obtain ⟨k, id, w1, _, _, _⟩ := C114_end_to_end_partial (he c) (sane_left (hc c)) (h c) (hy1 c) ha
  obtain ⟨k', id', w2, s2, r2, _⟩ := C114_end_to_end_partial (he c') (hc c') (hrun c') (hy c') ha'
  obtain ⟨⟨x, hx⟩, _, _⟩ := run_client (h' c)
  have w1' : (b' c).c.wire[k]? = some (i, r, true) := by rw [← hx]; exact Link.getElem?_grow w1
  have m1 := hH c k ⟨i, r, d, w1, ha⟩
  have m2 := hH' c' k' ⟨i', r', d', w2, ha'⟩
  obtain ⟨j, hj, e1⟩ := List.getElem_of_mem m1
  have e1' : (H ++ H')[j]? = some (c, k) := by
    rw [List.getElem?_append_left hj, List.getElem?_eq_getElem hj, e1]
  have n2 : (c', k') ∉ H := by
    intro hm
    have hlt := hg c' k' hm
    have hs : ∃ q, (b c').seen k' = some q := by
      simp only [ByteLink.St.seen, List.getElem?_eq_getElem hlt, Option.map_some]
      exact ⟨_, rfl⟩
    obtain ⟨q, hq⟩ := hs
    obtain ⟨i0, r0, f, hw, _⟩ := C114_requests_partial (he c') (sane_left (hc c')) (h c') (hy1 c') hq
    obtain ⟨⟨y, hyy⟩, _, _⟩ := run_client (h' c')
    have : (b' c').c.wire[k']? = some (i0, r0, f) := by rw [← hyy]; exact Link.getElem?_grow hw
    rw [w2] at this
    cases this
    exact hn _ _ (List.mem_of_getElem? hw)
  obtain ⟨j', hj', e2⟩ := List.getElem_of_mem m2
  have e2' : (H ++ H')[j']? = some (c', k') := by rw [List.getElem?_eq_getElem hj', e2]
  have hlt : j < j' := by
    rcases Nat.lt_or_ge j' H.length with hl | hl
    · rw [List.getElem?_append_left hl] at e2'
      exact absurd (List.mem_of_getElem? e2') n2
    · omega
  have seen1 := at_wire (he c) (hc c) (hrun c) (hy c) w1' (hg' c k (List.mem_of_getElem? e1'))
  refine ⟨k, k', S, j, j', hlt, seen1, ⟨id', s2, r2⟩, fun q hq x x1 x2 x3 => ((hS j c k q e1' hq).1 x x1 x2 x3).1,
    fun q hq sp o l ks x1 x2 x3 => ((hS j' c' k' q e2' hq).1 _ x1 x2 x3).2 _ _ _ _ rfl, ?_⟩
  have hmid : ∀ n, j + 1 + n ≤ j' → (S (j + 1 + n)).only space key = (S (j + 1)).only space key := by
    intro n
    induction n with
    | zero => intro _; rfl
    | succ n ih =>
      intro hle
      rw [← ih (by omega), show j + 1 + (n + 1) = j + 1 + n + 1 by omega]
      obtain ⟨⟨c0, k0⟩, hp⟩ : ∃ p, (H ++ H')[j + 1 + n]? = some p := ⟨_, List.getElem?_eq_getElem (show j + 1 + n < (H ++ H').length by omega)⟩
      have hlt0 := hg' c0 k0 (List.mem_of_getElem? hp)
      have hs : ∃ q, (b' c0).seen k0 = some q := by
        simp only [ByteLink.St.seen, List.getElem?_eq_getElem hlt0, Option.map_some]
        exact ⟨_, rfl⟩
      obtain ⟨q, hq⟩ := hs
      obtain ⟨i0, r0, f, hw, hm, _, hb, hb0⟩ := C114_requests_partial (he c0) (hc c0) (hrun c0) (hy c0) hq
      have hno : ¬ Touches (e c0) space key r0 := by
        apply hothers
        rintro hcr
        obtain ⟨rfl, rfl⟩ : c0 = c ∧ r0 = r := by simpa using hcr
        obtain rfl := wire_once (hrun _) hw w1'
        have := (List.getElem?_inj (show j < (H ++ H').length by omega) hnd).mp (e1'.trans hp.symm)
        omega
      have hbody : q.body = [] ∨ q.body = (e c0).body r0 := by
        cases f with
        | false => exact .inl (hb0 rfl)
        | true => exact .inr (hb rfl)
      have hSq := hS _ c0 k0 q hp hq
      by_cases hx : ∃ x : Req, x.Fits ∧ q.msg = x.msg ∧ q.body = x.body
      · obtain ⟨x, x1, x2, x3⟩ := hx
        refine after_other _ _ x (hSq.1 x x1 x2 x3).1 fun ho => ?_
        rcases hbody with h3 | h3
        · exact body_ne_nil _ (x3.symm.trans h3)
        · exact hno (.inr ⟨x, x1, by rw [← hm, x2], by rw [← h3, x3], ho⟩)
      · rw [hSq.2 (fun x x1 x2 x3 => hx ⟨x, x1, x2, x3⟩) (fun h22 => hno (.inl (by rw [← hm, h22])))]
  have := hmid (j' - (j + 1)) (by omega)
  rwa [show j + 1 + (j' - (j + 1)) = j' by omega] at this

/-- What is answered to a selection by the primary key. -/
theorem two_selected {c r c' r' d' k k' j j' : Nat} {S : Nat → Db} {space : UInt32} {limit : Int32} {keys : Keys} {key : Bytes} {ts : List (List Bytes)}
    (g : Two e b' c r c' r' d' space.toNat key k k' S j j')
    (hr' : (e c').msg r' = 17 ∧ Rpc.marshalWrite (.hook (SelectReq.write ⟨space, 0, 0, limit, keys⟩)) = some ((e c').body r'))
    (hl : limit ≠ 0) (hk : KeysOk keys) (hkey : keysOf keys = [[key]]) (hts : (S (j + 1)).only space.toNat key = ts) (h1 : ts.length ≤ 1) :
    ∃ id, (b' c').read d' = some ⟨17, id, 0, Spec.response (ts.map tupleBytes)⟩ := by
  obtain ⟨id, s2, hread⟩ := g.snd
  obtain ⟨m, m1, m2, m3⟩ := limit_bytes limit hl
  have b2 : (e c').body r' = (Req.select space.toNat 0 0 m [[key]]).body := by
    have := marshal_adds (select_adds ⟨space, 0, 0, limit, keys⟩ hk (by rw [hkey]; simp))
    rw [hr'.2] at this
    simpa [Req.body, hkey, m3] using this
  have f2 : (Req.select space.toNat 0 0 m [[key]]).Fits := ⟨space.toNat_lt, by decide, by decide, m2, by simp, by simp⟩
  obtain ⟨c2, a2⟩ := g.says _ s2 _ _ _ _ f2 hr'.1 b2
  rw [found_key, g.keeps, hts, List.take_of_length_le (by omega)] at a2
  have h0 : (e c').carried ((e c').sent ((e c').code k')) = 0 := by
    have : (e c').sent 0 = 0 := by simp [Env.sent]
    simp only [c2, this, Env.carried]
    cases (e c').rc <;> rfl
  exact ⟨id, by rw [hread, h0, a2, hr'.1]⟩

/-- C160 (partial: as C114, for tuples that C22 covers). Request `r` on connection `c` stores the value `v`, with mode "insert or replace"; it was answered
before request `r'` was written to connection `c'`, which may be another one and selects by the primary key of `v`; nobody else touches the tuples with that key in
this space. If the server is a box, then what `ReadMany` makes of the response to `r'` is `v`. -/
theorem C160_own_write_partial (he : ∀ c, (e c).Fits) (hc : ∀ c, Sane (e c) (dial c) (cs c ++ ds c))
    (h : ∀ c, ByteLink.run (e c) (init (dial c)) (cs c) = some (b c))
    (h' : ∀ c, ByteLink.run (e c) (b c) (ds c) = some (b' c)) (hy : ∀ c, Conn.Young (b' c).c) (hbox : ServesAll e b b')
    {c r c' r' i i' d d' : Nat} {space : UInt32} {ret : Bool} {t : Ty} {v : Val} {limit : Int32} {keys : Keys} {key : Bytes}
    (hr : (e c).msg r = 13 ∧ Rpc.marshalWrite (.hook (StoreReq.write ⟨space, ret, 0, .val t v⟩)) = some ((e c).body r))
    (hr' : (e c').msg r' = 17 ∧ Rpc.marshalWrite (.hook (SelectReq.write ⟨space, 0, 0, limit, keys⟩)) = some ((e c').body r'))
    (ht : TupTy t) (hv : TupVal false t v) (hv' : TupVal true t v) (hrow : Row t) (hsz : (tupleBytes (fields t v)).length < 2 ^ 32)
    (hl : limit ≠ 0) (hk : KeysOk keys) (hkey : keysOf keys = [[key]]) (hfst : (fields t v).head? = some key)
    (hothers : ∀ c'' r'', (c'', r'') ≠ (c, r) → ¬ Touches (e c'') space.toNat key r'')
    (ha : (b c).c.ans r = some (.response i d)) (hn : ∀ i f, (i, r', f) ∉ (b c').c.wire) (ha' : (b' c').c.ans r' = some (.response i' d')) :
    ∃ q, (b' c').read d' = some q ∧ q.code = 0 ∧ readMany t q.body = some (1, 1, none, [v]) := by
  obtain ⟨k, k', S, j, j', g⟩ := two he hc h h' hy hbox hothers ha hn ha'
  have hok : TupOk (.val t v) := ⟨ht, hv⟩
  have b1 : (e c).body r = (Req.store space.toNat (if ret then 1 else 0) (fields t v)).body := by
    have := marshal_adds (store_adds ⟨space, ret, 0, .val t v⟩ hok)
    rw [hr.2] at this
    simpa [Req.body, tupFields] using this
  have f1 : (Req.store space.toNat (if ret then 1 else 0) (fields t v)).Fits :=
    ⟨space.toNat_lt, by split <;> omega, tupFields_lt _ hok⟩
  obtain ⟨id, s1⟩ := g.fst
  have e1 := g.does _ s1 _ f1 hr.1 b1
  have i1 : (S (j + 1)).only space.toNat key = [fields t v] := by
    simp only [Db.After] at e1
    rw [e1]
    have : (if ret = true then 1 else 0) / 2 = 0 := by split <;> rfl
    simp only [this, if_true]
    exact put_same _ _ _ _ hfst
  obtain ⟨id', hq⟩ := two_selected g hr' hl hk hkey i1 (by simp)
  refine ⟨_, hq, rfl, ?_⟩
  have := C25_written_partial t hrow ht [v] (by simpa using hv') (by simp) (by simpa using hsz) []
  simpa using this

/-- C160 (partial: as C114, for keys that C22 covers). Request `r` on connection `c` deletes by the primary key; it was answered before request `r'` was written to
connection `c'`, which selects by that key; nobody else touches the tuples with that key in this space. If the server is a box, then `ReadMany` finds no tuple. -/
theorem C160_deleted_partial (he : ∀ c, (e c).Fits) (hc : ∀ c, Sane (e c) (dial c) (cs c ++ ds c))
    (h : ∀ c, ByteLink.run (e c) (init (dial c)) (cs c) = some (b c))
    (h' : ∀ c, ByteLink.run (e c) (b c) (ds c) = some (b' c)) (hy : ∀ c, Conn.Young (b' c).c) (hbox : ServesAll e b b')
    {c r c' r' i i' d d' : Nat} {space : UInt32} {ret : Bool} {tup : Tup} {limit : Int32} {keys : Keys} {key : Bytes}
    (hr : (e c).msg r = 21 ∧ Rpc.marshalWrite (.hook (DeleteReq.write ⟨space, ret, tup⟩)) = some ((e c).body r))
    (hr' : (e c').msg r' = 17 ∧ Rpc.marshalWrite (.hook (SelectReq.write ⟨space, 0, 0, limit, keys⟩)) = some ((e c').body r'))
    (ht : TupOk tup) (htup : tupFields tup = [key]) (hl : limit ≠ 0) (hk : KeysOk keys) (hkey : keysOf keys = [[key]])
    (hothers : ∀ c'' r'', (c'', r'') ≠ (c, r) → ¬ Touches (e c'') space.toNat key r'')
    (ha : (b c).c.ans r = some (.response i d)) (hn : ∀ i f, (i, r', f) ∉ (b c').c.wire) (ha' : (b' c').c.ans r' = some (.response i' d')) :
    ∃ q, (b' c').read d' = some q ∧ q.code = 0 ∧ ∀ t, Row t → TupTy t → readMany t q.body = some (0, 0, none, []) := by
  obtain ⟨k, k', S, j, j', g⟩ := two he hc h h' hy hbox hothers ha hn ha'
  have b1 : (e c).body r = (Req.delete space.toNat (if ret then 1 else 0) [key]).body := by
    have := marshal_adds (delete_adds ⟨space, ret, tup⟩ ht)
    rw [hr.2] at this
    simpa [Req.body, htup] using this
  have f1 : (Req.delete space.toNat (if ret then 1 else 0) [key]).Fits := ⟨space.toNat_lt, by split <;> omega, by simp⟩
  obtain ⟨id, s1⟩ := g.fst
  have e1 : S (j + 1) = (S j).remove space.toNat key := g.does _ s1 _ f1 hr.1 b1
  have i1 : (S (j + 1)).only space.toNat key = [] := by rw [e1]; exact remove_same _ _ _
  obtain ⟨id', hq⟩ := two_selected g hr' hl hk hkey i1 (by simp)
  refine ⟨_, hq, rfl, fun t hrow ht => ?_⟩
  have := C25_written_partial t hrow ht [] (by simp) (by simp) (by simp) []
  simpa using this

end

/-! ### Example: request 3 on connection 0 stores a row, request 4 on connection 1 selects it -/

/-- Connections 0, 1 and the others. -/
def pick {α : Type} (x y z : α) : Nat → α
  | 0 => x
  | 1 => y
  | _ => z

theorem pick_all {α : Type} {P : Nat → α → Prop} {x y z : α} (h0 : P 0 x) (h1 : P 1 y) (h2 : ∀ c, P (c + 2) z) : ∀ c, P c (pick x y z c)
  | 0 => h0
  | 1 => h1
  | c + 2 => h2 c

def env0 : Env where
  rc := .rc0
  msg r := if r = 3 then 13 else 99
  body r := if r = 3 then (Rpc.marshalWrite (.hook (StoreReq.write ⟨1, false, 0, .val rowTy rowVal⟩))).getD [] else []
  code _ := 0
  answer _ := [1, 0, 0, 0]
  map := none

def env1 : Env where
  rc := .rc0
  msg r := if r = 4 then 17 else 99
  body r := if r = 4 then (Rpc.marshalWrite (.hook (SelectReq.write ⟨1, 0, 0, -1, keys7⟩))).getD [] else []
  code _ := 0
  answer _ := Spec.response [row7]
  map := none

def env2 : Env where
  rc := .rc0
  msg _ := 99
  body _ := []
  code _ := 0
  answer _ := []
  map := none

def selecting1 : List Choice :=
  [.client (.take 4), .client .header, .write none, .flush none, .arriveUp 100, .up, .server .rl, .server (.call 0), .server (.begin 0),
   .server (.send 0), .put none, .put none, .put none, .put none, .put none, .arriveDown 100, .down,
   .client .reply]

theorem pool_fits : ∀ c, Env.Fits (pick env0 env1 env2 c) := by
  apply pick_all (P := fun _ => Env.Fits)
  · have g : (env0.body 3).length < 2 ^ 32 := by decide +kernel
    refine ⟨fun r => ⟨?_, ?_⟩, fun k => by simp [env0]⟩
    · simp only [env0]
      split <;> decide
    · by_cases h3 : r = 3
      · rw [h3]; exact g
      · simp [env0, h3]
  · have g : (env1.body 4).length < 2 ^ 32 := by decide +kernel
    have g' : (Spec.response [row7]).length + 4 < 2 ^ 32 := by decide +kernel
    refine ⟨fun r => ⟨?_, ?_⟩, fun k => g'⟩
    · simp only [env1]
      split <;> decide
    · by_cases h3 : r = 4
      · rw [h3]; exact g
      · simp [env1, h3]
  · intro _
    exact ⟨fun r => ⟨by simp [env2], by simp [env2]⟩, fun k => by simp [env2]⟩

/-- All hypotheses of C160_own_write_partial hold (those about the row and the key: see the examples for C157). -/
example : (∀ c, Env.Fits (pick env0 env1 env2 c)) ∧ (∀ c, Sane (pick env0 env1 env2 c) true (pick (shake ++ storing) shake [] c ++ pick [] selecting1 [] c)) ∧
    (env0.msg 3 = 13 ∧ Rpc.marshalWrite (.hook (StoreReq.write ⟨1, false, 0, .val rowTy rowVal⟩)) = some (env0.body 3)) ∧
    (env1.msg 4 = 17 ∧ Rpc.marshalWrite (.hook (SelectReq.write ⟨1, 0, 0, -1, keys7⟩)) = some (env1.body 4)) ∧
    (∀ c r, (c, r) ≠ (0, 3) → ¬ Touches (pick env0 env1 env2 c) 1 [7, 0, 0, 0] r) ∧
    ∃ b b' : Nat → ByteLink.St, (∀ c, ByteLink.run (pick env0 env1 env2 c) (init true) (pick (shake ++ storing) shake [] c) = some (b c)) ∧
      (∀ c, ByteLink.run (pick env0 env1 env2 c) (b c) (pick [] selecting1 [] c) = some (b' c)) ∧ (∀ c, Conn.Young (b' c).c) ∧
      ServesAll (pick env0 env1 env2) b b' ∧ (b 0).c.ans 3 = some (.response 1 1) ∧ (∀ w ∈ (b 1).c.wire, w.2.1 ≠ 4) ∧
      (b' 1).c.ans 4 = some (.response 1 1) ∧ (b' 1).read 1 = some ⟨17, 1, 0, Spec.response [row7]⟩ := by
  have hb0 : ∃ b, ByteLink.run env0 (init true) (shake ++ storing) = some b ∧ (b.got.length = 1 ∧ b.c.wire.length = 1 ∧
      b.seen 0 = some ⟨13, 1, (Req.store 1 0 (fields rowTy rowVal)).body⟩ ∧ Conn.Young b.c ∧ b.c.ans 3 = some (.response 1 1)) := by
    refine any_some ?_
    decide +kernel
  have hb1 : ∃ b, ByteLink.run env1 (init true) shake = some b ∧ (b.c.wire = [] ∧
      ((ByteLink.run env1 b selecting1).any fun b' => decide (b'.got.length = 1 ∧ b'.c.wire.length = 1 ∧
        b'.seen 0 = some ⟨17, 1, (Req.select 1 0 0 2147483647 [[[7, 0, 0, 0]]]).body⟩ ∧
        Conn.Young b'.c ∧ b'.c.ans 4 = some (.response 1 1) ∧ b'.read 1 = some ⟨17, 1, 0, Spec.response [row7]⟩)) = true) := by
    refine any_some ?_
    decide +kernel
  obtain ⟨b0, p1, p2, p3, p4, p5, p6⟩ := hb0
  obtain ⟨b1, q1, q2, q3⟩ := hb1
  obtain ⟨b1', r1, r2, r3, r4, r5, r6, r7⟩ := any_some q3
  have f0 : (Req.store 1 0 (fields rowTy rowVal)).Fits := ⟨by decide, by decide, by decide +kernel⟩
  have f1 : (Req.select 1 0 0 2147483647 [[[7, 0, 0, 0]]]).Fits := ⟨by decide, by decide, by decide, by decide, by decide, by simp⟩
  refine ⟨pool_fits, pick_all (P := fun c x => Sane x true _) (.inl rfl) (.inl rfl) fun _ => .inl rfl, ⟨rfl, by decide +kernel⟩, ⟨rfl, by decide +kernel⟩, ?_,
    pick b0 b1 (init true), pick b0 b1' (init true), ?_, ?_, ?_, ?_, p6, ?_, r6, r7⟩
  · rintro c r hcr ht
    match c with
    | 0 =>
      have h3 : r ≠ 3 := fun h => hcr (by rw [h])
      rcases ht with hm | ⟨x, _, hm, _, _⟩
      · simp [pick, env0, h3] at hm
      · cases x <;> simp [pick, env0, h3, Req.msg] at hm
    | 1 =>
      rcases ht with hm | ⟨x, _, hm, _, hx⟩
      · by_cases h4 : r = 4 <;> simp [pick, env1, h4] at hm
      · by_cases h4 : r = 4 <;> cases x <;> simp [pick, env1, h4, Req.msg, Req.On] at hm hx
    | c + 2 =>
      rcases ht with hm | ⟨x, _, hm, _, _⟩
      · simp [pick, env2] at hm
      · cases x <;> simp [pick, env2, Req.msg] at hm
  · intro c
    match c with
    | 0 => exact p1
    | 1 => exact q1
    | c + 2 => rfl
  · intro c
    match c with
    | 0 => rfl
    | 1 => exact r1
    | c + 2 => rfl
  · exact pick_all (P := fun _ (x : ByteLink.St) => Conn.Young x.c) p5 r5 fun _ => by decide
  · refine ⟨[(0, 0)], [(1, 0)], fun k s => if k = 0 then [] else if s = 1 then [fields rowTy rowVal] else [], by decide, ?_, ?_, ?_, ?_, ?_⟩
    · intro c k hk
      obtain ⟨rfl, rfl⟩ : c = 0 ∧ k = 0 := by simpa using hk
      show 0 < b0.got.length
      omega
    · intro c k hk
      have : (c = 0 ∧ k = 0) ∨ (c = 1 ∧ k = 0) := by simpa using hk
      rcases this with ⟨rfl, rfl⟩ | ⟨rfl, rfl⟩
      · show 0 < b0.got.length
        omega
      · show 0 < b1'.got.length
        omega
    · rintro c k ⟨i, r, d, hw, _⟩
      have hlt := (List.getElem?_eq_some_iff.mp hw).1
      match c with
      | 0 =>
        have : k < b0.c.wire.length := hlt
        obtain rfl : k = 0 := by omega
        simp
      | 1 =>
        have : k < b1.c.wire.length := hlt
        simp [q2] at this
      | c + 2 => exact absurd hlt (Nat.not_lt_zero _)
    · rintro c k ⟨i, r, d, hw, _⟩
      have hlt := (List.getElem?_eq_some_iff.mp hw).1
      match c with
      | 0 =>
        have : k < b0.c.wire.length := hlt
        obtain rfl : k = 0 := by omega
        simp
      | 1 =>
        have : k < b1'.c.wire.length := hlt
        obtain rfl : k = 0 := by omega
        simp
      | c + 2 => exact absurd hlt (Nat.not_lt_zero _)
    · intro j c k q hj hq
      match j with
      | 0 =>
        obtain ⟨rfl, rfl⟩ : 0 = c ∧ 0 = k := by simpa using hj
        have hq : b0.seen 0 = some q := hq
        rw [p4] at hq
        cases hq
        refine ⟨fun x hx hm hbd => ?_, fun hx => absurd rfl (hx _ f0 rfl)⟩
        obtain rfl := body_inj f0 hx hm hbd
        refine ⟨?_, by simp⟩
        funext s
        by_cases hs : s = 1 <;> simp [Db.put, hs]
      | 1 =>
        obtain ⟨rfl, rfl⟩ : 1 = c ∧ 0 = k := by simpa using hj
        have hq : b1'.seen 0 = some q := hq
        rw [r4] at hq
        cases hq
        refine ⟨fun x hx hm hbd => ?_, fun hx => absurd rfl (hx _ f1 rfl)⟩
        obtain rfl := body_inj f1 hx hm hbd
        refine ⟨rfl, ?_⟩
        intro sp o l ks he
        cases he
        refine ⟨rfl, ?_⟩
        show Spec.response [row7] = _
        decide +kernel
      | j + 2 => simp at hj
  · show ∀ w ∈ b1.c.wire, w.2.1 ≠ 4
    simp [q2]

end Verif.Box
