import Verif.Spec.BoxLog
import Verif.Props.BoxPool

/-! C162: requests one after another, through any connections. -/
namespace Verif.Box
open Verif.Marshal Verif.Reflect Verif.Spec Verif.Sbox Verif.ByteLink Verif.Props

theorem has_only (db : Db) (space : Nat) (key : Bytes) (t : List Bytes) (ht : t.head? = some key) :
    db.has space t = true ↔ db.only space key ≠ [] := by
  simp [Db.has, Db.only, ht]

theorem act_fresh {db db' : Db} {x : Req} {space : Nat} {key : Bytes} (hx : db.After db' x) (ho : x.On space key) (hf : x.Fresh) :
    db'.only space key = (act none x).toList := by
  cases x with
  | select => cases ho
  | store sp flags t =>
    obtain ⟨rfl, ht⟩ := ho
    have hf : flags / 2 = 0 := hf
    simp only [Db.After, hf, if_true] at hx
    simp [hx, act, hf, put_same _ _ _ _ ht]
  | delete sp flags k =>
    obtain ⟨rfl, rfl⟩ := ho
    simp only [Db.After] at hx
    simp [hx, act, remove_same]
  | update => cases hf

theorem fresh_act {x : Req} (hf : x.Fresh) {cur cur' : Option (List Bytes)} : act cur x = act cur' x := by
  cases x with
  | store sp flags t =>
    have hf : flags / 2 = 0 := hf
    simp [act, hf]
  | delete => rfl
  | _ => cases hf

theorem act_after {db db' : Db} {x : Req} {space : Nat} {key : Bytes} {cur : Option (List Bytes)} (hx : db.After db' x) (ho : x.On space key)
    (hc : db.only space key = cur.toList) (hs : x.Sets cur) : db'.only space key = (act cur x).toList := by
  cases x with
  | select => cases ho
  | store sp flags t =>
    obtain ⟨rfl, ht⟩ := ho
    have hh := has_only db sp key t ht
    have hp := put_same db sp key t ht
    rw [hc] at hh
    simp only [Db.After] at hx
    rw [hx]
    simp only [act]
    cases cur with
    | none =>
      have : db.has sp t = false := by simpa using hh
      simp only [this]
      (repeat' split) <;> simp_all
    | some u =>
      have : db.has sp t = true := by simpa using hh
      simp only [this]
      (repeat' split) <;> simp_all
  | delete sp flags k =>
    obtain ⟨rfl, rfl⟩ := ho
    simp only [Db.After] at hx
    simp [hx, act, remove_same]
  | update sp flags k ops =>
    obtain ⟨rfl, rfl⟩ := ho
    have := (hx sp key).2 ⟨rfl, rfl⟩ (fun o h => ⟨(hs o h).1, (hs o h).2.1, fun t ht => (hs o h).2.2 t (by
      rw [hc] at ht
      simpa [eq_comm] using ht)⟩)
    rw [this, hc]
    cases cur <;> rfl

/-- Request `r` of the connection is request `x` to the box, made with `StoreReq`, `DeleteReq` or `UpdateReq` (with operations that set fields), and of a tuple with
this primary key. -/
inductive Asks (e : Env) (r : Nat) (space : UInt32) (key : Bytes) : Req → Prop
  | store (ret : Bool) (mode : UInt16) (tup : Tup) : e.msg r = 13 →
      Rpc.marshalWrite (.hook (StoreReq.write ⟨space, ret, mode, tup⟩)) = some (e.body r) → TupOk tup → (tupFields tup).head? = some key →
      Asks e r space key (.store space.toNat ((if ret then 1 else 0) + 2 * mode.toNat) (tupFields tup))
  | delete (ret : Bool) (tup : Tup) : e.msg r = 21 →
      Rpc.marshalWrite (.hook (DeleteReq.write ⟨space, ret, tup⟩)) = some (e.body r) → TupOk tup → tupFields tup = [key] →
      Asks e r space key (.delete space.toNat (if ret then 1 else 0) [key])
  | update (ret : Bool) (tup : Tup) (ops : List Op) : e.msg r = 19 →
      Rpc.marshalWrite (.hook (UpdateReq.write ⟨space, ret, tup, ops⟩)) = some (e.body r) → TupOk tup → tupFields tup = [key] →
      (∀ o ∈ ops, OpOk o ∧ opCode o.op = some 0) → ops.length < 2 ^ 32 →
      Asks e r space key (.update space.toNat (if ret then 1 else 0) [key] (ops.map fun o => (o.field, 0, pay o.ty o.val)))

theorem asks {e : Env} {r : Nat} {space : UInt32} {key : Bytes} {x : Req} (h : Asks e r space key x) :
    x.Fits ∧ e.msg r = x.msg ∧ e.body r = x.body ∧ x.On space.toNat key := by
  cases h with
  | store ret mode tup h1 h2 h3 h4 =>
    refine ⟨⟨space.toNat_lt, ?_, tupFields_lt _ h3⟩, h1, ?_, rfl, h4⟩
    · have := mode.toNat_lt
      split <;> omega
    · have := marshal_adds (store_adds ⟨space, ret, mode, tup⟩ h3)
      rw [h2] at this
      simpa [Req.body] using this
  | delete ret tup h1 h2 h3 h4 =>
    refine ⟨⟨space.toNat_lt, by split <;> omega, by simp⟩, h1, ?_, rfl, rfl⟩
    have := marshal_adds (delete_adds ⟨space, ret, tup⟩ h3)
    rw [h2] at this
    simpa [Req.body, h4] using this
  | update ret tup ops h1 h2 h3 h4 h5 h6 =>
    refine ⟨⟨space.toNat_lt, by split <;> omega, by simp, by simpa using h6⟩, h1, ?_, rfl, rfl⟩
    have := marshal_adds (update_adds ⟨space, ret, tup, ops⟩ h3 h6 fun o ho => (h5 o ho).1)
    rw [h2] at this
    have hm : ops.map opOut = ops.map ((fun o => updBytes o.1 o.2.1 o.2.2) ∘ fun o => (o.field, 0, pay o.ty o.val)) := by
      refine List.map_congr_left fun o ho => ?_
      simp [opOut, (h5 o ho).2]
    simpa [Req.body, h4, hm] using this

section
variable {e : Nat → Env} {dial : Nat → Bool} {ds : Nat → Nat → List Choice} {B : Nat → Nat → ByteLink.St} {N : Nat}

/-- The choices of a connection up to a time. -/
def upto (ds : Nat → Nat → List Choice) (n c : Nat) : List Choice := (List.range n).flatMap fun m => ds m c

theorem upto_succ (n c : Nat) : upto ds (n + 1) c = upto ds n c ++ ds n c := by
  simp [upto, List.range_succ]

theorem upto_run (h0 : ∀ c, B 0 c = init (dial c)) (h : ∀ n, n < N → ∀ c, ByteLink.run (e c) (B n c) (ds n c) = some (B (n + 1) c)) :
    ∀ n, n ≤ N → ∀ c, ByteLink.run (e c) (init (dial c)) (upto ds n c) = some (B n c) := by
  intro n
  induction n with
  | zero => intro _ c; rw [h0]; rfl
  | succ n ih =>
    intro hn c
    rw [upto_succ]
    exact run_append (ih (by omega) c) (h n hn c)

theorem later (h : ∀ n, n < N → ∀ c, ByteLink.run (e c) (B n c) (ds n c) = some (B (n + 1) c)) (n : Nat) (c : Nat) : ∀ m, n + m ≤ N →
    (B n c).c.wire <+: (B (n + m) c).c.wire ∧ (B n c).c.h.got ≤ (B (n + m) c).c.h.got ∧
    ∃ es, ByteLink.run (e c) (B n c) es = some (B (n + m) c) ∧ upto ds (n + m) c = upto ds n c ++ es := by
  intro m
  induction m with
  | zero => intro _; exact ⟨List.prefix_rfl, Nat.le_refl _, [], rfl, by simp⟩
  | succ m ih =>
    intro hm
    obtain ⟨i1, i2, es, i3, i4⟩ := ih (by omega)
    have hr := h (n + m) (by omega) c
    exact ⟨i1.trans (run_client hr).1, Nat.le_trans i2 (run_got hr), es ++ ds (n + m) c, run_append i3 hr,
      by rw [← Nat.add_assoc, upto_succ, i4, List.append_assoc]⟩

/-- A request that is handled until a time has been written until then. -/
theorem early (he : ∀ c, (e c).Fits) (hc : ∀ c, Sane (e c) (dial c) (upto ds N c)) (h0 : ∀ c, B 0 c = init (dial c))
    (h : ∀ n, n < N → ∀ c, ByteLink.run (e c) (B n c) (ds n c) = some (B (n + 1) c)) (hy : ∀ c, Conn.Young (B N c).c)
    {H : List (Nat × Nat)} {T : Nat → Nat} (hg : ∀ n, n ≤ N → ∀ c k, (c, k) ∈ H.take (T n) → k < (B n c).got.length)
    {n m c k i r : Nat} {f : Bool} (hn : n ≤ N) (hm : m < T n) (hH : H[m]? = some (c, k)) (hw : (B N c).c.wire[k]? = some (i, r, f)) :
    ∃ i f, (i, r, f) ∈ (B n c).c.wire := by
  have hk' : k < (B n c).got.length := hg n hn c k (by
    apply List.mem_of_getElem? (i := m)
    rw [List.getElem?_take, if_pos hm, hH])
  obtain ⟨l, hl⟩ : ∃ l, N = n + l := ⟨N - n, by omega⟩
  obtain ⟨y1, y2, es', y3, y4⟩ := later h n c l (by omega)
  rw [← hl] at y1 y2 y3 y4
  have hq : ∃ q, (B n c).seen k = some q := by
    simp only [ByteLink.St.seen, List.getElem?_eq_getElem hk', Option.map_some]
    exact ⟨_, rfl⟩
  obtain ⟨q, hq⟩ := hq
  obtain ⟨i0, r0, f0, hw0, _⟩ := C114_requests_partial (he c) (sane_left (y4 ▸ hc c)) (upto_run h0 h n hn c) (Nat.le_trans y2 (hy c)) hq
  obtain ⟨z, hz⟩ := y1
  have : (B N c).c.wire[k]? = some (i0, r0, f0) := by rw [← hz]; exact Link.getElem?_grow hw0
  rw [hw] at this
  cases this
  exact ⟨_, _, List.mem_of_getElem? hw0⟩

/-- Where a request that was written and answered between two times is handled. -/
theorem handled (he : ∀ c, (e c).Fits) (hc : ∀ c, Sane (e c) (dial c) (upto ds N c)) (h0 : ∀ c, B 0 c = init (dial c))
    (h : ∀ n, n < N → ∀ c, ByteLink.run (e c) (B n c) (ds n c) = some (B (n + 1) c)) (hy : ∀ c, Conn.Young (B N c).c)
    {H : List (Nat × Nat)} {T : Nat → Nat} (hT : T N = H.length)
    (hg : ∀ n, n ≤ N → ∀ c k, (c, k) ∈ H.take (T n) → k < (B n c).got.length)
    (ha : ∀ n, n ≤ N → ∀ c k, Answered (B n c) k → (c, k) ∈ H.take (T n))
    {n c r i d : Nat} (hn : n < N) (hw : ∀ i f, (i, r, f) ∉ (B n c).c.wire) (hr : (B (n + 1) c).c.ans r = some (.response i d)) :
    ∃ j k, T n ≤ j ∧ j < T (n + 1) ∧ H[j]? = some (c, k) ∧ (B N c).c.wire[k]? = some (i, r, true) ∧
      (∃ id, (B N c).seen k = some ⟨(e c).msg r, id, (e c).body r⟩) ∧
      ∃ id, (B (n + 1) c).read d = some ⟨(e c).msg r, id, (e c).carried ((e c).sent ((e c).code k)), (e c).answer k⟩ := by
  have hall := upto_run h0 h
  obtain ⟨m, hm⟩ : ∃ m, N = n + 1 + m := ⟨N - (n + 1), by omega⟩
  obtain ⟨l1, l2, es, l3, l4⟩ := later h (n + 1) c m (by omega)
  rw [← hm] at l1 l2 l3 l4
  have hs1 : Sane (e c) (dial c) (upto ds (n + 1) c) := sane_left (l4 ▸ hc c)
  have hy1 : Conn.Young (B (n + 1) c).c := Nat.le_trans l2 (hy c)
  obtain ⟨k, id, w, s, rd, _⟩ := C114_end_to_end_partial (he c) hs1 (hall (n + 1) hn c) hy1 hr
  have hmem := ha (n + 1) hn c k ⟨i, r, d, w, hr⟩
  obtain ⟨j, hj, ej⟩ := List.getElem_of_mem hmem
  rw [List.length_take] at hj
  have hj1 : H[j]? = some (c, k) := by
    rw [List.getElem_take] at ej
    rw [List.getElem?_eq_getElem (by omega), ej]
  obtain ⟨x, hx⟩ := l1
  have w' : (B N c).c.wire[k]? = some (i, r, true) := by rw [← hx]; exact Link.getElem?_grow w
  have hH : j < H.length := by omega
  have hk : k < (B N c).got.length := hg N (Nat.le_refl _) c k (by
    rw [hT, List.take_length]
    exact List.mem_of_getElem? hj1)
  refine ⟨j, k, ?_, by omega, hj1, w', at_wire (he c) (hc c) (hall N (Nat.le_refl _) c) (hy c) w' hk, id, rd⟩
  rcases Nat.lt_or_ge j (T n) with hlt | hge
  · exfalso
    obtain ⟨i1, f1, hw1⟩ := early he hc h0 h hy hg (by omega) hlt hj1 w'
    exact hw _ _ hw1
  · exact hge

/-- What is answered to the selection: what the requests make of the tuple, and then some of those that were written since. -/
theorem series_body (he : ∀ c, (e c).Fits) (xs : List (Nat × Nat × Req)) (hN : N = xs.length + 1) (hc : ∀ c, Sane (e c) (dial c) (upto ds N c))
    (h0 : ∀ c, B 0 c = init (dial c)) (h : ∀ n, n < N → ∀ c, ByteLink.run (e c) (B n c) (ds n c) = some (B (n + 1) c))
    (hy : ∀ c, Conn.Young (B N c).c) {D : Db} (hbox : ServesSince e N B D) (cur : Option (List Bytes))
    {c' r' i' d' : Nat} {space : UInt32} {limit : Int32} {keys : Keys} {key : Bytes}
    (hxs : ∀ (n c r : Nat) (x : Req), xs[n]? = some (c, r, x) → Asks (e c) r space key x ∧ x.Sets (since cur ((xs.take n).map (·.2.2))) ∧
      (∀ i f, (i, r, f) ∉ (B n c).c.wire) ∧ ∃ i d, (B (n + 1) c).c.ans r = some (.response i d))
    (hfirst : (∃ p, xs.head? = some p ∧ p.2.2.Fresh) ∨ D.only space.toNat key = cur.toList)
    (ys : List (Nat × Nat × Req)) (hyy : ∀ c r x, (c, r, x) ∈ ys → Asks (e c) r space key x ∧
      (∀ zs : List (Nat × Nat × Req), zs.Nodup → (∀ p ∈ zs, p ∈ ys) → (c, r, x) ∉ zs → x.Sets (since cur ((xs ++ zs).map (·.2.2)))) ∧
      ∀ i f, (i, r, f) ∉ (B xs.length c).c.wire)
    (hr' : (e c').msg r' = 17 ∧ Rpc.marshalWrite (.hook (SelectReq.write ⟨space, 0, 0, limit, keys⟩)) = some ((e c').body r'))
    (hl : limit ≠ 0) (hk : KeysOk keys) (hkey : keysOf keys = [[key]])
    (hothers : ∀ c r, (∀ x, (c, r, x) ∉ xs) → (∀ x, (c, r, x) ∉ ys) → (∃ i f, (i, r, f) ∈ (B N c).c.wire) → ¬ Touches (e c) space.toNat key r)
    (hn : ∀ i f, (i, r', f) ∉ (B xs.length c').c.wire) (ha' : (B N c').c.ans r' = some (.response i' d')) :
    ∃ q z, (B N c').read d' = some q ∧ q.code = 0 ∧ q.body = Spec.response ((z : Option (List Bytes)).toList.map tupleBytes) ∧
      ∃ zs : List (Nat × Nat × Req), zs.Nodup ∧ (∀ p ∈ zs, p ∈ ys) ∧ z = since cur ((xs ++ zs).map (·.2.2)) := by
  obtain ⟨H, T, S, hD, hnd, hT, hmono, hg, ha, hS⟩ := hbox
  have hall := upto_run h0 h
  have pos := fun n hn c r i d hw hr => handled (n := n) (c := c) (r := r) (i := i) (d := d) he hc h0 h hy hT hg ha hn hw hr
  -- nothing is done to the tuple between two requests
  have still : ∀ b a : Nat, a ≤ b → b ≤ H.length →
      (∀ m, a ≤ m → m < b → ∀ (c r : Nat) (x : Req) (k i : Nat) (f : Bool), (∃ n : Nat, xs[n]? = some (c, r, x)) ∨ (c, r, x) ∈ ys → H[m]? = some (c, k) →
        (B N c).c.wire[k]? ≠ some (i, r, f)) →
      (S b).only space.toNat key = (S a).only space.toNat key := by
    intro b
    induction b with
    | zero => intro a hab _ _; rw [Nat.le_zero.mp hab]
    | succ b ih =>
      intro a hab hb hno
      rcases Nat.lt_or_ge b a with hlt | hge
      · rw [show a = b + 1 by omega]
      rw [← ih a hge (by omega) fun m h1 h2 => hno m h1 (by omega)]
      obtain ⟨⟨c0, k0⟩, hp⟩ : ∃ p, H[b]? = some p := ⟨_, List.getElem?_eq_getElem (show b < H.length by omega)⟩
      have hlt0 := hg N (Nat.le_refl _) c0 k0 (by rw [hT, List.take_length]; exact List.mem_of_getElem? hp)
      have hq : ∃ q, (B N c0).seen k0 = some q := by
        simp only [ByteLink.St.seen, List.getElem?_eq_getElem hlt0, Option.map_some]
        exact ⟨_, rfl⟩
      obtain ⟨q, hq⟩ := hq
      obtain ⟨i0, r0, f, hw, hm, _, hb, hb0⟩ := C114_requests_partial (he c0) (hc c0) (hall N (Nat.le_refl _) c0) (hy c0) hq
      have hnt : ¬ Touches (e c0) space.toNat key r0 := by
        exact hothers c0 r0 (fun x hx => hno b hge (by omega) c0 r0 x k0 i0 f (.inl (List.getElem?_of_mem hx)) hp hw)
          (fun x hx => hno b hge (by omega) c0 r0 x k0 i0 f (.inr hx) hp hw) ⟨i0, f, List.mem_of_getElem? hw⟩
      have hbody : q.body = [] ∨ q.body = (e c0).body r0 := by
        cases f with
        | false => exact .inl (hb0 rfl)
        | true => exact .inr (hb rfl)
      have hSq := hS _ c0 k0 q hp hq
      by_cases hx : ∃ x : Req, x.Fits ∧ q.msg = x.msg ∧ q.body = x.body
      · obtain ⟨x, x1, x2, x3⟩ := hx
        refine after_other _ _ x (hSq.1 x x1 x2 x3).1 fun ho => ?_
        rcases hbody with h3 | h3
        · exact body_ne_nil _ (x3.symm.trans h3)
        · exact hnt (.inr ⟨x, x1, by rw [← hm, x2], by rw [← h3, x3], ho⟩)
      · rw [hSq.2 (fun x x1 x2 x3 => hx ⟨x, x1, x2, x3⟩) (fun h22 => hnt (.inl (by rw [← hm, h22])))]
  have hTle : ∀ n, n ≤ N → T n ≤ H.length := fun n hn => hT ▸ hmono _ _ hn
  -- a request of the series is handled in its own interval
  have own : ∀ (m n c r : Nat) (x : Req) (k i : Nat) (f : Bool), xs[n]? = some (c, r, x) → H[m]? = some (c, k) → (B N c).c.wire[k]? = some (i, r, f) →
      T n ≤ m ∧ m < T (n + 1) ∧ ∀ j k', H[j]? = some (c, k') → (∃ i f, (B N c).c.wire[k']? = some (i, r, f)) → j = m := by
    intro m n c r x k i f hx hm hw
    have hlt : n < xs.length := (List.getElem?_eq_some_iff.mp hx).1
    obtain ⟨_, _, h3, i1, d1, h4⟩ := hxs n c r x hx
    obtain ⟨j, k1, p1, p2, p3, p4, _⟩ := pos n (by omega) c r i1 d1 h3 h4
    have uniq : ∀ j k', H[j]? = some (c, k') → (∃ i f, (B N c).c.wire[k']? = some (i, r, f)) → j = m := by
      rintro j k' hj ⟨i2, f2, hw2⟩
      obtain rfl := wire_once (hall N (Nat.le_refl _) c) hw2 hw
      exact (List.getElem?_inj (List.getElem?_eq_some_iff.mp hj).1 hnd).mp (hj.trans hm.symm)
    obtain rfl := uniq j k1 p3 ⟨_, _, p4⟩
    exact ⟨p1, p2, uniq⟩
  -- the request that is under way is not handled before
  have late : ∀ (m c r : Nat) (x : Req) (k i : Nat) (f : Bool), (c, r, x) ∈ ys → H[m]? = some (c, k) → (B N c).c.wire[k]? = some (i, r, f) → T xs.length ≤ m := by
    intro m c r x k i f hx hm hw
    rcases Nat.lt_or_ge m (T xs.length) with hlt | hge
    · obtain ⟨i1, f1, hw1⟩ := early he hc h0 h hy hg (n := xs.length) (by omega) hlt hm hw
      exact absurd hw1 ((hyy c r x hx).2.2 i1 f1)
    · exact hge
  have hT0 : T 0 = 0 := by
    rcases Nat.eq_zero_or_pos (T 0) with hz | hz
    · exact hz
    · have h1 := hTle 0 (by omega)
      obtain ⟨⟨c, k⟩, hp⟩ : ∃ p, H[0]? = some p := ⟨_, List.getElem?_eq_getElem (show 0 < H.length by omega)⟩
      have := hg 0 (by omega) c k (List.mem_of_getElem? (i := 0) (by rw [List.getElem?_take, if_pos hz]; exact hp))
      rw [h0 c] at this
      cases this
  have main : ∀ n, n ≤ xs.length → (n = 0 → D.only space.toNat key = cur.toList) →
      (S (T n)).only space.toNat key = (since cur ((xs.take n).map (·.2.2))).toList := by
    intro n
    induction n with
    | zero => exact fun _ h => by rw [hT0, hD, h rfl]; simp [since]
    | succ n ih =>
      intro hlt _
      obtain ⟨⟨c, r, x⟩, hx⟩ : ∃ p, xs[n]? = some p := ⟨_, List.getElem?_eq_getElem hlt⟩
      obtain ⟨h1, h2, h3, i1, d1, h4⟩ := hxs (n) c r x hx
      obtain ⟨j, k, p1, p2, p3, p4, ⟨id, p5⟩, _⟩ := pos (n) (by omega) c r i1 d1 h3 h4
      obtain ⟨a1, a2, a3, a4⟩ := asks h1
      have alone : ∀ m, T (n) ≤ m → m < T (n + 1) → m ≠ j →
          ∀ (c r : Nat) (x : Req) (k i : Nat) (f : Bool), (∃ n : Nat, xs[n]? = some (c, r, x)) ∨ (c, r, x) ∈ ys → H[m]? = some (c, k) →
            (B N c).c.wire[k]? ≠ some (i, r, f) := by
        rintro m m1 m2 hne c2 r2 x2 k2 i2 f2 (⟨n', hx2⟩ | hx2) hm2 hw2
        case inr =>
          have := late m c2 r2 x2 k2 i2 f2 hx2 hm2 hw2
          have := hmono (n + 1) xs.length (by omega)
          omega
        obtain ⟨o1, o2, o3⟩ := own m n' c2 r2 x2 k2 i2 f2 hx2 hm2 hw2
        have : n' = n := by
          rcases Nat.lt_trichotomy n' (n) with hz | hz | hz
          · have := hmono (n' + 1) (n) hz
            omega
          · exact hz
          · have := hmono (n + 1) n' hz
            omega
        subst this
        rw [hx] at hx2
        cases hx2
        exact hne (o3 j k p3 ⟨_, _, p4⟩).symm
      have hx1 := ((hS j c k _ p3 p5).1 x a1 a2 a3).1
      have e0 : (n = 0 → D.only space.toNat key = cur.toList) → (S (j + 1)).only space.toNat key = (act (since cur ((xs.take n).map (·.2.2))) x).toList := fun hst =>
        act_after hx1 a4 ((still j (T n) p1 (by have := hTle (n + 1) (by omega); omega)
          fun m m1 m2 => alone m m1 (by omega) (by omega)).trans (ih (by omega) hst)) h2
      have e1 : (S (j + 1)).only space.toNat key = (act (since cur ((xs.take n).map (·.2.2))) x).toList := by
        rcases hfirst with ⟨p, hp, hf⟩ | hst
        · by_cases hn0 : n = 0
          · have hp' : p = (c, r, x) := by
              rw [hn0] at hx
              cases xs with
              | nil => cases hp
              | cons => cases hp; cases hx; rfl
            subst hp'
            rw [act_fresh hx1 a4 hf]
            exact congrArg Option.toList (fresh_act hf)
          · exact e0 fun h => absurd h hn0
        · exact e0 fun _ => hst
      rw [still (T (n + 1)) (j + 1) (by omega) (hTle _ (by omega)) fun m m1 m2 => alone m (by omega) m2 (by omega), e1]
      rw [List.take_add_one (i := n), hx]
      simp [since]
  have e1 : (S (T xs.length)).only space.toNat key = (since cur (xs.map (·.2.2))).toList := by
    have := main xs.length (Nat.le_refl _) fun hz => by
      rcases hfirst with ⟨p, hp, _⟩ | hst
      · rw [List.eq_nil_of_length_eq_zero hz] at hp
        cases hp
      · exact hst
    rwa [List.take_length] at this
  subst hN
  obtain ⟨j, k', p1, p2, p3, p4, ⟨id, s2⟩, id', hread⟩ := pos xs.length (by omega) c' r' i' d' hn ha'
  have past : ∀ m, T xs.length ≤ m → ∀ (n c r : Nat) (x : Req) (k i : Nat) (f : Bool), xs[n]? = some (c, r, x) → H[m]? = some (c, k) →
      (B (xs.length + 1) c).c.wire[k]? ≠ some (i, r, f) := by
    intro m m1 n' c2 r2 x2 k2 i2 f2 hx2 hm2 hw2
    obtain ⟨o1, o2, o3⟩ := own m n' c2 r2 x2 k2 i2 f2 hx2 hm2 hw2
    have := hmono (n' + 1) xs.length (List.getElem?_eq_some_iff.mp hx2).1
    omega
  have hjle : j ≤ H.length := by
    have := hTle (xs.length + 1) (by omega)
    omega
  have walk : ∀ n, T xs.length + n ≤ j → ∃ zs : List (Nat × Nat × Req), zs.Nodup ∧
      (∀ p ∈ zs, p ∈ ys ∧ ∃ (l k i : Nat) (f : Bool), l < T xs.length + n ∧ H[l]? = some (p.1, k) ∧ (B (xs.length + 1) p.1).c.wire[k]? = some (i, p.2.1, f)) ∧
      (S (T xs.length + n)).only space.toNat key = (since cur ((xs ++ zs).map (·.2.2))).toList := by
    intro n
    induction n with
    | zero => exact fun _ => ⟨[], by simp, by simp, by rw [List.append_nil]; exact e1⟩
    | succ n ih =>
      intro hle
      obtain ⟨zs, z1, z2, z3⟩ := ih (by omega)
      have z2' : ∀ p ∈ zs, p ∈ ys ∧ ∃ (l k i : Nat) (f : Bool), l < T xs.length + (n + 1) ∧ H[l]? = some (p.1, k) ∧
          (B (xs.length + 1) p.1).c.wire[k]? = some (i, p.2.1, f) := fun p hp => by
        obtain ⟨u1, l, k, i, f, u2, u3⟩ := z2 p hp
        exact ⟨u1, l, k, i, f, by omega, u3⟩
      by_cases hyes : ∃ (c r : Nat) (x : Req) (k i : Nat) (f : Bool), (c, r, x) ∈ ys ∧ H[T xs.length + n]? = some (c, k) ∧
          (B (xs.length + 1) c).c.wire[k]? = some (i, r, f)
      · obtain ⟨c, r, x, k, i, f, q2, q3, q4⟩ := hyes
        obtain ⟨y1, y2, _⟩ := hyy c r x q2
        obtain ⟨a1, a2, a3, a4⟩ := asks y1
        have hlt0 := hg _ (Nat.le_refl _) c k (by rw [hT, List.take_length]; exact List.mem_of_getElem? q3)
        cases f with
        | true =>
          have hnew : (c, r, x) ∉ zs := by
            intro hmem
            obtain ⟨_, l, k2, i2, f2, u2, u3, u4⟩ := z2 _ hmem
            obtain rfl := wire_once (hall _ (Nat.le_refl _) c) u4 q4
            have := (List.getElem?_inj (List.getElem?_eq_some_iff.mp u3).1 hnd).mp (u3.trans q3.symm)
            omega
          obtain ⟨id1, sq⟩ := at_wire (he c) (hc c) (hall _ (Nat.le_refl _) c) (hy c) q4 hlt0
          have e4 := act_after ((hS _ c k _ q3 sq).1 x a1 a2 a3).1 a4 z3 (y2 zs z1 (fun p hp => (z2 p hp).1) hnew)
          refine ⟨zs ++ [(c, r, x)], ?_, ?_, ?_⟩
          · rw [List.nodup_append]
            refine ⟨z1, by simp, fun a ha b hb => ?_⟩
            obtain rfl : b = (c, r, x) := by simpa using hb
            exact fun h => hnew (h ▸ ha)
          · intro p hp
            rcases List.mem_append.mp hp with hp | hp
            · exact z2' p hp
            · obtain rfl : p = (c, r, x) := by simpa using hp
              exact ⟨q2, _, k, i, true, by omega, q3, q4⟩
          · rw [← Nat.add_assoc, e4]
            simp [since]
        | false =>
          have hq : ∃ q, (B (xs.length + 1) c).seen k = some q := by
            simp only [ByteLink.St.seen, List.getElem?_eq_getElem hlt0, Option.map_some]
            exact ⟨_, rfl⟩
          obtain ⟨q, hq⟩ := hq
          obtain ⟨i0, r0, f0, hw, hm, _, _, hb0⟩ := C114_requests_partial (he c) (hc c) (hall _ (Nat.le_refl _) c) (hy c) hq
          rw [q4] at hw
          cases hw
          have e4 := (hS _ c k q q3 hq).2 (fun x' _ _ hb => body_ne_nil x' (hb.symm.trans (hb0 rfl))) (fun h22 => by
            rw [hm, a2] at h22
            cases x <;> simp [Req.msg] at h22)
          exact ⟨zs, z1, z2', by rw [← Nat.add_assoc, e4, z3]⟩
      · refine ⟨zs, z1, z2', (still _ (T xs.length + n) (by omega) (by omega) ?_).trans z3⟩
        rintro m m1 m2 c2 r2 x2 k2 i2 f2 (⟨n', hx2⟩ | hx2) hm2 hw2
        · exact past m (by omega) n' c2 r2 x2 k2 i2 f2 hx2 hm2 hw2
        · obtain rfl : m = T xs.length + n := by omega
          exact hyes ⟨c2, r2, x2, k2, i2, f2, hx2, hm2, hw2⟩
  obtain ⟨zs, z1, z2, hkeep⟩ := walk (j - T xs.length) (by omega)
  rw [show T xs.length + (j - T xs.length) = j by omega] at hkeep
  have hzz := (⟨zs, z1, fun p hp => (z2 p hp).1, rfl⟩ : ∃ zs' : List (Nat × Nat × Req), zs'.Nodup ∧ (∀ p ∈ zs', p ∈ ys) ∧
    since cur ((xs ++ zs).map (·.2.2)) = since cur ((xs ++ zs').map (·.2.2)))
  generalize since cur ((xs ++ zs).map (·.2.2)) = z at hkeep hzz
  obtain ⟨m, m1, m2, m3⟩ := limit_bytes limit hl
  have b2 : (e c').body r' = (Req.select space.toNat 0 0 m [[key]]).body := by
    have := marshal_adds (select_adds ⟨space, 0, 0, limit, keys⟩ hk (by rw [hkey]; simp))
    rw [hr'.2] at this
    simpa [Req.body, hkey, m3] using this
  have f2 : (Req.select space.toNat 0 0 m [[key]]).Fits := ⟨space.toNat_lt, by decide, by decide, m2, by simp, by simp⟩
  obtain ⟨c2, a2⟩ := ((hS j c' k' _ p3 s2).1 _ f2 hr'.1 b2).2 _ _ _ _ rfl
  have hlen : z.toList.length ≤ 1 := by cases z <;> simp
  rw [found_key, hkeep, List.take_of_length_le (by omega)] at a2
  have hz : (e c').carried ((e c').sent ((e c').code k')) = 0 := by
    have : (e c').sent 0 = 0 := by simp [Env.sent]
    simp only [c2, this, Env.carried]
    cases (e c').rc <;> rfl
  exact ⟨_, z, hread, hz, a2, hzz⟩

/-- What `ReadFirst` and `ReadMany` make of such an answer. -/
theorem series_read {body : Bytes} {z : Option (List Bytes)} (a2 : body = Spec.response (z.toList.map tupleBytes)) :
    (∀ t, TupTy t → ∀ v, z = some (fields t v) → TupVal false t v → (tupleBytes (fields t v)).length < 2 ^ 32 →
      readFirst t body = some (true, 1, none, v)) ∧
    (∀ t, z = none → readFirst t body = some (false, 0, none, zero t)) ∧
    ∀ t, TupTy t → Row t → ∀ vs : List Val, vs.map (fields t) = z.toList → (∀ v ∈ vs, TupVal true t v) →
      (∀ v ∈ vs, (tupleBytes (fields t v)).length < 2 ^ 32) → readMany t body = some (vs.length, (vs.length : Int), none, vs) := by
  have hlen : z.toList.length ≤ 1 := by cases z <;> simp
  refine ⟨fun t ht v hvs hv hsz => ?_, fun t hvs => ?_, fun t ht hrow vs hvs hv hsz => ?_⟩
  · have hfr : Framed (tupleBytes (fields t v)) := ⟨by simp [tupleBytes], by omega⟩
    have := C26_complete_partial t 1 (by decide) (by decide) (tupleBytes (fields t v)) [] hfr
    obtain ⟨f, h4, h5⟩ := tupR_ok t ht
    have h6 := h5 false v [] hv
    rw [List.append_nil] at h6
    simp only [readRaw, h4, h6] at this
    rw [a2, hvs]
    simpa [Spec.response] using this
  · have hc := count_read 0 (by decide) []
    rw [List.append_nil] at hc
    rw [a2, hvs]
    simp [Spec.response, readFirst, hc.2]
  have hvl : vs.length ≤ 1 := by
    have := congrArg List.length hvs
    simp only [List.length_map] at this
    omega
  have := C25_written_partial t hrow ht vs hv (by omega) hsz []
  rw [a2, ← hvs, List.map_map]
  simpa [Function.comp_def] using this

/-- C162 (partial: as C114, for tuples that C22 covers, updates that set fields, and the first request is "insert or replace" or a deletion). The requests `xs` are made
one after another, on any connections, each written after the one before was answered; so is the selection `r'` by the primary key after the last of them; no other request
that was written until then touches the tuples with that key in this space. If the server is a box, then what `ReadMany` and `ReadFirst` make of the response is what
the requests make of the tuple when they are done in this order. -/
theorem C162_history_partial (he : ∀ c, (e c).Fits) (xs : List (Nat × Nat × Req)) (hN : N = xs.length + 1) (hc : ∀ c, Sane (e c) (dial c) (upto ds N c))
    (h0 : ∀ c, B 0 c = init (dial c)) (h : ∀ n, n < N → ∀ c, ByteLink.run (e c) (B n c) (ds n c) = some (B (n + 1) c))
    (hy : ∀ c, Conn.Young (B N c).c) (hbox : ServesLong e N B)
    {c' r' i' d' : Nat} {space : UInt32} {limit : Int32} {keys : Keys} {key : Bytes}
    (hxs : ∀ (n c r : Nat) (x : Req), xs[n]? = some (c, r, x) → Asks (e c) r space key x ∧ x.Sets (history ((xs.take n).map (·.2.2))) ∧
      (∀ i f, (i, r, f) ∉ (B n c).c.wire) ∧ ∃ i d, (B (n + 1) c).c.ans r = some (.response i d))
    (hfirst : ∃ p, xs.head? = some p ∧ p.2.2.Fresh)
    (hr' : (e c').msg r' = 17 ∧ Rpc.marshalWrite (.hook (SelectReq.write ⟨space, 0, 0, limit, keys⟩)) = some ((e c').body r'))
    (hl : limit ≠ 0) (hk : KeysOk keys) (hkey : keysOf keys = [[key]])
    (hothers : ∀ c r, (∀ x, (c, r, x) ∉ xs) → (∃ i f, (i, r, f) ∈ (B N c).c.wire) → ¬ Touches (e c) space.toNat key r)
    (hn : ∀ i f, (i, r', f) ∉ (B xs.length c').c.wire) (ha' : (B N c').c.ans r' = some (.response i' d')) :
    ∃ q, (B N c').read d' = some q ∧ q.code = 0 ∧
      (∀ t, TupTy t → ∀ v, (history (xs.map (·.2.2))) = some (fields t v) → TupVal false t v → (tupleBytes (fields t v)).length < 2 ^ 32 →
        readFirst t q.body = some (true, 1, none, v)) ∧
      (∀ t, (history (xs.map (·.2.2))) = none → readFirst t q.body = some (false, 0, none, zero t)) ∧
      ∀ t, TupTy t → Row t → ∀ vs : List Val, vs.map (fields t) = (history (xs.map (·.2.2))).toList → (∀ v ∈ vs, TupVal true t v) →
        (∀ v ∈ vs, (tupleBytes (fields t v)).length < 2 ^ 32) → readMany t q.body = some (vs.length, (vs.length : Int), none, vs) := by
  obtain ⟨D, hbox⟩ := hbox
  obtain ⟨q, z, h1, h2, h3, h4⟩ := series_body he xs hN hc h0 h hy hbox none hxs (.inl hfirst) [] (by simp) hr' hl hk hkey (fun c r h1 _ => hothers c r h1) hn ha'
  obtain rfl : z = history (xs.map (·.2.2)) := by
    obtain ⟨zs, _, h5, h6⟩ := h4
    have : zs = [] := List.eq_nil_iff_forall_not_mem.mpr fun p hp => by simpa using h5 p hp
    rw [h6, this, List.append_nil, history]
  exact ⟨q, h1, h2, series_read h3⟩

/-- C162 (partial, likewise). If more requests of this kind, `ys`, are under way, written since the last of `xs` was answered, then the selection gives what `xs`
and then some of `ys`, in some order and each once, make of the tuple, whatever becomes of them. -/
theorem C162_concurrent_partial (he : ∀ c, (e c).Fits) (xs : List (Nat × Nat × Req)) (hN : N = xs.length + 1) (hc : ∀ c, Sane (e c) (dial c) (upto ds N c))
    (h0 : ∀ c, B 0 c = init (dial c)) (h : ∀ n, n < N → ∀ c, ByteLink.run (e c) (B n c) (ds n c) = some (B (n + 1) c))
    (hy : ∀ c, Conn.Young (B N c).c) (hbox : ServesLong e N B)
    {c' r' i' d' : Nat} {space : UInt32} {limit : Int32} {keys : Keys} {key : Bytes}
    (hxs : ∀ (n c r : Nat) (x : Req), xs[n]? = some (c, r, x) → Asks (e c) r space key x ∧ x.Sets (history ((xs.take n).map (·.2.2))) ∧
      (∀ i f, (i, r, f) ∉ (B n c).c.wire) ∧ ∃ i d, (B (n + 1) c).c.ans r = some (.response i d))
    (hfirst : ∃ p, xs.head? = some p ∧ p.2.2.Fresh)
    (ys : List (Nat × Nat × Req)) (hys : ∀ c r x, (c, r, x) ∈ ys → Asks (e c) r space key x ∧
      (∀ zs : List (Nat × Nat × Req), zs.Nodup → (∀ p ∈ zs, p ∈ ys) → (c, r, x) ∉ zs → x.Sets (history ((xs ++ zs).map (·.2.2)))) ∧
      ∀ i f, (i, r, f) ∉ (B xs.length c).c.wire)
    (hr' : (e c').msg r' = 17 ∧ Rpc.marshalWrite (.hook (SelectReq.write ⟨space, 0, 0, limit, keys⟩)) = some ((e c').body r'))
    (hl : limit ≠ 0) (hk : KeysOk keys) (hkey : keysOf keys = [[key]])
    (hothers : ∀ c r, (∀ x, (c, r, x) ∉ xs) → (∀ x, (c, r, x) ∉ ys) → (∃ i f, (i, r, f) ∈ (B N c).c.wire) → ¬ Touches (e c) space.toNat key r)
    (hn : ∀ i f, (i, r', f) ∉ (B xs.length c').c.wire) (ha' : (B N c').c.ans r' = some (.response i' d')) :
    ∃ q z, (B N c').read d' = some q ∧ q.code = 0 ∧ (∃ zs : List (Nat × Nat × Req), zs.Nodup ∧ (∀ p ∈ zs, p ∈ ys) ∧ z = history ((xs ++ zs).map (·.2.2))) ∧
      (∀ t, TupTy t → ∀ v, z = some (fields t v) → TupVal false t v → (tupleBytes (fields t v)).length < 2 ^ 32 →
        readFirst t q.body = some (true, 1, none, v)) ∧
      (∀ t, z = none → readFirst t q.body = some (false, 0, none, zero t)) ∧
      ∀ t, TupTy t → Row t → ∀ vs : List Val, vs.map (fields t) = z.toList → (∀ v ∈ vs, TupVal true t v) →
        (∀ v ∈ vs, (tupleBytes (fields t v)).length < 2 ^ 32) → readMany t q.body = some (vs.length, (vs.length : Int), none, vs) := by
  obtain ⟨D, hbox⟩ := hbox
  obtain ⟨q, z, h1, h2, h3, h4⟩ := series_body he xs hN hc h0 h hy hbox none hxs (.inl hfirst) ys hys hr' hl hk hkey hothers hn ha'
  exact ⟨q, z, h1, h2, h4, series_read h3⟩

/-- C162 (partial, as the last one, but the first request may be any). If the box has had one tuple with the key in the beginning, or none (`cur`), then the selection
gives what `xs` and then some of `ys` make of it. -/
theorem C162_since_partial (he : ∀ c, (e c).Fits) (xs : List (Nat × Nat × Req)) (hN : N = xs.length + 1) (hc : ∀ c, Sane (e c) (dial c) (upto ds N c))
    (h0 : ∀ c, B 0 c = init (dial c)) (h : ∀ n, n < N → ∀ c, ByteLink.run (e c) (B n c) (ds n c) = some (B (n + 1) c))
    (hy : ∀ c, Conn.Young (B N c).c) {D : Db} (hbox : ServesSince e N B D)
    {c' r' i' d' : Nat} {space : UInt32} {limit : Int32} {keys : Keys} {key : Bytes}
    {cur : Option (List Bytes)} (hcur : D.only space.toNat key = cur.toList)
    (hxs : ∀ (n c r : Nat) (x : Req), xs[n]? = some (c, r, x) → Asks (e c) r space key x ∧ x.Sets (since cur ((xs.take n).map (·.2.2))) ∧
      (∀ i f, (i, r, f) ∉ (B n c).c.wire) ∧ ∃ i d, (B (n + 1) c).c.ans r = some (.response i d))
    (ys : List (Nat × Nat × Req)) (hys : ∀ c r x, (c, r, x) ∈ ys → Asks (e c) r space key x ∧
      (∀ zs : List (Nat × Nat × Req), zs.Nodup → (∀ p ∈ zs, p ∈ ys) → (c, r, x) ∉ zs → x.Sets (since cur ((xs ++ zs).map (·.2.2)))) ∧
      ∀ i f, (i, r, f) ∉ (B xs.length c).c.wire)
    (hr' : (e c').msg r' = 17 ∧ Rpc.marshalWrite (.hook (SelectReq.write ⟨space, 0, 0, limit, keys⟩)) = some ((e c').body r'))
    (hl : limit ≠ 0) (hk : KeysOk keys) (hkey : keysOf keys = [[key]])
    (hothers : ∀ c r, (∀ x, (c, r, x) ∉ xs) → (∀ x, (c, r, x) ∉ ys) → (∃ i f, (i, r, f) ∈ (B N c).c.wire) → ¬ Touches (e c) space.toNat key r)
    (hn : ∀ i f, (i, r', f) ∉ (B xs.length c').c.wire) (ha' : (B N c').c.ans r' = some (.response i' d')) :
    ∃ q z, (B N c').read d' = some q ∧ q.code = 0 ∧ (∃ zs : List (Nat × Nat × Req), zs.Nodup ∧ (∀ p ∈ zs, p ∈ ys) ∧ z = since cur ((xs ++ zs).map (·.2.2))) ∧
      (∀ t, TupTy t → ∀ v, z = some (fields t v) → TupVal false t v → (tupleBytes (fields t v)).length < 2 ^ 32 →
        readFirst t q.body = some (true, 1, none, v)) ∧
      (∀ t, z = none → readFirst t q.body = some (false, 0, none, zero t)) ∧
      ∀ t, TupTy t → Row t → ∀ vs : List Val, vs.map (fields t) = z.toList → (∀ v ∈ vs, TupVal true t v) →
        (∀ v ∈ vs, (tupleBytes (fields t v)).length < 2 ^ 32) → readMany t q.body = some (vs.length, (vs.length : Int), none, vs) := by
  obtain ⟨q, z, h1, h2, h3, h4⟩ := series_body he xs hN hc h0 h hy hbox cur hxs (.inr hcur) ys hys hr' hl hk hkey hothers hn ha'
  exact ⟨q, z, h1, h2, h4, series_read h3⟩

/-- C162 (partial, likewise). If one more request of this kind, `r0`, is under way, written since the last of `xs` was answered, then the selection gives what the
requests make of the tuple with or without `x0`, whatever becomes of `r0`. -/
theorem C162_under_way_partial (he : ∀ c, (e c).Fits) (xs : List (Nat × Nat × Req)) (hN : N = xs.length + 1) (hc : ∀ c, Sane (e c) (dial c) (upto ds N c))
    (h0 : ∀ c, B 0 c = init (dial c)) (h : ∀ n, n < N → ∀ c, ByteLink.run (e c) (B n c) (ds n c) = some (B (n + 1) c))
    (hy : ∀ c, Conn.Young (B N c).c) (hbox : ServesLong e N B)
    {c' r' i' d' : Nat} {space : UInt32} {limit : Int32} {keys : Keys} {key : Bytes}
    (hxs : ∀ (n c r : Nat) (x : Req), xs[n]? = some (c, r, x) → Asks (e c) r space key x ∧ x.Sets (history ((xs.take n).map (·.2.2))) ∧
      (∀ i f, (i, r, f) ∉ (B n c).c.wire) ∧ ∃ i d, (B (n + 1) c).c.ans r = some (.response i d))
    (hfirst : ∃ p, xs.head? = some p ∧ p.2.2.Fresh)
    {c0 r0 : Nat} {x0 : Req} (hx0 : Asks (e c0) r0 space key x0 ∧ x0.Sets (history (xs.map (·.2.2))) ∧ ∀ i f, (i, r0, f) ∉ (B xs.length c0).c.wire)
    (hr' : (e c').msg r' = 17 ∧ Rpc.marshalWrite (.hook (SelectReq.write ⟨space, 0, 0, limit, keys⟩)) = some ((e c').body r'))
    (hl : limit ≠ 0) (hk : KeysOk keys) (hkey : keysOf keys = [[key]])
    (hothers : ∀ c r, (∀ x, (c, r, x) ∉ xs) → (c, r) ≠ (c0, r0) → (∃ i f, (i, r, f) ∈ (B N c).c.wire) → ¬ Touches (e c) space.toNat key r)
    (hn : ∀ i f, (i, r', f) ∉ (B xs.length c').c.wire) (ha' : (B N c').c.ans r' = some (.response i' d')) :
    ∃ q z, (B N c').read d' = some q ∧ q.code = 0 ∧ (z = history (xs.map (·.2.2)) ∨ z = history ((xs ++ [(c0, r0, x0)]).map (·.2.2))) ∧
      (∀ t, TupTy t → ∀ v, z = some (fields t v) → TupVal false t v → (tupleBytes (fields t v)).length < 2 ^ 32 →
        readFirst t q.body = some (true, 1, none, v)) ∧
      (∀ t, z = none → readFirst t q.body = some (false, 0, none, zero t)) ∧
      ∀ t, TupTy t → Row t → ∀ vs : List Val, vs.map (fields t) = z.toList → (∀ v ∈ vs, TupVal true t v) →
        (∀ v ∈ vs, (tupleBytes (fields t v)).length < 2 ^ 32) → readMany t q.body = some (vs.length, (vs.length : Int), none, vs) := by
  obtain ⟨q, z, h1, h2, ⟨zs, h4, h5, h6⟩, h7⟩ := C162_concurrent_partial he xs hN hc h0 h hy hbox hxs hfirst [(c0, r0, x0)] (by
      intro c r x hm
      obtain ⟨rfl, rfl, rfl⟩ : c = c0 ∧ r = r0 ∧ x = x0 := by simpa using hm
      refine ⟨hx0.1, fun zs _ hz hn => ?_, hx0.2.2⟩
      have : zs = [] := List.eq_nil_iff_forall_not_mem.mpr fun p hp => hn (by
        obtain rfl : p = (c, r, x) := by simpa using hz p hp
        exact hp)
      rw [this, List.append_nil]
      exact hx0.2.1) hr' hl hk hkey (fun c r h1 h2 => hothers c r h1 fun h3 => by cases h3; exact h2 x0 (by simp)) hn ha'
  refine ⟨q, z, h1, h2, ?_, h7⟩
  match zs with
  | [] => exact .inl (by rw [h6, List.append_nil])
  | [p] =>
    obtain rfl : p = (c0, r0, x0) := by simpa using h5 p (by simp)
    exact .inr h6
  | p :: p' :: ps =>
    obtain rfl : p = (c0, r0, x0) := by simpa using h5 p (by simp)
    obtain rfl : p' = (c0, r0, x0) := by simpa using h5 p' (by simp)
    simp at h4

end

/-! ### Example: request 3 on connection 0 stores the row, request 4 on connection 1 sets fields of it, request 5 on connection 0 selects it -/

/-- Times 0 to 3. -/
def times {α : Type} (x y z w : α) : Nat → α
  | 0 => x
  | 1 => y
  | 2 => z
  | _ => w

def envH : Env := { envU with answer := fun k => if k = 1 then Spec.response [tupleBytes (fields rowTy newVal)] else [1, 0, 0, 0],
                              msg := fun r => if r = 3 then 13 else if r = 5 then 17 else 99 }

def envI : Env := { envU with answer := fun _ => [1, 0, 0, 0], msg := fun r => if r = 4 then 19 else 99 }

def select5 : List Choice :=
  [.client (.take 5), .client .header, .write none, .flush none, .arriveUp 100, .up, .server .rl, .server (.call 1), .server (.begin 1),
   .server (.send 1), .put none, .put none, .put none, .put none, .put none, .arriveDown 100, .down,
   .client .reply]

def steps (n c : Nat) : List Choice := pick (times (shake ++ storing) [] select5 [] n) (times shake selecting1 [] [] n) [] c

def series : List (Nat × Nat × Req) := [(0, 3, .store 1 0 (fields rowTy rowVal)), (1, 4, .update 1 0 [[7, 0, 0, 0]] says7)]

theorem series_result : history (series.map (·.2.2)) = some (fields rowTy newVal) := by decide +kernel

theorem envU_bodies (r : Nat) : (envU.body r).length < 2 ^ 32 := by
  have g1 : (envU.body 3).length < 2 ^ 32 := by decide +kernel
  have g2 : (envU.body 4).length < 2 ^ 32 := by decide +kernel
  have g3 : (envU.body 5).length < 2 ^ 32 := by decide +kernel
  by_cases e3 : r = 3
  · rw [e3]; exact g1
  by_cases e4 : r = 4
  · rw [e4]; exact g2
  by_cases e5 : r = 5
  · rw [e5]; exact g3
  simp [envU, e3, e4, e5]

theorem steps_fits : ∀ c, Env.Fits (pick envH envI env2 c) := by
  apply pick_all (P := fun _ => Env.Fits)
  · have g1 : (Spec.response [tupleBytes (fields rowTy newVal)]).length + 4 < 2 ^ 32 := by decide +kernel
    refine ⟨fun r => ⟨?_, envU_bodies r⟩, fun k => ?_⟩
    · simp only [envH]
      (repeat' split) <;> decide
    · simp only [envH]
      split
      · exact g1
      · decide
  · refine ⟨fun r => ⟨?_, envU_bodies r⟩, fun k => by simp [envI]⟩
    simp only [envI]
    (repeat' split) <;> decide
  · exact fun _ => pool_fits 2

/-- All hypotheses of C162_history_partial hold, and of C162_since_partial with `cur := none` (those about the key: see the examples for C157). -/
example : (∀ c, Env.Fits (pick envH envI env2 c)) ∧ (∀ c, Sane (pick envH envI env2 c) true (upto steps 3 c)) ∧
    (∃ p, series.head? = some p ∧ p.2.2.Fresh) ∧
    (envH.msg 5 = 17 ∧ Rpc.marshalWrite (.hook (SelectReq.write ⟨1, 0, 0, -1, keys7⟩)) = some (envH.body 5)) ∧
    (∀ c r, (∀ x, (c, r, x) ∉ series) → ¬ Touches (pick envH envI env2 c) 1 [7, 0, 0, 0] r) ∧
    ∃ B : Nat → Nat → ByteLink.St, (∀ c, B 0 c = init true) ∧
      (∀ n, n < 3 → ∀ c, ByteLink.run (pick envH envI env2 c) (B n c) (steps n c) = some (B (n + 1) c)) ∧ (∀ c, Conn.Young (B 3 c).c) ∧
      (∀ (n c r : Nat) (x : Req), series[n]? = some (c, r, x) → Asks (pick envH envI env2 c) r 1 [7, 0, 0, 0] x ∧ x.Sets (history ((series.take n).map (·.2.2))) ∧
        (∀ i f, (i, r, f) ∉ (B n c).c.wire) ∧ ∃ i d, (B (n + 1) c).c.ans r = some (.response i d)) ∧
      ServesSince (pick envH envI env2) 3 B (fun _ => []) ∧ (∀ i f, (i, 5, f) ∉ (B 2 0).c.wire) ∧
      (B 3 0).c.ans 5 = some (.response 2 2) ∧ (B 3 0).read 2 = some ⟨17, 2, 0, Spec.response [tupleBytes (fields rowTy newVal)]⟩ := by
  have hb0 : ∃ b, ByteLink.run envH (init true) (shake ++ storing) = some b ∧ (b.c.ans 3 = some (.response 1 1) ∧ b.got.length = 1 ∧ b.c.wire = [(1, 3, true)] ∧
      ((ByteLink.run envH b select5).any fun b' => decide (b'.got.length = 2 ∧ b'.c.wire.length = 2 ∧
        b'.seen 0 = some ⟨13, 1, (Req.store 1 0 (fields rowTy rowVal)).body⟩ ∧
        b'.seen 1 = some ⟨17, 2, (Req.select 1 0 0 2147483647 [[[7, 0, 0, 0]]]).body⟩ ∧ Conn.Young b'.c ∧
        b'.c.ans 5 = some (.response 2 2) ∧ b'.read 2 = some ⟨17, 2, 0, Spec.response [tupleBytes (fields rowTy newVal)]⟩)) = true) := by
    refine any_some ?_
    decide +kernel
  have hb1 : ∃ b, ByteLink.run envI (init true) shake = some b ∧ (b.c.wire = [] ∧
      ((ByteLink.run envI b selecting1).any fun b' => decide (b'.got.length = 1 ∧ b'.c.wire.length = 1 ∧
        b'.seen 0 = some ⟨19, 1, (Req.update 1 0 [[7, 0, 0, 0]] says7).body⟩ ∧
        Conn.Young b'.c ∧ b'.c.ans 4 = some (.response 1 1))) = true) := by
    refine any_some ?_
    decide +kernel
  obtain ⟨a1, p1, p2, p3, p4, p5⟩ := hb0
  obtain ⟨a3, q1, q2, q3, q4, q5, q6, q7, q8⟩ := any_some p5
  obtain ⟨b1, r1, r2, r3⟩ := hb1
  obtain ⟨b2, s1, s2, s3, s4, s5, s6⟩ := any_some r3
  have f0 : (Req.store 1 0 (fields rowTy rowVal)).Fits := ⟨by decide, by decide, by decide +kernel⟩
  have f1 : (Req.update 1 0 [[7, 0, 0, 0]] says7).Fits := ⟨by decide, by decide, by decide, by decide⟩
  have f2 : (Req.select 1 0 0 2147483647 [[[7, 0, 0, 0]]]).Fits := ⟨by decide, by decide, by decide, by decide, by decide, by simp⟩
  have ho : (fields rowTy rowVal).head? = some [7, 0, 0, 0] := by decide +kernel
  have hw : (fields rowTy newVal).head? = some [7, 0, 0, 0] := by decide +kernel
  have hf : TupTy (.scal .i32) ∧ TupVal false (.scal .i32) (.scal (.i32 7)) :=
    flat_tup _ rfl _ (by simp [HasTy, Scal.kind]) (by simp [Small, fields, pay, scalBytes, le, width, Scal.kind])
  refine ⟨steps_fits, pick_all (P := fun c x => Sane x true _) (.inl rfl) (.inl rfl) fun _ => .inl rfl, ⟨_, rfl, rfl⟩, ⟨rfl, by decide +kernel⟩, ?_,
    fun n c => pick (times (init true) a1 a1 a3 n) (times (init true) b1 b2 b2 n) (init true) c, ?_, ?_, ?_, ?_, ?_, ?_, q7, q8⟩
  · rintro c r hcr ht
    match c with
    | 0 =>
      have h3 : r ≠ 3 := fun h => hcr _ (by rw [h]; exact List.mem_cons_self)
      rcases ht with hm | ⟨x, _, hm, _, hx⟩
      · by_cases h5 : r = 5 <;> simp [pick, envH, h3, h5] at hm
      · by_cases h5 : r = 5 <;> cases x <;> simp [pick, envH, h3, h5, Req.msg, Req.On] at hm hx
    | 1 =>
      have h4 : r ≠ 4 := fun h => hcr _ (by rw [h]; exact List.mem_cons_of_mem _ List.mem_cons_self)
      rcases ht with hm | ⟨x, _, hm, _, hx⟩
      · simp [pick, envI, h4] at hm
      · cases x <;> simp [pick, envI, h4, Req.msg] at hm
    | c + 2 =>
      rcases ht with hm | ⟨x, _, hm, _, _⟩
      · simp [pick, env2] at hm
      · cases x <;> simp [pick, env2, Req.msg] at hm
  · intro c
    match c with
    | 0 => rfl
    | 1 => rfl
    | c + 2 => rfl
  · intro n hn c
    match n, hn, c with
    | 0, _, 0 => exact p1
    | 0, _, 1 => exact r1
    | 0, _, c + 2 => rfl
    | 1, _, 0 => rfl
    | 1, _, 1 => exact s1
    | 1, _, c + 2 => rfl
    | 2, _, 0 => exact q1
    | 2, _, 1 => rfl
    | 2, _, c + 2 => rfl
  · exact pick_all (P := fun _ (x : ByteLink.St) => Conn.Young x.c) q6 s5 fun _ => by decide
  · intro n c r x hx
    match n with
    | 0 =>
      cases hx
      refine ⟨.store false 0 (.val rowTy rowVal) rfl (by decide +kernel) ?_ ho, trivial, ?_, 1, 1, p2⟩
      · exact flat_tup _ rowTy_flat _ rowVal_has rowVal_small
      · intro i f hm
        cases hm
    | 1 =>
      cases hx
      refine ⟨.update false key7 ops7 rfl (by decide +kernel) hf (by decide +kernel) ?_ (by decide), ?_, ?_, 1, 1, s6⟩
      · intro o ho
        simp only [ops7, List.mem_cons, List.not_mem_nil, or_false] at ho
        rcases ho with rfl | rfl | rfl <;> refine ⟨⟨by decide, ?_, ?_⟩, by decide⟩ <;>
          simp [FieldTy, FieldVal, Fits, Scal.kind, Ty.kind?, pay, scalBytes, le, width, counted, withCnt, Sound, SizeOk, isStruct, exact, asSz, codeSz, size?, bulky, wideScal]
      · have hh : history ((series.take 1).map (·.2.2)) = some (fields rowTy rowVal) := by decide +kernel
        have hlen : (fields rowTy rowVal).length = 3 := by decide +kernel
        rw [hh]
        intro o ho
        simp only [says7, List.mem_cons, List.not_mem_nil, or_false] at ho
        rcases ho with rfl | rfl | rfl <;> refine ⟨rfl, by decide, fun t ht => ?_⟩ <;> cases ht <;> rw [hlen] <;> decide
      · intro i f hm
        have hm : (i, 4, f) ∈ b1.c.wire := hm
        simp [r2] at hm
    | n + 2 => simp [series] at hx
  · refine ⟨[(0, 0), (1, 0), (0, 1)], fun n => min n 3,
      fun k s => if s = 1 then if k = 0 then [] else if k = 1 then [fields rowTy rowVal] else [fields rowTy newVal] else [], by funext s; simp, by decide, rfl, fun m n h => by show min m 3 ≤ min n 3; omega, ?_, ?_, ?_⟩
    · intro n hn c k hk
      match n, hn with
      | 0, _ => simp at hk
      | 1, _ =>
        obtain ⟨rfl, rfl⟩ : c = 0 ∧ k = 0 := by simpa using hk
        show 0 < a1.got.length
        omega
      | 2, _ =>
        have : (c = 0 ∧ k = 0) ∨ (c = 1 ∧ k = 0) := by simpa using hk
        rcases this with ⟨rfl, rfl⟩ | ⟨rfl, rfl⟩
        · show 0 < a1.got.length
          omega
        · show 0 < b2.got.length
          omega
      | 3, _ =>
        have : (c = 0 ∧ k = 0) ∨ (c = 1 ∧ k = 0) ∨ (c = 0 ∧ k = 1) := by simpa using hk
        rcases this with ⟨rfl, rfl⟩ | ⟨rfl, rfl⟩ | ⟨rfl, rfl⟩
        · show 0 < a3.got.length
          omega
        · show 0 < b2.got.length
          omega
        · show 1 < a3.got.length
          omega
    · rintro n hn c k ⟨i, r, d, hwk, _⟩
      have hlt := (List.getElem?_eq_some_iff.mp hwk).1
      have ha1 : a1.c.wire.length = 1 := by rw [p4]; rfl
      have hb1 : b1.c.wire.length = 0 := by rw [r2]; rfl
      match n, hn, c with
      | 0, _, 0 => exact absurd hlt (Nat.not_lt_zero _)
      | 0, _, 1 => exact absurd hlt (Nat.not_lt_zero _)
      | 1, _, 0 =>
        have : k < a1.c.wire.length := hlt
        obtain rfl : k = 0 := by omega
        simp
      | 1, _, 1 =>
        have : k < b1.c.wire.length := hlt
        omega
      | 2, _, 0 =>
        have : k < a1.c.wire.length := hlt
        obtain rfl : k = 0 := by omega
        simp
      | 2, _, 1 =>
        have : k < b2.c.wire.length := hlt
        obtain rfl : k = 0 := by omega
        simp
      | 3, _, 0 =>
        have : k < a3.c.wire.length := hlt
        obtain rfl | rfl : k = 0 ∨ k = 1 := by omega
        · simp
        · simp
      | 3, _, 1 =>
        have : k < b2.c.wire.length := hlt
        obtain rfl : k = 0 := by omega
        simp
      | n + 4, hn, 0 => omega
      | n + 4, hn, 1 => omega
      | n, _, c + 2 => exact absurd hlt (Nat.not_lt_zero _)
    · intro j c k q hj hq
      match j with
      | 0 =>
        obtain ⟨rfl, rfl⟩ : 0 = c ∧ 0 = k := by simpa using hj
        have hq : a3.seen 0 = some q := hq
        rw [q4] at hq
        cases hq
        refine ⟨fun x hx hm hbd => ?_, fun hx => absurd rfl (hx _ f0 rfl)⟩
        obtain rfl := body_inj f0 hx hm hbd
        refine ⟨?_, by simp⟩
        funext s
        by_cases hs : s = 1 <;> simp [Db.put, hs]
      | 1 =>
        obtain ⟨rfl, rfl⟩ : 1 = c ∧ 0 = k := by simpa using hj
        have hq : b2.seen 0 = some q := hq
        rw [s4] at hq
        cases hq
        refine ⟨fun x hx hm hbd => ?_, fun hx => absurd rfl (hx _ f1 rfl)⟩
        obtain rfl := body_inj f1 hx hm hbd
        refine ⟨fun s k => ⟨fun hsk => ?_, ?_⟩, by simp⟩
        · by_cases hs : s = 1
          · have : [7, 0, 0, 0] ≠ k := by
              rcases hsk with h | h
              · exact absurd hs h
              · exact fun h' => h (by rw [h'])
            simp [Db.only, hs, ho, hw, this]
          · simp [Db.only, hs]
        · rintro ⟨rfl, hk⟩ _
          have : k = [7, 0, 0, 0] := by simpa using hk.symm
          subst this
          decide +kernel
      | 2 =>
        obtain ⟨rfl, rfl⟩ : 0 = c ∧ 1 = k := by simpa using hj
        have hq : a3.seen 1 = some q := hq
        rw [q5] at hq
        cases hq
        refine ⟨fun x hx hm hbd => ?_, fun hx => absurd rfl (hx _ f2 rfl)⟩
        obtain rfl := body_inj f2 hx hm hbd
        refine ⟨rfl, ?_⟩
        intro sp o l ks he
        cases he
        refine ⟨rfl, ?_⟩
        show Spec.response [tupleBytes (fields rowTy newVal)] = _
        decide +kernel
      | j + 3 => simp at hj
  · intro i f hm
    have hm : (i, 5, f) ∈ a1.c.wire := hm
    simp [p4] at hm

/-! ### Example: request 3 on connection 0 stores the row, request 5 selects it; meanwhile request 4 on connection 1, which sets fields of it, is written and not handled -/

def envO : Env := { envH with answer := fun k => if k = 1 then Spec.response [row7] else [1, 0, 0, 0] }

def steps' (n c : Nat) : List Choice := pick (times (shake ++ storing) select5 [] [] n) (times shake (selecting1.take 4) [] [] n) [] c

/-- All hypotheses of C162_under_way_partial hold, and so do those of C162_concurrent_partial with request 4 as the only one of `ys` (those about the key and the operations:
see the examples above). -/
example : (∀ c, Env.Fits (pick envO envI env2 c)) ∧ (∀ c, Sane (pick envO envI env2 c) true (upto steps' 2 c)) ∧
    (envO.msg 5 = 17 ∧ Rpc.marshalWrite (.hook (SelectReq.write ⟨1, 0, 0, -1, keys7⟩)) = some (envO.body 5)) ∧
    (∀ c r, (∀ x, (c, r, x) ∉ series.take 1) → (c, r) ≠ (1, 4) → ¬ Touches (pick envO envI env2 c) 1 [7, 0, 0, 0] r) ∧
    ∃ B : Nat → Nat → ByteLink.St, (∀ c, B 0 c = init true) ∧
      (∀ n, n < 2 → ∀ c, ByteLink.run (pick envO envI env2 c) (B n c) (steps' n c) = some (B (n + 1) c)) ∧ (∀ c, Conn.Young (B 2 c).c) ∧
      (∀ i f, (i, 4, f) ∉ (B 1 1).c.wire) ∧ (1, 4, true) ∈ (B 2 1).c.wire ∧
      ((B 1 0).c.ans 3 = some (.response 1 1) ∧ ∀ i f, (i, 5, f) ∉ (B 1 0).c.wire) ∧
      ServesLong (pick envO envI env2) 2 B ∧
      (B 2 0).c.ans 5 = some (.response 2 2) ∧ (B 2 0).read 2 = some ⟨17, 2, 0, Spec.response [row7]⟩ := by
  have hb0 : ∃ b, ByteLink.run envO (init true) (shake ++ storing) = some b ∧ (b.c.ans 3 = some (.response 1 1) ∧ b.got.length = 1 ∧ b.c.wire = [(1, 3, true)] ∧
      ((ByteLink.run envO b select5).any fun b' => decide (b'.got.length = 2 ∧ b'.c.wire.length = 2 ∧
        b'.seen 0 = some ⟨13, 1, (Req.store 1 0 (fields rowTy rowVal)).body⟩ ∧
        b'.seen 1 = some ⟨17, 2, (Req.select 1 0 0 2147483647 [[[7, 0, 0, 0]]]).body⟩ ∧ Conn.Young b'.c ∧
        b'.c.ans 5 = some (.response 2 2) ∧ b'.read 2 = some ⟨17, 2, 0, Spec.response [row7]⟩)) = true) := by
    refine any_some ?_
    decide +kernel
  have hb1 : ∃ b, ByteLink.run envI (init true) shake = some b ∧ (b.c.wire = [] ∧
      ((ByteLink.run envI b (selecting1.take 4)).any fun b' => decide (b'.c.wire = [(1, 4, true)] ∧ Conn.Young b'.c ∧ b'.c.ans 4 = none)) = true) := by
    refine any_some ?_
    decide +kernel
  obtain ⟨a1, p1, p2, p3, p4, p5⟩ := hb0
  obtain ⟨a3, q1, q2, q3, q4, q5, q6, q7, q8⟩ := any_some p5
  obtain ⟨b1, r1, r2, r3⟩ := hb1
  obtain ⟨b2, s1, s2, s3, s4⟩ := any_some r3
  have f0 : (Req.store 1 0 (fields rowTy rowVal)).Fits := ⟨by decide, by decide, by decide +kernel⟩
  have f2 : (Req.select 1 0 0 2147483647 [[[7, 0, 0, 0]]]).Fits := ⟨by decide, by decide, by decide, by decide, by decide, by simp⟩
  have hfit : envO.Fits := by
    have g1 : (Spec.response [row7]).length + 4 < 2 ^ 32 := by decide +kernel
    refine ⟨(steps_fits 0).1, fun k => ?_⟩
    simp only [envO]
    split
    · exact g1
    · decide
  refine ⟨pick_all (P := fun _ => Env.Fits) hfit (steps_fits 1) fun _ => pool_fits 2,
    pick_all (P := fun c x => Sane x true _) (.inl rfl) (.inl rfl) fun _ => .inl rfl, ⟨rfl, by decide +kernel⟩, ?_,
    fun n c => pick (times (init true) a1 a3 a3 n) (times (init true) b1 b2 b2 n) (init true) c, ?_, ?_, ?_, ?_, ?_, ⟨p2, ?_⟩, ?_, q7, q8⟩
  · rintro c r hcr hne ht
    match c with
    | 0 =>
      have h3 : r ≠ 3 := fun h => hcr _ (by rw [h]; exact List.mem_cons_self)
      rcases ht with hm | ⟨x, _, hm, _, hx⟩
      · by_cases h5 : r = 5 <;> simp [pick, envO, envH, h3, h5] at hm
      · by_cases h5 : r = 5 <;> cases x <;> simp [pick, envO, envH, h3, h5, Req.msg, Req.On] at hm hx
    | 1 =>
      have h4 : r ≠ 4 := fun h => hne (by rw [h])
      rcases ht with hm | ⟨x, _, hm, _, hx⟩
      · simp [pick, envI, h4] at hm
      · cases x <;> simp [pick, envI, h4, Req.msg] at hm
    | c + 2 =>
      rcases ht with hm | ⟨x, _, hm, _, _⟩
      · simp [pick, env2] at hm
      · cases x <;> simp [pick, env2, Req.msg] at hm
  · intro c
    match c with
    | 0 => rfl
    | 1 => rfl
    | c + 2 => rfl
  · intro n hn c
    match n, hn, c with
    | 0, _, 0 => exact p1
    | 0, _, 1 => exact r1
    | 0, _, c + 2 => rfl
    | 1, _, 0 => exact q1
    | 1, _, 1 => exact s1
    | 1, _, c + 2 => rfl
  · exact pick_all (P := fun _ (x : ByteLink.St) => Conn.Young x.c) q6 s3 fun _ => by decide
  · intro i f hm
    have hm : (i, 4, f) ∈ b1.c.wire := hm
    simp [r2] at hm
  · show (1, 4, true) ∈ b2.c.wire
    simp [s2]
  · intro i f hm
    have hm : (i, 5, f) ∈ a1.c.wire := hm
    simp [p4] at hm
  · refine ⟨_, [(0, 0), (0, 1)], fun n => min n 2, fun k s => if s = 1 then if k = 0 then [] else [fields rowTy rowVal] else [], rfl, by decide, rfl,
      fun m n h => by show min m 2 ≤ min n 2; omega, ?_, ?_, ?_⟩
    · intro n hn c k hk
      match n, hn with
      | 0, _ => simp at hk
      | 1, _ =>
        obtain ⟨rfl, rfl⟩ : c = 0 ∧ k = 0 := by simpa using hk
        show 0 < a1.got.length
        omega
      | 2, _ =>
        have : (c = 0 ∧ k = 0) ∨ (c = 0 ∧ k = 1) := by simpa using hk
        rcases this with ⟨rfl, rfl⟩ | ⟨rfl, rfl⟩
        · show 0 < a3.got.length
          omega
        · show 1 < a3.got.length
          omega
    · rintro n hn c k ⟨i, r, d, hwk, hans⟩
      have hlt := (List.getElem?_eq_some_iff.mp hwk).1
      have ha1 : a1.c.wire.length = 1 := by rw [p4]; rfl
      have hb1 : b1.c.wire.length = 0 := by rw [r2]; rfl
      match n, hn, c with
      | 0, _, 0 => exact absurd hlt (Nat.not_lt_zero _)
      | 0, _, 1 => exact absurd hlt (Nat.not_lt_zero _)
      | 1, _, 0 =>
        have : k < a1.c.wire.length := hlt
        obtain rfl : k = 0 := by omega
        simp
      | 1, _, 1 =>
        have : k < b1.c.wire.length := hlt
        omega
      | 2, _, 0 =>
        have : k < a3.c.wire.length := hlt
        obtain rfl | rfl : k = 0 ∨ k = 1 := by omega
        · simp
        · simp
      | 2, _, 1 =>
        have hwk : b2.c.wire[k]? = some (i, r, true) := hwk
        have hmem := List.mem_of_getElem? hwk
        rw [s2] at hmem
        obtain ⟨_, rfl⟩ : i = 1 ∧ r = 4 := by simpa using hmem
        have hans : b2.c.ans 4 = some (.response i d) := hans
        rw [s4] at hans
        cases hans
      | n + 3, hn, 0 => omega
      | n + 3, hn, 1 => omega
      | n, _, c + 2 => exact absurd hlt (Nat.not_lt_zero _)
    · intro j c k q hj hq
      match j with
      | 0 =>
        obtain ⟨rfl, rfl⟩ : 0 = c ∧ 0 = k := by simpa using hj
        have hq : a3.seen 0 = some q := hq
        rw [q4] at hq
        cases hq
        refine ⟨fun x hx hm hbd => ?_, fun hx => absurd rfl (hx _ f0 rfl)⟩
        obtain rfl := body_inj f0 hx hm hbd
        refine ⟨?_, by simp⟩
        funext s
        by_cases hs : s = 1 <;> simp [Db.put, hs]
      | 1 =>
        obtain ⟨rfl, rfl⟩ : 0 = c ∧ 1 = k := by simpa using hj
        have hq : a3.seen 1 = some q := hq
        rw [q5] at hq
        cases hq
        refine ⟨fun x hx hm hbd => ?_, fun hx => absurd rfl (hx _ f2 rfl)⟩
        obtain rfl := body_inj f2 hx hm hbd
        refine ⟨rfl, ?_⟩
        intro sp o l ks he
        cases he
        refine ⟨rfl, ?_⟩
        show Spec.response [row7] = _
        decide +kernel
      | j + 2 => simp at hj

end Verif.Box
