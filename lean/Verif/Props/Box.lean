import Verif.Spec.Box
import Verif.Props.Rpc
import Verif.Props.Sbox
import Verif.Proofs.ConnGen

/-! C157: what was stored through a connection is selected through it. -/
namespace Verif.Box
open Verif.Marshal Verif.Reflect Verif.Spec Verif.Sbox Verif.ByteLink Verif.Props

/-! ### The numbers of the messages -/

/-- The four requests go out under the numbers by which the box knows them, and `RPCReq` under none of these. -/
theorem C157_messages (space flags index offset limit : Nat) (t : List Bytes) (keys : List (List Bytes))
    (ops : List (UInt32 × UInt8 × Bytes)) :
    Sbox.Req.msg .store = (Req.store space flags t).msg ∧ Sbox.Req.msg .select = (Req.select space index offset limit keys).msg ∧
    Sbox.Req.msg .delete = (Req.delete space flags t).msg ∧ Sbox.Req.msg .update = (Req.update space flags t ops).msg ∧
    ∀ r : Req, Sbox.Req.msg .rpc ≠ r.msg :=
  ⟨rfl, rfl, rfl, rfl, fun r => by cases r <;> (simp only [Sbox.Req.msg, Req.msg]; decide)⟩

/-! ### The client's side of a link, step by step -/

theorem step_client {e : Env} {b b' : ByteLink.St} {c : Choice} (hs : ByteLink.step e b c = some b') :
    (b'.c = b.c ∨ ∃ c', Conn.step b.c c' = some b'.c) ∧ b.got <+: b'.got := by
  have cl : ∀ {o : Option Conn.St} {F : Conn.St → ByteLink.St} {c' : Conn.Choice}, o.map F = some b' → o = Conn.step b.c c' →
      (∀ c, (F c).c = c) → (∀ c, (F c).got = b.got) → (b'.c = b.c ∨ ∃ c', Conn.step b.c c' = some b'.c) ∧ b.got <+: b'.got := by
    intro o F c' h ho h1 h2
    obtain ⟨s', e1, rfl⟩ := Option.map_eq_some_iff.mp h
    exact ⟨.inr ⟨c', by rw [h1, ← ho, e1]⟩, by rw [h2]; exact List.prefix_rfl⟩
  have sv : ∀ {o : Option Serv.St} {F : Serv.St → ByteLink.St}, o.map F = some b' →
      (∀ s, (F s).c = b.c) → (∀ s, b.got <+: (F s).got) → (b'.c = b.c ∨ ∃ c', Conn.step b.c c' = some b'.c) ∧ b.got <+: b'.got := by
    intro o F h h1 h2
    obtain ⟨s', e1, rfl⟩ := Option.map_eq_some_iff.mp h
    exact ⟨.inl (h1 _), h2 _⟩
  cases c with
  | client c =>
    have he : ByteLink.step e b (.client c) = none ∨
        ByteLink.step e b (.client c) = if b.phase = .run then (Conn.step b.c c).map fun c => { b with c } else none := by
      cases c with
      | endWrite x => cases x <;> first | exact .inl rfl | exact .inr rfl
      | _ => first | exact .inl rfl | exact .inr rfl
    rcases he with he | he <;> rw [he] at hs
    · cases hs
    · split at hs
      · exact cl hs rfl (fun _ => rfl) (fun _ => rfl)
      · cases hs
  | server c =>
    have he : ByteLink.step e b (.server c) = none ∨ ByteLink.step e b (.server c) = (Serv.step b.s c).map fun s => { b with s } := by
      cases c <;> first | exact .inl rfl | exact .inr rfl
    rcases he with he | he <;> rw [he] at hs
    · cases hs
    · exact sv hs (fun _ => rfl) (fun _ => List.prefix_rfl)
  | arriveUp j => cases hs; exact ⟨.inl rfl, List.prefix_rfl⟩
  | arriveDown j => cases hs; exact ⟨.inl rfl, List.prefix_rfl⟩
  | _ =>
    simp only [ByteLink.step] at hs
    (repeat' split at hs) <;>
      first
      | (cases hs; done)
      | (cases hs; exact ⟨.inl rfl, List.prefix_rfl⟩)
      | exact cl hs rfl (fun _ => rfl) (fun _ => rfl)
      | exact sv hs (fun _ => rfl) (fun _ => List.prefix_rfl)
      | exact sv hs (fun _ => rfl) (fun _ => List.prefix_append _ _)

theorem wire_step {s s' : Conn.St} {c : Conn.Choice} (hs : Conn.step s c = some s') : s.wire <+: s'.wire := by
  rcases (Conn.same hs).1 with h | ⟨i, r, f, _, _, h⟩ <;> rw [h]
  · exact List.prefix_rfl
  · exact List.prefix_append _ _

theorem run_client {e : Env} {cs : List Choice} : ∀ {b b' : ByteLink.St}, ByteLink.run e b cs = some b' →
    b.c.wire <+: b'.c.wire ∧ b.got <+: b'.got ∧ (Conn.Once b.c → Conn.Once b'.c) := by
  induction cs with
  | nil => intro b b' h; cases h; exact ⟨List.prefix_rfl, List.prefix_rfl, id⟩
  | cons c cs ih =>
    intro b b' h
    simp only [ByteLink.run] at h
    cases e1 : ByteLink.step e b c with
    | none => rw [e1] at h; cases h
    | some b1 =>
      rw [e1] at h
      obtain ⟨h1, h2, h3⟩ := ih h
      obtain ⟨h4, h5⟩ := step_client e1
      rcases h4 with h4 | ⟨c', h4⟩
      · rw [h4] at h1 h3
        exact ⟨h1, h5.trans h2, h3⟩
      · exact ⟨(wire_step h4).trans h1, h5.trans h2, fun g => h3 (Conn.once_step g h4)⟩

/-! ### The box -/

theorem body_ne_nil (x : Req) : x.body ≠ [] := by
  cases x <;> simp [Req.body, le]

/-- The box understands a request in one way only. -/
theorem body_inj {x y : Req} (hx : x.Fits) (hy : y.Fits) (hm : x.msg = y.msg) (h : x.body = y.body) : x = y := by
  have tup : ∀ {a b a' b' : Nat} {t t' : List Bytes} {o o' : Bytes}, (a < 2 ^ 32 ∧ b < 2 ^ 32 ∧ t.length < 2 ^ 32) →
      (a' < 2 ^ 32 ∧ b' < 2 ^ 32 ∧ t'.length < 2 ^ 32) →
      le 4 a ++ (le 4 b ++ (tupleBytes t ++ o)) = le 4 a' ++ (le 4 b' ++ (tupleBytes t' ++ o')) → a = a' ∧ b = b' ∧ t = t' ∧ o = o' := by
    intro a b a' b' t t' o o' hx hy h
    obtain ⟨h1, h2, h3⟩ := hx
    obtain ⟨g1, g2, g3⟩ := hy
    obtain ⟨e1, k1⟩ := le4_inj h1 g1 h
    obtain ⟨e2, k2⟩ := le4_inj h2 g2 k1
    obtain ⟨e3, e4⟩ := tuple_inj h3 g3 k2
    exact ⟨e1, e2, e3, e4⟩
  cases x with
  | store a b t =>
    cases y with
    | store a' b' t' =>
      obtain ⟨e1, e2, e3, _⟩ := tup hx hy (o := []) (o' := []) (by simpa [Req.body] using h)
      rw [e1, e2, e3]
    | _ => simp [Req.msg] at hm
  | delete a b t =>
    cases y with
    | delete a' b' t' =>
      obtain ⟨e1, e2, e3, _⟩ := tup hx hy (o := []) (o' := []) (by simpa [Req.body] using h)
      rw [e1, e2, e3]
    | _ => simp [Req.msg] at hm
  | update a b t o =>
    cases y with
    | update a' b' t' o' =>
      obtain ⟨x1, x2, x3, x4⟩ := hx
      obtain ⟨y1, y2, y3, y4⟩ := hy
      obtain ⟨e1, e2, e3, e4⟩ := tup ⟨x1, x2, x3⟩ ⟨y1, y2, y3⟩ h
      obtain ⟨hl, e4⟩ := le4_inj x4 y4 e4
      have : ∀ (as bs : List (UInt32 × UInt8 × Bytes)), as.length = bs.length →
          (as.map fun o => updBytes o.1 o.2.1 o.2.2).flatten = (bs.map fun o => updBytes o.1 o.2.1 o.2.2).flatten → as = bs := by
        intro as
        induction as with
        | nil => intro bs hl _; cases bs <;> simp_all
        | cons t as ih =>
          intro bs hl he
          cases bs with
          | nil => simp at hl
          | cons u bs =>
            simp only [List.map_cons, List.flatten_cons, updBytes, List.append_assoc] at he
            obtain ⟨c1, he⟩ := le4_inj t.1.toNat_lt u.1.toNat_lt he
            simp only [List.singleton_append, List.cons.injEq] at he
            obtain ⟨c2, he⟩ := he
            obtain ⟨c3, he⟩ := field_inj he
            rw [ih bs (by simpa using hl) he]
            exact congrArg (· :: bs) (Prod.ext (UInt32.toNat_inj.mp c1) (Prod.ext c2 c3))
      rw [e1, e2, e3, this o o' hl e4]
    | _ => simp [Req.msg] at hm
  | select a b c d ks =>
    cases y with
    | select a' b' c' d' ks' =>
      obtain ⟨h1, h2, h3, h4, h5, h6⟩ := hx
      obtain ⟨g1, g2, g3, g4, g5, g6⟩ := hy
      simp only [Req.body] at h
      obtain ⟨e1, k1⟩ := le4_inj h1 g1 h
      obtain ⟨e2, k2⟩ := le4_inj h2 g2 k1
      obtain ⟨e3, k3⟩ := le4_inj h3 g3 k2
      obtain ⟨e4, k4⟩ := le4_inj h4 g4 k3
      obtain ⟨hl, k5⟩ := le4_inj h5 g5 k4
      have : ∀ (as bs : List (List Bytes)), as.length = bs.length → (∀ k ∈ as, k.length < 2 ^ 32) → (∀ k ∈ bs, k.length < 2 ^ 32) →
          (as.map tupleBytes).flatten = (bs.map tupleBytes).flatten → as = bs := by
        intro as
        induction as with
        | nil => intro bs hl _ _ _; cases bs <;> simp_all
        | cons t as ih =>
          intro bs hl ha hb he
          cases bs with
          | nil => simp at hl
          | cons u bs =>
            simp only [List.map_cons, List.flatten_cons] at he
            obtain ⟨e, he⟩ := tuple_inj (ha t (by simp)) (hb u (by simp)) he
            rw [e, ih bs (by simpa using hl) (fun k hk => ha k (by simp [hk])) (fun k hk => hb k (by simp [hk])) he]
      rw [e1, e2, e3, e4, this ks ks' hl h6 g6 k5]
    | _ => simp [Req.msg] at hm

theorem put_same (db : Db) (space : Nat) (key : Bytes) (t : List Bytes) (ht : t.head? = some key) :
    (db.put space t).only space key = [t] := by
  simp [Db.only, Db.put, ht, List.filter_append, List.filter_filter]

theorem remove_same (db : Db) (space : Nat) (key : Bytes) : (db.remove space key).only space key = [] := by
  simp [Db.only, Db.remove, List.filter_filter]

theorem put_other (db : Db) (space sp : Nat) (key : Bytes) (t : List Bytes) (h : sp = space → t.head? ≠ some key) :
    (db.put sp t).only space key = db.only space key := by
  unfold Db.only Db.put
  by_cases hs : space = sp
  · subst hs
    simp only [if_true, List.filter_append, List.filter_filter]
    have h' := h rfl
    simp only [List.filter_cons, h', decide_false, List.filter_nil]
    simp only [Bool.false_eq_true, if_false, List.append_nil]
    apply List.filter_congr
    intro u _
    by_cases hu : u.head? = some key
    · simp [hu, Ne.symm h']
    · simp [hu]
  · simp [hs]

theorem remove_other (db : Db) (space sp : Nat) (key k : Bytes) (h : sp = space → k ≠ key) :
    (db.remove sp k).only space key = db.only space key := by
  unfold Db.only Db.remove
  by_cases hs : space = sp
  · subst hs
    simp only [if_true, List.filter_filter]
    have h' := h rfl
    apply List.filter_congr
    intro u _
    by_cases hu : u.head? = some key
    · simp [hu, Ne.symm h']
    · simp [hu]
  · simp [hs]

theorem after_other {db db' : Db} (space : Nat) (key : Bytes) (x : Req) (hx : db.After db' x)
    (h : ¬ x.On space key) : db'.only space key = db.only space key := by
  cases x with
  | select => rw [show db' = db from hx]
  | store sp flags t =>
    have : (db.put sp t).only space key = db.only space key := put_other db space sp key t (fun e ht => h ⟨e, ht⟩)
    simp only [Db.After] at hx
    rw [hx]
    repeat' split
    all_goals first | exact this | rfl
  | delete sp flags k =>
    match k, hx, h with
    | [], hx, _ => rw [show db' = db from hx]
    | [k], hx, h =>
      rw [show db' = db.remove sp k from hx]
      exact remove_other db space sp key k (fun e hk => h ⟨e, by rw [hk]⟩)
    | _ :: _ :: _, hx, _ => rw [show db' = db from hx]
  | update sp flags k ops =>
    refine (hx space key).1 ?_
    by_cases hs : space = sp
    · exact .inr fun hk => h ⟨hs.symm, hk⟩
    · exact .inl hs

theorem found_key (db : Db) (space limit : Nat) (key : Bytes) :
    db.found space 0 limit [[key]] = (db.only space key).take limit := by
  have : (db space).filter (([key] : List Bytes).isPrefixOf ·) = db.only space key := by
    unfold Db.only
    apply List.filter_congr
    intro u _
    cases u with
    | nil => simp [List.isPrefixOf]
    | cons a u => simp [List.isPrefixOf, eq_comm, Bool.beq_eq_decide_eq]
  simp only [Db.found, List.flatMap_cons, List.flatMap_nil, List.append_nil, List.drop_zero, this]

/-! ### Requests made by sbox -/

theorem marshal_adds {f : Wr → Option Wr} {x : Bytes} (h : Adds f x) : Rpc.marshalWrite (.hook f) = some x := by
  obtain ⟨w', h1, h2⟩ := h (Wr.new 512) (Wr.ok_new 512)
  have hv := (Wr.written_spec w' h2.ok).2.2.1
  simp only [Rpc.marshalWrite, Iface.writeAny, h1, Option.map_some, hv, h2.data]
  rfl

theorem limit_bytes (l : Int32) (hl : l ≠ 0) :
    ∃ m, 0 < m ∧ m < 2 ^ 32 ∧ scalBytes (.i32 (sentLimit l 1)) = le 4 m := by
  have h1 : sentLimit l 1 ≠ 0 := by
    unfold sentLimit
    repeat' split
    · exact hl
    · decide
    · decide
  have h2 : (sentLimit l 1).toInt ≠ 0 := fun h => h1 (Int32.toInt_inj.1 (by simpa using h))
  have h3 := Int32.toInt_lt (sentLimit l 1)
  have h4 := Int32.le_toInt (sentLimit l 1)
  refine ⟨pattern (.i32 (sentLimit l 1)), ?_, ?_, rfl⟩ <;> simp only [pattern] <;> omega

section
variable {e : Env} {dial : Bool} {cs ds : List Choice} {b b' : ByteLink.St}

theorem run_append {x : ByteLink.St} (h : ByteLink.run e x cs = some b) (h' : ByteLink.run e b ds = some b') :
    ByteLink.run e x (cs ++ ds) = some b' := by
  induction cs generalizing x with
  | nil => cases h; exact h'
  | cons c cs ih =>
    simp only [ByteLink.run, List.cons_append] at h ⊢
    cases e1 : ByteLink.step e x c with
    | none => rw [e1] at h; cases h
    | some y => rw [e1] at h; exact ih h

theorem sane_left (hc : Sane e dial (cs ++ ds)) : Sane e dial cs := by
  rcases hc with hc | ⟨h1, h2, h3⟩
  · exact .inl hc
  · exact .inr ⟨h1, h2, fun k hk => h3 k (List.mem_append_left _ hk)⟩

/-- What is received is what was written, in this order. -/
theorem at_wire (he : e.Fits) (hc : Sane e dial cs) (h : ByteLink.run e (init dial) cs = some b) (hy : Conn.Young b.c) {k i r : Nat}
    (hw : b.c.wire[k]? = some (i, r, true)) (hk : k < b.got.length) : ∃ id, b.seen k = some ⟨e.msg r, id, e.body r⟩ := by
  have hs : ∃ q, b.seen k = some q := by
    simp only [ByteLink.St.seen, List.getElem?_eq_getElem hk, Option.map_some]
    exact ⟨_, rfl⟩
  obtain ⟨q, hq⟩ := hs
  obtain ⟨i0, r0, x, hw', hm, _, hb, _⟩ := C114_requests_partial he hc h hy hq
  rw [hw] at hw'
  cases hw'
  refine ⟨q.id, ?_⟩
  rw [hq, ← hm, ← hb rfl]

theorem wire_once (h : ByteLink.run e (init dial) cs = some b) {j k i i' r : Nat} {x x' : Bool} (hj : b.c.wire[j]? = some (i, r, x))
    (hk : b.c.wire[k]? = some (i', r, x')) : j = k := by
  obtain ⟨_, _, once⟩ := run_client h
  have hnd := (once Conn.once_init).nodup
  have e1 : (b.c.wire.map (·.2.1))[j]? = some r := by simp [hj]
  have e2 : (b.c.wire.map (·.2.1))[k]? = some r := by simp [hk]
  exact (List.getElem?_inj (List.getElem?_eq_some_iff.mp e1).1 hnd).mp (e1.trans e2.symm)

/-- Where the two requests are among those written. -/
theorem places (he : e.Fits) (hc : Sane e dial (cs ++ ds)) (h : ByteLink.run e (init dial) cs = some b)
    (h' : ByteLink.run e b ds = some b') (hy : Conn.Young b'.c) {r r' i i' d d' : Nat} (ha : b.c.ans r = some (.response i d))
    (hn : ∀ i f, (i, r', f) ∉ b.c.wire) (ha' : b'.c.ans r' = some (.response i' d')) :
    ∃ k k' id', k < k' ∧ b'.c.wire[k]? = some (i, r, true) ∧ b'.c.wire[k']? = some (i', r', true) ∧
      b'.seen k' = some ⟨e.msg r', id', e.body r'⟩ ∧
      b'.read d' = some ⟨e.msg r', id', e.carried (e.sent (e.code k')), e.answer k'⟩ := by
  have hrun := run_append h h'
  have hy1 : Conn.Young b.c := Nat.le_trans (run_got h') hy
  obtain ⟨k, id, w1, s1, _, _⟩ := C114_end_to_end_partial he (sane_left hc) h hy1 ha
  obtain ⟨k', id', w2, s2, r2, _⟩ := C114_end_to_end_partial he hc hrun hy ha'
  obtain ⟨⟨t, ht⟩, ⟨u, hu⟩, _⟩ := run_client h'
  have w1' : b'.c.wire[k]? = some (i, r, true) := by rw [← ht]; exact Link.getElem?_grow w1
  refine ⟨k, k', id', ?_, w1', w2, s2, r2⟩
  have h1 : k < b.c.wire.length := (List.getElem?_eq_some_iff.mp w1).1
  rcases Nat.lt_or_ge k' b.c.wire.length with hk | hk
  · rw [← ht, List.getElem?_append_left hk] at w2
    exact absurd (List.mem_of_getElem? w2) (hn _ _)
  · omega

theorem seen_lt {k : Nat} {q : Spec.ReqMsg} (s : b'.seen k = some q) : k < b'.got.length := by
  simp only [ByteLink.St.seen, Option.map_eq_some_iff] at s
  obtain ⟨_, s, _⟩ := s
  exact (List.getElem?_eq_some_iff.mp s).1

/-- C157 (partial: as C114). Request `r` was answered in `b`, which comes before `b'`; request `r'` was not written in `b`, but is received in `b'`. Then the server
has received them in this order. -/
theorem C157_order_partial (he : e.Fits) (hc : Sane e dial (cs ++ ds)) (h : ByteLink.run e (init dial) cs = some b)
    (h' : ByteLink.run e b ds = some b') (hy : Conn.Young b'.c) {r r' i i' d d' : Nat} (ha : b.c.ans r = some (.response i d))
    (hn : ∀ i f, (i, r', f) ∉ b.c.wire) (ha' : b'.c.ans r' = some (.response i' d')) :
    ∃ k k' id id', k < k' ∧ b'.seen k = some ⟨e.msg r, id, e.body r⟩ ∧ b'.seen k' = some ⟨e.msg r', id', e.body r'⟩ ∧
      b'.read d' = some ⟨e.msg r', id', e.carried (e.sent (e.code k')), e.answer k'⟩ ∧
      ∀ j q, j ≠ k → b'.seen j = some q → ∃ r'', r'' ≠ r ∧ q.msg = e.msg r'' ∧ (q.body = [] ∨ q.body = e.body r'') := by
  have hrun := run_append h h'
  obtain ⟨k, k', id', hlt, w1, w2, s2, r2⟩ := places he hc h h' hy ha hn ha'
  obtain ⟨id, s1⟩ := at_wire he hc hrun hy w1 (Nat.lt_trans hlt (seen_lt s2))
  refine ⟨k, k', id, id', hlt, s1, s2, r2, fun j q hj hq => ?_⟩
  obtain ⟨i0, r0, x, hw, hm, _, hb, hb0⟩ := C114_requests_partial he hc hrun hy hq
  refine ⟨r0, fun hr => hj ?_, hm, ?_⟩
  · subst hr
    exact wire_once hrun hw w1
  · cases x with
    | false => exact .inl (hb0 rfl)
    | true => exact .inr (hb rfl)

/-- The states `S` of the box. -/
def States (e : Env) (b : ByteLink.St) (S : Nat → Db) : Prop := ∀ k q, b.seen k = some q →
  (∀ x : Req, x.Fits → q.msg = x.msg → q.body = x.body → (S k).After (S (k + 1)) x ∧
    ∀ space offset limit keys, x = .select space 0 offset limit keys →
      e.code k = 0 ∧ e.answer k = response (((S k).found space offset limit keys).map tupleBytes)) ∧
  ((∀ x : Req, x.Fits → q.msg = x.msg → q.body ≠ x.body) → q.msg ≠ 22 → S (k + 1) = S k)

/-- Nobody touches the tuples with the key between two requests. -/
theorem untouched {S : Nat → Db} {k k' : Nat} {space : Nat} {key : Bytes} {v : List (List Bytes)} (hS : States e b' S)
    (hfree : ∀ j q, k < j → j < k' → b'.seen j = some q → ∃ r'', ¬ Touches e space key r'' ∧ q.msg = e.msg r'' ∧ (q.body = [] ∨ q.body = e.body r''))
    (hlt : k < k') (hk' : k' < b'.got.length) (i1 : (S (k + 1)).only space key = v) : (S k').only space key = v := by
  have hmid : ∀ n, k + 1 + n ≤ k' → (S (k + 1 + n)).only space key = v := by
    intro n
    induction n with
    | zero => intro _; exact i1
    | succ n ih =>
      intro hle
      have hprev := ih (by omega)
      have hs : ∃ q, b'.seen (k + 1 + n) = some q := by
        simp only [ByteLink.St.seen, List.getElem?_eq_getElem (show k + 1 + n < b'.got.length by omega), Option.map_some]
        exact ⟨_, rfl⟩
      obtain ⟨q, hq⟩ := hs
      obtain ⟨r'', hno, h2, h3⟩ := hfree _ q (by omega) (by omega) hq
      have hSq := hS _ q hq
      rw [show k + 1 + (n + 1) = k + 1 + n + 1 by omega]
      by_cases hx : ∃ x : Req, x.Fits ∧ q.msg = x.msg ∧ q.body = x.body
      · obtain ⟨x, x1, x2, x3⟩ := hx
        rw [after_other _ _ x (hSq.1 x x1 x2 x3).1 ?_, hprev]
        intro hm
        rcases h3 with h3 | h3
        · exact body_ne_nil _ (x3.symm.trans h3)
        · exact hno (.inr ⟨x, x1, by rw [← h2, x2], by rw [← h3, x3], hm⟩)
      · rw [hSq.2 (fun x x1 x2 x3 => hx ⟨x, x1, x2, x3⟩) (fun h22 => hno (.inl (by rw [← h2, h22]))), hprev]
  have := hmid (k' - (k + 1)) (by omega)
  rwa [show k + 1 + (k' - (k + 1)) = k' by omega] at this

/-- All requests between two of them are others. -/
theorem free (he : e.Fits) (hc : Sane e dial cs) (h : ByteLink.run e (init dial) cs = some b) (hy : Conn.Young b.c) {P : Nat → Prop} {space : Nat}
    {key : Bytes} (hothers : ∀ r'', ¬ P r'' → ¬ Touches e space key r'') {j : Nat} {q : Spec.ReqMsg} (hq : b.seen j = some q)
    (hp : ∀ r i x, P r → b.c.wire[j]? ≠ some (i, r, x)) :
    ∃ r'', ¬ Touches e space key r'' ∧ q.msg = e.msg r'' ∧ (q.body = [] ∨ q.body = e.body r'') := by
  obtain ⟨i0, r0, x, hw, hm, _, hb, hb0⟩ := C114_requests_partial he hc h hy hq
  refine ⟨r0, hothers r0 fun h0 => hp r0 i0 x h0 hw, hm, ?_⟩
  cases x with
  | false => exact .inl (hb0 rfl)
  | true => exact .inr (hb rfl)

/-- What is answered to a selection by the primary key. -/
theorem selected {S : Nat → Db} (hS : States e b' S) {k' r' d' : Nat} {id' : UInt32} {space : UInt32} {limit : Int32} {keys : Keys} {key : Bytes}
    {ts : List (List Bytes)} (hr' : e.msg r' = 17 ∧ Rpc.marshalWrite (.hook (SelectReq.write ⟨space, 0, 0, limit, keys⟩)) = some (e.body r'))
    (hl : limit ≠ 0) (hk : KeysOk keys) (hkey : keysOf keys = [[key]]) (s2 : b'.seen k' = some ⟨e.msg r', id', e.body r'⟩)
    (hread : b'.read d' = some ⟨e.msg r', id', e.carried (e.sent (e.code k')), e.answer k'⟩)
    (hts : (S k').only space.toNat key = ts) (h1 : ts.length ≤ 1) : b'.read d' = some ⟨17, id', 0, response (ts.map tupleBytes)⟩ := by
  obtain ⟨m, m1, m2, m3⟩ := limit_bytes limit hl
  have b2 : e.body r' = (Req.select space.toNat 0 0 m [[key]]).body := by
    have := marshal_adds (select_adds ⟨space, 0, 0, limit, keys⟩ hk (by rw [hkey]; simp))
    rw [hr'.2] at this
    simpa [Req.body, hkey, m3] using this
  have f2 : (Req.select space.toNat 0 0 m [[key]]).Fits := ⟨space.toNat_lt, by decide, by decide, m2, by simp, by simp⟩
  obtain ⟨c2, a2⟩ := ((hS k' _ s2).1 _ f2 hr'.1 b2).2 _ _ _ _ rfl
  rw [found_key, hts, List.take_of_length_le (by omega)] at a2
  have h0 : e.carried (e.sent (e.code k')) = 0 := by
    have : e.sent 0 = 0 := by simp [Env.sent]
    simp only [c2, this, Env.carried]
    cases e.rc <;> rfl
  rw [hread, h0, a2, hr'.1]

/-- The body of a `StoreReq` with mode "insert or replace", and what it does. -/
theorem stored {S : Nat → Db} (hS : States e b' S) {k r : Nat} {id : UInt32} {space : UInt32} {ret : Bool} {t : Ty} {v : Val} {key : Bytes}
    (hr : e.msg r = 13 ∧ Rpc.marshalWrite (.hook (StoreReq.write ⟨space, ret, 0, .val t v⟩)) = some (e.body r))
    (ht : TupTy t) (hv : TupVal false t v) (hfst : (fields t v).head? = some key) (s1 : b'.seen k = some ⟨e.msg r, id, e.body r⟩) :
    (S (k + 1)).only space.toNat key = [fields t v] := by
  have hok : TupOk (.val t v) := ⟨ht, hv⟩
  have b1 : e.body r = (Req.store space.toNat (if ret then 1 else 0) (fields t v)).body := by
    have := marshal_adds (store_adds ⟨space, ret, 0, .val t v⟩ hok)
    rw [hr.2] at this
    simpa [Req.body, tupFields] using this
  have f1 : (Req.store space.toNat (if ret then 1 else 0) (fields t v)).Fits :=
    ⟨space.toNat_lt, by split <;> omega, tupFields_lt _ hok⟩
  have e1 := ((hS k _ s1).1 _ f1 hr.1 b1).1
  simp only [Db.After] at e1
  rw [e1]
  have : (if ret = true then 1 else 0) / 2 = 0 := by split <;> rfl
  simp only [this, if_true]
  exact put_same _ _ _ _ hfst

/-- C157 (partial: as C114, for tuples that C22 covers). Request `r` stores the value `v`, with mode "insert or replace"; it was answered
before request `r'` was written, which selects by the primary key of `v`; nobody else on this connection touches the tuples with that key in
this space. If the server is a box, then what `ReadMany` makes of the response to `r'` is `v`. -/
theorem C157_own_write_partial (he : e.Fits) (hc : Sane e dial (cs ++ ds)) (h : ByteLink.run e (init dial) cs = some b)
    (h' : ByteLink.run e b ds = some b') (hy : Conn.Young b'.c) (hbox : Serves e b') {r r' i i' d d' : Nat}
    {space : UInt32} {ret : Bool} {t : Ty} {v : Val} {limit : Int32} {keys : Keys} {key : Bytes}
    (hr : e.msg r = 13 ∧ Rpc.marshalWrite (.hook (StoreReq.write ⟨space, ret, 0, .val t v⟩)) = some (e.body r))
    (hr' : e.msg r' = 17 ∧ Rpc.marshalWrite (.hook (SelectReq.write ⟨space, 0, 0, limit, keys⟩)) = some (e.body r'))
    (ht : TupTy t) (hv : TupVal false t v) (hv' : TupVal true t v) (hrow : Row t) (hsz : (tupleBytes (fields t v)).length < 2 ^ 32)
    (hl : limit ≠ 0) (hk : KeysOk keys) (hkey : keysOf keys = [[key]]) (hfst : (fields t v).head? = some key)
    (hothers : ∀ r'', r'' ≠ r → ¬ Touches e space.toNat key r'')
    (ha : b.c.ans r = some (.response i d)) (hn : ∀ i f, (i, r', f) ∉ b.c.wire) (ha' : b'.c.ans r' = some (.response i' d')) :
    ∃ q, b'.read d' = some q ∧ q.code = 0 ∧ readMany t q.body = some (1, 1, none, [v]) := by
  have hrun := run_append h h'
  obtain ⟨k, k', id', hlt, w1, w2, s2, hread⟩ := places he hc h h' hy ha hn ha'
  obtain ⟨id, s1⟩ := at_wire he hc hrun hy w1 (Nat.lt_trans hlt (seen_lt s2))
  obtain ⟨S, hS⟩ := hbox
  have i2 := untouched hS (fun j q h1 _ hq => free he hc hrun hy hothers hq
    fun r0 i x h0 hw => by subst h0; have := wire_once hrun hw w1; omega) hlt (seen_lt s2) (stored hS hr ht hv hfst s1)
  refine ⟨_, selected hS hr' hl hk hkey s2 hread i2 (by simp), rfl, ?_⟩
  have := C25_written_partial t hrow ht [v] (by simpa using hv') (by simp) (by simpa using hsz) []
  simpa using this

/-- C157 (partial: as C114, for keys that C22 covers). Request `r` deletes by the primary key; it was answered before request `r'` was written, which
selects by that key; nobody else on this connection touches the tuples with that key in this space. If the server is a box, then
`ReadMany` finds that there are no tuples in the response to `r'`, whatever type it is asked for. -/
theorem C157_deleted_partial (he : e.Fits) (hc : Sane e dial (cs ++ ds)) (h : ByteLink.run e (init dial) cs = some b)
    (h' : ByteLink.run e b ds = some b') (hy : Conn.Young b'.c) (hbox : Serves e b') {r r' i i' d d' : Nat}
    {space : UInt32} {ret : Bool} {tup : Tup} {limit : Int32} {keys : Keys} {key : Bytes}
    (hr : e.msg r = 21 ∧ Rpc.marshalWrite (.hook (DeleteReq.write ⟨space, ret, tup⟩)) = some (e.body r))
    (hr' : e.msg r' = 17 ∧ Rpc.marshalWrite (.hook (SelectReq.write ⟨space, 0, 0, limit, keys⟩)) = some (e.body r'))
    (ht : TupOk tup) (htup : tupFields tup = [key]) (hl : limit ≠ 0) (hk : KeysOk keys) (hkey : keysOf keys = [[key]])
    (hothers : ∀ r'', r'' ≠ r → ¬ Touches e space.toNat key r'')
    (ha : b.c.ans r = some (.response i d)) (hn : ∀ i f, (i, r', f) ∉ b.c.wire) (ha' : b'.c.ans r' = some (.response i' d')) :
    ∃ q, b'.read d' = some q ∧ q.code = 0 ∧ ∀ t, Row t → TupTy t → readMany t q.body = some (0, 0, none, []) := by
  have hrun := run_append h h'
  obtain ⟨k, k', id', hlt, w1, w2, s2, hread⟩ := places he hc h h' hy ha hn ha'
  obtain ⟨id, s1⟩ := at_wire he hc hrun hy w1 (Nat.lt_trans hlt (seen_lt s2))
  obtain ⟨S, hS⟩ := hbox
  have b1 : e.body r = (Req.delete space.toNat (if ret then 1 else 0) [key]).body := by
    have := marshal_adds (delete_adds ⟨space, ret, tup⟩ ht)
    rw [hr.2] at this
    simpa [Req.body, htup] using this
  have f1 : (Req.delete space.toNat (if ret then 1 else 0) [key]).Fits := ⟨space.toNat_lt, by split <;> omega, by simp⟩
  have e1 : S (k + 1) = (S k).remove space.toNat key := ((hS k _ s1).1 _ f1 hr.1 b1).1
  have i1 : (S (k + 1)).only space.toNat key = [] := by rw [e1]; exact remove_same _ _ _
  have i2 := untouched hS (fun j q h1 _ hq => free he hc hrun hy hothers hq
    fun r0 i x h0 hw => by subst h0; have := wire_once hrun hw w1; omega) hlt (seen_lt s2) i1
  refine ⟨_, selected hS hr' hl hk hkey s2 hread i2 (by simp), rfl, fun t hrow ht => ?_⟩
  have := C25_written_partial t hrow ht [] (by simp) (by simp) (by simp) []
  simpa using this

/-- C157 (partial: as C114, for tuples that C22 covers). Request `r0` stores the value `v`; after its answer request `r` sets some fields, but not the first,
of the tuple with the primary key of `v`; after its answer request `r'` selects by that key; nobody else on this connection touches the tuples
with that key in this space. If the server is a box, then `ReadMany` gets back the value `u` that has these fields and the others of `v`. -/
theorem C157_updated_partial {es : List Choice} {b2 : ByteLink.St} (he : e.Fits) (hc : Sane e dial (cs ++ ds ++ es)) (h : ByteLink.run e (init dial) cs = some b)
    (h2 : ByteLink.run e b ds = some b2) (h3 : ByteLink.run e b2 es = some b') (hy : Conn.Young b'.c) (hbox : Serves e b')
    {r0 r r' i0 i i' d0 d d' : Nat} {space : UInt32} {ret ret' : Bool} {t : Ty} {v u : Val} {tup : Tup} {ops : List Op} {limit : Int32} {keys : Keys} {key : Bytes}
    (hr0 : e.msg r0 = 13 ∧ Rpc.marshalWrite (.hook (StoreReq.write ⟨space, ret, 0, .val t v⟩)) = some (e.body r0))
    (hr : e.msg r = 19 ∧ Rpc.marshalWrite (.hook (UpdateReq.write ⟨space, ret', tup, ops⟩)) = some (e.body r))
    (hr' : e.msg r' = 17 ∧ Rpc.marshalWrite (.hook (SelectReq.write ⟨space, 0, 0, limit, keys⟩)) = some (e.body r'))
    (ht : TupTy t) (hv : TupVal false t v) (hu : TupVal true t u) (hrow : Row t) (hsz : (tupleBytes (fields t u)).length < 2 ^ 32)
    (hops : ∀ o ∈ ops, OpOk o ∧ opCode o.op = some 0 ∧ o.field ≠ 0 ∧ o.field.toNat < (fields t v).length) (hlen : ops.length < 2 ^ 32)
    (huv : fields t u = ops.foldl (fun l o => l.set o.field.toNat (pay o.ty o.val)) (fields t v))
    (hl : limit ≠ 0) (htup : TupOk tup ∧ tupFields tup = [key]) (hk : KeysOk keys) (hkey : keysOf keys = [[key]]) (hfst : (fields t v).head? = some key)
    (hothers : ∀ r'', ¬ (r'' = r0 ∨ r'' = r) → ¬ Touches e space.toNat key r'')
    (ha0 : b.c.ans r0 = some (.response i0 d0)) (hn : ∀ i f, (i, r, f) ∉ b.c.wire) (ha : b2.c.ans r = some (.response i d))
    (hn' : ∀ i f, (i, r', f) ∉ b2.c.wire) (ha' : b'.c.ans r' = some (.response i' d')) :
    ∃ q, b'.read d' = some q ∧ q.code = 0 ∧ readMany t q.body = some (1, 1, none, [u]) := by
  have hrun2 := run_append h h2
  have hrun := run_append hrun2 h3
  have hy2 : Conn.Young b2.c := Nat.le_trans (run_got h3) hy
  obtain ⟨k0, k, _, hlt0, w0, w1, _, _⟩ := places he (sane_left hc) h h2 hy2 ha0 hn ha
  obtain ⟨k1, k', id', hlt, w1', w2, s2, hread⟩ := places he hc hrun2 h3 hy ha hn' ha'
  obtain ⟨⟨x, hx⟩, _, _⟩ := run_client h3
  have w0' : b'.c.wire[k0]? = some (i0, r0, true) := by rw [← hx]; exact Link.getElem?_grow w0
  have w1'' : b'.c.wire[k]? = some (i, r, true) := by rw [← hx]; exact Link.getElem?_grow w1
  obtain rfl := wire_once hrun w1'' w1'
  have hgot := seen_lt s2
  obtain ⟨id0, s0⟩ := at_wire he hc hrun hy w0' (by omega)
  obtain ⟨id1, s1⟩ := at_wire he hc hrun hy w1' (by omega)
  obtain ⟨S, hS⟩ := hbox
  have hfree : ∀ j q, j ≠ k0 → j ≠ k → b'.seen j = some q →
      ∃ r'', ¬ Touches e space.toNat key r'' ∧ q.msg = e.msg r'' ∧ (q.body = [] ∨ q.body = e.body r'') := fun j q h0 h1 hq =>
    free he hc hrun hy hothers hq fun ra i x hra hw => by
      rcases hra with rfl | rfl
      · exact h0 (wire_once hrun hw w0')
      · exact h1 (wire_once hrun hw w1')
  have i1 := untouched hS (fun j q ha hb hq => hfree j q (by omega) (by omega) hq) hlt0 (by omega) (stored hS hr0 ht hv hfst s0)
  let says : List (UInt32 × UInt8 × Bytes) := ops.map fun o => (o.field, 0, pay o.ty o.val)
  have b1 : e.body r = (Req.update space.toNat (if ret' then 1 else 0) [key] says).body := by
    have := marshal_adds (update_adds ⟨space, ret', tup, ops⟩ htup.1 hlen fun o ho => (hops o ho).1)
    rw [hr.2] at this
    have hm : ops.map opOut = says.map fun o => updBytes o.1 o.2.1 o.2.2 := by
      simp only [says, List.map_map]
      refine List.map_congr_left fun o ho => ?_
      simp [opOut, (hops o ho).2.1]
    simpa [Req.body, htup.2, hm, says] using this
  have f1 : (Req.update space.toNat (if ret' then 1 else 0) [key] says).Fits :=
    ⟨space.toNat_lt, by split <;> omega, by simp, by simpa [says] using hlen⟩
  have e1 := (((hS k _ s1).1 _ f1 hr.1 b1).1 space.toNat key).2 ⟨rfl, rfl⟩
  rw [i1] at e1
  have e2 : (S (k + 1)).only space.toNat key = [fields t u] := by
    rw [e1 ?_, huv]
    · simp [setFields, says, List.foldl_map]
    · intro o ho
      obtain ⟨p, hp, rfl⟩ := List.mem_map.mp ho
      exact ⟨rfl, (hops p hp).2.2.1, by simpa using (hops p hp).2.2.2⟩
  have i2 := untouched hS (fun j q ha hb hq => hfree j q (by omega) (by omega) hq) hlt hgot e2
  refine ⟨_, selected hS hr' hl hk hkey s2 hread i2 (by simp), rfl, ?_⟩
  have := C25_written_partial t hrow ht [u] (by simpa using hu) (by simp) (by simpa using hsz) []
  simpa using this

end

/-! ### Example: request 3 stores a row in space 1, request 4 selects it -/

def keys7 : Keys := .val (.scal .i32) (.scal (.i32 7))

def env : Env where
  rc := .rc0
  msg r := if r = 3 then 13 else if r = 4 then 17 else 99
  body r := if r = 3 then (Rpc.marshalWrite (.hook (StoreReq.write ⟨1, true, 0, .val rowTy rowVal⟩))).getD []
    else if r = 4 then (Rpc.marshalWrite (.hook (SelectReq.write ⟨1, 0, 0, -1, keys7⟩))).getD [] else []
  code _ := 0
  answer k := if k = 0 then [1, 0, 0, 0] else response [tupleBytes (fields rowTy rowVal)]
  map := none

def storing : List Choice :=
  [.client (.take 3), .client .header, .write none, .flush none, .arriveUp 100, .up, .server .rl, .server (.call 0), .server (.begin 0),
   .server (.send 0), .put none, .put none, .put none, .put none, .put none, .arriveDown 100, .down,
   .client .reply]

def selecting : List Choice :=
  [.client (.take 4), .client .header, .write none, .flush none, .arriveUp 100, .up, .server .rl, .server (.call 1), .server (.begin 1),
   .server (.send 1), .put none, .put none, .put none, .put none, .put none, .arriveDown 100, .down,
   .client .reply]

/-- The row as a tuple. -/
def row7 : Verif.Bytes := tupleBytes (fields rowTy rowVal)

theorem env_fits : env.Fits := by
  have h3 : ((Rpc.marshalWrite (.hook (StoreReq.write ⟨1, true, 0, .val rowTy rowVal⟩))).getD []).length < 2 ^ 32 := by decide +kernel
  have h4 : ((Rpc.marshalWrite (.hook (SelectReq.write ⟨1, 0, 0, -1, keys7⟩))).getD []).length < 2 ^ 32 := by decide +kernel
  have h5 : (response [tupleBytes (fields rowTy rowVal)]).length + 4 < 2 ^ 32 := by decide +kernel
  refine ⟨fun r => ⟨?_, ?_⟩, fun k => ?_⟩ <;> simp only [env]
  · (repeat' split) <;> decide
  · repeat' split
    · exact h3
    · exact h4
    · decide
  · split
    · decide
    · exact h5

/-- All hypotheses of C157_own_write_partial hold, and the row comes back. -/
example : env.Fits ∧ Sane env true ((shake ++ storing) ++ selecting) ∧ TupTy rowTy ∧ TupVal false rowTy rowVal ∧ TupVal true rowTy rowVal ∧
    Row rowTy ∧ KeysOk keys7 ∧ keysOf keys7 = [[[7, 0, 0, 0]]] ∧ (fields rowTy rowVal).head? = some [7, 0, 0, 0] ∧
    (env.msg 3 = 13 ∧ Rpc.marshalWrite (.hook (StoreReq.write ⟨1, true, 0, .val rowTy rowVal⟩)) = some (env.body 3)) ∧
    (env.msg 4 = 17 ∧ Rpc.marshalWrite (.hook (SelectReq.write ⟨1, 0, 0, -1, keys7⟩)) = some (env.body 4)) ∧
    (∀ r, r ≠ 3 → ¬ Touches env 1 [7, 0, 0, 0] r) ∧
    ∃ b, ByteLink.run env (init true) (shake ++ storing) = some b ∧
      (b.c.ans 3 = some (.response 1 1) ∧ (∀ w ∈ b.c.wire, w.2.1 ≠ 4)) ∧
      ∃ b', ByteLink.run env b selecting = some b' ∧ Serves env b' ∧
        Conn.Young b'.c ∧ b'.c.ans 4 = some (.response 2 2) ∧
        b'.read 2 = some ⟨17, 2, 0, response [row7]⟩ ∧ readMany rowTy (response [row7]) = some (1, 1, none, [rowVal]) := by
  have hb : ∃ b, ByteLink.run env (init true) (shake ++ storing) = some b ∧
      (b.c.ans 3 = some (.response 1 1) ∧ (∀ w ∈ b.c.wire, w.2.1 ≠ 4) ∧
        ((ByteLink.run env b selecting).any fun b' => decide (b'.got.length = 2 ∧
          b'.seen 0 = some ⟨13, 1, (Req.store 1 1 (fields rowTy rowVal)).body⟩ ∧ b'.seen 1 = some ⟨17, 2, (Req.select 1 0 0 2147483647 [[[7, 0, 0, 0]]]).body⟩ ∧
          Conn.Young b'.c ∧ b'.c.ans 4 = some (.response 2 2) ∧
          b'.read 2 = some ⟨17, 2, 0, response [row7]⟩)) = true) := by
    refine any_some ?_
    decide +kernel
  obtain ⟨b, h, h1, h2, h3⟩ := hb
  obtain ⟨b', h4, h5, h6, h7, h8, h9, h10⟩ := any_some h3
  refine ⟨env_fits, .inl rfl, (flat_tup _ rowTy_flat _ rowVal_has rowVal_small).1, (flat_tup _ rowTy_flat _ rowVal_has rowVal_small).2, ?_,
    by simp [Row, rowTy], ?_, by decide +kernel, by decide +kernel, ⟨rfl, by decide +kernel⟩, ⟨rfl, by decide +kernel⟩, ?_, b, h, ⟨h1, h2⟩, b', h4, ?_, h8, h9, h10, by decide +kernel⟩
  · simp [rowTy, rowVal, plain, TupVal, TupVals, FieldVal, Fits, Scal.kind, pay, scalBytes, le, width, Ty.kind?, counted, withCnt]
  · simp only [KeysOk, keys7, KeyVal]
    exact flat_tup _ rfl _ (by simp [HasTy, Scal.kind]) (by simp [Small, fields, pay, scalBytes, le, width, Scal.kind])
  · rintro r hr (hm | ⟨x, _, hm, _, hx⟩)
    · by_cases h4 : r = 4 <;> simp [env, hr, h4] at hm
    · by_cases h4 : r = 4
      · cases x <;> simp [env, h4, Req.msg, Req.On] at hm hx
      · cases x <;> simp [env, hr, h4, Req.msg] at hm
  · have f0 : (Req.store 1 1 (fields rowTy rowVal)).Fits := ⟨by decide, by decide, by decide +kernel⟩
    have f1 : (Req.select 1 0 0 2147483647 [[[7, 0, 0, 0]]]).Fits := ⟨by decide, by decide, by decide, by decide, by decide, by simp⟩
    refine ⟨fun k s => if k = 0 then [] else if s = 1 then [fields rowTy rowVal] else [], fun k q hk => ?_⟩
    have hlt : k < 2 := by
      have : k < b'.got.length := by
        simp only [ByteLink.St.seen, Option.map_eq_some_iff] at hk
        obtain ⟨_, hk, _⟩ := hk
        exact (List.getElem?_eq_some_iff.mp hk).1
      omega
    match k, hlt with
    | 0, _ =>
      rw [h6] at hk
      cases hk
      refine ⟨fun x hx hm hbd => ?_, fun hx => absurd rfl (hx _ f0 rfl)⟩
      obtain rfl := body_inj f0 hx hm hbd
      refine ⟨?_, by simp⟩
      funext s
      by_cases hs : s = 1 <;> simp [Db.put, hs]
    | 1, _ =>
      rw [h7] at hk
      cases hk
      refine ⟨fun x hx hm hbd => ?_, fun hx => absurd rfl (hx _ f1 rfl)⟩
      obtain rfl := body_inj f1 hx hm hbd
      refine ⟨rfl, ?_⟩
      intro sp o l ks he
      cases he
      refine ⟨rfl, ?_⟩
      decide +kernel

/-! ### Example: request 3 deletes the row, request 4 finds nothing -/

def key7 : Tup := .val (.scal .i32) (.scal (.i32 7))

def envD : Env where
  rc := .rc0
  msg r := if r = 3 then 21 else if r = 4 then 17 else 99
  body r := if r = 3 then (Rpc.marshalWrite (.hook (DeleteReq.write ⟨1, true, key7⟩))).getD []
    else if r = 4 then (Rpc.marshalWrite (.hook (SelectReq.write ⟨1, 0, 0, -1, keys7⟩))).getD [] else []
  code _ := 0
  answer k := if k = 0 then [1, 0, 0, 0] else response []
  map := none

/-- All hypotheses of C157_deleted_partial hold, and the box had the row. -/
example : Sane envD true ((shake ++ storing) ++ selecting) ∧ TupOk key7 ∧ tupFields key7 = [[7, 0, 0, 0]] ∧ KeysOk keys7 ∧
    keysOf keys7 = [[[7, 0, 0, 0]]] ∧ (envD.msg 3 = 21 ∧ Rpc.marshalWrite (.hook (DeleteReq.write ⟨1, true, key7⟩)) = some (envD.body 3)) ∧
    (∀ r, r ≠ 3 → ¬ Touches envD 1 [7, 0, 0, 0] r) ∧
    ∃ b, ByteLink.run envD (init true) (shake ++ storing) = some b ∧
      (b.c.ans 3 = some (.response 1 1) ∧ (∀ w ∈ b.c.wire, w.2.1 ≠ 4)) ∧
      ∃ b', ByteLink.run envD b selecting = some b' ∧ Serves envD b' ∧ Conn.Young b'.c ∧ b'.c.ans 4 = some (.response 2 2) ∧
        b'.read 2 = some ⟨17, 2, 0, response []⟩ ∧ readMany rowTy (response []) = some (0, 0, none, []) := by
  have hb : ∃ b, ByteLink.run envD (init true) (shake ++ storing) = some b ∧
      (b.c.ans 3 = some (.response 1 1) ∧ (∀ w ∈ b.c.wire, w.2.1 ≠ 4) ∧
        ((ByteLink.run envD b selecting).any fun b' => decide (b'.got.length = 2 ∧
          b'.seen 0 = some ⟨21, 1, (Req.delete 1 1 [[7, 0, 0, 0]]).body⟩ ∧ b'.seen 1 = some ⟨17, 2, (Req.select 1 0 0 2147483647 [[[7, 0, 0, 0]]]).body⟩ ∧
          Conn.Young b'.c ∧ b'.c.ans 4 = some (.response 2 2) ∧
          b'.read 2 = some ⟨17, 2, 0, response []⟩)) = true) := by
    refine any_some ?_
    decide +kernel
  obtain ⟨b, h, h1, h2, h3⟩ := hb
  obtain ⟨b', h4, h5, h6, h7, h8, h9, h10⟩ := any_some h3
  have hf : TupTy (.scal .i32) ∧ TupVal false (.scal .i32) (.scal (.i32 7)) :=
    flat_tup _ rfl _ (by simp [HasTy, Scal.kind]) (by simp [Small, fields, pay, scalBytes, le, width, Scal.kind])
  refine ⟨.inl rfl, hf, by decide +kernel, ?_, by decide +kernel, ⟨rfl, by decide +kernel⟩, ?_, b, h, ⟨h1, h2⟩, b', h4, ?_, h8, h9, h10, by decide +kernel⟩
  · simp only [KeysOk, keys7, KeyVal]
    exact hf
  · rintro r hr (hm | ⟨x, _, hm, _, hx⟩)
    · by_cases h4 : r = 4 <;> simp [envD, hr, h4] at hm
    · by_cases h4 : r = 4
      · cases x <;> simp [envD, h4, Req.msg, Req.On] at hm hx
      · cases x <;> simp [envD, hr, h4, Req.msg] at hm
  · have f0 : (Req.delete 1 1 [[7, 0, 0, 0]]).Fits := ⟨by decide, by decide, by decide⟩
    have f1 : (Req.select 1 0 0 2147483647 [[[7, 0, 0, 0]]]).Fits := ⟨by decide, by decide, by decide, by decide, by decide, by simp⟩
    refine ⟨fun k s => if k = 0 then if s = 1 then [fields rowTy rowVal, [[8], [9]]] else [] else if s = 1 then [[[8], [9]]] else [],
      fun k q hk => ?_⟩
    have hlt : k < 2 := by
      have := seen_lt hk
      omega
    match k, hlt with
    | 0, _ =>
      rw [h6] at hk
      cases hk
      refine ⟨fun x hx hm hbd => ?_, fun hx => absurd rfl (hx _ f0 rfl)⟩
      obtain rfl := body_inj f0 hx hm hbd
      refine ⟨?_, by simp⟩
      have hh : (fields rowTy rowVal).head? = some [7, 0, 0, 0] := by decide +kernel
      funext s
      by_cases hs : s = 1 <;> simp [Db.remove, hs, hh]
    | 1, _ =>
      rw [h7] at hk
      cases hk
      refine ⟨fun x hx hm hbd => ?_, fun hx => absurd rfl (hx _ f1 rfl)⟩
      obtain rfl := body_inj f1 hx hm hbd
      refine ⟨rfl, ?_⟩
      intro sp o l ks he
      cases he
      refine ⟨rfl, ?_⟩
      decide +kernel

/-! ### Example: request 3 stores the row, request 4 sets its second field twice and its third, request 5 selects it -/

def newVal : Val := .seq [.scal (.i32 7), .str [67], .seq [.scal (.u8 1), .scal (.u8 2)]]
def ops7 : List Op := [⟨1, 61, .str, .str [90]⟩, ⟨2, 61, .sl (.scal .u8), .seq [.scal (.u8 1), .scal (.u8 2)]⟩, ⟨1, 0, .str, .str [67]⟩]
/-- The same, as the box understands them. -/
def says7 : List (UInt32 × UInt8 × Verif.Bytes) := [(1, 0, [90]), (2, 0, [1, 2]), (1, 0, [67])]

def envU : Env where
  rc := .rc0
  msg r := if r = 3 then 13 else if r = 4 then 19 else if r = 5 then 17 else 99
  body r := if r = 3 then (Rpc.marshalWrite (.hook (StoreReq.write ⟨1, false, 0, .val rowTy rowVal⟩))).getD []
    else if r = 4 then (Rpc.marshalWrite (.hook (UpdateReq.write ⟨1, false, key7, ops7⟩))).getD []
    else if r = 5 then (Rpc.marshalWrite (.hook (SelectReq.write ⟨1, 0, 0, -1, keys7⟩))).getD [] else []
  code _ := 0
  answer k := if k = 2 then response [tupleBytes (fields rowTy newVal)] else [1, 0, 0, 0]
  map := none

def selecting5 : List Choice :=
  [.client (.take 5), .client .header, .write none, .flush none, .arriveUp 100, .up, .server .rl, .server (.call 2), .server (.begin 2),
   .server (.send 2), .put none, .put none, .put none, .put none, .put none, .arriveDown 100, .down,
   .client .reply]

/-- All hypotheses of C157_updated_partial hold. -/
example : envU.Fits ∧ Sane envU true ((shake ++ storing) ++ selecting ++ selecting5) ∧ TupTy rowTy ∧ TupVal false rowTy rowVal ∧ TupVal true rowTy newVal ∧
    Row rowTy ∧ (tupleBytes (fields rowTy newVal)).length < 2 ^ 32 ∧
    (∀ o ∈ ops7, OpOk o ∧ opCode o.op = some 0 ∧ o.field ≠ 0 ∧ o.field.toNat < (fields rowTy rowVal).length) ∧
    fields rowTy newVal = ops7.foldl (fun l o => l.set o.field.toNat (pay o.ty o.val)) (fields rowTy rowVal) ∧
    TupOk key7 ∧ tupFields key7 = [[7, 0, 0, 0]] ∧ KeysOk keys7 ∧ keysOf keys7 = [[[7, 0, 0, 0]]] ∧ (fields rowTy rowVal).head? = some [7, 0, 0, 0] ∧
    (envU.msg 3 = 13 ∧ Rpc.marshalWrite (.hook (StoreReq.write ⟨1, false, 0, .val rowTy rowVal⟩)) = some (envU.body 3)) ∧
    (envU.msg 4 = 19 ∧ Rpc.marshalWrite (.hook (UpdateReq.write ⟨1, false, key7, ops7⟩)) = some (envU.body 4)) ∧
    (envU.msg 5 = 17 ∧ Rpc.marshalWrite (.hook (SelectReq.write ⟨1, 0, 0, -1, keys7⟩)) = some (envU.body 5)) ∧
    (∀ r, ¬ (r = 3 ∨ r = 4) → ¬ Touches envU 1 [7, 0, 0, 0] r) ∧
    ∃ b, ByteLink.run envU (init true) (shake ++ storing) = some b ∧
      (b.c.ans 3 = some (.response 1 1) ∧ (∀ w ∈ b.c.wire, w.2.1 ≠ 4)) ∧
      ∃ b2, ByteLink.run envU b selecting = some b2 ∧ b2.c.ans 4 = some (.response 2 2) ∧ (∀ w ∈ b2.c.wire, w.2.1 ≠ 5) ∧
      ∃ b', ByteLink.run envU b2 selecting5 = some b' ∧ Serves envU b' ∧ Conn.Young b'.c ∧ b'.c.ans 5 = some (.response 3 3) ∧
        b'.read 3 = some ⟨17, 3, 0, response [tupleBytes (fields rowTy newVal)]⟩ := by
  have hb : ∃ b, ByteLink.run envU (init true) (shake ++ storing) = some b ∧
      (b.c.ans 3 = some (.response 1 1) ∧ (∀ w ∈ b.c.wire, w.2.1 ≠ 4) ∧
        ((ByteLink.run envU b selecting).any fun b2 => decide (b2.c.ans 4 = some (.response 2 2) ∧ (∀ w ∈ b2.c.wire, w.2.1 ≠ 5) ∧
        ((ByteLink.run envU b2 selecting5).any fun b' => decide (b'.got.length = 3 ∧
          b'.seen 0 = some ⟨13, 1, (Req.store 1 0 (fields rowTy rowVal)).body⟩ ∧
          b'.seen 1 = some ⟨19, 2, (Req.update 1 0 [[7, 0, 0, 0]] says7).body⟩ ∧
          b'.seen 2 = some ⟨17, 3, (Req.select 1 0 0 2147483647 [[[7, 0, 0, 0]]]).body⟩ ∧
          Conn.Young b'.c ∧ b'.c.ans 5 = some (.response 3 3) ∧
          b'.read 3 = some ⟨17, 3, 0, response [tupleBytes (fields rowTy newVal)]⟩)) = true)) = true) := by
    refine any_some ?_
    decide +kernel
  obtain ⟨b, h, h1, h2, h3⟩ := hb
  obtain ⟨b2, k2, k3, k4, k5⟩ := any_some h3
  obtain ⟨b', h4, h5, h6, h7, h7', h8, h9, h10⟩ := any_some k5
  have hf : TupTy (.scal .i32) ∧ TupVal false (.scal .i32) (.scal (.i32 7)) :=
    flat_tup _ rfl _ (by simp [HasTy, Scal.kind]) (by simp [Small, fields, pay, scalBytes, le, width, Scal.kind])
  have hn : TupVal true rowTy newVal := by
    simp [rowTy, newVal, plain, TupVal, TupVals, FieldVal, Fits, Scal.kind, pay, scalBytes, le, width, Ty.kind?, counted, withCnt]
  refine ⟨⟨fun r => ⟨?_, ?_⟩, fun k => ?_⟩, .inl rfl, (flat_tup _ rowTy_flat _ rowVal_has rowVal_small).1, (flat_tup _ rowTy_flat _ rowVal_has rowVal_small).2, hn,
    by simp [Row, rowTy], by decide +kernel, ?_, by decide +kernel, hf, by decide +kernel, ?_, by decide +kernel, by decide +kernel,
    ⟨rfl, by decide +kernel⟩, ⟨rfl, by decide +kernel⟩, ⟨rfl, by decide +kernel⟩, ?_, b, h, ⟨h1, h2⟩, b2, k2, k3, k4, b', h4, ?_, h8, h9, h10⟩
  · simp only [envU]
    (repeat' split) <;> decide
  · have g1 : (envU.body 3).length < 2 ^ 32 := by decide +kernel
    have g2 : (envU.body 4).length < 2 ^ 32 := by decide +kernel
    have g3 : (envU.body 5).length < 2 ^ 32 := by decide +kernel
    by_cases e3 : r = 3
    · rw [e3]; exact g1
    by_cases e4 : r = 4
    · rw [e4]; exact g2
    by_cases e5 : r = 5
    · rw [e5]; exact g3
    simp [envU, e3, e4, e5]
  · have g1 : (response [tupleBytes (fields rowTy newVal)]).length + 4 < 2 ^ 32 := by decide +kernel
    simp only [envU]
    split
    · exact g1
    · decide
  · intro o ho
    have hlen : (fields rowTy rowVal).length = 3 := by decide +kernel
    simp only [ops7, List.mem_cons, List.not_mem_nil, or_false] at ho
    rcases ho with rfl | rfl | rfl <;> rw [hlen] <;> refine ⟨⟨by decide, ?_, ?_⟩, by decide, by decide, by decide⟩ <;>
      simp [FieldTy, FieldVal, Fits, Scal.kind, Ty.kind?, pay, scalBytes, le, width, counted, withCnt, Sound, SizeOk, isStruct, exact, asSz, codeSz, size?, bulky, wideScal]
  · simp only [KeysOk, keys7, KeyVal]
    exact hf
  · rintro r hr (hm | ⟨x, _, hm, _, hx⟩)
    · by_cases h4 : r = 5 <;> simp_all [envU]
    · by_cases h4 : r = 5
      · cases x <;> simp [envU, h4, Req.msg, Req.On] at hm hx
      · cases x <;> simp_all [envU, Req.msg]
  · have f0 : (Req.store 1 0 (fields rowTy rowVal)).Fits := ⟨by decide, by decide, by decide +kernel⟩
    have f1 : (Req.update 1 0 [[7, 0, 0, 0]] says7).Fits := ⟨by decide, by decide, by decide, by decide⟩
    have f2 : (Req.select 1 0 0 2147483647 [[[7, 0, 0, 0]]]).Fits := ⟨by decide, by decide, by decide, by decide, by decide, by simp⟩
    refine ⟨fun k s => if s = 1 then if k = 0 then [] else if k = 1 then [fields rowTy rowVal] else [fields rowTy newVal] else [], fun k q hk => ?_⟩
    have hlt : k < 3 := by
      have := seen_lt hk
      omega
    have ho : (fields rowTy rowVal).head? = some [7, 0, 0, 0] := by decide +kernel
    have hw : (fields rowTy newVal).head? = some [7, 0, 0, 0] := by decide +kernel
    match k, hlt with
    | 0, _ =>
      rw [h6] at hk
      cases hk
      refine ⟨fun x hx hm hbd => ?_, fun hx => absurd rfl (hx _ f0 rfl)⟩
      obtain rfl := body_inj f0 hx hm hbd
      refine ⟨?_, by simp⟩
      funext s
      by_cases hs : s = 1 <;> simp [Db.put, hs]
    | 1, _ =>
      rw [h7] at hk
      cases hk
      refine ⟨fun x hx hm hbd => ?_, fun hx => absurd rfl (hx _ f1 rfl)⟩
      obtain rfl := body_inj f1 hx hm hbd
      refine ⟨fun s k => ⟨fun hsk => ?_, ?_⟩, by simp⟩
      · by_cases hs : s = 1
        · have : [7, 0, 0, 0] ≠ k := by
            rcases hsk with h | h
            · exact absurd hs h
            · exact fun h' => h (by rw [h'])
          simp [Db.only, hs, ho, hw, this]
        · simp [Db.only, hs]
      · rintro ⟨rfl, hk⟩ _
        have : k = [7, 0, 0, 0] := by simpa using hk.symm
        subst this
        decide +kernel
    | 2, _ =>
      rw [h7'] at hk
      cases hk
      refine ⟨fun x hx hm hbd => ?_, fun hx => absurd rfl (hx _ f2 rfl)⟩
      obtain rfl := body_inj f2 hx hm hbd
      refine ⟨rfl, ?_⟩
      intro sp o l ks he
      cases he
      refine ⟨rfl, ?_⟩
      decide +kernel

end Verif.Box
