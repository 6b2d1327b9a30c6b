import Verif.Proofs.SboxRead
import Verif.Proofs.Ber

/-! Tuples and request bodies can be parsed in one way only; what the requests write. -/
namespace Verif.Sbox
open Verif.Marshal Verif.Reflect Verif.Spec

/-! ### Parsing is unique -/

theorem le4_inj {a b : Nat} {x y : Bytes} (ha : a < 2 ^ 32) (hb : b < 2 ^ 32) (h : le 4 a ++ x = le 4 b ++ y) :
    a = b ∧ x = y := by
  have h1 := count_read a ha x
  have h2 := count_read b hb y
  rw [h] at h1
  have e1 := h1.1.symm.trans h2.1
  have e2 := h1.2.symm.trans h2.2
  exact ⟨by omega, by injection e1⟩

theorem ber_inj {a b : Nat} {x y : Bytes} (h : ber a ++ x = ber b ++ y) : a = b ∧ x = y := by
  have h1 := berValue_ber a x
  have h2 := berValue_ber b y
  rw [h, h2] at h1
  simp only [Option.some.injEq, Prod.mk.injEq] at h1
  obtain ⟨rfl, _⟩ := h1
  exact ⟨rfl, by simpa using h⟩

theorem field_inj {a b x y : Bytes} (h : fieldBytes a ++ x = fieldBytes b ++ y) : a = b ∧ x = y := by
  simp only [fieldBytes, List.append_assoc] at h
  obtain ⟨h1, h2⟩ := ber_inj h
  exact List.append_inj h2 h1

theorem fields_inj : (as bs : List Bytes) → as.length = bs.length → ∀ {x y : Bytes},
    (as.map fieldBytes).flatten ++ x = (bs.map fieldBytes).flatten ++ y → as = bs ∧ x = y
  | [], [], _, _, _, h => by simpa using h
  | a :: as, b :: bs, hl, x, y, h => by
    simp only [List.map_cons, List.flatten_cons, List.append_assoc] at h
    obtain ⟨rfl, h1⟩ := field_inj h
    obtain ⟨rfl, h2⟩ := fields_inj as bs (by simpa using hl) h1
    exact ⟨rfl, h2⟩
  | [], _ :: _, hl, _, _, _ => by simp at hl
  | _ :: _, [], hl, _, _, _ => by simp at hl

theorem tuple_inj {as bs : List Bytes} (ha : as.length < 2 ^ 32) (hb : bs.length < 2 ^ 32) {x y : Bytes}
    (h : tupleBytes as ++ x = tupleBytes bs ++ y) : as = bs ∧ x = y := by
  simp only [tupleBytes, List.append_assoc] at h
  obtain ⟨h1, h2⟩ := le4_inj ha hb h
  exact fields_inj as bs h1 h2

theorem tupleBytes_ne (as : List Bytes) : tupleBytes as ≠ [] := by
  simp [tupleBytes, le, List.range, List.range.loop]

theorem tuples_inj : (as bs : List (List Bytes)) → (∀ a ∈ as, a.length < 2 ^ 32) → (∀ b ∈ bs, b.length < 2 ^ 32) →
    (as.map tupleBytes).flatten = (bs.map tupleBytes).flatten → as = bs
  | [], [], _, _, _ => rfl
  | [], b :: bs, _, _, h => by
    simp only [List.map_nil, List.flatten_nil, List.map_cons, List.flatten_cons] at h
    exact absurd (List.append_eq_nil_iff.1 h.symm).1 (tupleBytes_ne b)
  | a :: as, [], _, _, h => by
    simp only [List.map_nil, List.flatten_nil, List.map_cons, List.flatten_cons] at h
    exact absurd (List.append_eq_nil_iff.1 h).1 (tupleBytes_ne a)
  | a :: as, b :: bs, ha, hb, h => by
    simp only [List.map_cons, List.flatten_cons] at h
    obtain ⟨rfl, h1⟩ := tuple_inj (ha a (by simp)) (hb b (by simp)) h
    rw [tuples_inj as bs (fun u hu => ha u (by simp [hu])) (fun u hu => hb u (by simp [hu])) h1]

theorem fields_lt : (t : Ty) → TupTy t → ∀ addr v, TupVal addr t v → (fields t v).length < 2 ^ 32
  | .scal k, _, _, _, _ => by simp [fields]
  | .str, _, _, _, _ => by simp [fields]
  | .arr n t, _, addr, v, h => by
    simp only [TupVal] at h
    by_cases c : t.kind? = some .u8
    · simp [fields, c]
    · rw [if_neg c] at h
      obtain ⟨vs, rfl, hl, hn, _⟩ := h
      simp only [fields, c, if_false, elems, List.length_map]; omega
  | .sl t, _, addr, v, h => by
    simp only [TupVal] at h
    by_cases c : t.kind? = some .u8
    · simp [fields, c]
    · rw [if_neg c] at h
      obtain ⟨vs, rfl, hn, _⟩ := h
      simp only [fields, c, if_false, elems, List.length_map]; omega
  | .struct fs, ht, addr, v, h => by
    simp only [TupVal] at h
    simp only [TupTy] at ht
    obtain ⟨vs, rfl, h⟩ := h
    simp only [fields, elems, fields_count addr fs vs h]; exact ht.2
  | .ptr t, ht, addr, v, h => by
    simp only [TupTy] at ht
    cases v <;> simp only [TupVal] at h
    simpa [fields] using fields_lt t ht true _ h

theorem tupFields_lt (t : Tup) (h : TupOk t) : (tupFields t).length < 2 ^ 32 := by
  cases t with
  | nil => simp [TupOk] at h
  | val t v => simp only [TupOk] at h; exact fields_lt t h.1 false v h.2
  | list fs => simp only [TupOk] at h; simpa [tupFields] using h.1

theorem keyTuples_lt (one addr : Bool) (t : Ty) (v : Val) (h : KeyVal one addr t v) :
    ∀ k ∈ keyTuples one t v, k.length < 2 ^ 32 := by
  intro k hk
  cases t with
  | scal s => simp only [KeyVal] at h; simp [keyTuples] at hk; subst hk; exact fields_lt _ h.1 addr v h.2
  | str => simp only [KeyVal] at h; simp [keyTuples] at hk; subst hk; exact fields_lt _ h.1 addr v h.2
  | struct fs => simp only [KeyVal] at h; simp [keyTuples] at hk; subst hk; exact fields_lt _ h.1 addr v h.2
  | arr n e =>
    simp only [KeyVal] at h
    obtain ⟨vs, rfl, _, h1, h2⟩ := h
    simp only [keyTuples, elems, List.mem_map] at hk
    obtain ⟨u, hu, rfl⟩ := hk
    exact fields_lt e h1 addr u (h2 u hu)
  | sl e =>
    simp only [KeyVal, keyTuples] at h hk
    by_cases c : (one && decide (e.kind? = some .u8)) = true
    · rw [if_pos c] at h hk
      simp only [List.mem_singleton] at hk
      subst hk
      exact fields_lt (.sl e) (by simp only [Bool.and_eq_true, decide_eq_true_eq] at c; simp [TupTy, c.2]) addr v h
    · rw [if_neg c] at h hk
      obtain ⟨vs, rfl, h1, h2⟩ := h
      simp only [elems, List.mem_map] at hk
      obtain ⟨u, hu, rfl⟩ := hk
      exact fields_lt e h1 true u (h2 u hu)
  | ptr t => simp [KeyVal] at h

theorem keysOf_lt (k : Keys) (h : KeysOk k) : ∀ t ∈ keysOf k, t.length < 2 ^ 32 := by
  cases k with
  | nil => simp [KeysOk] at h
  | list ts =>
    simp only [KeysOk] at h
    intro t ht
    simp only [keysOf, List.mem_map] at ht
    obtain ⟨u, hu, rfl⟩ := ht
    exact tupFields_lt u (h u hu).1
  | val t v =>
    by_cases hp : ∃ u x, t = .ptr u ∧ v = .ref x
    · obtain ⟨u, x, rfl, rfl⟩ := hp
      simp only [KeysOk] at h
      simpa [keysOf] using keyTuples_lt false true u x h
    · have h1 : KeyVal true false t v := by
        unfold KeysOk at h
        split at h
        · exact h.elim
        · rename_i heq; cases heq; exact absurd ⟨_, _, rfl, rfl⟩ hp
        · rename_i heq; cases heq; exact h
        · rename_i heq; cases heq
      have h2 : keysOf (.val t v) = keyTuples true t v := by
        unfold keysOf
        split
        · rename_i heq; cases heq
        · rename_i heq; cases heq; exact absurd ⟨_, _, rfl, rfl⟩ hp
        · rename_i heq; cases heq; rfl
        · rename_i heq; cases heq
      rw [h2]
      exact keyTuples_lt true false t v h1

/-! ### Requests -/

theorem scal_adds (s : Scal) : Adds (fun w => w.scal s) (scalBytes s) := fun w hw => Wr.scal_spec w s hw

theorem u32s_adds : (xs : List UInt32) → Adds (u32s xs) ((xs.map fun x => le 4 x.toNat).flatten)
  | [] => adds_nil
  | x :: xs => by
    have := adds_bind (k := u32s (x :: xs)) (scal_adds (.u32 x)) (u32s_adds xs)
      (fun w => by simp only [u32s]; cases w.scal (.u32 x) <;> rfl)
    simpa [scalBytes, pattern, width, Scal.kind] using this

/-- The flags of a `StoreReq`. -/
theorem flags_nat (r : Bool) (m : UInt16) :
    ((if r then (1 : UInt32) else 0) ||| (m.toUInt32 <<< 1)).toNat = (if r then 1 else 0) + 2 * m.toNat := by
  have hm := m.toNat_lt
  have h1 : (m.toUInt32 <<< 1).toNat = m.toNat <<< 1 := by
    rw [UInt32.toNat_shiftLeft]
    simp [Nat.shiftLeft_eq]
    omega
  rw [UInt32.toNat_or, h1, Nat.shiftLeft_eq]
  cases r
  · simp; omega
  · have : (1 : Nat) ||| (m.toNat * 2 ^ 1) = m.toNat * 2 ^ 1 + 1 := by
      rw [Nat.or_comm, Nat.mul_comm]
      exact (Nat.two_pow_add_eq_or_of_lt (i := 1) (b := 1) (by decide) m.toNat).symm
    simp only [if_true]
    show (1 : UInt32).toNat ||| _ = _
    rw [show (1 : UInt32).toNat = 1 from rfl, this]
    omega

theorem store_adds (s : StoreReq) (h : TupOk s.tup) : Adds s.write
    (le 4 s.space.toNat ++ (le 4 ((if s.ret then 1 else 0) + 2 * s.mode.toNat) ++ tupleBytes (tupFields s.tup))) := by
  have := adds_bind (k := s.write) (u32s_adds [s.space, (if s.ret then (1 : UInt32) else 0) ||| (s.mode.toUInt32 <<< 1)])
    (tuple_adds s.tup h) (fun w => by
      simp only [StoreReq.write]
      cases u32s [s.space, (if s.ret then (1 : UInt32) else 0) ||| (s.mode.toUInt32 <<< 1)] w <;> rfl)
  simpa only [List.map_cons, List.map_nil, List.flatten_cons, List.flatten_nil, List.append_nil, List.append_assoc,
    flags_nat] using this

theorem flag_nat (r : Bool) : (if r then (1 : UInt32) else 0).toNat = if r then 1 else 0 := by cases r <;> rfl

theorem delete_adds (s : DeleteReq) (h : TupOk s.key) : Adds s.write
    (le 4 s.space.toNat ++ (le 4 (if s.ret then 1 else 0) ++ tupleBytes (tupFields s.key))) := by
  have := adds_bind (k := s.write) (u32s_adds [s.space, if s.ret then 1 else 0])
    (tuple_adds s.key h) (fun w => by
      simp only [DeleteReq.write]
      cases u32s [s.space, if s.ret then 1 else 0] w <;> rfl)
  simpa [flag_nat] using this

theorem select_adds (s : SelectReq) (h : KeysOk s.keys) (hn : (keysOf s.keys).length < 2 ^ 32) : Adds s.write
    (le 4 s.space.toNat ++ (le 4 s.index.toNat ++ (le 4 s.offset.toNat ++
      (scalBytes (.i32 (sentLimit s.limit (keysOf s.keys).length)) ++
        (le 4 (keysOf s.keys).length ++ ((keysOf s.keys).map tupleBytes).flatten))))) := by
  obtain ⟨h1, h2⟩ := keys_adds s.keys h
  have a := adds_bind (k := fun w => match Pfx.i32.write w (Int64.ofNat (keysOf s.keys).length) with
      | none => none
      | some w => writeKeys s.keys w) (count_adds (keysOf s.keys).length hn) h1
      (fun w => by cases Pfx.i32.write w (Int64.ofNat (keysOf s.keys).length) <;> rfl)
  have b := adds_bind (k := fun w => match w.scal (.i32 (sentLimit s.limit (keysOf s.keys).length)) with
      | none => none
      | some w => match Pfx.i32.write w (Int64.ofNat (keysOf s.keys).length) with
        | none => none
        | some w => writeKeys s.keys w) (scal_adds (.i32 (sentLimit s.limit (keysOf s.keys).length))) a
      (fun w => by cases w.scal (.i32 (sentLimit s.limit (keysOf s.keys).length)) <;> rfl)
  have c := adds_bind (k := s.write) (u32s_adds [s.space, s.index, s.offset]) b
    (fun w => by simp only [SelectReq.write, h2]; cases u32s [s.space, s.index, s.offset] w <;> rfl)
  simpa using c

/-- The code that is sent for an operator of the protocol. -/
theorem sentOp_code (b : UInt8) : ∀ c, opCode b = some c → sentOp b = some c := by
  have : ∀ n : Fin 256, ∀ c, opCode (UInt8.ofNat n) = some c → sentOp (UInt8.ofNat n) = some c := by decide +kernel
  have h := this ⟨b.toNat, b.toNat_lt⟩
  simpa using h

theorem op_adds (o : Op) (h : OpOk o) (c : UInt8) (hc : opCode o.op = some c) :
    Adds o.write (updBytes o.field c (pay o.ty o.val)) := by
  obtain ⟨x, hx, hg⟩ := field_wg o.ty h.2.1
  have hs := sentOp_code o.op c hc
  have a := adds_bind (k := fun w => match w.scal (.u8 c) with
      | none => none
      | some w => x.withSize .ber false o.val w) (scal_adds (.u8 c)) (field_adds o.ty x hg h.2.1 false o.val h.2.2)
      (fun w => by cases w.scal (.u8 c) <;> rfl)
  have b := adds_bind (k := o.write) (scal_adds (.u32 o.field)) a
    (fun w => by simp only [Op.write, hs, hx]; cases w.scal (.u32 o.field) <;> rfl)
  have e : scalBytes (.u8 c) = [c] := by simp [scalBytes, le, pattern, width, Scal.kind, List.range, List.range.loop]
  have e2 : scalBytes (.u32 o.field) = le 4 o.field.toNat := by simp [scalBytes, pattern, width, Scal.kind]
  rw [e, e2] at b
  simpa [updBytes] using b

theorem ops_adds : (os : List Op) → (∀ o ∈ os, OpOk o) → Adds (opsW os) ((os.map opOut).flatten)
  | [], _ => adds_nil
  | o :: os, h => by
    have ho := h o (by simp)
    obtain ⟨c, hc⟩ := Option.isSome_iff_exists.1 ho.1
    have := adds_bind (k := opsW (o :: os)) (op_adds o ho c hc) (ops_adds os fun u hu => h u (by simp [hu]))
      (fun w => by simp only [opsW]; cases o.write w <;> rfl)
    simpa [opOut, hc] using this

theorem update_adds (u : UpdateReq) (h : TupOk u.key) (hn : u.ops.length < 2 ^ 32) (ho : ∀ o ∈ u.ops, OpOk o) :
    Adds u.write (le 4 u.space.toNat ++ (le 4 (if u.ret then 1 else 0) ++ (tupleBytes (tupFields u.key) ++
      (le 4 u.ops.length ++ (u.ops.map opOut).flatten)))) := by
  have a := adds_bind (k := fun w => match Pfx.i32.write w (Int64.ofNat u.ops.length) with
      | none => none
      | some w => opsW u.ops w) (count_adds u.ops.length hn) (ops_adds u.ops ho)
      (fun w => by cases Pfx.i32.write w (Int64.ofNat u.ops.length) <;> rfl)
  have b := adds_bind (k := fun w => match tuple u.key w with
      | none => none
      | some w => match Pfx.i32.write w (Int64.ofNat u.ops.length) with
        | none => none
        | some w => opsW u.ops w) (tuple_adds u.key h) a (fun w => by cases tuple u.key w <;> rfl)
  have c := adds_bind (k := u.write) (u32s_adds [u.space, if u.ret then 1 else 0]) b
    (fun w => by simp only [UpdateReq.write]; cases u32s [u.space, if u.ret then 1 else 0] w <;> rfl)
  simpa [flag_nat] using c

theorem stringvar_adds (s : Bytes) (h : s.length < 2 ^ 63) : Adds (stringvar s) (fieldBytes s) := by
  have := adds_bind (k := stringvar s) (fun w hw => pfx_write w hw .ber (by simp) s.length h : Adds (fun w => Pfx.ber.write w (Int64.ofNat s.length)) _)
    (fun w hw => Wr.bytes_spec w s hw : Adds (fun w => w.bytes s) s)
    (fun w => by simp only [stringvar]; cases Pfx.ber.write w (Int64.ofNat s.length) <;> rfl)
  simpa [fieldBytes, pfxBytes] using this

theorem args_adds : (as : List Bytes) → (∀ a ∈ as, a.length < 2 ^ 63) → Adds (argsW as) ((as.map fieldBytes).flatten)
  | [], _ => adds_nil
  | a :: as, h => by
    have := adds_bind (k := argsW (a :: as)) (stringvar_adds a (h a (by simp))) (args_adds as fun u hu => h u (by simp [hu]))
      (fun w => by simp only [argsW]; cases stringvar a w <;> rfl)
    simpa using this

theorem rpc_adds (s : RPCReq) (h : s.name.length < 2 ^ 63) (hn : s.args.length < 2 ^ 32)
    (ha : ∀ a ∈ s.args, a.length < 2 ^ 63) :
    Adds s.write (le 4 0 ++ (fieldBytes s.name ++ tupleBytes s.args)) := by
  have a := adds_bind (k := fun w => match Pfx.i32.write w (Int64.ofNat s.args.length) with
      | none => none
      | some w => argsW s.args w) (count_adds s.args.length hn) (args_adds s.args ha)
      (fun w => by cases Pfx.i32.write w (Int64.ofNat s.args.length) <;> rfl)
  have b := adds_bind (k := fun w => match stringvar s.name w with
      | none => none
      | some w => match Pfx.i32.write w (Int64.ofNat s.args.length) with
        | none => none
        | some w => argsW s.args w) (stringvar_adds s.name h) a (fun w => by cases stringvar s.name w <;> rfl)
  have c := adds_bind (k := s.write) (count_adds 0 (by decide)) b
    (fun w => by
      show s.write w = (Pfx.i32.write w 0).bind _
      simp only [RPCReq.write]; cases Pfx.i32.write w 0 <;> rfl)
  simpa [tupleBytes] using c

theorem upd_inj {f g : UInt32} {c d : UInt8} {a b x y : Bytes} (h : updBytes f c a ++ x = updBytes g d b ++ y) :
    f = g ∧ c = d ∧ a = b ∧ x = y := by
  simp only [updBytes, List.append_assoc] at h
  obtain ⟨h1, h2⟩ := le4_inj f.toNat_lt g.toNat_lt h
  simp only [List.singleton_append, List.cons.injEq] at h2
  obtain ⟨h3, h4⟩ := field_inj h2.2
  exact ⟨UInt32.toNat_inj.1 h1, h2.1, h3, h4⟩

theorem ops_inj : (as bs : List Op) → as.length = bs.length → (∀ o ∈ as, OpOk o) → (∀ o ∈ bs, OpOk o) →
    (as.map opOut).flatten = (bs.map opOut).flatten → as.map opSays = bs.map opSays
  | [], [], _, _, _, _ => rfl
  | a :: as, b :: bs, hl, ha, hb, h => by
    simp only [List.map_cons, List.flatten_cons] at h
    obtain ⟨h1, h2, h3, h4⟩ := upd_inj h
    obtain ⟨c, hc⟩ := Option.isSome_iff_exists.1 (ha a (by simp)).1
    obtain ⟨d, hd⟩ := Option.isSome_iff_exists.1 (hb b (by simp)).1
    rw [hc, hd] at h2
    simp only [Option.getD_some] at h2
    have := ops_inj as bs (by simpa using hl) (fun u hu => ha u (by simp [hu])) (fun u hu => hb u (by simp [hu])) h4
    simp only [List.map_cons, this, opSays, h1, h3, hc, hd, h2]
  | [], _ :: _, hl, _, _, _ => by simp at hl
  | _ :: _, [], hl, _, _, _ => by simp at hl

end Verif.Sbox
