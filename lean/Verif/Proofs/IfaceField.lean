import Verif.Spec.IfaceField
import Verif.Proofs.ReflectReader

/-! Lemmas for C117 and C118: structs with interfaces in them. -/
namespace Verif.IfaceField
open Verif.Marshal Verif.Reflect Verif.Spec

theorem pfxOk_dir {d : Dir} (h : pfxOk d) : ∀ p, d = .size p ∨ d = .cnt p → p ≠ .i64 := by
  rintro p (rfl | rfl) <;> exact h

/-- A codec that is right, given an encodable value. -/
theorem put_enc {addr : Bool} {d : Dir} {t : Ty} {v : Val} (h : Enc addr d t v) (w : Wr) (hw : w.Ok) :
    ∃ x, tw t = some x ∧ WG t x ∧ ∃ w', FW.put ⟨x, d⟩ addr v w = some w' ∧ Wr.Ext w w' (tagged t v d (pay t v)) := by
  obtain ⟨hp, ⟨tail, hs⟩, hz, hf, hd⟩ := h
  obtain ⟨x, hx, g⟩ := tw_ok t tail hs
  refine ⟨x, hx, g, put_ext t x d (pfxOk_dir hp) addr v w _ hw hd (fun w hw => g.wr addr v w hw hf) ?_
    (fun p e => g.size (hz p e) addr v hf) (fun p _ => g.count addr v hf)⟩
  intro e w hw
  subst e
  exact g.au addr v w hw hf hd

/-- A codec without pointer. -/
theorem ptr_none {t : Ty} {x : TW} (h : tw t = some x) (hn : ∀ u, t ≠ .ptr u) : x.ptr = none := by
  cases t with
  | scal k => simp only [tw, Option.some.injEq] at h; subst h; rfl
  | str => simp only [tw, Option.some.injEq] at h; subst h; rfl
  | ptr u => exact absurd rfl (hn u)
  | arr n u =>
    simp only [tw] at h
    split at h
    · simp at h
    · simp only [Option.some.injEq] at h; subst h; rfl
  | sl u =>
    simp only [tw] at h
    split at h
    · simp at h
    · simp only [Option.some.injEq] at h; subst h; rfl
  | struct fs =>
    simp only [tw] at h
    split at h
    · simp at h
    · simp only [Option.some.injEq] at h; subst h; rfl

theorem sound_noptr {tail : Bool} {t : Ty} (h : Sound tail t) : ∀ u, t ≠ .ptr u := by
  rintro u rfl
  simp [Sound] at h

/-- A pointer's codec on a pointer that is not nil does what the target's codec does. -/
theorem put_ptr {e : TW} (hp : e.ptr = none) (d : Dir) (v : Val) (w : Wr) :
    FW.put ⟨ptrW e, d⟩ false (.ref v) w = FW.put ⟨e, d⟩ true v w := by
  cases d with
  | none => rfl
  | no => rfl
  | size p =>
    simp only [FW.put, TW.withSize, TW.size, ptrW, hp]
    rfl
  | cnt p =>
    simp only [FW.put, TW.withCount, TW.count, ptrW, hp]

theorem anyW_ext {d : Dir} {v : Dyn} (h : DynOk d v) (w : Wr) (hw : w.Ok) :
    ∃ w', anyW d v w = some w' ∧ Wr.Ext w w' (anyBytes d v) := by
  match v, h with
  | none, h =>
    cases d with
    | none => exact ⟨w, rfl, ext_refl hw⟩
    | no => exact ⟨w, rfl, ext_refl hw⟩
    | size p => exact pfx_write w hw p h 0 (by cases p <;> simp [fits])
    | cnt p => exact pfx_write w hw p h 0 (by cases p <;> simp [fits])
  | some (t, v), h =>
    by_cases c : ∃ u y, t = .ptr u ∧ v = .ref y
    · obtain ⟨u, y, rfl, rfl⟩ := c
      simp only [DynOk] at h
      obtain ⟨x, hx, g, w', hw', e⟩ := put_enc h w hw
      refine ⟨w', ?_, by simpa [anyBytes, dynBytes] using e⟩
      obtain ⟨tail, hs⟩ := h.2.1
      simp only [anyW, tw, hx, put_ptr (ptr_none hx (sound_noptr hs)), hw']
    · have h' : Enc false d t v := by
        unfold DynOk at h
        split at h <;> simp_all
      obtain ⟨x, hx, g, w', hw', e⟩ := put_enc h' w hw
      refine ⟨w', by simp only [anyW, hx, hw'], ?_⟩
      have : dynBytes d t v = tagged t v d (pay t v) := by
        unfold dynBytes
        split <;> simp_all
      simpa [anyBytes, this] using e

theorem bare_none {d : Dyn} (h : Bare d) : anyBytes .no d = anyBytes .none d := by
  match d, h with
  | some (t, v), h =>
    by_cases c : ∃ u y, t = .ptr u ∧ v = .ref y
    · obtain ⟨u, y, rfl, rfl⟩ := c
      simp only [Bare] at h
      simp [anyBytes, dynBytes, tagged, withCnt, h]
    · have h' : counted t = false := by
        unfold Bare at h
        split at h <;> simp_all
      unfold anyBytes dynBytes
      split <;> simp_all [tagged, withCnt]

theorem ok_no {x : Dyn} (h : DynOk .none x) : DynOk .no x := by
  match x, h with
  | none, _ => exact trivial
  | some (t, v), h =>
    unfold DynOk at h ⊢
    split at h <;> simp_all [Enc, pfxOk, FitsDir]

theorem elems_any (x : Dyn) (l : List Dyn) (w : Wr) :
    elemsW (x :: l) w = match anyW .no x w with
      | none => none
      | some w => elemsW l w := by
  cases x with
  | none => rfl
  | some q =>
    obtain ⟨t, v⟩ := q
    simp only [elemsW, anyW, FW.put]
    cases tw t <;> rfl

theorem elemsW_ext : (l : List Dyn) → (∀ x ∈ l, DynOk .none x ∧ Bare x) → ∀ w : Wr, w.Ok →
    ∃ w', elemsW l w = some w' ∧ Wr.Ext w w' ((l.map (anyBytes .none)).flatten)
  | [], _, w, hw => ⟨w, rfl, ext_refl hw⟩
  | x :: l, h, w, hw => by
    obtain ⟨w1, h1, e1⟩ := anyW_ext (ok_no (h x (by simp)).1) w hw
    obtain ⟨w2, h2, e2⟩ := elemsW_ext l (fun y hy => h y (by simp [hy])) w1 e1.ok
    refine ⟨w2, by rw [elems_any, h1]; exact h2, ?_⟩
    rw [bare_none (h x (by simp)).2] at e1
    simpa using ext_trans e1 e2

theorem anysW_ext {d : Dir} {l : List Dyn} (h : AnysOk d l) (w : Wr) (hw : w.Ok) :
    ∃ w', anysW d l w = some w' ∧ Wr.Ext w w' (anysBytes d l) := by
  obtain ⟨hp, hl, hd⟩ := h
  have cnt : ∀ p : Pfx, p ≠ .i64 → fits p l.length → ∃ w',
      (match p.write w (Int64.ofNat l.length) with
        | none => none
        | some w => elemsW l w) = some w' ∧ Wr.Ext w w' (pfxBytes p l.length ++ (l.map (anyBytes .none)).flatten) := by
    intro p hp hd
    obtain ⟨w1, h1, e1⟩ := pfx_write w hw p hp l.length hd
    obtain ⟨w2, h2, e2⟩ := elemsW_ext l hl w1 e1.ok
    exact ⟨w2, by simp only [h1, h2], ext_trans e1 e2⟩
  cases d with
  | none => exact cnt .i32 (by decide) hd
  | no => exact elemsW_ext l hl w hw
  | cnt p => exact cnt p hp hd
  | size p =>
    obtain ⟨t, h2, e2⟩ := elemsW_ext l hl (Wr.new 128) (Wr.ok_new 128)
    have hb : t.written.1.mem.view t.written.2 = (l.map (anyBytes .none)).flatten := by
      rw [(Wr.written_spec t e2.ok).2.2.1, e2.data, pending_new]; rfl
    obtain ⟨w1, h1, e1⟩ := pfx_write w hw p hp _ hd
    obtain ⟨w3, h3, e3⟩ := Wr.bytes_spec w1 _ e1.ok
    exact ⟨w3, by simp only [anysW, h2, hb, h1, h3], ext_trans e1 e3⟩

/-- The codec of one field of another type. -/
theorem fieldW_of {ber : Bool} {d : Dir} {t : Ty} {v : Val} (tail : Bool) (hs : SoundFl tail (.cons (.use ber d) t .nil))
    (hf : FitsFl false (.cons (.use ber d) t .nil) [v]) :
    ∃ f, fieldW ber d (.of t) = some f ∧ ∀ fs vs w, Wr.Ok w →
      ∃ w', fldsW false (f :: fs) (.of v :: vs) w = fldsW false fs vs w' ∧
        Wr.Ext w w' (tagged t v d (if ber then berPay v else pay t v)) := by
  obtain ⟨l, h1, g⟩ := twFl_ok (.cons (.use ber d) t .nil) tail hs 0
  have hl : payFl (.cons (.use ber d) t .nil) [v] = tagged t v d (if ber then berPay v else pay t v) := by simp [payFl]
  match l, h1, g with
  | [], _, g =>
    obtain ⟨w', h, _⟩ := g.wr false [v] (Wr.new 0) (Wr.ok_new 0) hf
    simp [writeFlds] at h
  | o :: o' :: _, _, g =>
    obtain ⟨w', h, _⟩ := g.wr false [v] (Wr.new 0) (Wr.ok_new 0) hf
    cases o with
    | none => cases o' <;> simp [writeFlds] at h
    | some f =>
      simp only [writeFlds] at h
      split at h
      · simp at h
      · cases o' <;> simp at h
  | [none], h1, g =>
    refine ⟨.out, by simp [fieldW, h1], ?_⟩
    intro fs vs w hw
    obtain ⟨w', h, e⟩ := g.wr false [v] w hw hf
    simp only [writeFlds, Option.some.injEq] at h
    subst h
    rw [hl] at e
    exact ⟨w, by simp [fldsW], e⟩
  | [some f], h1, g =>
    refine ⟨.of f, by simp [fieldW, h1], ?_⟩
    intro fs vs w hw
    obtain ⟨w', h, e⟩ := g.wr false [v] w hw hf
    rw [hl] at e
    simp only [writeFlds] at h
    cases hq : f.put false v w with
    | none => simp [hq] at h
    | some w1 =>
      simp only [hq, Option.some.injEq] at h
      subst h
      exact ⟨w1, by simp [fldsW, hq], e⟩

theorem fillW_hidden : (fs : XFl) → hiddenX fs → ∀ n, ∃ l, fillW n fs = some l ∧ fillW false fs = some l
  | [], _, n => ⟨[], rfl, rfl⟩
  | (.hidden, _) :: fs, h, n => by
    obtain ⟨l, h1, h2⟩ := fillW_hidden fs h n
    exact ⟨.out :: l, by simp [fillW, h1], by simp [fillW, h2]⟩
  | (.skip, _) :: _, h, _ => absurd h (by simp [hiddenX])
  | (.use _ _, _) :: _, h, _ => absurd h (by simp [hiddenX])

theorem fillW_next {d : Dir} {fs : XFl} (h : d = .no → hiddenX fs) : fillW (d = .no) fs = fillW false fs := by
  by_cases c : d = .no
  · obtain ⟨l, h1, h2⟩ := fillW_hidden fs (h c) (d = .no)
    rw [h1, h2]
  · simp [c]

theorem write_ext : (fs : XFl) → (vs : List XVal) → XOk fs vs →
    ∃ l, fillW false fs = some l ∧ ∀ w : Wr, w.Ok → ∃ w', fldsW false l vs w = some w' ∧ Wr.Ext w w' (xbytes fs vs)
  | [], [], _ => ⟨[], rfl, fun w hw => ⟨w, rfl, ext_refl hw⟩⟩
  | (.hidden, _) :: fs, _ :: vs, h => by
    obtain ⟨l, h1, h2⟩ := write_ext fs vs (by simpa [XOk] using h)
    exact ⟨.out :: l, by simp [fillW, h1], fun w hw => by simpa [fldsW, xbytes] using h2 w hw⟩
  | (.skip, _) :: fs, _ :: vs, h => by
    obtain ⟨l, h1, h2⟩ := write_ext fs vs (by simpa [XOk] using h)
    exact ⟨.out :: l, by simp [fillW, h1], fun w hw => by simpa [fldsW, xbytes] using h2 w hw⟩
  | (.use ber d, .of t) :: fs, .of v :: vs, h => by
    simp only [XOk] at h
    obtain ⟨⟨tail, hs⟩, hf, hh, hr⟩ := h
    obtain ⟨l, h1, h2⟩ := write_ext fs vs hr
    obtain ⟨f, hf1, hf2⟩ := fieldW_of tail hs hf
    refine ⟨f :: l, by simp [fillW, hf1, fillW_next hh, h1], fun w hw => ?_⟩
    obtain ⟨w1, e1, x1⟩ := hf2 l vs w hw
    obtain ⟨w2, e2, x2⟩ := h2 w1 x1.ok
    exact ⟨w2, by rw [e1, e2], by simpa [xbytes] using ext_trans x1 x2⟩
  | (.use ber d, .any) :: fs, .any v :: vs, h => by
    simp only [XOk] at h
    obtain ⟨rfl, hd, hh, hr⟩ := h
    obtain ⟨l, h1, h2⟩ := write_ext fs vs hr
    refine ⟨.any d :: l, by simp [fillW, fieldW, fillW_next hh, h1], fun w hw => ?_⟩
    obtain ⟨w1, e1, x1⟩ := anyW_ext hd w hw
    obtain ⟨w2, e2, x2⟩ := h2 w1 x1.ok
    exact ⟨w2, by simp only [fldsW, e1, e2], by simpa [xbytes] using ext_trans x1 x2⟩
  | (.use ber d, .anys) :: fs, .anys a :: vs, h => by
    simp only [XOk] at h
    obtain ⟨rfl, hd, hh, hr⟩ := h
    obtain ⟨l, h1, h2⟩ := write_ext fs vs hr
    refine ⟨.anys d :: l, by simp [fillW, fieldW, fillW_next hh, h1], fun w hw => ?_⟩
    obtain ⟨w1, e1, x1⟩ := anysW_ext hd w hw
    obtain ⟨w2, e2, x2⟩ := h2 w1 x1.ok
    exact ⟨w2, by simp only [fldsW, e1, e2], by simpa [xbytes] using ext_trans x1 x2⟩
  | [], _ :: _, h => by simp [XOk] at h
  | (g, t) :: _, [], h => by cases g <;> (try cases t) <;> simp [XOk] at h
  | (.use _ _, .of _) :: _, .any _ :: _, h => by simp [XOk] at h
  | (.use _ _, .of _) :: _, .anys _ :: _, h => by simp [XOk] at h
  | (.use _ _, .any) :: _, .of _ :: _, h => by simp [XOk] at h
  | (.use _ _, .any) :: _, .anys _ :: _, h => by simp [XOk] at h
  | (.use _ _, .anys) :: _, .of _ :: _, h => by simp [XOk] at h
  | (.use _ _, .anys) :: _, .any _ :: _, h => by simp [XOk] at h

/-! ### Reading -/

theorem setSize_prep {t : Ty} {x : TR} (hx : tr t = some x) (hs : Sound false t) (g : RG false t x) (ht : FixedSize t) (hz : SizeOk t)
    {addr : Bool} {v : Val} (hf : Fits addr t v) :
    x.setSize (zero t) (pay t v).length = some (true, none, prep t v) := by
  have plain : ∀ n, size? t = some n → x.sz = n → x.setSize (zero t) (pay t v).length =
      plainSetSize x.sz (zero t) (pay t v).length → prep t v = zero t →
      x.setSize (zero t) (pay t v).length = some (true, none, prep t v) := by
    intro n h1 h2 h3 h4
    rw [h3, h4, pay_len t n v addr h1 hf, h2]
    simp [plainSetSize]
  cases t with
  | scal k =>
    simp only [tr, Option.some.injEq] at hx
    subst hx
    exact plain _ rfl (by rw [g.sz]; rfl) rfl rfl
  | str => simp [FixedSize] at ht
  | ptr u => simp [FixedSize] at ht
  | arr n u =>
    simp only [FixedSize] at ht
    simp only [SizeOk] at hz
    have hsz := g.sz
    simp only [tr] at hx
    split at hx
    · simp at hx
    · rename_i e he
      simp only [Option.some.injEq] at hx
      subst hx
      have h0 : 0 ≤ codeSz u := by
        by_cases c : 0 ≤ codeSz u
        · exact c
        · simp [codeSz, c] at ht
      obtain ⟨m, hs, h2⟩ := exact_size h0 hz
      refine plain (n * m) (by simp [size?, hs]) ?_ rfl rfl
      rw [hsz]
      simp [codeSz, h2]
  | struct fs =>
    simp only [FixedSize] at ht
    simp only [SizeOk] at hz
    have hsz := g.sz
    obtain ⟨m, hs, h2⟩ := exact_size ht hz
    simp only [tr] at hx
    split at hx
    · simp at hx
    · simp only [Option.some.injEq] at hx
      subst hx
      exact plain m hs (by rw [hsz, h2]) rfl rfl
  | sl u =>
    simp only [FixedSize] at ht
    simp only [SizeOk] at hz
    obtain ⟨m, hm, h2⟩ := exact_size (Int.le_of_lt ht) hz
    simp only [Sound] at hs
    obtain ⟨e, he, ge⟩ := tr_ok u false hs.1
    simp only [tr, he, Option.some.injEq] at hx
    subst hx
    have hsz := ge.sz
    cases v <;> simp only [Fits] at hf
    rename_i vs
    have hl : (pay (.sl u) (.seq vs)).length = vs.length * m := by
      simp only [pay]
      apply flatten_const
      intro x hx
      simp only [withCnt, not_counted hm]
      exact pay_len u m x true hm (hf.2.2 x hx).1
    have hd : ((pay (.sl u) (.seq vs)).length : Int).tdiv e.sz = vs.length := by
      rw [hl, hsz, h2, Int.natCast_mul, Int.mul_tdiv_cancel _ (by omega)]
    show slSetSize e.sz (zero u) (zero (.sl u)) (pay (.sl u) (.seq vs)).length = _
    unfold slSetSize
    rw [if_pos (by omega), hd]
    simp only [zero, makeSlice_ok _ _ hf.1, prep, vlen]

theorem setCount_prep {t : Ty} {x : TR} (hx : tr t = some x) (ht : t ≠ .str) (hp : ∀ u, t ≠ .ptr u)
    {addr : Bool} {v : Val} (hf : Fits addr t v) :
    x.setCount (zero t) (countOf t v) = some (none, prep t v) := by
  cases t with
  | scal k =>
    simp only [tr, Option.some.injEq] at hx
    subst hx
    simp [scalR, plainSetCount, countOf, prep]
  | str => exact absurd rfl ht
  | ptr u => exact absurd rfl (hp u)
  | arr n u =>
    simp only [tr] at hx
    split at hx
    · simp at hx
    · simp only [Option.some.injEq] at hx
      subst hx
      simp [arrR, plainSetCount, countOf, prep]
  | struct fs =>
    simp only [tr] at hx
    split at hx
    · simp at hx
    · simp only [Option.some.injEq] at hx
      subst hx
      simp [structR, plainSetCount, countOf, prep]
  | sl u =>
    simp only [tr] at hx
    split at hx
    · simp at hx
    · simp only [Option.some.injEq] at hx
      subst hx
      cases v <;> simp only [Fits] at hf
      rename_i vs
      simp only [slR, TR.autoCnt, slSetCount, countOf, zero, makeSlice_ok _ _ hf.1, prep, vlen]

theorem back_any {addr : Bool} {d : Dir} {t : Ty} {v : Val} (h : Enc addr d t v) (hb : Back d t v) (rest : Bytes) :
    anyR d ⟨tagged t v d (pay t v) ++ rest, none⟩ (some (t, zero t)) = some (⟨rest, none⟩, some (t, v)) := by
  obtain ⟨hp, _, hz, hf, hd⟩ := h
  obtain ⟨hs, hb⟩ := hb
  obtain ⟨x, hx, g⟩ := tr_ok t false hs
  cases d with
  | none =>
    simp only at hb
    by_cases c : t = .str
    · subst c
      have := g.au rfl addr v rest hf hd
      simp only [tr, Option.some.injEq] at hx
      subst hx
      simp only [anyR, anyFixed, tr, tagged]
      have e : strR.fixed = strR.auto := rfl
      rw [e]
      simp only [layout] at this
      rw [this]
      rfl
    · have hc : counted t = false := by
        cases hc : counted t with
        | false => rfl
        | true => exact absurd (hb hc) c
      have := g.fx (Or.inl rfl) c addr v rest hf
      have e : prep t v = zero t := by cases t <;> simp [counted] at hc <;> rfl
      rw [e] at this
      simp only [anyR, anyFixed, hx, tagged, withCnt, hc]
      simp [this]
  | no => exact absurd hb (by simp)
  | size p =>
    obtain ⟨h1, h2⟩ := hb
    have hr := pfx_read p hp (pay t v).length hd (pay t v ++ rest)
    have hn : ((pay t v).length : Int) ≠ 0 := by
      intro c
      exact h2 (List.eq_nil_of_length_eq_zero (by omega))
    have hstr : t ≠ .str := by rintro rfl; simp [FixedSize] at h1
    have hfx := g.fx (Or.inl rfl) hstr addr v rest hf
    simp only [anyR, tagged, List.append_assoc, hr, ne_eq, not_true_eq_false, if_false, anySetSize, hn, hx,
      setSize_prep hx hs g h1 (hz p rfl) hf, Option.map_some, anyFixed, hfx]
  | cnt p =>
    obtain ⟨h1, h2⟩ := hb
    have hr := pfx_read p hp (countOf t v) hd (pay t v ++ rest)
    have hn : ((countOf t v : Nat) : Int) ≠ 0 := by omega
    have hfx := g.fx (Or.inl rfl) h1 addr v rest hf
    simp only [anyR, tagged, List.append_assoc, hr, ne_eq, not_true_eq_false, if_false, anySetCount, hn, hx,
      setCount_prep hx h1 (sound_noptr hs) hf, Option.map_some, anyFixed, hfx]

theorem anyR_back {d : Dir} {v : Dyn} (h : DynOk d v) (hb : DynBack d v) (rest : Bytes) :
    anyR d ⟨anyBytes d v ++ rest, none⟩ (freshDyn v) = some (⟨rest, none⟩, gotDyn v) := by
  match v, h, hb with
  | none, h, hb =>
    cases d with
    | none => rfl
    | no => rfl
    | cnt p => exact absurd hb (by simp [DynBack])
    | size p =>
      have hr := pfx_read p h 0 (by cases p <;> simp [fits]) rest
      have hs := slice_ok [] rest
      simp only [List.nil_append, List.length_nil, Int.natCast_zero] at hs
      simp [anyR, anyBytes, freshDyn, gotDyn, hr, anySetSize, subR, hs, anyTail]
  | some (t, v), h, hb =>
    by_cases c : ∃ u y, t = .ptr u ∧ v = .ref y
    · obtain ⟨u, y, rfl, rfl⟩ := c
      exact back_any h hb rest
    · have h' : Enc false d t v := by
        unfold DynOk at h
        split at h <;> simp_all
      have hb' : Back d t v := by
        unfold DynBack at hb
        split at hb <;> simp_all
      have e1 : dynBytes d t v = tagged t v d (pay t v) := by
        unfold dynBytes
        split <;> simp_all
      have e2 : freshDyn (some (t, v)) = some (t, zero t) := by
        unfold freshDyn
        split <;> simp_all
      have e3 : gotDyn (some (t, v)) = some (t, v) := by
        unfold gotDyn
        split <;> simp_all
      rw [e2, e3]
      simp only [anyBytes, e1]
      exact back_any h' hb' rest

theorem elemsR_back : (l : List Dyn) → (∀ x ∈ l, DynOk .none x ∧ DynBack .none x) → ∀ rest,
    elemsR ⟨(l.map (anyBytes .none)).flatten ++ rest, none⟩ (l.map freshDyn) = some (⟨rest, none⟩, l.map gotDyn)
  | [], _, rest => by simp [elemsR]
  | x :: l, h, rest => by
    have h1 := anyR_back (h x (by simp)).1 (h x (by simp)).2 ((l.map (anyBytes .none)).flatten ++ rest)
    have h2 := elemsR_back l (fun y hy => h y (by simp [hy])) rest
    simp only [anyR] at h1
    simp only [List.map_cons, List.flatten_cons, List.append_assoc, elemsR, h1, h2, Option.map_some]

theorem anysTail_back : (l : List Dyn) → (∀ x ∈ l, DynOk .none x ∧ DynBack .none x ∧ anyBytes .none x ≠ []) →
    anysTail ⟨(l.map (anyBytes .none)).flatten, none⟩ (l.map freshDyn) = some (⟨[], none⟩, l.map gotDyn)
  | [], _ => by simp [anysTail]
  | x :: l, h => by
    have h1 := anyR_back (h x (by simp)).1 (h x (by simp)).2.1 ((l.map (anyBytes .none)).flatten)
    have h2 := anysTail_back l (fun y hy => h y (by simp [hy]))
    simp only [anyR] at h1
    have h3 := (h x (by simp)).2.2
    simp [anysTail, h1, h2, h3]

theorem anysR_back {d : Dir} {l : List Dyn} (h : AnysOk d l) (hb : AnysBack d l) (rest : Bytes) :
    anysR d ⟨anysBytes d l ++ rest, none⟩ (l.map freshDyn) = some (⟨rest, none⟩, l.map gotDyn) := by
  obtain ⟨hp, hl, hd⟩ := h
  have he := elemsR_back l (fun x hx => ⟨(hl x hx).1, (hb x hx).1⟩) rest
  have cnt : ∀ p : Pfx, p ≠ .i64 → fits p l.length →
      (p.read ⟨pfxBytes p l.length ++ ((l.map (anyBytes .none)).flatten ++ rest), none⟩).1 =
        ⟨(l.map (anyBytes .none)).flatten ++ rest, none⟩ ∧
      anysSet (p.read ⟨pfxBytes p l.length ++ ((l.map (anyBytes .none)).flatten ++ rest), none⟩).2.toInt (l.map freshDyn) =
        some (l.map freshDyn) := by
    intro p hp hd
    have hr := pfx_read p hp l.length hd ((l.map (anyBytes .none)).flatten ++ rest)
    exact ⟨hr.1, by simp [hr.2, anysSet]⟩
  cases d with
  | no => simp only [anysR, anysBytes, he]
  | none =>
    obtain ⟨c1, c2⟩ := cnt .i32 (by decide) hd
    have e : le 4 l.length = pfxBytes .i32 l.length := rfl
    simp only [anysR, anysBytes, e, List.append_assoc, c1, c2, ne_eq, not_true_eq_false, if_false, he]
  | cnt p =>
    obtain ⟨c1, c2⟩ := cnt p hp hd
    simp only [anysR, anysBytes, List.append_assoc, c1, c2, ne_eq, not_true_eq_false, if_false, he]
  | size p =>
    have hr := pfx_read p hp _ hd ((l.map (anyBytes .none)).flatten ++ rest)
    have ht := anysTail_back l (fun x hx => ⟨(hl x hx).1, (hb x hx).1, (hb x hx).2 p rfl⟩)
    have hs := slice_ok ((l.map (anyBytes .none)).flatten) rest
    simp only [anysR, anysBytes, List.append_assoc, hr, ne_eq, not_true_eq_false, if_false, subR, hs, ht]

/-- The codec of one field of another type. -/
theorem fieldR_of {ber : Bool} {d : Dir} {t : Ty} {v : Val} (hs : SoundFl false (.cons (.use ber d) t .nil))
    (hf : FitsFl false (.cons (.use ber d) t .nil) [v]) :
    ∃ f, fieldR ber d (.of t) = some f ∧ ∀ fs vs rest,
      fldsR (f :: fs) ⟨tagged t v d (if ber then berPay v else pay t v) ++ rest, none⟩ (.of (zero t) :: vs) =
        (fldsR fs ⟨rest, none⟩ vs).map fun q => (q.1, .of v :: q.2) := by
  obtain ⟨l, h1, g⟩ := trFl_ok (.cons (.use ber d) t .nil) false hs 0
  have hl : payFl (.cons (.use ber d) t .nil) [v] = tagged t v d (if ber then berPay v else pay t v) := by simp [payFl]
  have hg := fun rest => g.rd false false [v] rest (Or.inl ⟨rfl, Or.inl rfl⟩) hf
  rw [hl] at hg
  simp only [zeros] at hg
  match l, h1, hg with
  | [], _, hg => have := hg []; simp [readFlds] at this
  | o :: o' :: _, _, hg =>
    have h := hg []
    cases o with
    | none => simp only [readFlds] at h; cases o' <;> simp at h
    | some f =>
      simp only [readFlds] at h
      split at h
      · simp at h
      · cases o' <;> simp at h
  | [none], h1, hg =>
    refine ⟨.out, by simp [fieldR, h1], ?_⟩
    intro fs vs rest
    have h := hg rest
    simp only [readFlds, Option.some.injEq, Prod.mk.injEq, List.cons.injEq, and_true] at h
    obtain ⟨h2, h3⟩ := h
    simp only [fldsR, h2, h3]
  | [some f], h1, hg =>
    refine ⟨.of f, by simp [fieldR, h1], ?_⟩
    intro fs vs rest
    have h := hg rest
    simp only [readFlds] at h
    split at h
    · simp at h
    · rename_i r u hq
      simp only [Option.some.injEq, Prod.mk.injEq, List.cons.injEq, and_true] at h
      obtain ⟨rfl, rfl⟩ := h
      simp only [fldsR, hq]

theorem fillR_hidden : (fs : XFl) → hiddenX fs → ∀ n, ∃ l, fillR n fs = some l ∧ fillR false fs = some l
  | [], _, n => ⟨[], rfl, rfl⟩
  | (.hidden, _) :: fs, h, n => by
    obtain ⟨l, h1, h2⟩ := fillR_hidden fs h n
    exact ⟨.out :: l, by simp [fillR, h1], by simp [fillR, h2]⟩
  | (.skip, _) :: _, h, _ => absurd h (by simp [hiddenX])
  | (.use _ _, _) :: _, h, _ => absurd h (by simp [hiddenX])

theorem fillR_next {d : Dir} {fs : XFl} (h : d = .no → hiddenX fs) : fillR (d = .no) fs = fillR false fs := by
  by_cases c : d = .no
  · obtain ⟨l, h1, h2⟩ := fillR_hidden fs (h c) (d = .no)
    rw [h1, h2]
  · simp [c]

theorem read_back : (fs : XFl) → (vs : List XVal) → XOk fs vs → XBack fs vs →
    ∃ l, fillR false fs = some l ∧ ∀ rest, fldsR l ⟨xbytes fs vs ++ rest, none⟩ (freshX fs vs) = some (⟨rest, none⟩, gotX fs vs)
  | [], [], _, _ => ⟨[], rfl, fun rest => by simp [xbytes, freshX, gotX, fldsR]⟩
  | (.hidden, t) :: fs, _ :: vs, h, hb => by
    obtain ⟨l, h1, h2⟩ := read_back fs vs (by simpa [XOk] using h) (by simpa [XBack] using hb)
    exact ⟨.out :: l, by simp [fillR, h1], fun rest => by simp [fldsR, xbytes, freshX, gotX, h2]⟩
  | (.skip, t) :: fs, _ :: vs, h, hb => by
    obtain ⟨l, h1, h2⟩ := read_back fs vs (by simpa [XOk] using h) (by simpa [XBack] using hb)
    exact ⟨.out :: l, by simp [fillR, h1], fun rest => by simp [fldsR, xbytes, freshX, gotX, h2]⟩
  | (.use ber d, .of t) :: fs, .of v :: vs, h, hb => by
    simp only [XOk] at h
    simp only [XBack] at hb
    obtain ⟨_, hf, hh, hr⟩ := h
    obtain ⟨l, h1, h2⟩ := read_back fs vs hr hb.2
    obtain ⟨f, hf1, hf2⟩ := fieldR_of hb.1 hf
    refine ⟨f :: l, by simp [fillR, hf1, fillR_next hh, h1], fun rest => ?_⟩
    simp only [xbytes, freshX, freshV, gotX, gotV, List.append_assoc, hf2, h2, Option.map_some]
  | (.use ber d, .any) :: fs, .any v :: vs, h, hb => by
    simp only [XOk] at h
    simp only [XBack] at hb
    obtain ⟨rfl, hd, hh, hr⟩ := h
    obtain ⟨l, h1, h2⟩ := read_back fs vs hr hb.2
    refine ⟨.any d :: l, by simp [fillR, fieldR, fillR_next hh, h1], fun rest => ?_⟩
    simp only [xbytes, freshX, freshV, gotX, gotV, List.append_assoc, fldsR, anyR_back hd hb.1, h2, Option.map_some]
  | (.use ber d, .anys) :: fs, .anys a :: vs, h, hb => by
    simp only [XOk] at h
    simp only [XBack] at hb
    obtain ⟨rfl, hd, hh, hr⟩ := h
    obtain ⟨l, h1, h2⟩ := read_back fs vs hr hb.2
    refine ⟨.anys d :: l, by simp [fillR, fieldR, fillR_next hh, h1], fun rest => ?_⟩
    simp only [xbytes, freshX, freshV, gotX, gotV, List.append_assoc, fldsR, anysR_back hd hb.1, h2, Option.map_some]
  | [], _ :: _, h, _ => by simp [XOk] at h
  | (g, t) :: _, [], h, _ => by cases g <;> (try cases t) <;> simp [XOk] at h
  | (.use _ _, .of _) :: _, .any _ :: _, h, _ => by simp [XOk] at h
  | (.use _ _, .of _) :: _, .anys _ :: _, h, _ => by simp [XOk] at h
  | (.use _ _, .any) :: _, .of _ :: _, h, _ => by simp [XOk] at h
  | (.use _ _, .any) :: _, .anys _ :: _, h, _ => by simp [XOk] at h
  | (.use _ _, .anys) :: _, .of _ :: _, h, _ => by simp [XOk] at h
  | (.use _ _, .anys) :: _, .any _ :: _, h, _ => by simp [XOk] at h

end Verif.IfaceField
