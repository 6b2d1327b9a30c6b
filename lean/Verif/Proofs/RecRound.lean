import Verif.Proofs.RecType

/-! Values of recursive types are written as prescribed, and read back. -/
namespace Verif.RecType
open Verif.Marshal Verif.Reflect Verif.CodecCache Verif.Spec Verif.Spec.RecType

variable {sh : Nat → Sh}

theorem number_own {n : Nat} {o : Own} (h : sh n = .own o) (v : Val) : number sh n v = o.count v := by
  cases v <;> simp [number, h, orOwn]

theorem body_own {n : Nat} {o : Own} (h : sh n = .own o) (v : Val) : body sh n v = o.enc v := by
  cases v <;> simp [body, h, orOwn]

theorem fit_own {n : Nat} {o : Own} (h : sh n = .own o) {a : Bool} {v : Val} (hf : Fit sh a n v) : OwnFit o a v := by
  cases v <;> simpa [Fit, h, orOwn] using hf

theorem fitAll_get {a : Bool} {m : Nat} {vs : List Val} (h : FitAll sh a m vs) : ∀ v ∈ vs, Fit sh a m v ∧ Bare sh m v := by
  induction vs with
  | nil => simp
  | cons v vs ih =>
    simp only [FitAll] at h
    intro u hu
    simp only [List.mem_cons] at hu
    rcases hu with rfl | hu
    · exact h.1
    · exact ih h.2 u hu

theorem fitParts_get {a : Bool} {fs : List (Option Pfx × Nat)} {vs : List Val} (h : FitParts sh a fs vs) :
    vs.length = fs.length ∧ ∀ (i : Nat) (p : Option Pfx) (m : Nat) (v : Val), fs[i]? = some (p, m) → vs[i]? = some v → Fit sh a m v := by
  induction fs generalizing vs with
  | nil => cases vs <;> simp [FitParts] at h ⊢
  | cons f fs ih =>
    obtain ⟨p, m⟩ := f
    cases vs with
    | nil => simp [FitParts] at h
    | cons v vs =>
      simp only [FitParts] at h
      obtain ⟨h1, h2⟩ := ih h.2
      refine ⟨by simp [h1], ?_⟩
      intro i p' m' u hf hv
      cases i with
      | zero => simp at hf hv; obtain ⟨rfl, rfl⟩ := hf; subst hv; exact h.1.1
      | succ i => exact h2 i p' m' u (by simpa using hf) (by simpa using hv)

theorem bodies_eq (m : Nat) (vs : List Val) : bodies sh m vs = (vs.map (full sh m)).flatten := by
  induction vs with
  | nil => rfl
  | cons v vs ih => simp [bodies, full, ih]

/-- Elements that are scalars. -/
theorem scalars {a : Bool} {m : Nat} {k : Kind} {vs : List Val} (hk : sh m = .scal k) (h : FitAll sh a m vs) :
    (∀ v ∈ vs, ∃ s, v = .scal s ∧ s.kind = k) ∧ bodies sh m vs = (vs.map fun v => pay (.scal k) v).flatten := by
  have key : ∀ v ∈ vs, ∃ s, v = .scal s ∧ s.kind = k := by
    intro v hv
    have := (fitAll_get h v hv).1
    cases v <;> simp only [Fit, hk, orOwn, Sh.scal.injEq, reduceCtorEq, IsPtr, Bool.false_eq_true] at this
    exact ⟨_, rfl, this.symm⟩
  refine ⟨key, ?_⟩
  rw [bodies_eq]
  congr 1
  apply List.map_congr_left
  intro v hv
  obtain ⟨s, rfl, hs⟩ := key v hv
  simp [full, pre, hk, Counts, body, orOwn, pay]

/-! ### Writing -/

structure WOK (sh : Nat → Sh) (x : TW) (addr : Bool) (n : Nat) (v : Val) : Prop where
  wr : ∀ w, Wr.Ok w → ∃ w', x.write addr v w = some w' ∧ Wr.Ext w w' (body sh n v)
  au : Bare sh n v → ∀ w, Wr.Ok w → ∃ w', x.auto addr v w = some w' ∧ Wr.Ext w w' (full sh n v)
  cn : Countable (sh n) = true → x.count v = some (number sh n v : Int)
  bc : IsPtr (sh n) = false → Countable (sh n) = true → x.baseCount v = some (number sh n v : Int)

theorem elemsW_ok {m : Nat} {x : TW} {vs : List Val} (addr : Bool) (hf : FitAll sh addr m vs) (h64 : sh m = .scal .f64 → vs.length ≤ 1)
    (he : ∀ v ∈ vs, WOK sh x addr m v) (w : Wr) (hw : Wr.Ok w) :
    ∃ w', elemsW (kind? sh m) x addr (.seq vs) w = some w' ∧ Wr.Ext w w' (bodies sh m vs) := by
  have other : kind? sh m = none → ∃ w', elemsW (kind? sh m) x addr (.seq vs) w = some w' ∧ Wr.Ext w w' (bodies sh m vs) := by
    intro hk
    rw [hk, bodies_eq]
    exact writeEach_spec _ _ vs w hw (fun v hv w hw => (he v hv).au (fitAll_get hf v hv).2 w hw)
  cases hk : sh m with
  | scal k =>
    obtain ⟨h1, h2⟩ := scalars hk hf
    rw [h2]
    simp only [kind?, hk, elemsW]
    exact slVal_spec k addr vs w hw h1 (fun c _ => h64 (by rw [hk, c]))
  | _ => exact other (by simp [kind?, hk])

/-- The fields of a struct. -/
theorem writeFlds_ok (c : Nat → TW) (addr : Bool) (fs : List (Option Pfx × Nat)) (rs : List Nat) (vs : List Val) (w : Wr)
    (hw : Wr.Ok w) (hr : rs.length = fs.length) (hf : FitParts sh addr fs vs)
    (h : ∀ (i : Nat) (p : Option Pfx) (m r : Nat) (v : Val), fs[i]? = some (p, m) → rs[i]? = some r → vs[i]? = some v → WOK sh (c r) addr m v) :
    ∃ w', writeFlds addr (fields FW.mk c fs (List.replicate fs.length true) rs) vs w = some w' ∧ Wr.Ext w w' (parts sh fs vs) := by
  induction fs generalizing rs vs w with
  | nil =>
    cases vs <;> simp only [FitParts] at hf
    exact ⟨w, rfl, by simpa [parts] using ext_refl hw⟩
  | cons f fs ih =>
    obtain ⟨p, m⟩ := f
    match rs, hr, vs, hf with
    | [], hr, _, _ => simp at hr
    | r :: rs, hr, [], hf => simp [FitParts] at hf
    | r :: rs, hr, v :: vs, hf =>
      simp only [FitParts] at hf
      have hv := h 0 p m r v rfl rfl rfl
      have one : ∃ w1, (FW.mk (c r) (dir p)).put addr v w = some w1 ∧
          Wr.Ext w w1 (lead sh p m v ++ body sh m v) := by
        cases p with
        | none => exact hv.au hf.1.2 w hw
        | some p => exact withCount_ext (c r) p hf.1.2.1 addr v w _ _ hw (hv.cn hf.1.2.2.1) hf.1.2.2.2 (fun w hw => hv.wr w hw)
      obtain ⟨w1, h1, e1⟩ := one
      obtain ⟨w2, h2, e2⟩ := ih rs vs w1 e1.ok (by simpa using hr) hf.2
        (fun i p m r v k1 k2 k3 => h (i + 1) p m r v (by simpa using k1) (by simpa using k2) (by simpa using k3))
      refine ⟨w2, ?_, ?_⟩
      · simp only [List.length_cons, List.replicate_succ, fields, if_true, writeFlds, h1, h2]
      · simpa only [parts] using ext_trans e1 e2

theorem wok_scal {a : Bool} {n : Nat} {s : Scal} (hn : sh n = .scal s.kind) : WOK sh (scalW s.kind) a n (.scal s) := by
  have g := wg_scal s.kind
  have ft : ∀ addr, Fits addr (.scal s.kind) (.scal s) := by simp [Fits]
  refine ⟨?_, ?_, ?_, ?_⟩
  · intro w hw; simpa [pay, body, hn, orOwn] using g.wr a _ w hw (ft a)
  · intro _ w hw
    simpa [layout, withCnt, counted, pay, full, pre, hn, Counts, body, orOwn] using g.au a _ w hw (ft a) (by simp [counted])
  · simp [scalW, TW.count, TW.baseCount, number, hn, orOwn]
  · simp [scalW, TW.baseCount, number, hn, orOwn]

theorem wok_str {a : Bool} {n : Nat} {b : Bytes} (hn : sh n = .str) : WOK sh strW a n (.str b) := by
  have g := wg_str
  have ft : ∀ addr, Fits addr .str (.str b) := by simp [Fits]
  refine ⟨?_, ?_, ?_, ?_⟩
  · intro w hw; simpa [pay, body, hn, orOwn] using g.wr a _ w hw (ft a)
  · intro hb w hw
    simpa [layout, withCnt, counted, pay, full, pre, hn, Counts, body, countOf, number, orOwn] using
      g.au a _ w hw (ft a) (fun _ => by simpa [countOf, number, hn, orOwn] using hb.2 (by simp [hn, Counts]))
  · simp [strW, TW.fillauto, TW.count, TW.baseCount, number, vlen, hn, orOwn]
  · simp [strW, TW.fillauto, TW.baseCount, number, vlen, hn, orOwn]

theorem wok_arr {a : Bool} {n m k : Nat} {x : TW} {vs : List Val} (hn : sh n = .arr k m) (hf : Fit sh a n (.seq vs))
    (he : ∀ v ∈ vs, WOK sh x a m v) : WOK sh (arrW k (kind? sh m) x) a n (.seq vs) := by
  simp only [Fit, hn, orOwn] at hf
  have wr := elemsW_ok a hf.2.2 hf.2.1 he
  refine ⟨?_, ?_, ?_, ?_⟩
  · intro w hw; simpa [arrW, TW.fillauto, body, hn, orOwn] using wr w hw
  · intro _ w hw; simpa [arrW, TW.fillauto, full, pre, body, hn, Counts, orOwn] using wr w hw
  · simp [arrW, TW.fillauto, TW.count, TW.baseCount, number, hn, hf.1, orOwn]
  · simp [arrW, TW.fillauto, TW.baseCount, number, hn, hf.1, orOwn]

theorem wok_sl {a : Bool} {n m : Nat} {x : TW} {vs : List Val} (hn : sh n = .sl m) (hf : Fit sh a n (.seq vs))
    (he : ∀ v ∈ vs, WOK sh x true m v) : WOK sh (slW (kind? sh m) x) a n (.seq vs) := by
  simp only [Fit, hn, orOwn] at hf
  have wr : ∀ w, Wr.Ok w → ∃ w', (slW (kind? sh m) x).write a (.seq vs) w = some w' ∧ Wr.Ext w w' (bodies sh m vs) := by
    intro w hw; simpa [slW, TW.fillauto] using elemsW_ok true hf.2.2 hf.2.1 he w hw
  have cn : (slW (kind? sh m) x).count (.seq vs) = some (vs.length : Int) := by
    simp [slW, TW.fillauto, TW.count, TW.baseCount, vlen]
  have nm : number sh n (.seq vs) = vs.length := by simp [number, hn, orOwn]
  refine ⟨?_, ?_, fun _ => by rw [nm]; exact cn, ?_⟩
  · intro w hw; simpa [body, hn, orOwn] using wr w hw
  · intro hb w hw
    have := withCount_ext _ .i32 (by decide) a (.seq vs) w vs.length _ hw cn
      (by have := hb.2 (by simp [hn, Counts]); rwa [nm] at this) (fun w hw => wr w hw)
    simpa [slW, TW.fillauto, full, pre, body, hn, Counts, nm, pfxBytes, TW.withCount, TW.count, TW.baseCount, vlen, orOwn] using this
  · intro _ _; rw [nm]; simp [slW, TW.fillauto, TW.baseCount, vlen]

theorem wok_struct {addr : Bool} {n : Nat} {sz : Int} {c : Nat → TW} {fs : List (Option Pfx × Nat)} {rs : List Nat} {vs : List Val}
    (hn : sh n = .struct fs) (hf : Fit sh addr n (.seq vs)) (hr : rs.length = fs.length)
    (h : ∀ (i : Nat) (p : Option Pfx) (m r : Nat) (v : Val), fs[i]? = some (p, m) → rs[i]? = some r → vs[i]? = some v → WOK sh (c r) addr m v) :
    WOK sh (structW sz (fields FW.mk c fs (List.replicate fs.length true) rs)) addr n (.seq vs) := by
  simp only [Fit, hn, orOwn] at hf
  have wr := fun w hw => writeFlds_ok c addr fs rs vs w hw hr hf h
  refine ⟨?_, ?_, ?_, ?_⟩
  · intro w hw; simpa [structW, TW.fillauto, body, hn, orOwn] using wr w hw
  · intro _ w hw; simpa [structW, TW.fillauto, full, pre, body, hn, Counts, orOwn] using wr w hw
  · simp [structW, TW.fillauto, TW.count, TW.baseCount, number, hn, orOwn]
  · simp [structW, TW.fillauto, TW.baseCount, number, hn, orOwn]

theorem wok_nil {a : Bool} {n m : Nat} {x : TW} (hn : sh n = .ptr m) : WOK sh (ptrW x) a n .nilp := by
  refine ⟨?_, ?_, ?_, ?_⟩
  · intro w hw; exact ⟨w, rfl, by simpa [body, hn, orOwn] using ext_refl hw⟩
  · intro hb; simp [Bare, hn, IsPtr] at hb
  · simp [ptrW, TW.count, number, hn, orOwn]
  · simp [hn, IsPtr]

theorem wok_ref {a : Bool} {n m : Nat} {x : TW} {v : Val} (hn : sh n = .ptr m) (hp : Target (sh m) = true) (he : WOK sh x true m v) :
    WOK sh (ptrW x) a n (.ref v) := by
  have h1 : IsPtr (sh m) = false := by cases h : sh m <;> simp [h, Target, IsPtr] at hp ⊢
  have h2 : Countable (sh m) = true := by cases h : sh m <;> simp [h, Target, Countable] at hp ⊢
  refine ⟨?_, ?_, ?_, ?_⟩
  · intro w hw; simpa [ptrW, body, hn, orOwn] using he.wr w hw
  · intro hb; simp [Bare, hn, IsPtr] at hb
  · intro _; simpa [ptrW, TW.count, number, hn, orOwn] using he.bc h1 h2
  · simp [hn, IsPtr]

theorem cntGet_alike {o : Own} (h : Alike o) : o.cntGet = o.icount.isSome ∧ o.cntSet = o.isetcount.isSome := by
  obtain ⟨⟨wl, wp⟩, ⟨rl, rp⟩, h1, h2, h⟩ := h
  rcases h with ⟨h3, h4⟩ | ⟨⟨cl, cp⟩, ⟨sl, sp⟩, h3, h4, h5, h6, h7, h8, h9⟩
  · simp only [Own.cntGet, Own.cntSet, h1, h2, h3, h4]
    cases wl <;> cases wp <;> cases rl <;> cases rp <;> simp [form, has]
  · simp only [Own.cntGet, Own.cntSet, h1, h2, h3, h4]
    simp only at h5 h6 h7 h8 h9
    subst h5 h6
    revert h7 h8 h9
    cases cl <;> cases cp <;> cases wp <;> cases sl <;> cases sp <;> cases rp <;> simp [form, has]

theorem form_some (w : Recv) : ∃ l, form (some w) = some (l, w.onPtr) := by
  obtain ⟨l, p⟩ := w
  cases l <;> cases p <;> simp [form, has]

theorem wok_own {a : Bool} {n : Nat} {o : Own} {v : Val} (hn : sh n = .own o) (hf : Fit sh a n v) : WOK sh (ownW o) a n v := by
  obtain ⟨h1, h2, h3⟩ := fit_own hn hf
  have hc := (cntGet_alike h1).1
  obtain ⟨w, r, hw, hr, _⟩ := h1
  obtain ⟨l, hl⟩ := form_some w
  have ha : (w.onPtr && !a) = false := by
    cases hp : w.onPtr with
    | false => simp
    | true => simp [h3 w hw hp]
  have wr : ∀ w, Wr.Ok w → ∃ w', (ownW o).write a v w = some w' ∧ Wr.Ext w w' (o.enc v) := by
    intro w' hw'
    have : (ownW o).write a v w' = w'.bytes (o.enc v) := by
      simp only [ownW, hw, hl, TW.fillauto]
      split <;> (show (if (w.onPtr && !a) = true then none else w'.bytes (o.enc v)) = _; rw [ha]; rfl)
    rw [this]
    exact Wr.bytes_spec w' _ hw'
  have cn : o.icount.isSome = true → (ownW o).baseCount v = some (o.count v : Int) := by
    intro h
    simp [ownW, hw, hl, TW.fillauto, hc, h, TW.baseCount]
  have cn' : o.icount.isSome = true → (ownW o).count v = some (o.count v : Int) := by
    intro h
    simp [ownW, hw, hl, TW.fillauto, hc, h, TW.baseCount, TW.count]
  refine ⟨?_, ?_, ?_, ?_⟩
  · rw [body_own hn]; exact wr
  · intro hb w' hw'
    cases hi : o.icount.isSome with
    | true =>
      have hb := hb.2 (by simp [hn, Counts, hi])
      rw [number_own hn] at hb
      have := withCount_ext (ownW o) .i32 (by decide) a v w' (o.count v) _ hw' (cn' hi) hb (fun w hw => wr w hw)
      have e1 : (ownW o).auto = (ownW o).withCount .i32 := by
        simp [ownW, hw, hl, TW.fillauto, hc, hi]
        rfl
      have e2 : full sh n v = pfxBytes .i32 (o.count v) ++ o.enc v := by
        simp [full, pre, hn, Counts, hi, number_own hn, body_own hn, pfxBytes]
      rw [e1, e2]
      exact this
    | false =>
      have e1 : (ownW o).auto = (ownW o).write := by
        simp [ownW, hw, hl, TW.fillauto, hc, hi]
      have e2 : full sh n v = o.enc v := by simp [full, pre, hn, Counts, hi, body_own hn]
      rw [e1, e2]
      exact wr w' hw'
  · intro h; rw [number_own hn]; exact cn' (by simpa [hn, Countable] using h)
  · intro _ h; rw [number_own hn]; exact cn (by simpa [hn, Countable] using h)

/-- The number of levels of a list is the largest of its members. -/
theorem levels {W : Nat → Bool → Nat → Nat → Val → Prop} {Q : Nat → Nat → Prop} (vs : List Val) (a : Bool)
    (one : ∀ v ∈ vs, ∀ n c, Fit sh a n v → Q c n → ∃ d0, ∀ d, d0 ≤ d → W d a c n v) (ms cs : Nat → Nat)
    (h : ∀ i v, vs[i]? = some v → Fit sh a (ms i) v ∧ Q (cs i) (ms i)) :
    ∃ d0, ∀ d, d0 ≤ d → ∀ i v, vs[i]? = some v → W d a (cs i) (ms i) v := by
  induction vs generalizing ms cs with
  | nil => exact ⟨0, by simp⟩
  | cons v vs ih =>
    obtain ⟨d1, h1⟩ := one v (by simp) (ms 0) (cs 0) (h 0 v rfl).1 (h 0 v rfl).2
    obtain ⟨d2, h2⟩ := ih (fun u hu => one u (by simp [hu])) (fun i => ms (i + 1)) (fun i => cs (i + 1)) (fun i u hu => h (i + 1) u (by simpa using hu))
    refine ⟨max d1 d2, ?_⟩
    intro d hd i u hu
    cases i with
    | zero => simp at hu; subst hu; exact h1 d (by omega)
    | succ i => exact h2 d (by omega) i u (by simpa using hu)

theorem sizeOf_mem {v : Val} {vs : List Val} (h : v ∈ vs) : sizeOf v < sizeOf (Val.seq vs) := by
  have := List.sizeOf_lt_of_mem h
  simp only [Val.seq.sizeOf_spec]
  omega

/-- What has to be known of each kind of codec. -/
structure Descent (sh : Nat → Sh) (s : St Nat Att) (W : Nat → Bool → Nat → Nat → Val → Prop) : Prop where
  own : ∀ d a c n x o v, s.cods c = some x → x.ty = n → sh n = .own o → Fit sh a n v → W (d + 1) a c n v
  scal : ∀ d a c n x z, s.cods c = some x → x.ty = n → sh n = .scal z.kind → W (d + 1) a c n (.scal z)
  str : ∀ d a c n x b, s.cods c = some x → x.ty = n → sh n = .str → W (d + 1) a c n (.str b)
  arr : ∀ d a c n x k m r vs, s.cods c = some x → x.ty = n → sh n = .arr k m → x.refs = [r] → Fit sh a n (.seq vs) →
    (∀ v ∈ vs, W d a r m v) → d ≠ 0 → W (d + 1) a c n (.seq vs)
  sl : ∀ d a c n x m r vs, s.cods c = some x → x.ty = n → sh n = .sl m → x.refs = [r] → Fit sh a n (.seq vs) →
    (∀ v ∈ vs, W d true r m v) → d ≠ 0 → W (d + 1) a c n (.seq vs)
  struct : ∀ d a c n x fs vs, s.cods c = some x → x.ty = n → sh n = .struct fs → x.refs.length = fs.length →
    x.att.inc = List.replicate fs.length true → Fit sh a n (.seq vs) →
    (∀ (i : Nat) (p : Option Pfx) (m r : Nat) (v : Val), fs[i]? = some (p, m) → x.refs.reverse[i]? = some r →
      vs[i]? = some v → W d a r m v) → W (d + 1) a c n (.seq vs)
  nil : ∀ d a c n x m r, s.cods c = some x → x.ty = n → sh n = .ptr m → x.refs = [r] → W (d + 1) a c n .nilp
  ref : ∀ d a c n x m r v, s.cods c = some x → x.ty = n → sh n = .ptr m → x.refs = [r] → Fit sh a n (.ref v) → W d true r m v →
    W (d + 1) a c n (.ref v)

/-- Descent into the parts of a value. -/
theorem descend {rd : Bool} {i0 : Nat → Att} {s : St Nat Att} (hi : Inv s) (hl : Link ⟨fun n => fill rd (sh n), i0⟩ (Sane sh) s)
    {W : Nat → Bool → Nat → Nat → Val → Prop} (D : Descent sh s W) :
    ∀ (v : Val) (a : Bool) (n c : Nat), Fit sh a n v → Pub s c n → ∃ d0, ∀ d, d0 ≤ d → W d a c n v := by
  intro v a n c hf hp
  obtain ⟨x, hx, hty, hlk⟩ := looks hi hl hp
  have up : ∀ {P : Nat → Prop} (k : Nat), (∀ d, k ≤ d → P (d + 1)) → ∃ d0, ∀ d, d0 ≤ d → P d := by
    intro P k h
    refine ⟨k + 1, fun d hd => ?_⟩
    obtain ⟨d, rfl⟩ : ∃ e, d = e + 1 := ⟨d - 1, by omega⟩
    exact h d (by omega)
  by_cases ho : ∃ o, sh n = .own o
  · obtain ⟨o, ho⟩ := ho
    exact up 0 fun d _ => D.own d a c n x o v hx hty ho hf
  match v, hf with
  | .scal z, hf =>
    have hn : sh n = .scal z.kind := by
      cases h : sh n <;> simp only [Fit, h, orOwn, reduceCtorEq, Sh.scal.injEq] at hf
      · rw [hf]
      · exact absurd ⟨_, h⟩ ho
    exact up 0 fun d _ => D.scal d a c n x z hx hty hn
  | .str b, hf =>
    have hn : sh n = .str := by
      cases h : sh n <;> simp only [Fit, h, orOwn, reduceCtorEq] at hf
      · rfl
      · exact absurd ⟨_, h⟩ ho
    exact up 0 fun d _ => D.str d a c n x b hx hty hn
  | .nilp, hf =>
    cases hn : sh n <;> simp only [Fit, hn, orOwn, IsPtr, Bool.false_eq_true] at hf
    · rename_i m
      simp only [hn] at hlk
      obtain ⟨r, h1, h2⟩ := hlk
      exact up 0 fun d _ => D.nil d a c n x m r hx hty hn h1
    · exact absurd ⟨_, hn⟩ ho
  | .ref v, hf =>
    have hf' := hf
    cases hn : sh n <;> simp only [Fit, hn, orOwn] at hf
    · rename_i m
      simp only [hn] at hlk
      obtain ⟨r, h1, h2⟩ := hlk
      obtain ⟨d0, h0⟩ := descend hi hl D v true m r hf.2.2 h2
      exact up d0 fun d hd => D.ref d a c n x m r v hx hty hn h1 hf' (h0 d hd)
    · exact absurd ⟨_, hn⟩ ho
  | .seq vs, hf =>
    have hf' := hf
    have one : ∀ a, ∀ v ∈ vs, ∀ n c, Fit sh a n v → Pub s c n → ∃ d0, ∀ d, d0 ≤ d → W d a c n v :=
      fun a v hv n c => descend hi hl D v a n c
    have same : ∀ a m r, FitAll sh a m vs → Pub s r m → ∃ d0, ∀ d, d0 ≤ d → ∀ v ∈ vs, W d a r m v := by
      intro a m r hfa hpr
      obtain ⟨d0, h0⟩ := levels vs a (one a) (fun _ => m) (fun _ => r)
        (fun i v hv => ⟨(fitAll_get hfa v (List.mem_iff_getElem?.2 ⟨i, hv⟩)).1, hpr⟩)
      refine ⟨d0, fun d hd v hv => ?_⟩
      obtain ⟨i, hi⟩ := List.mem_iff_getElem?.1 hv
      exact h0 d hd i v hi
    cases hn : sh n <;> simp only [Fit, hn, orOwn] at hf hlk
    · rename_i k m
      obtain ⟨r, h1, h2⟩ := hlk
      obtain ⟨d0, h0⟩ := same a m r hf.2.2 h2
      exact up (d0 + 1) fun d hd => D.arr d a c n x k m r vs hx hty hn h1 hf' (h0 d (by omega)) (by omega)
    · rename_i m
      obtain ⟨r, h1, h2⟩ := hlk
      obtain ⟨d0, h0⟩ := same true m r hf.2.2 h2
      exact up (d0 + 1) fun d hd => D.sl d a c n x m r vs hx hty hn h1 hf' (h0 d (by omega)) (by omega)
    · rename_i fs
      obtain ⟨h1, h2, h3⟩ := hlk
      obtain ⟨k1, k2⟩ := fitParts_get hf
      obtain ⟨d0, h0⟩ := levels vs a (one a) (fun i => (fs[i]?.map Prod.snd).getD 0) (fun i => (x.refs.reverse[i]?).getD 0) (by
        intro i v hv
        have hlt := (List.getElem?_eq_some_iff.1 hv).1
        have hfi : fs[i]? = some (fs[i]'(by omega)) := List.getElem?_eq_getElem (by omega)
        obtain ⟨r, k3, k4⟩ := h3 i (fs[i]'(by omega)).1 (fs[i]'(by omega)).2 hfi
        refine ⟨?_, ?_⟩
        · simp only [hfi, Option.map_some, Option.getD_some]; exact k2 i _ _ v hfi hv
        · simp only [hfi, k3, Option.map_some, Option.getD_some]; exact k4)
      refine up d0 fun d hd => D.struct d a c n x fs vs hx hty hn h2 h1 hf' ?_
      intro i p m r v q1 q2 q3
      have := h0 d hd i v q3
      simpa [q1, q2] using this
    · exact absurd ⟨_, hn⟩ ho
termination_by v => sizeOf v
decreasing_by
  · simp
  · exact sizeOf_mem hv

theorem writer_ok {s : St Nat Att} (hi : Inv s) (hl : Link (writers sh) (Sane sh) s) (v : Val) (a : Bool) (n c : Nat) (hf : Fit sh a n v)
    (hp : Pub s c n) : ∃ d0, ∀ d, d0 ≤ d → WOK sh (writer sh s d c) a n v := by
  refine descend (W := fun d a c n v => WOK sh (writer sh s d c) a n v) hi hl ⟨?_, ?_, ?_, ?_, ?_, ?_, ?_, ?_⟩ v a n c hf hp
  · intro d a c n x o v hx hty hn hf
    simp only [writer, hx, hty, hn]; exact wok_own hn hf
  · intro d a c n x z hx hty hn
    simp only [writer, hx, hty, hn]; exact wok_scal hn
  · intro d a c n x b hx hty hn
    simp only [writer, hx, hty, hn]; exact wok_str hn
  · intro d a c n x k m r vs hx hty hn hr hf he _
    simp only [writer, hx, hty, hn, hr]; exact wok_arr hn hf he
  · intro d a c n x m r vs hx hty hn hr hf he _
    simp only [writer, hx, hty, hn, hr]; exact wok_sl hn hf he
  · intro d a c n x fs vs hx hty hn hr hinc hf he
    simp only [writer, hx, hty, hn, hinc]; exact wok_struct hn hf (by simpa using hr) he
  · intro d a c n x m r hx hty hn hr
    simp only [writer, hx, hty, hn, hr]; exact wok_nil hn
  · intro d a c n x m r v hx hty hn hr hf he
    simp only [Fit, hn, orOwn] at hf
    simp only [writer, hx, hty, hn, hr]; exact wok_ref hn hf.1 he

/-! ### Reading -/

/-- Reading a value into a zero value that goes `z` levels deep. -/
structure ROK (sh : Nat → Sh) (x : TR) (z n : Nat) (v : Val) : Prop where
  au : Bare sh n v → ∀ rest, x.auto ⟨full sh n v ++ rest, none⟩ (zero sh z n) = some (⟨rest, none⟩, v)
  bc : Countable (sh n) = true → ∀ rest, x.byCount (number sh n v) ⟨body sh n v ++ rest, none⟩ (zero sh z n) = some (⟨rest, none⟩, v)
  sc : Target (sh n) = true → ∃ u, x.setCount (zero sh z n) (number sh n v) = some (none, u) ∧
    ∀ rest, x.fixed ⟨body sh n v ++ rest, none⟩ u = some (⟨rest, none⟩, v)

theorem elemsR_fit {a : Bool} {m z : Nat} {x : TR} {vs : List Val} (hz : z ≠ 0) (hf : FitAll sh a m vs)
    (he : ∀ v ∈ vs, ROK sh x z m v) (rest : Bytes) :
    elemsR (kind? sh m) x.auto ⟨bodies sh m vs ++ rest, none⟩ (.seq (List.replicate vs.length (zero sh z m))) =
      some (⟨rest, none⟩, .seq vs) := by
  have other : kind? sh m = none →
      elemsR (kind? sh m) x.auto ⟨bodies sh m vs ++ rest, none⟩ (.seq (List.replicate vs.length (zero sh z m))) =
        some (⟨rest, none⟩, .seq vs) := by
    intro hk
    rw [hk, bodies_eq]
    simp only [elemsR]
    rw [readEach_ok _ _ _ vs rest (fun v hv rest => (he v hv).au (fitAll_get hf v hv).2 rest)]
  cases hk : sh m with
  | scal k =>
    obtain ⟨h1, h2⟩ := scalars hk hf
    obtain ⟨z, rfl⟩ : ∃ y, z = y + 1 := ⟨z - 1, by omega⟩
    rw [h2]
    simp only [kind?, hk, elemsR, zero]
    rw [slValR_ok k vs rest h1]
  | _ => exact other (by simp [kind?, hk])

theorem readFlds_ok {a : Bool} (c : Nat → TR) (z : Nat) (fs : List (Option Pfx × Nat)) (rs : List Nat) (vs : List Val) (rest : Bytes)
    (hr : rs.length = fs.length) (hf : FitParts sh a fs vs)
    (h : ∀ (i : Nat) (p : Option Pfx) (m r : Nat) (v : Val), fs[i]? = some (p, m) → rs[i]? = some r → vs[i]? = some v → ROK sh (c r) z m v) :
    readFlds false (fields FR.mk c fs (List.replicate fs.length true) rs) ⟨parts sh fs vs ++ rest, none⟩
      (fs.map fun f => zero sh z f.2) = some (⟨rest, none⟩, vs) := by
  induction fs generalizing rs vs with
  | nil =>
    cases vs <;> simp only [FitParts] at hf
    rfl
  | cons f fs ih =>
    obtain ⟨p, m⟩ := f
    match rs, hr, vs, hf with
    | [], hr, _, _ => simp at hr
    | r :: rs, hr, [], hf => simp [FitParts] at hf
    | r :: rs, hr, v :: vs, hf =>
      simp only [FitParts] at hf
      have hv := h 0 p m r v rfl rfl rfl
      have one : ∀ rest, (FR.mk (c r) (dir p)).get false ⟨(lead sh p m v ++ body sh m v) ++ rest, none⟩ (zero sh z m) =
          some (⟨rest, none⟩, v) := by
        intro rest
        cases p with
        | none => exact hv.au hf.1.2 rest
        | some p => exact withCount_ok (c r) p hf.1.2.1 _ hf.1.2.2.2 _ _ v rest (hv.bc hf.1.2.2.1 rest)
      have := ih rs vs (by simpa using hr) hf.2
        (fun i p m r v k1 k2 k3 => h (i + 1) p m r v (by simpa using k1) (by simpa using k2) (by simpa using k3))
      simp only [List.length_cons, List.replicate_succ, fields, if_true, List.map_cons, readFlds, parts, List.append_assoc] at this one ⊢
      rw [one]
      simp only [this]

theorem rok_scal {n z : Nat} {s : Scal} (hn : sh n = .scal s.kind) : ROK sh (scalR s.kind) z n (.scal s) := by
  have key : ∀ rest d, (scalR s.kind).fixed ⟨scalBytes s ++ rest, none⟩ d = some (⟨rest, none⟩, .scal s) := by
    intro rest d; simp [scalR, Rd.scal_bytes]
  refine ⟨?_, ?_, ?_⟩
  · intro _ rest
    simp [full, pre, hn, Counts, body, orOwn, scalR, Rd.scal_bytes]
  · intro _ rest
    simp [TR.byCount, scalR, plainSetCount, number, body, hn, orOwn, Rd.scal_bytes]
  · intro _
    exact ⟨zero sh z n, by simp [scalR, plainSetCount, number, hn, orOwn], fun rest => by simpa [body, hn, orOwn] using key rest _⟩

theorem rok_str {n z : Nat} {b : Bytes} (hn : sh n = .str) : ROK sh strR z n (.str b) := by
  refine ⟨?_, ?_, by simp [hn, Target]⟩
  · intro hb rest
    have hb := hb.2 (by simp [hn, Counts])
    simp only [number, hn, orOwn] at hb
    have h4 := pfx_read .i32 (by decide) b.length hb (b ++ rest)
    have e : full sh n (.str b) ++ rest = pfxBytes .i32 b.length ++ (b ++ rest) := by
      simp [full, pre, hn, Counts, body, number, orOwn, pfxBytes]
    rw [e]
    simp only [strR, ne_eq, not_true_eq_false, if_false, h4]
    exact setString_ok b rest _
  · intro _ rest
    simp only [body, number, hn, orOwn]
    exact setString_ok b rest (zero sh z n)

theorem rok_arr {a : Bool} {n m k z z' : Nat} {x : TR} {vs : List Val} (hz : z ≠ 0) (hz' : z' = z + 1) (hn : sh n = .arr k m) (hf : Fit sh a n (.seq vs))
    (he : ∀ v ∈ vs, ROK sh x z m v) : ROK sh (arrR k (kind? sh m) x) z' n (.seq vs) := by
  subst hz'
  simp only [Fit, hn, orOwn] at hf
  have key := elemsR_fit hz hf.2.2 he
  rw [hf.1] at key
  have nm : number sh n (.seq vs) = k := by simp [number, hn, hf.1, orOwn]
  have zr : zero sh (z + 1) n = .seq (List.replicate k (zero sh z m)) := by simp [zero, hn]
  refine ⟨?_, ?_, ?_⟩
  · intro _ rest; rw [zr]; simpa [arrR, full, pre, body, hn, Counts, orOwn] using key rest
  · intro _ rest; rw [zr, nm]; simpa [arrR, TR.byCount, plainSetCount, body, hn, orOwn] using key rest
  · intro _
    refine ⟨zero sh (z + 1) n, by rw [nm]; simp [arrR, plainSetCount], ?_⟩
    intro rest; rw [zr]; simpa [arrR, body, hn, orOwn] using key rest

theorem rok_sl {a : Bool} {n m z z' : Nat} {x : TR} {vs : List Val} (hz : z ≠ 0) (hz' : z' ≠ 0) (hn : sh n = .sl m) (hf : Fit sh a n (.seq vs))
    (he : ∀ v ∈ vs, ROK sh x z m v) : ROK sh (slR (kind? sh m) (zero sh z m) x) z' n (.seq vs) := by
  simp only [Fit, hn, orOwn] at hf
  have key := elemsR_fit hz hf.2.2 he
  have nm : number sh n (.seq vs) = vs.length := by simp [number, hn, orOwn]
  have bd : body sh n (.seq vs) = bodies sh m vs := by simp [body, hn, orOwn]
  have zr : zero sh z' n = .seq [] := by
    obtain ⟨y, rfl⟩ : ∃ y, z' = y + 1 := ⟨z' - 1, by omega⟩
    simp [zero, hn]
  have bc : ∀ rest, (slR (kind? sh m) (zero sh z m) x).byCount vs.length ⟨bodies sh m vs ++ rest, none⟩ (.seq []) =
      some (⟨rest, none⟩, .seq vs) := by
    intro rest
    by_cases c : kind? sh m = some .u8
    · have hk : sh m = .scal .u8 := by
        unfold kind? at c
        split at c
        · rename_i k hk; cases c; exact hk
        · cases c
      obtain ⟨h1, h2⟩ := scalars hk hf.2.2
      have h3 := u8_back vs h1
      have h := slR_byCount8 (zero sh z m) x (bodies sh m vs) (.seq []) rest
      rw [h2, h3.1, h3.2] at h
      rw [c, h2]
      exact h
    · exact slR_byCount _ _ _ _ _ _ c hf.1 key rest
  refine ⟨?_, ?_, ?_⟩
  · intro hb rest
    have hb := hb.2 (by simp [hn, Counts])
    rw [nm] at hb
    rw [zr]
    have := withCount_ok (slR (kind? sh m) (zero sh z m) x) .i32 (by decide) vs.length hb (bodies sh m vs) (.seq []) (.seq vs) rest (bc rest)
    have e : full sh n (.seq vs) = pfxBytes .i32 vs.length ++ bodies sh m vs := by
      simp [full, pre, hn, Counts, nm, bd, pfxBytes]
    rw [e]
    exact this
  · intro _ rest; rw [zr, nm, bd]; exact bc rest
  · intro _
    refine ⟨.seq (List.replicate vs.length (zero sh z m)), ?_, fun rest => by rw [bd]; exact key rest⟩
    rw [zr, nm]
    simp only [slR, TR.autoCnt, slSetCount, makeSlice_ok _ _ hf.1]

theorem rok_struct {a : Bool} {n z z' : Nat} {sz : Int} {c : Nat → TR} {fs : List (Option Pfx × Nat)} {rs : List Nat} {vs : List Val}
    (hz' : z' = z + 1) (hn : sh n = .struct fs) (hf : Fit sh a n (.seq vs)) (hr : rs.length = fs.length)
    (h : ∀ (i : Nat) (p : Option Pfx) (m r : Nat) (v : Val), fs[i]? = some (p, m) → rs[i]? = some r → vs[i]? = some v → ROK sh (c r) z m v) :
    ROK sh (structR sz (fields FR.mk c fs (List.replicate fs.length true) rs)) z' n (.seq vs) := by
  subst hz'
  simp only [Fit, hn, orOwn] at hf
  have key := fun rest => readFlds_ok c z fs rs vs rest hr hf h
  have zr : zero sh (z + 1) n = .seq (fs.map fun f => zero sh z f.2) := by simp [zero, hn]
  refine ⟨?_, ?_, ?_⟩
  · intro _ rest; rw [zr]; simp [structR, full, pre, body, hn, Counts, orOwn, key rest]
  · intro _ rest; rw [zr]; simp [structR, TR.byCount, plainSetCount, number, body, hn, orOwn, key rest]
  · intro _
    refine ⟨zero sh (z + 1) n, by simp [structR, plainSetCount, number, hn, orOwn], ?_⟩
    intro rest; rw [zr]; simp [structR, body, hn, orOwn, key rest]

theorem rok_nil {n m z : Nat} {x : TR} {u : Val} (hn : sh n = .ptr m) : ROK sh (ptrR u x) z n .nilp := by
  refine ⟨?_, ?_, by simp [hn, Target]⟩
  · intro hb; simp [Bare, hn, IsPtr] at hb
  · intro _ rest; simp [TR.byCount, ptrR, number, body, hn, orOwn]

theorem rok_ref {a : Bool} {n m z z' : Nat} {x : TR} {v : Val} (hz' : z' ≠ 0) (hn : sh n = .ptr m) (hf : Fit sh a n (.ref v))
    (he : ROK sh x z m v) : ROK sh (ptrR (zero sh z m) x) z' n (.ref v) := by
  simp only [Fit, hn, orOwn] at hf
  obtain ⟨h1, h3, h4⟩ := hf
  have zr : zero sh z' n = .nilp := by
    obtain ⟨y, rfl⟩ : ∃ y, z' = y + 1 := ⟨z' - 1, by omega⟩
    simp [zero, hn]
  have nm : number sh n (.ref v) = number sh m v := by simp [number, hn, orOwn]
  have bd : body sh n (.ref v) = body sh m v := by simp [body, hn, orOwn]
  refine ⟨?_, ?_, by simp [hn, Target]⟩
  · intro hb; simp [Bare, hn, IsPtr] at hb
  · intro _ rest
    obtain ⟨u, k1, k2⟩ := he.sc h1
    rw [zr, nm, bd]
    have h3' : ¬ (number sh m v : Int) = 0 := by omega
    simp only [TR.byCount, ptrR, h3', if_false, k1, k2 rest]

theorem rok_own {a : Bool} {n z : Nat} {o : Own} {v : Val} (hz : z ≠ 0) (hn : sh n = .own o) (hf : Fit sh a n v) : ROK sh (ownR o) z n v := by
  obtain ⟨h1, h2, _⟩ := fit_own hn hf
  have hc := cntGet_alike h1
  obtain ⟨w, r, hw, hr, halike⟩ := h1
  have hci : o.icount.isSome = o.isetcount.isSome := by
    rcases halike with ⟨k1, k2⟩ | ⟨c, s, k1, k2, _⟩ <;> simp [k1, k2]
  obtain ⟨l, hl⟩ := form_some r
  have zr : zero sh z n = o.zero := by
    obtain ⟨y, rfl⟩ : ∃ y, z = y + 1 := ⟨z - 1, by omega⟩
    simp [zero, hn]
  rw [Inverse] at h2
  cases hi : o.isetcount.isSome with
  | true =>
    have hs : o.cntSet = true := by rw [hc.2, hi]
    simp only [hi, if_true] at h2
    obtain ⟨u, k1, k2⟩ := h2
    have bc : ∀ rest, (ownR o).byCount (o.count v) ⟨o.enc v ++ rest, none⟩ o.zero = some (⟨rest, none⟩, v) := by
      intro rest
      simp [ownR, hr, hl, hs, TR.autoCnt, TR.byCount, k1, k2]
    refine ⟨?_, ?_, by simp [hn, Target]⟩
    · intro hb rest
      have hb := hb.2 (by simp [hn, Counts, hci, hi])
      rw [number_own hn] at hb
      have := withCount_ok (ownR o) .i32 (by decide) (o.count v) hb (o.enc v) o.zero v rest (bc rest)
      have e1 : (ownR o).auto = (ownR o).withCount .i32 := by
        simp [ownR, hr, hl, hs, TR.autoCnt]
        rfl
      have e2 : full sh n v = pfxBytes .i32 (o.count v) ++ o.enc v := by
        simp [full, pre, hn, Counts, hci, hi, number_own hn, body_own hn, pfxBytes]
      rw [e1, e2, zr]
      exact this
    · intro _ rest
      rw [number_own hn, body_own hn, zr]
      exact bc rest
  | false =>
    have hs : o.cntSet = false := by rw [hc.2, hi]
    simp only [hi, Bool.false_eq_true, if_false] at h2
    refine ⟨?_, ?_, by simp [hn, Target]⟩
    · intro hb rest
      have e1 : (ownR o).auto = o.read := by simp [ownR, hr, hl, hs]
      have e2 : full sh n v = o.enc v := by simp [full, pre, hn, Counts, hci, hi, body_own hn]
      rw [e1, e2, zr]
      exact h2 rest
    · intro h; simp [hn, Countable, hci, hi] at h

theorem reader_ok {s : St Nat Att} (hi : Inv s) (hl : Link (readers sh) (Sane sh) s) (v : Val) (a : Bool) (n c : Nat) (hf : Fit sh a n v)
    (hp : Pub s c n) : ∃ d0, ∀ d, d0 ≤ d → ROK sh (reader sh s d c) d n v := by
  refine descend (W := fun d _ c n v => ROK sh (reader sh s d c) d n v) hi hl ⟨?_, ?_, ?_, ?_, ?_, ?_, ?_, ?_⟩ v a n c hf hp
  · intro d a c n x o v hx hty hn hf
    simp only [reader, hx, hty, hn]; exact rok_own (by omega) hn hf
  · intro d a c n x z hx hty hn
    simp only [reader, hx, hty, hn]; exact rok_scal hn
  · intro d a c n x b hx hty hn
    simp only [reader, hx, hty, hn]; exact rok_str hn
  · intro d a c n x k m r vs hx hty hn hr hf he h0
    simp only [reader, hx, hty, hn, hr]; exact rok_arr h0 rfl hn hf he
  · intro d a c n x m r vs hx hty hn hr hf he h0
    simp only [reader, hx, hty, hn, hr]; exact rok_sl h0 (by omega) hn hf he
  · intro d a c n x fs vs hx hty hn hr hinc hf he
    simp only [reader, hx, hty, hn, hinc]; exact rok_struct rfl hn hf (by simpa using hr) he
  · intro d a c n x m r hx hty hn hr
    simp only [reader, hx, hty, hn, hr]; exact rok_nil hn
  · intro d a c n x m r v hx hty hn hr hf he
    simp only [reader, hx, hty, hn, hr]; exact rok_ref (by omega) hn hf he

end Verif.RecType
