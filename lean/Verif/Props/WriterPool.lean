import Verif.Proofs.WriterPool

/-! C106: pooled writers. -/
namespace Verif.WriterPool
open Verif.Marshal Verif.Spec
open Verif.Props (run_step)

/-- The writer of a goroutine. -/
def holds : PC → Option Wtr
  | .idle => none
  | .writing w _ => some w
  | .taken w => some w

/-- What is in a writer is what was written. -/
def Content (m : Mem) : PC → Prop
  | .idle => True
  | .writing w log => (∀ o ∈ log, notF64sl o) → m.view w.buf = written log
  | .taken w => w.buf.len = 0

structure Inv (s : St) : Prop where
  pwf : ∀ w ∈ s.pool, s.mem.Wf w.buf
  bwf : ∀ g w, holds (s.pc g) = some w → s.mem.Wf w.buf
  rwf : ∀ r ∈ s.res, s.mem.Wf r.s
  pp : s.pool.Pairwise (fun a b => apart a.buf b.buf)
  pb : ∀ a ∈ s.pool, ∀ g w, holds (s.pc g) = some w → apart a.buf w.buf
  pr : ∀ a ∈ s.pool, ∀ r ∈ s.res, apart a.buf r.s
  bb : ∀ g h v w, g ≠ h → holds (s.pc g) = some v → holds (s.pc h) = some w → apart v.buf w.buf
  br : ∀ g w, holds (s.pc g) = some w → ∀ r ∈ s.res, apart w.buf r.s
  rr : s.res.Pairwise (fun a b => apart a.s b.s)
  empty : ∀ w ∈ s.pool, w.buf.len = 0
  cont : ∀ g, Content s.mem (s.pc g)
  exp : ∀ r ∈ s.res, (∀ o ∈ r.log, notF64sl o) → s.mem.view r.s = expected r
  cap : ∀ r ∈ s.res, r.s.cap = r.s.len

theorem inv_init : Inv init := by
  constructor <;> simp [init, holds, Content]

/-- A goroutine without a writer gets one nobody has, or drops the one it has. -/
theorem inv_pc {s : St} (i : Inv s) (g : Nat) (p : PC) (pool : List Wtr) (hp : pool.Sublist s.pool)
    (h1 : ∀ w, holds p = some w → s.mem.Wf w.buf) (h2 : ∀ w, holds p = some w → ∀ a ∈ pool, apart a.buf w.buf)
    (h3 : ∀ w, holds p = some w → ∀ h, h ≠ g → ∀ v, holds (s.pc h) = some v → apart w.buf v.buf)
    (h4 : ∀ w, holds p = some w → ∀ r ∈ s.res, apart w.buf r.s) (h5 : Content s.mem p) : Inv { s.go g p with pool := pool } := by
  have hm := hp.subset
  constructor
  · exact fun w hw => i.pwf w (hm hw)
  · intro h w hw
    simp only [St.go] at hw
    split at hw
    · exact h1 w hw
    · exact i.bwf h w hw
  · exact i.rwf
  · exact i.pp.sublist hp
  · intro a ha h w hw
    simp only [St.go] at hw
    split at hw
    · exact h2 w hw a ha
    · exact i.pb a (hm ha) h w hw
  · exact fun a ha => i.pr a (hm ha)
  · intro k h v w hne hv hw
    simp only [St.go] at hv hw
    split at hv <;> split at hw
    · omega
    · rename_i hk hh; exact h3 v hv h hh w hw
    · rename_i hk hh; exact apart_symm (h3 w hw k hk v hv)
    · exact i.bb k h v w hne hv hw
  · intro h w hw
    simp only [St.go] at hw
    split at hw
    · exact h4 w hw
    · exact i.br h w hw
  · exact i.rr
  · exact fun w hw => i.empty w (hm hw)
  · intro h
    simp only [St.go]
    split
    · exact h5
    · exact i.cont h
  · exact i.exp
  · exact i.cap

theorem content_eq {m m' : Mem} {p : PC} (h : Content m p) (e : ∀ w, holds p = some w → m'.view w.buf = m.view w.buf) : Content m' p := by
  cases p <;> simp_all [Content, holds]

/-- A writer does something to its own bytes. -/
theorem inv_write {s : St} (i : Inv s) (g : Nat) (w w' : Wtr) (m' : Mem) (p : PC) (hg : holds (s.pc g) = some w) (hp : holds p = some w')
    (k : Keeps (s.wr w) ⟨m', w'.buf, w'.defSize⟩) (hok : m'.Wf w'.buf) (hc : Content m' p) : Inv { s.go g p with mem := m' } := by
  have kp : ∀ a ∈ s.pool, m'.Wf a.buf ∧ apart a.buf w'.buf ∧ m'.view a.buf = s.mem.view a.buf :=
    fun a ha => k a.buf (i.pwf a ha) (i.pb a ha g w hg)
  have kb : ∀ h v, h ≠ g → holds (s.pc h) = some v → m'.Wf v.buf ∧ apart v.buf w'.buf ∧ m'.view v.buf = s.mem.view v.buf :=
    fun h v hh hv => k v.buf (i.bwf h v hv) (i.bb h g v w hh hv hg)
  have kr : ∀ r ∈ s.res, m'.Wf r.s ∧ apart r.s w'.buf ∧ m'.view r.s = s.mem.view r.s :=
    fun r hr => k r.s (i.rwf r hr) (apart_symm (i.br g w hg r hr))
  constructor
  · exact fun a ha => (kp a ha).1
  · intro h v hv
    simp only [St.go] at hv
    split at hv
    · rw [hp] at hv; cases hv; exact hok
    · rename_i hh; exact (kb h v hh hv).1
  · exact fun r hr => (kr r hr).1
  · exact i.pp
  · intro a ha h v hv
    simp only [St.go] at hv
    split at hv
    · rw [hp] at hv; cases hv; exact (kp a ha).2.1
    · exact i.pb a ha h v hv
  · exact i.pr
  · intro k' h v v' hne hv hv'
    simp only [St.go] at hv hv'
    split at hv <;> split at hv'
    · omega
    · rename_i hk hh; rw [hp] at hv; cases hv; exact apart_symm (kb h v' hh hv').2.1
    · rename_i hk hh; rw [hp] at hv'; cases hv'; exact (kb k' v hk hv).2.1
    · exact i.bb k' h v v' hne hv hv'
  · intro h v hv r hr
    simp only [St.go] at hv
    split at hv
    · rw [hp] at hv; cases hv; exact apart_symm (kr r hr).2.1
    · exact i.br h v hv r hr
  · exact i.rr
  · exact i.empty
  · intro h
    simp only [St.go]
    split
    · exact hc
    · rename_i hh; exact content_eq (i.cont h) (fun v hv => (kb h v hh hv).2.2)
  · intro r hr hn
    show m'.view r.s = _
    rw [(kr r hr).2.2]; exact i.exp r hr hn
  · exact i.cap

/-- `Written`. -/
theorem inv_out {s : St} (i : Inv s) (g : Nat) (w : Wtr) (log : List WOp) (p : PC) (hg : s.pc g = .writing w log)
    (hp : holds p = some (s.out w log).1) (hc : Content s.mem p) : Inv { s.go g p with res := (s.out w log).2 } := by
  have hh : holds (s.pc g) = some w := by rw [hg]; rfl
  have hwf := i.bwf g w hh
  have kc := i.cont g
  rw [hg] at kc
  have sub : ∀ t, apart t w.buf → apart t (s.out w log).1.buf ∧ apart t (s.wr w).written.2 := by
    intro t ht
    have := hwf.1
    constructor <;> simp only [apart, St.out, St.wr, Wr.written, Slc.from', Slc.range3] at ht ⊢ <;> omega
  have self : apart (s.out w log).1.buf (s.wr w).written.2 := by
    simp only [apart, St.out, St.wr, Wr.written, Slc.from', Slc.range3]; omega
  have wf1 : s.mem.Wf (s.out w log).1.buf := by
    have := hwf.1; have := hwf.2
    constructor <;> simp only [St.out, St.wr, Wr.written, Slc.from'] <;> omega
  have wf2 : s.mem.Wf (s.wr w).written.2 := by
    have := hwf.1; have := hwf.2
    constructor <;> simp only [St.wr, Wr.written, Slc.range3] <;> omega
  have vw : s.mem.view (s.wr w).written.2 = s.mem.view w.buf := by
    simp [St.wr, Wr.written, Slc.range3, Mem.view]
  constructor
  · exact i.pwf
  · intro h v hv
    simp only [St.go] at hv
    split at hv
    · rw [hp] at hv; cases hv; exact wf1
    · exact i.bwf h v hv
  · intro r hr
    simp only [St.out, List.mem_append, List.mem_singleton] at hr
    rcases hr with hr | rfl
    · exact i.rwf r hr
    · exact wf2
  · exact i.pp
  · intro a ha h v hv
    simp only [St.go] at hv
    split at hv
    · rw [hp] at hv; cases hv; exact (sub _ (i.pb a ha g w hh)).1
    · exact i.pb a ha h v hv
  · intro a ha r hr
    simp only [St.out, List.mem_append, List.mem_singleton] at hr
    rcases hr with hr | rfl
    · exact i.pr a ha r hr
    · exact (sub _ (i.pb a ha g w hh)).2
  · intro k' h v v' hne hv hv'
    simp only [St.go] at hv hv'
    split at hv <;> split at hv'
    · omega
    · rename_i hk hk'; rw [hp] at hv; cases hv; exact apart_symm (sub _ (i.bb h g v' w hk' hv' hh)).1
    · rename_i hk hk'; rw [hp] at hv'; cases hv'; exact (sub _ (i.bb k' g v w hk hv hh)).1
    · exact i.bb k' h v v' hne hv hv'
  · intro h v hv r hr
    simp only [St.go] at hv
    simp only [St.out, List.mem_append, List.mem_singleton] at hr
    split at hv
    · rw [hp] at hv; cases hv
      rcases hr with hr | rfl
      · exact apart_symm (sub _ (apart_symm (i.br g w hh r hr))).1
      · exact self
    · rename_i hne
      rcases hr with hr | rfl
      · exact i.br h v hv r hr
      · exact (sub _ (i.bb h g v w hne hv hh)).2
  · show (s.out w log).2.Pairwise _
    simp only [St.out, List.pairwise_append, List.pairwise_singleton, List.mem_singleton, true_and]
    refine ⟨i.rr, ?_⟩
    rintro a ha _ rfl
    exact (sub _ (apart_symm (i.br g w hh a ha))).2
  · exact i.empty
  · intro h
    simp only [St.go]
    split
    · exact hc
    · exact i.cont h
  · intro r hr hn
    simp only [St.out, List.mem_append, List.mem_singleton] at hr
    rcases hr with hr | rfl
    · exact i.exp r hr hn
    · show s.mem.view (s.wr w).written.2 = written log
      rw [vw]; exact kc hn
  · intro r hr
    simp only [St.out, List.mem_append, List.mem_singleton] at hr
    rcases hr with hr | rfl
    · exact i.cap r hr
    · simp [St.wr, Wr.written, Slc.range3]

theorem edited_snoc (b : Bytes) (es : List (Nat × Bytes)) (p : Nat) (d : Bytes) :
    edited b (es ++ [(p, d)]) = overwrite (edited b es) p d := by
  induction es generalizing b with
  | nil => rfl
  | cons e es ih => obtain ⟨q, c⟩ := e; exact ih _

theorem res_apart {s : St} (i : Inv s) (j k : Nat) (a b : Res) (hj : s.res[j]? = some a) (hk : s.res[k]? = some b) (hne : j ≠ k) :
    apart a.s b.s := by
  obtain ⟨hj1, hj2⟩ := List.getElem?_eq_some_iff.mp hj
  obtain ⟨hk1, hk2⟩ := List.getElem?_eq_some_iff.mp hk
  subst hj2 hk2
  have := List.pairwise_iff_getElem.mp i.rr
  rcases Nat.lt_or_gt_of_ne hne with h | h
  · exact this j k hj1 hk1 h
  · exact apart_symm (this k j hk1 hj1 h)

/-- The owner changes a result. -/
theorem inv_edit {s : St} (i : Inv s) (k pos : Nat) (d : Bytes) (r : Res) (hk : s.res[k]? = some r) (hd : pos + d.length ≤ r.s.len) :
    Inv { s with mem := s.mem.store r.s.blk (r.s.off + pos) d, res := s.res.set k { r with edits := r.edits ++ [(pos, d)] } } := by
  have hr : r ∈ s.res := List.mem_of_getElem? hk
  have hwf := i.rwf r hr
  have keep := fun t => store_keeps s.mem r.s hwf pos d (by have := hwf.1; omega) t
  have kp := fun a ha => keep a.buf (i.pwf a ha) (i.pr a ha r hr)
  have kb := fun h v hv => keep v.buf (i.bwf h v hv) (i.br h v hv r hr)
  have mem : ∀ x ∈ s.res.set k { r with edits := r.edits ++ [(pos, d)] }, (∃ j y, s.res[j]? = some y ∧ j ≠ k ∧ x = y) ∨ x = { r with edits := r.edits ++ [(pos, d)] } := by
    intro x hx
    obtain ⟨j, hj⟩ := List.mem_iff_getElem?.mp hx
    rw [List.getElem?_set] at hj
    split at hj
    · split at hj
      · right; cases hj; rfl
      · cases hj
    · left; exact ⟨j, x, hj, by omega, rfl⟩
  have slc : ∀ x ∈ s.res.set k { r with edits := r.edits ++ [(pos, d)] }, ∃ y ∈ s.res, x.s = y.s := by
    intro x hx
    rcases mem x hx with ⟨j, y, hj, _, rfl⟩ | rfl
    · exact ⟨_, List.mem_of_getElem? hj, rfl⟩
    · exact ⟨r, hr, rfl⟩
  constructor
  · exact fun a ha => (kp a ha).1
  · exact fun h v hv => (kb h v hv).1
  · intro x hx
    obtain ⟨y, hy, e⟩ := slc x hx
    show Mem.Wf _ x.s
    rw [e]
    exact Mem.Wf_store _ _ _ _ _ (by have := hwf.1; have := hwf.2; omega) (i.rwf y hy)
  · exact i.pp
  · exact i.pb
  · intro a ha x hx
    obtain ⟨y, hy, e⟩ := slc x hx
    rw [e]; exact i.pr a ha y hy
  · exact i.bb
  · intro h w hw x hx
    obtain ⟨y, hy, e⟩ := slc x hx
    rw [e]; exact i.br h w hw y hy
  · have e : (s.res.set k { r with edits := r.edits ++ [(pos, d)] }).map (·.s) = s.res.map (·.s) := by
      rw [List.map_set]
      apply List.ext_getElem?
      intro j
      rw [List.getElem?_set]
      split
      · rename_i hj
        subst hj
        split
        · simp [hk]
        · rename_i hl; rw [List.getElem?_eq_none (by omega)]
      · rfl
    have q : (s.res.map (·.s)).Pairwise apart := List.pairwise_map.mpr i.rr
    rw [← e] at q
    exact List.pairwise_map.mp q
  · exact i.empty
  · exact fun h => content_eq (i.cont h) (fun v hv => (kb h v hv).2)
  · intro x hx hn
    show Mem.view _ x.s = _
    rcases mem x hx with ⟨j, y, hj, hne, rfl⟩ | rfl
    · have hy := List.mem_of_getElem? hj
      rw [(keep x.s (i.rwf x hy) (res_apart i j k x r hj hk hne)).2]
      exact i.exp x hy hn
    · show Mem.view _ r.s = _
      rw [Mem.view_store_inside _ _ _ _ hwf hd, i.exp r hr hn]
      exact (edited_snoc _ _ _ _).symm
  · intro x hx
    obtain ⟨y, hy, e⟩ := slc x hx
    rw [e]; exact i.cap y hy

theorem op_data (w w' : Wr) (ss : List Slc) (o : WOp) (h : w.Ok) (ht : wellTyped o) (h1 : o ≠ .written) (h2 : o ≠ .reset)
    (e : o.run w = some (w', ss)) : w'.Ok ∧ (notF64sl o → w'.pending = w.pending ++ opBytes o) := by
  obtain ⟨v, vs, hv, ok, _, _, _, hd⟩ := run_step w h o ht
  rw [e] at hv
  cases hv
  refine ⟨ok, fun hn => ?_⟩
  have := hd hn []
  cases o <;> simp_all [wrun]

theorem perm_erase {α : Type} (l : List α) (k : Nat) (h : k < l.length) : l.Perm (l[k] :: l.eraseIdx k) := by
  induction l generalizing k with
  | nil => cases h
  | cons x l ih =>
    cases k with
    | zero => exact List.Perm.refl _
    | succ k => exact (List.Perm.cons x (ih k (by simpa using h))).trans (List.Perm.swap _ _ _)

theorem inv_step (s s' : St) (c : Choice) (ht : Typed c) (h : step s c = some s') (i : Inv s) : Inv s' := by
  cases c with
  | new g d =>
    simp only [step] at h
    split at h <;> cases h
    rename_i hp
    refine inv_pc i g _ s.pool (List.Sublist.refl _) ?_ ?_ ?_ ?_ ?_
    · rintro w ⟨⟩; simp [Mem.Wf, Slc.nil]
    · rintro w ⟨⟩ a ha
      show apart _ Slc.nil
      exact Or.inr (Or.inr (by simp [Slc.nil]))
    · rintro w ⟨⟩ h _ v hv
      show apart Slc.nil _
      exact Or.inr (Or.inl (by simp [Slc.nil]))
    · rintro w ⟨⟩ r hr
      show apart Slc.nil _
      exact Or.inr (Or.inl (by simp [Slc.nil]))
    · intro _; rfl
  | get g k =>
    simp only [step] at h
    split at h <;> cases h
    rename_i w hp hk
    have hw : w ∈ s.pool := List.mem_of_getElem? hk
    have hperm : s.pool.Perm (w :: s.pool.eraseIdx k) := by
      obtain ⟨hl, e⟩ := List.getElem?_eq_some_iff.mp hk
      subst e
      exact perm_erase s.pool k hl
    have hpw : (w :: s.pool.eraseIdx k).Pairwise (fun a b => apart a.buf b.buf) :=
      i.pp.perm hperm (fun h => apart_symm h)
    refine inv_pc i g _ _ (List.eraseIdx_sublist _ _) ?_ ?_ ?_ ?_ ?_
    · rintro v ⟨⟩; exact i.pwf w hw
    · rintro v ⟨⟩ a ha; exact apart_symm ((List.pairwise_cons.mp hpw).1 a ha)
    · rintro v ⟨⟩ h _ v' hv'; exact i.pb w hw h v' hv'
    · rintro v ⟨⟩ r hr; exact i.pr w hw r hr
    · intro _
      rw [Mem.view_len_zero _ _ (i.empty w hw)]; rfl
  | op g o =>
    simp only [step] at h
    split at h
    · rename_i w log hp
      have hh : holds (s.pc g) = some w := by rw [hp]; rfl
      have hok : (s.wr w).Ok := i.bwf g w hh
      have kc := i.cont g
      rw [hp] at kc
      split at h
      · cases h
      · cases h
      · rename_i h1 h2
        split at h
        · cases h
        · rename_i w' ss e
          cases h
          have k := op_keeps _ _ _ o hok h1 h2 e
          obtain ⟨ok', hd⟩ := op_data _ _ _ o hok ht h1 h2 e
          refine inv_write i g w ⟨w'.buf, w'.defSize⟩ w'.mem _ hh rfl k ok' ?_
          intro hn
          have e1 := hd (hn o (by simp))
          have e2 := kc (fun x hx => hn x (by simp [hx]))
          show w'.pending = _
          rw [e1]
          show s.mem.view w.buf ++ _ = _
          rw [e2]
          simp [written]
    · cases h
  | written g =>
    simp only [step] at h
    split at h <;> cases h
    rename_i w log hp
    refine inv_out i g w log _ hp rfl ?_
    intro _
    rw [Mem.view_len_zero _ _ (by simp [St.out, Wr.written, Slc.from'])]; rfl
  | reset g =>
    simp only [step] at h
    split at h <;> cases h
    rename_i w log hp
    have hh : holds (s.pc g) = some w := by rw [hp]; rfl
    have := inv_write i g w ⟨(s.wr w).reset.buf, w.defSize⟩ s.mem (.writing ⟨(s.wr w).reset.buf, w.defSize⟩ []) hh rfl
      (fun t ht ha => ⟨ht, ha, rfl⟩) ⟨Nat.zero_le _, (i.bwf g w hh).2⟩ (fun _ => by rw [Mem.view_len_zero _ _ rfl]; rfl)
    exact this
  | take g =>
    simp only [step] at h
    split at h <;> cases h
    rename_i w log hp
    refine inv_out i g w log _ hp rfl ?_
    simp [Content, St.out, Wr.written, Slc.from']
  | put g =>
    simp only [step] at h
    split at h <;> cases h
    rename_i w hp
    have hh : holds (s.pc g) = some w := by rw [hp]; rfl
    have kc := i.cont g
    rw [hp] at kc
    have j := inv_pc i g .idle s.pool (List.Sublist.refl _) (by rintro w ⟨⟩) (by rintro w ⟨⟩) (by rintro w ⟨⟩) (by rintro w ⟨⟩) trivial
    have hnone : ∀ h v, holds ((s.go g .idle).pc h) = some v → h ≠ g ∧ holds (s.pc h) = some v := by
      intro h v hv
      simp only [St.go] at hv
      split at hv
      · cases hv
      · rename_i hh; exact ⟨hh, hv⟩
    constructor
    · intro a ha
      rcases List.mem_append.mp ha with ha | ha
      · exact i.pwf a ha
      · rw [List.mem_singleton.mp ha]; exact i.bwf g w hh
    · exact j.bwf
    · exact j.rwf
    · show (s.pool ++ [w]).Pairwise _
      simp only [List.pairwise_append, List.pairwise_singleton, List.mem_singleton, true_and]
      refine ⟨i.pp, ?_⟩
      rintro a ha _ rfl
      exact i.pb a ha g _ hh
    · intro a ha h v hv
      rcases List.mem_append.mp ha with ha | ha
      · exact j.pb a ha h v hv
      · rw [List.mem_singleton.mp ha]
        obtain ⟨hne, hv'⟩ := hnone h v hv
        exact i.bb g h w v (Ne.symm hne) hh hv'
    · intro a ha r hr
      rcases List.mem_append.mp ha with ha | ha
      · exact i.pr a ha r hr
      · rw [List.mem_singleton.mp ha]; exact i.br g w hh r hr
    · exact j.bb
    · exact j.br
    · exact j.rr
    · intro a ha
      rcases List.mem_append.mp ha with ha | ha
      · exact i.empty a ha
      · rw [List.mem_singleton.mp ha]; exact kc
    · exact j.cont
    · exact j.exp
    · exact j.cap
  | crash g =>
    cases h
    exact inv_pc i g .idle s.pool (List.Sublist.refl _) (by rintro w ⟨⟩) (by rintro w ⟨⟩) (by rintro w ⟨⟩) (by rintro w ⟨⟩) trivial
  | drop k =>
    cases h
    obtain ⟨i1, i2, i3, i4, i5, i6, i7, i8, i9, i10, i11, i12, i13⟩ := i
    have hm := (List.eraseIdx_sublist s.pool k).subset
    exact ⟨fun w hw => i1 w (hm hw), i2, i3, i4.sublist (List.eraseIdx_sublist _ _), fun a ha => i5 a (hm ha), fun a ha => i6 a (hm ha),
      i7, i8, i9, fun w hw => i10 w (hm hw), i11, i12, i13⟩
  | edit k pos d =>
    simp only [step] at h
    split at h
    · cases h
    · rename_i r hk
      split at h
      · rename_i hd
        cases h
        exact inv_edit i k pos d r hk hd
      · cases h

theorem inv_run (s s' : St) (cs : List Choice) (ht : ∀ c ∈ cs, Typed c) (h : run s cs = some s') (i : Inv s) : Inv s' := by
  induction cs generalizing s with
  | nil => cases h; exact i
  | cons c cs ih =>
    simp only [run] at h
    split at h
    · cases h
    · rename_i s1 h1
      exact ih s1 (fun x hx => ht x (by simp [hx])) h (inv_step s s1 c (ht c (by simp)) h1 i)

/-- C106 (partial: `Float64sl` of two or more elements writes something else, C17). At any moment of any execution, every result
ever returned holds what its own call wrote, with the changes its owner made. -/
theorem C106_content_partial (cs : List Choice) (ht : ∀ c ∈ cs, Typed c) (s : St) (h : run init cs = some s) (r : Res) (hr : r ∈ s.res)
    (hn : ∀ o ∈ r.log, notF64sl o) : s.mem.view r.s = expected r :=
  (inv_run _ _ cs ht h inv_init).exp r hr hn

/-- Whatever was written: two results share no bytes, and no writer, in use or in the pool, can reach a result. -/
theorem C106_apart (cs : List Choice) (ht : ∀ c ∈ cs, Typed c) (s : St) (h : run init cs = some s) :
    (∀ (j k : Nat) (a b : Res), s.res[j]? = some a → s.res[k]? = some b → j ≠ k → apart a.s b.s) ∧
    (∀ r ∈ s.res, r.s.cap = r.s.len ∧ (∀ w ∈ s.pool, apart w.buf r.s) ∧
      ∀ g w log, s.pc g = .writing w log ∨ s.pc g = .taken w → apart w.buf r.s) := by
  have i := inv_run _ _ cs ht h inv_init
  refine ⟨fun j k a b => res_apart i j k a b, fun r hr => ⟨i.cap r hr, fun w hw => i.pr w hw r hr, ?_⟩⟩
  intro g w log hg
  refine i.br g w ?_ r hr
  rcases hg with hg | hg <;> rw [hg] <;> rfl

theorem step_view (s s' : St) (c : Choice) (ht : Typed c) (h : step s c = some s') (i : Inv s) (k : Nat) (r : Res) (hk : s.res[k]? = some r)
    (hc : ∀ pos d, c ≠ .edit k pos d) : s'.res[k]? = some r ∧ s'.mem.view r.s = s.mem.view r.s := by
  have hr : r ∈ s.res := List.mem_of_getElem? hk
  have hlt : k < s.res.length := (List.getElem?_eq_some_iff.mp hk).1
  cases c with
  | new g d => simp only [step] at h; split at h <;> cases h; exact ⟨hk, rfl⟩
  | get g j => simp only [step] at h; split at h <;> cases h; exact ⟨hk, rfl⟩
  | op g o =>
    simp only [step] at h
    split at h
    · rename_i w log hp
      have hh : holds (s.pc g) = some w := by rw [hp]; rfl
      split at h
      · cases h
      · cases h
      · rename_i h1 h2
        split at h
        · cases h
        · rename_i w' ss e
          cases h
          exact ⟨hk, (op_keeps (s.wr w) _ _ o (i.bwf g w hh) h1 h2 e r.s (i.rwf r hr) (apart_symm (i.br g w hh r hr))).2.2⟩
    · cases h
  | written g =>
    simp only [step] at h; split at h <;> cases h
    exact ⟨by simp [St.out, List.getElem?_append_left hlt, hk], rfl⟩
  | reset g => simp only [step] at h; split at h <;> cases h; exact ⟨hk, rfl⟩
  | take g =>
    simp only [step] at h; split at h <;> cases h
    exact ⟨by simp [St.out, List.getElem?_append_left hlt, hk], rfl⟩
  | put g => simp only [step] at h; split at h <;> cases h; exact ⟨hk, rfl⟩
  | crash g => cases h; exact ⟨hk, rfl⟩
  | drop j => cases h; exact ⟨hk, rfl⟩
  | edit j pos d =>
    have hne : j ≠ k := fun e => hc pos d (by rw [e])
    simp only [step] at h
    split at h
    · cases h
    · rename_i q hq
      split at h
      · rename_i hd
        cases h
        refine ⟨by simp [hne, hk], ?_⟩
        have hwf := i.rwf q (List.mem_of_getElem? hq)
        exact (store_keeps s.mem q.s hwf pos d (by have := hwf.1; omega) r.s (i.rwf r hr) (res_apart i k j r q hk hq (Ne.symm hne))).2
      · cases h

/-- Whatever was written, and whatever anybody does afterwards: a result changes only when its owner changes it. -/
theorem C106_stable (cs later : List Choice) (ht : ∀ c ∈ cs ++ later, Typed c) (s s' : St) (h : run init cs = some s)
    (h' : run s later = some s') (k : Nat) (r : Res) (hk : s.res[k]? = some r) (hc : ∀ pos d, .edit k pos d ∉ later) :
    s'.res[k]? = some r ∧ s'.mem.view r.s = s.mem.view r.s := by
  have i := inv_run _ _ cs (fun c hc => ht c (by simp [hc])) h inv_init
  clear h
  have ht' : ∀ c ∈ later, Typed c := fun c hc => ht c (by simp [hc])
  clear ht
  induction later generalizing s with
  | nil => cases h'; exact ⟨hk, rfl⟩
  | cons c cs ih =>
    simp only [run] at h'
    split at h'
    · cases h'
    · rename_i s1 h1
      obtain ⟨k1, v1⟩ := step_view s s1 c (ht' c (by simp)) h1 i k r hk (fun pos d e => hc pos d (by simp [e]))
      obtain ⟨k2, v2⟩ := ih s1 h' k1 (fun pos d hm => hc pos d (by simp [hm])) (inv_step s s1 c (ht' c (by simp)) h1 i) (fun x hx => ht' x (by simp [hx]))
      exact ⟨k2, v2.trans v1⟩

/-- No write ever panics, whichever writer the pool gave. -/
theorem C106_progress (cs : List Choice) (ht : ∀ c ∈ cs, Typed c) (s : St) (h : run init cs = some s) (g : Nat) (w : Wtr) (log : List WOp)
    (hg : s.pc g = .writing w log) (o : WOp) (ho : wellTyped o) (h1 : o ≠ .written) (h2 : o ≠ .reset) : ∃ s', step s (.op g o) = some s' := by
  have i := inv_run _ _ cs ht h inv_init
  obtain ⟨w', ss, e, _⟩ := run_step (s.wr w) (i.bwf g w (by rw [hg]; rfl)) o ho
  simp only [step, hg, e]
  cases o <;> simp_all

/-- Two goroutines write at the same time, one of them with a writer another call put back: three bodies, two of them in one array; the owner of the
first changes it. -/
example :
    (run init [.new 0 8, .op 0 (.bytes [1, 2]), .take 0, .new 1 8, .op 1 (.scal (.u16 7)), .put 0, .get 2 0, .op 2 (.bytes [5]), .op 1 (.bytes [6]),
      .edit 0 1 [9], .take 2, .take 1]).map (fun s => (s.res.map (fun r => s.mem.view r.s), s.res.map (fun r => r.s.blk))) =
    some ([[1, 9], [5], [7, 0, 6]], [0, 0, 1]) := by
  decide +kernel

end Verif.WriterPool
