import Verif.Proofs.CodecCache
import Verif.Spec.CodecCache

/-! The codec of a type that is not recursive is determined by the type. -/
namespace Verif.CodecCache
set_option linter.unusedSectionVars false
variable {T A : Type} [DecidableEq T] {e : Env T A}

/-- The attributes a codec gets when all parts are complete. -/
inductive Den (e : Env T A) : T → A → Prop
  | mk (n : T) (got : List A) (dep : Nat → T) (a : A)
      (h1 : ∀ i, i < got.length → e.fill n (got.take i) = .dep (dep i))
      (h2 : ∀ i (hi : i < got.length), Den e (dep i) got[i]) (hd : e.fill n got = .done a) : Den e n a

/-- `Fill` of `n` has read `got` from complete parts. -/
def Reads (e : Env T A) (n : T) (got : List A) : Prop :=
  ∀ i (hi : i < got.length), ∃ m, e.fill n (got.take i) = .dep m ∧ Den e m got[i]

theorem Reads.den {n : T} {got : List A} {a : A} (h : Reads e n got) (hd : e.fill n got = .done a) : Den e n a := by
  have : ∀ i, ∃ m, ∀ (hi : i < got.length), e.fill n (got.take i) = .dep m ∧ Den e m got[i] := by
    intro i
    by_cases hi : i < got.length
    · obtain ⟨m, hm⟩ := h i hi
      exact ⟨m, fun _ => hm⟩
    · exact ⟨n, fun h => absurd h hi⟩
  obtain ⟨dep, hdep⟩ := Classical.axiomOfChoice this
  exact .mk n got dep a (fun i hi => (hdep i hi).1) (fun i hi => (hdep i hi).2) hd

theorem Den.reads {n : T} {a : A} (h : Den e n a) : ∃ got, Reads e n got ∧ e.fill n got = .done a := by
  cases h with
  | mk _ got dep _ h1 h2 hd => exact ⟨got, fun i hi => ⟨dep i, h1 i hi, h2 i hi⟩, hd⟩

theorem Reads.snoc {n m : T} {got : List A} {a : A} (h : Reads e n got) (hf : e.fill n got = .dep m) (hd : Den e m a) :
    Reads e n (got ++ [a]) := by
  intro i hi
  simp only [List.length_append, List.length_cons, List.length_nil] at hi
  by_cases k : i < got.length
  · obtain ⟨m', h1, h2⟩ := h i k
    refine ⟨m', ?_, ?_⟩
    · rw [List.take_append_of_le_length (by omega)]; exact h1
    · rw [List.getElem_append_left k]; exact h2
  · have : i = got.length := by omega
    subst this
    refine ⟨m, ?_, ?_⟩
    · rw [List.take_append_of_le_length (Nat.le_refl _), List.take_length]; exact hf
    · simpa using hd

/-- The readings of two complete runs of `Fill` agree. -/
theorem reads_take {n : T} (ih : ∀ m, PartOf e m n → ∀ a b, Den e m a → Den e m b → a = b) {g h : List A}
    (hg : Reads e n g) (hh : Reads e n h) : ∀ i, i ≤ g.length → i ≤ h.length → g.take i = h.take i := by
  intro i
  induction i with
  | zero => simp
  | succ i ii =>
    intro h1 h2
    have key := ii (by omega) (by omega)
    obtain ⟨m, h3, h4⟩ := hg i (by omega)
    obtain ⟨m', h5, h6⟩ := hh i (by omega)
    rw [key, h5] at h3
    cases h3
    have := ih m ⟨_, h5⟩ _ _ h4 h6
    rw [List.take_succ_eq_append_getElem (by omega), List.take_succ_eq_append_getElem (by omega), key, this]

theorem den_unique {n : T} (hn : Nonrec e n) : ∀ {a b : A}, Den e n a → Den e n b → a = b := by
  induction hn with
  | intro n _ ih =>
    intro a b ha hb
    obtain ⟨g, hg, hga⟩ := ha.reads
    obtain ⟨h, hh, hhb⟩ := hb.reads
    have key := reads_take (fun m hm a b h1 h2 => ih m hm h1 h2) hg hh
    have fin : ∀ {g h : List A} {a b : A}, Reads e n g → Reads e n h → e.fill n g = .done a → e.fill n h = .done b →
        (∀ i, i ≤ g.length → i ≤ h.length → g.take i = h.take i) → g.length < h.length → False := by
      intro g h a b hg hh hga hhb key hlt
      have := key g.length (Nat.le_refl _) (by omega)
      rw [List.take_length] at this
      obtain ⟨m, h1, _⟩ := hh g.length hlt
      rw [← this, hga] at h1
      cases h1
    rcases Nat.lt_trichotomy g.length h.length with c | c | c
    · exact (fin hg hh hga hhb key c).elim
    · have := key g.length (Nat.le_refl _) (by omega)
      rw [List.take_length, c, List.take_length] at this
      subst this
      rw [hga] at hhb
      cases hhb
      rfl
    · exact (fin hh hg hhb hga (fun i h1 h2 => (key i h2 h1).symm) c).elim

/-- `Fill` of `n` panics, itself or in a part, having read complete parts before. -/
inductive Fails (e : Env T A) : T → Prop
  | here (n : T) (got : List A) : Reads e n got → e.fill n got = .panic → Fails e n
  | part (n m : T) (got : List A) : Reads e n got → e.fill n got = .dep m → Fails e m → Fails e n

theorem den_not_fails {n : T} (hn : Nonrec e n) : ∀ {a : A}, Den e n a → ¬ Fails e n := by
  induction hn with
  | intro n hacc ih =>
    intro a ha hf
    obtain ⟨g, hg, hga⟩ := ha.reads
    have key : ∀ h, Reads e n h → ∀ i, i ≤ g.length → i ≤ h.length → g.take i = h.take i :=
      fun h hh => reads_take (fun m hm a b h1 h2 => den_unique (hacc m hm) h1 h2) hg hh
    have lt : ∀ h, Reads e n h → h.length ≤ g.length := by
      intro h hh
      refine Nat.le_of_not_lt fun hlt => ?_
      have := key h hh g.length (Nat.le_refl _) (by omega)
      rw [List.take_length] at this
      obtain ⟨m, h1, _⟩ := hh g.length hlt
      rw [← this, hga] at h1
      cases h1
    have nxt : ∀ h, Reads e n h → e.fill n h = .done a ∨ ∃ m a, e.fill n h = .dep m ∧ Den e m a := by
      intro h hh
      have hl := lt h hh
      have hk := key h hh h.length hl (Nat.le_refl _)
      rw [List.take_length] at hk
      by_cases c : h.length = g.length
      · rw [c, List.take_length] at hk
        exact Or.inl (hk ▸ hga)
      · obtain ⟨m, h1, h2⟩ := hg h.length (by omega)
        rw [hk] at h1
        exact Or.inr ⟨m, _, h1, h2⟩
    cases hf with
    | here _ got h1 h2 =>
      rcases nxt got h1 with h | ⟨m, a, h, _⟩ <;> rw [h2] at h <;> cases h
    | part _ m got h1 h2 h3 =>
      rcases nxt got h1 with h | ⟨m', a, h, h'⟩ <;> rw [h2] at h <;> cases h
      exact ih m ⟨_, h2⟩ h' h3

/-- Every `Fill` on the stack waits for the one above it. -/
def Chain (e : Env T A) : List (Frame T A) → Prop
  | f :: g :: rest => e.fill g.ty g.got = .dep f.ty ∧ Chain e (g :: rest)
  | _ => True

theorem Chain.tail {f : Frame T A} {rest : List (Frame T A)} (h : Chain e (f :: rest)) : Chain e rest := by
  cases rest with
  | nil => trivial
  | cons g rest => exact h.2

theorem Chain.below {f : Frame T A} {rest : List (Frame T A)} (h : Chain e (f :: rest)) :
    ∀ g ∈ rest, Relation.TransGen (PartOf e) f.ty g.ty := by
  induction rest generalizing f with
  | nil => simp
  | cons g rest ih =>
    obtain ⟨h1, h2⟩ := h
    intro g' hg'
    simp only [List.mem_cons] at hg'
    rcases hg' with rfl | hg'
    · exact .single ⟨_, h1⟩
    · exact Relation.TransGen.trans (.single ⟨_, h1⟩) (ih h2 g' hg')

theorem Chain.fails {f : Frame T A} {rest : List (Frame T A)} (h : Chain e (f :: rest))
    (hr : ∀ g ∈ rest, Nonrec e g.ty → Reads e g.ty g.got) (hf : Nonrec e f.ty → Fails e f.ty) :
    ∀ l, (f :: rest).getLast? = some l → Nonrec e l.ty → Fails e l.ty := by
  induction rest generalizing f with
  | nil => intro l hl hn; simp only [List.getLast?_singleton, Option.some.injEq] at hl; subst hl; exact hf hn
  | cons g rest ih =>
    obtain ⟨h1, h2⟩ := h
    intro l hl
    rw [List.getLast?_cons_cons] at hl
    refine ih h2 (fun g' hg' => hr g' (List.mem_cons_of_mem _ hg')) ?_ l hl
    intro hn
    exact .part _ _ _ (hr g (by simp) hn) h1 (hf (hn.inv ⟨_, h1⟩))

theorem acc_irrefl {α : Type} {r : α → α → Prop} {a : α} (h : Acc r a) : ¬ r a a := by
  induction h with
  | intro a _ ih => exact fun h => ih a h h

structure Hist (e : Env T A) (s : St T A) : Prop where
  chain : Chain e s.stack
  fin : ∀ c x, s.cods c = some x → x.done = true → Nonrec e x.ty → Den e x.ty x.att
  frame : ∀ f ∈ s.stack, Nonrec e f.ty → Reads e f.ty f.got
  fail : ∀ t rt, s.pc t = .fail rt → Nonrec e rt → Fails e rt
  ret : ∀ rt, (rt, none) ∈ s.rets → Nonrec e rt → Fails e rt

theorem Hist.create {s : St T A} (h : Hist e s) (rt : T) (hc : ∀ f rest, s.stack = f :: rest → e.fill f.ty f.got = .dep rt) :
    Hist e (s.create e rt) := by
  refine ⟨?_, ?_, ?_, h.fail, h.ret⟩
  · simp only [St.create]
    cases hs : s.stack with
    | nil => trivial
    | cons f rest => exact ⟨hc f rest hs, hs ▸ h.chain⟩
  · intro c x hx hd
    simp only [St.create] at hx
    by_cases k : c = s.ncod
    · subst k
      rw [set_self] at hx
      cases hx
      simp at hd
    · rw [set_ne _ _ k] at hx
      exact h.fin c x hx hd
  · intro f hf hn
    simp only [St.create, List.mem_cons] at hf
    rcases hf with rfl | hf
    · intro i hi; simp at hi
    · exact h.frame f hf hn

theorem Hist.cast {s s' : St T A} (h : Hist e s) (h5 : s'.cods = s.cods) (h7 : s'.stack = s.stack)
    {t : Nat} {p : PC T} (h8 : s'.pc = set s.pc t p) (h9 : ∀ rt, p ≠ .fail rt)
    (h10 : ∀ rt, (rt, none) ∈ s'.rets → (rt, none) ∈ s.rets ∨ s.pc t = .fail rt) : Hist e s' := by
  refine ⟨h7 ▸ h.chain, h5 ▸ h.fin, h7 ▸ h.frame, ?_, ?_⟩
  · intro u rt hu
    rw [h8] at hu
    by_cases k : u = t
    · subst k; rw [set_self] at hu; exact absurd hu (h9 rt)
    · rw [set_ne _ _ k] at hu; exact h.fail u rt hu
  · intro rt hr
    rcases h10 rt hr with k | k
    · exact h.ret rt k
    · exact h.fail t rt k

theorem step_hist {s s' : St T A} (hi : Inv s) (h : Hist e s) (c : Choice T) (hs : step e s c = some s') : Hist e s' := by
  cases c with
  | call t rt =>
    simp only [step] at hs
    split at hs <;> simp only [Option.some.injEq, reduceCtorEq] at hs
    subst hs
    exact h.cast rfl rfl rfl (by simp) (fun _ h => Or.inl h)
  | go t =>
    simp only [step] at hs
    split at hs
    case h_8 rt hp =>
      have hc : crit (s.pc t) = true := by simp [hp, crit]
      have hph : phase s = true := by rw [hi.thr.phase hc, hp]; rfl
      have hd := hi.data
      rw [hph] at hd
      simp only [fillStep] at hs
      split at hs
      · exact absurd hs (by simp)
      rename_i f rest hst
      have hch := h.chain
      rw [hst] at hch
      have ffr := h.frame f (by simp [hst])
      obtain ⟨hfm, xf, hxf, hxd⟩ := hd.frames f (by simp [hst])
      have hty : xf.ty = f.ty := by
        obtain ⟨y, h1, h2, _⟩ := hd.cons rfl _ _ hfm
        rw [hxf] at h1
        cases h1
        exact h2
      split at hs
      · rename_i m hfill
        split at hs <;> simp only [Option.some.injEq] at hs <;> subst hs
        · refine h.create m ?_
          intro f' rest' h'
          rw [hst] at h'
          cases h'
          exact hfill
        · rename_i d hm
          refine ⟨?_, ?_, ?_, h.fail, h.ret⟩
          · cases rest with
            | nil => trivial
            | cons g rest => exact hch
          · intro c x hx hdn hn
            simp only at hx
            by_cases k : c = f.cod
            · subst k
              rw [set_self, hxf] at hx
              cases hx
              simp [hxd] at hdn
            · rw [set_ne _ _ k] at hx
              exact h.fin c x hx hdn hn
          · intro g hg hn
            simp only [List.mem_cons] at hg
            rcases hg with rfl | hg
            · refine (ffr hn).snoc hfill ?_
              obtain ⟨x, h1, h2, h3, _⟩ := hd.cons rfl m d hm
              have hnm : Nonrec e m := hn.inv ⟨_, hfill⟩
              rcases h3 with h3 | ⟨g, hg, hgc⟩
              · have := h.fin d x h1 h3 (h2 ▸ hnm)
                rw [h2] at this
                simpa [St.att, h1] using this
              · exfalso
                have hgt : g.ty = m := by
                  obtain ⟨hg1, _⟩ := hd.frames g hg
                  obtain ⟨y, h4, h5, _⟩ := hd.cons rfl _ _ hg1
                  rw [hgc, h1] at h4
                  cases h4
                  rw [← h5, h2]
                have hcy : Relation.TransGen (PartOf e) m m := by
                  rw [hst, List.mem_cons] at hg
                  rcases hg with rfl | hg
                  · exact .single ⟨_, hgt ▸ hfill⟩
                  · exact Relation.TransGen.trans (.single ⟨_, hfill⟩) (hgt ▸ hch.below g hg)
                exact acc_irrefl hnm.transGen hcy
            · exact h.frame g (by simp [hst, hg]) hn
      · simp only [Option.some.injEq] at hs
        subst hs
        refine ⟨trivial, h.fin, by simp, ?_, h.ret⟩
        intro u rt' hu
        simp only at hu
        by_cases k : u = t
        · subst k
          rw [set_self] at hu
          cases hu
          obtain ⟨hne, hlast⟩ := hi.thr.fil u rt hp
          rw [hst] at hlast
          obtain ⟨l, hl⟩ : ∃ l, (f :: rest).getLast? = some l := ⟨_, List.getLast?_eq_some_getLast (by simp)⟩
          have := hch.fails (fun g hg hn => h.frame g (by simp [hst, hg]) hn)
            (fun hn => .here _ _ (ffr hn) (by assumption)) l hl
          rw [hlast l hl] at this
          exact this
        · rw [set_ne _ _ k] at hu
          exact h.fail u rt' hu
      · rename_i a hfill
        have key : Hist e { s with cods := (set s.cods f.cod ((s.cods f.cod).map fun x => { x with att := a, done := true })),
                                   stack := rest } := by
          refine ⟨hch.tail, ?_, fun g hg hn => h.frame g (by simp [hst, hg]) hn, h.fail, h.ret⟩
          intro c x hx hdn hn
          simp only at hx
          by_cases k : c = f.cod
          · subst k
            rw [set_self, hxf] at hx
            simp only [Option.map_some, Option.some.injEq] at hx
            subst hx
            simp only [hty] at hn ⊢
            exact (ffr hn).den hfill
          · rw [set_ne _ _ k] at hx
            exact h.fin c x hx hdn hn
        split at hs <;> simp only [Option.some.injEq] at hs <;> subst hs
        · exact key.cast rfl rfl rfl (by simp) (fun _ h => Or.inl h)
        · exact key
    case h_7 rt hp =>
      split at hs <;> simp only [Option.some.injEq] at hs <;> subst hs
      · exact h.cast rfl rfl rfl (by simp) (fun _ h => Or.inl h)
      · refine (h.create rt ?_).cast rfl rfl rfl (by simp) (fun _ h => Or.inl h)
        intro f rest h'
        simp [hi.thr.ent t rt hp] at h'
    all_goals (
      repeat' split at hs
      all_goals simp only [Option.some.injEq, reduceCtorEq] at hs
      all_goals (
        subst hs
        refine h.cast rfl rfl rfl (by simp) ?_
        intro rt hr
        simp_all
        try exact hr.symm.imp id Eq.symm))

theorem run_hist {s s' : St T A} (cs : List (Choice T)) (hi : Inv s) (h : Hist e s) (hs : run e s cs = some s') : Hist e s' := by
  induction cs generalizing s with
  | nil => simp only [run, Option.some.injEq] at hs; exact hs ▸ h
  | cons c cs ih =>
    simp only [run] at hs
    split at hs
    · exact absurd hs (by simp)
    · rename_i q hq
      exact ih (step_inv hi c hq) (step_hist hi h c hq) hs

theorem init_hist : Hist e (init : St T A) := ⟨trivial, by simp [init], by simp [init], by simp [init], by simp [init]⟩

end Verif.CodecCache
