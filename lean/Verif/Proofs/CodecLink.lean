import Verif.Proofs.CodecOrder
import Verif.Spec.CodecCache

/-! What the codecs of the caches point to: codecs of the parts that `Fill` asked for. -/
namespace Verif.CodecCache
set_option linter.unusedSectionVars false
variable {T A : Type} [DecidableEq T] {e : Env T A} {P : T → A → Prop}

/-- The type of a codec. -/
def tyOf (s : St T A) (c : Nat) : Option T := (s.cods c).map Codec.ty

/-- `Fill` of `n` has read `got`, all of which satisfy `P`, from codecs of the types it asked for; these are `refs`, the last one
in front. -/
inductive Made (e : Env T A) (P : T → A → Prop) (τ : Nat → Option T) (n : T) : List A → List Nat → Prop
  | nil : Made e P τ n [] []
  | snoc (got : List A) (refs : List Nat) (m : T) (a : A) (r : Nat) : Made e P τ n got refs → e.fill n got = .dep m → P m a →
      τ r = some m → Made e P τ n (got ++ [a]) (r :: refs)

theorem Made.mono {τ τ' : Nat → Option T} {n : T} {got : List A} {refs : List Nat} (h : Made e P τ n got refs)
    (ht : ∀ r m, τ r = some m → τ' r = some m) : Made e P τ' n got refs := by
  induction h with
  | nil => exact .nil
  | snoc got refs m a r _ h1 h2 h3 ih => exact .snoc _ _ m a r ih h1 h2 (ht r m h3)

structure Link (e : Env T A) (P : T → A → Prop) (s : St T A) : Prop where
  old : ∀ c x, s.cods c = some x → x.done = true → P x.ty x.att
  new : ∀ c x, s.cods c = some x → x.done = false → x.att = e.init x.ty
  frame : ∀ f ∈ s.stack, ∃ x, s.cods f.cod = some x ∧ x.ty = f.ty ∧ Made e P (tyOf s) f.ty f.got x.refs
  fin : ∀ c x, s.cods c = some x → x.done = true → ∃ got, e.fill x.ty got = .done x.att ∧ Made e P (tyOf s) x.ty got x.refs

theorem Link.cast {s s' : St T A} (h : Link e P s) (h5 : s'.cods = s.cods) (h7 : ∀ f ∈ s'.stack, f ∈ s.stack) : Link e P s' := by
  have ht : tyOf s' = tyOf s := by funext c; simp [tyOf, h5]
  refine ⟨h5 ▸ h.old, h5 ▸ h.new, ?_, ?_⟩
  · intro f hf
    rw [h5, ht]; exact h.frame f (h7 f hf)
  · rw [h5, ht]; exact h.fin

theorem Link.create {s : St T A} (hf : ∀ c x, s.cods c = some x → c < s.ncod) (h : Link e P s) (rt : T) : Link e P (s.create e rt) := by
  have hm : ∀ r m, tyOf s r = some m → tyOf (s.create e rt) r = some m := by
    intro r m hr
    simp only [tyOf, Option.map_eq_some_iff] at hr
    obtain ⟨x, hx, rfl⟩ := hr
    simp only [tyOf, St.create]
    rw [set_ne _ _ (by have := hf r x hx; omega), hx]; rfl
  refine ⟨?_, ?_, ?_, ?_⟩
  · intro c x hx
    simp only [St.create] at hx
    by_cases k : c = s.ncod
    · subst k; rw [set_self] at hx; cases hx; simp
    · rw [set_ne _ _ k] at hx; exact h.old c x hx
  · intro c x hx
    simp only [St.create] at hx
    by_cases k : c = s.ncod
    · subst k; rw [set_self] at hx; cases hx; simp
    · rw [set_ne _ _ k] at hx; exact h.new c x hx
  · intro f hf'
    simp only [St.create, List.mem_cons] at hf'
    rcases hf' with rfl | hf'
    · exact ⟨_, by simp only [St.create]; rw [set_self], rfl, .nil⟩
    · obtain ⟨x, h1, h2, h3⟩ := h.frame f hf'
      refine ⟨x, ?_, h2, h3.mono hm⟩
      simp only [St.create]
      rw [set_ne _ _ (by have := hf _ x h1; omega), h1]
  · intro c x hx hd
    simp only [St.create] at hx
    by_cases k : c = s.ncod
    · subst k; rw [set_self] at hx; cases hx; simp at hd
    · rw [set_ne _ _ k] at hx
      obtain ⟨got, h1, h2⟩ := h.fin c x hx hd
      exact ⟨got, h1, h2.mono hm⟩

theorem Chain.waits {f : Frame T A} {rest : List (Frame T A)} (h : Chain e (f :: rest)) :
    ∀ g ∈ rest, ∃ m, e.fill g.ty g.got = .dep m := by
  induction rest generalizing f with
  | nil => simp
  | cons g rest ih =>
    obtain ⟨h1, h2⟩ := h
    intro g' hg'
    simp only [List.mem_cons] at hg'
    rcases hg' with rfl | hg'
    · exact ⟨_, h1⟩
    · exact ih h2 g' hg'

theorem step_link {s s' : St T A} (hP0 : ∀ n got m, e.fill n got = .dep m → P n (e.init n))
    (hP1 : ∀ τ n got refs a, Made e P τ n got refs → e.fill n got = .done a → P n a)
    (hi : Inv s) (hh : Hist e s) (h : Link e P s) (c : Choice T) (hs : step e s c = some s') : Link e P s' := by
  cases c with
  | call t rt =>
    simp only [step] at hs
    split at hs <;> simp only [Option.some.injEq, reduceCtorEq] at hs
    subst hs
    exact h.cast rfl (fun _ h => h)
  | go t =>
    simp only [step] at hs
    split at hs
    case h_8 rt hp =>
      have hc : crit (s.pc t) = true := by simp [hp, crit]
      have hph : phase s = true := by rw [hi.thr.phase hc, hp]; rfl
      have hd := hi.data
      rw [hph] at hd
      simp only [fillStep] at hs
      split at hs
      · exact absurd hs (by simp)
      rename_i f rest hst
      have hch := hh.chain
      rw [hst] at hch
      have hnd := hd.nodup
      simp only [hst, List.map_cons, List.nodup_cons] at hnd
      have hne : ∀ f' ∈ rest, f'.cod ≠ f.cod := fun f' hf' e => hnd.1 (e ▸ List.mem_map_of_mem hf')
      obtain ⟨xf, hxf, hty, hmade⟩ := h.frame f (by simp [hst])
      have hxd : xf.done = false := by
        obtain ⟨_, y, h1, h2⟩ := hd.frames f (by simp [hst])
        rw [hxf] at h1; cases h1; exact h2
      have tyset : ∀ (g : Codec T A → Codec T A) (hg : ∀ x, (g x).ty = x.ty) (st : List (Frame T A)),
          tyOf { s with cods := set s.cods f.cod ((s.cods f.cod).map g), stack := st } = tyOf s := by
        intro g hg st
        funext c
        simp only [tyOf]
        by_cases k : c = f.cod
        · subst k; rw [set_self, hxf]; simp [hg]
        · rw [set_ne _ _ k]
      split at hs
      · rename_i m hfill
        split at hs <;> simp only [Option.some.injEq] at hs <;> subst hs
        · exact h.create hd.fresh m
        · rename_i d hm
          obtain ⟨y, hy1, hy2, hy3, _⟩ := hd.cons rfl m d hm
          have hPm : P m (s.att e m d) := by
            simp only [St.att, hy1]
            cases hdn : y.done with
            | true => have := h.old d y hy1 hdn; rwa [hy2] at this
            | false =>
              rw [h.new d y hy1 hdn, hy2]
              rcases hy3 with hy3 | ⟨g, hg, hgc⟩
              · simp [hdn] at hy3
              · obtain ⟨z, hz, hzt, _⟩ := h.frame g hg
                rw [hgc, hy1] at hz; cases hz
                rw [hy2] at hzt
                rw [hst, List.mem_cons] at hg
                rcases hg with rfl | hg
                · rw [hzt]; exact hP0 _ _ _ hfill
                · obtain ⟨m', hm'⟩ := hch.waits g hg
                  rw [hzt]; exact hP0 _ _ _ hm'
          have tys := tyset (fun x => { x with refs := d :: x.refs }) (fun _ => rfl)
            ({ f with got := f.got ++ [s.att e m d] } :: rest)
          refine ⟨?_, ?_, ?_, ?_⟩
          · intro c x hx hdn
            simp only at hx
            by_cases k : c = f.cod
            · subst k; rw [set_self, hxf] at hx; cases hx; simp [hxd] at hdn
            · rw [set_ne _ _ k] at hx; exact h.old c x hx hdn
          · intro c x hx hdn
            simp only at hx
            by_cases k : c = f.cod
            · subst k; rw [set_self, hxf] at hx; cases hx; exact h.new _ xf hxf hxd
            · rw [set_ne _ _ k] at hx; exact h.new c x hx hdn
          · intro g hg
            rw [tys]
            simp only [List.mem_cons] at hg
            rcases hg with rfl | hg
            · refine ⟨{ xf with refs := d :: xf.refs }, by simp only; rw [set_self, hxf]; rfl, hty, ?_⟩
              exact .snoc _ _ m _ d hmade hfill hPm (by simp [tyOf, hy1, hy2])
            · obtain ⟨x, h1, h2⟩ := h.frame g (by simp [hst, hg])
              exact ⟨x, by simp only; rw [set_ne _ _ (hne g hg)]; exact h1, h2⟩
          · intro c x hx hdn
            rw [tys]
            simp only at hx
            by_cases k : c = f.cod
            · subst k; rw [set_self, hxf] at hx; cases hx; simp [hxd] at hdn
            · rw [set_ne _ _ k] at hx; exact h.fin c x hx hdn
      · simp only [Option.some.injEq] at hs
        subst hs
        exact h.cast rfl (by simp)
      · rename_i a hfill
        have tys := tyset (fun x => { x with att := a, done := true }) (fun _ => rfl) rest
        have key : Link e P { s with
            cods := (set s.cods f.cod ((s.cods f.cod).map fun x => { x with att := a, done := true })), stack := rest } := by
          refine ⟨?_, ?_, ?_, ?_⟩
          · intro c x hx hdn
            simp only at hx
            by_cases k : c = f.cod
            · subst k
              rw [set_self, hxf] at hx
              cases hx
              simp only [hty]
              exact hP1 _ _ _ _ a hmade hfill
            · rw [set_ne _ _ k] at hx; exact h.old c x hx hdn
          · intro c x hx hdn
            simp only at hx
            by_cases k : c = f.cod
            · subst k; rw [set_self, hxf] at hx; cases hx; simp at hdn
            · rw [set_ne _ _ k] at hx; exact h.new c x hx hdn
          · intro g hg
            rw [tys]
            obtain ⟨x, h1, h2⟩ := h.frame g (by simp only at hg; simp [hst, hg])
            exact ⟨x, by simp only; rw [set_ne _ _ (hne g hg)]; exact h1, h2⟩
          · intro c x hx hdn
            rw [tys]
            simp only at hx
            by_cases k : c = f.cod
            · subst k
              rw [set_self, hxf] at hx
              cases hx
              simp only [hty]
              exact ⟨_, hfill, hmade⟩
            · rw [set_ne _ _ k] at hx; exact h.fin c x hx hdn
        split at hs <;> simp only [Option.some.injEq] at hs <;> subst hs
        · exact key.cast rfl (by simp)
        · exact key
    case h_7 rt hp =>
      have hfr := hi.data.fresh
      split at hs <;> simp only [Option.some.injEq] at hs <;> subst hs
      · exact h.cast rfl (fun _ h => h)
      · exact (h.create hfr rt).cast rfl (fun _ h => h)
    all_goals (
      repeat' split at hs
      all_goals simp only [Option.some.injEq, reduceCtorEq] at hs
      all_goals (
        subst hs
        exact h.cast rfl (fun _ h => h)))

theorem run_link {s s' : St T A} (hP0 : ∀ n got m, e.fill n got = .dep m → P n (e.init n))
    (hP1 : ∀ τ n got refs a, Made e P τ n got refs → e.fill n got = .done a → P n a)
    (cs : List (Choice T)) (hi : Inv s) (hh : Hist e s) (h : Link e P s) (hs : run e s cs = some s') : Link e P s' := by
  induction cs generalizing s with
  | nil => simp only [run, Option.some.injEq] at hs; exact hs ▸ h
  | cons c cs ih =>
    simp only [run] at hs
    split at hs
    · exact absurd hs (by simp)
    · rename_i q hq
      exact ih (step_inv hi c hq) (step_hist hi hh c hq) (step_link hP0 hP1 hi hh h c hq) hs

theorem reach_link {s : St T A} (hP0 : ∀ n got m, e.fill n got = .dep m → P n (e.init n))
    (hP1 : ∀ τ n got refs a, Made e P τ n got refs → e.fill n got = .done a → P n a) (h : Reach e s) : Link e P s := by
  obtain ⟨cs, h⟩ := h
  exact run_link hP0 hP1 cs init_inv init_hist ⟨by simp [init], by simp [init], by simp [init], by simp [init]⟩ h

end Verif.CodecCache
