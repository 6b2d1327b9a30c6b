import Verif.Spec.CtxTree
import Verif.Proofs.CtxMulti
/-! A tree of contexts: invariants. -/
namespace Verif.CtxTree
open Verif.CtxReq (remove_eq adder_eq copy_done bind_some)
open Verif.CtxMulti (Plain plain_eq canc_eq refused_eq)

theorem withCx_some {s s' : St} {p : Nat} {o : Option Context.St} (h : s.withCx p o = some s') :
    ∃ c, o = some c ∧ s' = { s with cx := fun q => if q = p then c else s.cx q } := by
  cases o with
  | none => cases h
  | some c => cases h; exact ⟨c, rfl, rfl⟩

/-! ### One context -/

theorem done_step {s s' : Context.St} {d : Context.Choice} (h : Context.step s d = some s') {x : Nat} {b : Bool} (ha : s.ap x = .done b) : s'.ap x = .done b := by
  cases d with
  | adder y =>
    obtain ⟨_, _, _, h4, h5⟩ := adder_eq h
    by_cases hy : x = y
    · subst hy; rw [ha] at h5; exact h5.elim
    · rw [(h4 x hy).1]; exact ha
  | remove y => rw [(remove_eq h).1]; exact ha
  | canc =>
    simp only [Context.step, Context.stepCancel] at h
    (repeat' split at h) <;> cases h <;> exact ha
  | _ =>
    simp only [Context.step] at h
    (repeat' split at h) <;> cases h <;> first | exact ha | (simp only [Context.set]; grind)

theorem state_step {s s' : Context.St} {d : Context.Choice} (h : Context.step s d = some s') (h0 : s.state ≠ 0) : s'.state = s.state := by
  cases d with
  | adder y => exact (adder_eq h).1
  | remove y => exact (remove_eq h).2.2.2.2
  | canc =>
    simp only [Context.step, Context.stepCancel] at h
    (repeat' split at h) <;> cases h <;> rfl
  | cancel e =>
    simp only [Context.step] at h
    rw [if_neg h0] at h
    cases h; rfl
  | _ =>
    simp only [Context.step] at h
    (repeat' split at h) <;> cases h <;> rfl

theorem ap_step {s s' : Context.St} {d : Context.Choice} (h : Context.step s d = some s') {x : Nat} (ha : s'.ap x ≠ .idle) : s.ap x ≠ .idle ∨ d = .add x := by
  cases d with
  | adder y =>
    left
    obtain ⟨_, _, _, h4, h5⟩ := adder_eq h
    by_cases hy : x = y
    · subst hy; intro e; rw [e] at h5; exact h5.elim
    · rw [(h4 x hy).1] at ha; exact ha
  | remove y => left; rw [(remove_eq h).1] at ha; exact ha
  | canc =>
    left
    simp only [Context.step, Context.stepCancel] at h
    (repeat' split at h) <;> cases h <;> exact ha
  | add y =>
    by_cases hy : x = y
    · subst hy; exact .inr rfl
    · left
      simp only [Context.step] at h
      split at h <;> cases h
      simpa [Context.set, hy] using ha
  | _ =>
    left
    simp only [Context.step] at h
    (repeat' split at h) <;> cases h <;> exact ha

def closed : Context.St := { Context.init with state := 1, cp := .exit }

theorem early_eq : Context.run Context.init early = some closed := by
  simp [early, Context.run, Context.step, Context.stepCancel, Context.init, closed]

theorem init_adder {x : Nat} : Context.step Context.init (.adder x) = none := by simp [Context.step, Context.stepAdder, Context.init]
theorem init_canc : Context.step Context.init .canc = none := by simp [Context.step, Context.stepCancel, Context.init]

/-! ### What a step is -/

inductive Kind (par : Nat → Nat) (s s' : St) : Choice → Prop
  | plain {c} (p : Nat) (d : Context.Choice) (k : Context.St) (hd : Plain (s.cx p) d) (hx : ∀ x, d = .add x → c = .make x ∧ x ≠ 0 ∧ par x = p)
      (hh : Has par s p ∨ Context.step Context.init d = none) (h : Context.step (s.cx p) d = some k)
      (ht : ∀ e, d = .cancel e → c = .cancel p e)
      (e : s' = { s with cx := fun q => if q = p then k else s.cx q }) : Kind par s s' c
  | refused {x} (k l : Context.St) (hr : (s.cx (par x)).ap x = .refused) (h : Context.step (s.cx (par x)) (.adder x) = some k)
      (hl : Context.run (if x = par x then k else s.cx x) early = some l)
      (e : s' = { s with cx := fun q => if q = x then l else if q = par x then k else s.cx q }) : Kind par s s' (.maker x)
  | removed {x} (k : Context.St) (hn : x ≠ 0) (hh : Has par s x) (hg : (s.cx (par x)).gone x = false) (h : Context.step (s.cx (par x)) (.remove x) = some k)
      (e : s' = { s with cx := fun q => if q = par x then k else s.cx q }) : Kind par s s' (.done x)
  | begins {x} (y : Nat) (l : List Nat) (k : Context.St) (hc : (s.cx x).cp = .calling (y :: l)) (hb : s.inside x = false) (hy : (s.cx y).state = 0)
      (h : Context.step (s.cx y) (.cancel false) = some k)
      (e : s' = { cx := fun q => if q = y then k else s.cx q, inside := fun q => if q = x then true else s.inside q }) : Kind par s s' (.canc x)
  | skips {x} (y : Nat) (l : List Nat) (k : Context.St) (hc : (s.cx x).cp = .calling (y :: l)) (hb : s.inside x = false) (hy : (s.cx y).state ≠ 0)
      (h : Context.step (s.cx x) .canc = some k) (e : s' = { s with cx := fun q => if q = x then k else s.cx q }) : Kind par s s' (.canc x)
  | ends {x} (y : Nat) (l : List Nat) (k : Context.St) (hc : (s.cx x).cp = .calling (y :: l)) (hb : s.inside x = true) (hy : (s.cx y).cp = .exit)
      (h : Context.step (s.cx x) .canc = some k)
      (e : s' = { cx := fun q => if q = x then k else s.cx q, inside := fun q => if q = x then false else s.inside q }) : Kind par s s' (.canc x)

theorem same_state {s s' : Context.St} {d : Context.Choice} (h : Context.step s d = some s') (hd : ∀ e, d ≠ .cancel e) : s'.state = s.state := by
  cases d with
  | adder y => exact (adder_eq h).1
  | remove y => exact (remove_eq h).2.2.2.2
  | canc =>
    simp only [Context.step, Context.stepCancel] at h
    (repeat' split at h) <;> cases h <;> rfl
  | cancel e => exact absurd rfl (hd e)
  | _ =>
    simp only [Context.step] at h
    (repeat' split at h) <;> cases h <;> rfl

theorem kind {par : Nat → Nat} {s s' : St} {c : Choice} (h : step par s c = some s') : Kind par s s' c := by
  cases c <;> simp only [step] at h
  case make x =>
    split at h
    · rename_i hx
      obtain ⟨k, h1, h2⟩ := withCx_some h
      exact .plain (par x) (.add x) k trivial (fun y e => by cases e; exact ⟨rfl, hx.1, rfl⟩) (.inl hx.2) h1 (fun e he => by cases he) h2
    · cases h
  case maker x =>
    split at h
    · rename_i hr
      obtain ⟨s1, h1, h2⟩ := bind_some h
      obtain ⟨k, h3, rfl⟩ := withCx_some h1
      obtain ⟨l, h4, h5⟩ := withCx_some h2
      exact .refused k l hr h3 h4 h5
    · rename_i hn
      obtain ⟨k, h1, h2⟩ := withCx_some h
      exact .plain (par x) (.adder x) k (fun e => hn e) (fun y e => by cases e) (.inr init_adder) h1 (fun e he => by cases he) h2
  case done x =>
    split at h
    · rename_i hx
      obtain ⟨k, h1, h2⟩ := withCx_some h
      exact .removed k hx.1 hx.2.1 hx.2.2 h1 h2
    · cases h
  case cancel x e =>
    split at h
    · rename_i hx
      obtain ⟨k, h1, h2⟩ := withCx_some h
      exact .plain x (.cancel e) k trivial (fun y e => by cases e) (.inl hx) h1 (fun e he => by cases he; rfl) h2
    · cases h
  case wait x w =>
    split at h
    · rename_i hx
      obtain ⟨k, h1, h2⟩ := withCx_some h
      exact .plain x (.wait w) k trivial (fun y e => by cases e) (.inl hx) h1 (fun e he => by cases he) h2
    · cases h
  case canc x =>
    split at h
    · rename_i y l hc
      split at h
      · rename_i hb
        split at h
        · rename_i hy
          obtain ⟨k, h1, h2⟩ := withCx_some h
          exact .ends y l k hc hb hy h1 h2
        · cases h
      · rename_i hb
        split at h
        · rename_i hy
          obtain ⟨k, h1, h2⟩ := withCx_some h
          exact .begins y l k hc (by simpa using hb) hy h1 h2
        · rename_i hy
          obtain ⟨k, h1, h2⟩ := withCx_some h
          exact .skips y l k hc (by simpa using hb) hy h1 h2
    · rename_i hn
      obtain ⟨k, h1, h2⟩ := withCx_some h
      exact .plain x .canc k (fun y l e => hn y l e) (fun y e => by cases e) (.inr init_canc) h1 (fun e he => by cases he) h2

/-! ### Invariant -/

structure Inv (par : Nat → Nat) (s : St) : Prop where
  cx : ∀ p, Context.Inv (s.cx p)
  own : ∀ p x, (s.cx p).ap x ≠ .idle → x ≠ 0 ∧ par x = p
  idle : ∀ p, (s.cx p).state = 0 → (s.cx p).cp = .idle
  list : ∀ p l, (s.cx p).cp = .calling l → ∀ x ∈ l, (s.cx p).ap x = .done true
  called : ∀ p x, (s.cx p).called x = true → (s.cx x).state ≠ 0
  ins : ∀ p, s.inside p = true → ∃ y l, (s.cx p).cp = .calling (y :: l) ∧ (s.cx y).state ≠ 0
  new : ∀ x, ¬ Has par s x → s.cx x = Context.init ∧ s.inside x = false

theorem inv_init (par : Nat → Nat) : Inv par init where
  cx _ := Context.inv_init
  own := by simp [init, Context.init]
  idle := by simp [init, Context.init]
  list := by simp [init, Context.init]
  called := by simp [init, Context.init]
  ins := by simp [init]
  new _ _ := ⟨rfl, rfl⟩

/-- What the contexts keep. -/
structure Keep (par : Nat → Nat) (s s' : St) : Prop where
  done : ∀ p x b, (s.cx p).ap x = .done b → (s'.cx p).ap x = .done b
  state : ∀ p, (s.cx p).state ≠ 0 → (s'.cx p).state = (s.cx p).state
  gone : ∀ p x, (s.cx p).gone x = true → (s'.cx p).gone x = true
  exit : ∀ p, (s.cx p).cp = .exit → (s'.cx p).cp = .exit

theorem keep_cx {s s' : Context.St} {d : Context.Choice} (h : Context.step s d = some s') : (∀ x, s.gone x = true → s'.gone x = true) ∧ (s.cp = .exit → s.state ≠ 0 → s'.cp = .exit) := by
  cases d with
  | adder y => have := adder_eq h; exact ⟨fun x hx => by rw [this.2.2.1]; exact hx, fun he _ => this.2.1.trans he⟩
  | remove y =>
    have := remove_eq h
    refine ⟨fun x hx => ?_, fun he _ => this.2.2.2.1.trans he⟩
    rw [this.2.1]
    simp only [Context.set]; split
    · rfl
    · exact hx
  | canc =>
    simp only [Context.step, Context.stepCancel] at h
    (repeat' split at h) <;> cases h <;> refine ⟨fun _ h => h, fun he _ => ?_⟩ <;> simp_all
  | cancel e =>
    simp only [Context.step] at h
    split at h <;> cases h <;> refine ⟨fun _ h => h, fun he hs => ?_⟩
    · rename_i h0; exact absurd h0 hs
    · exact he
  | _ =>
    simp only [Context.step] at h
    (repeat' split at h) <;> cases h <;> exact ⟨fun _ h => h, fun h _ => h⟩

theorem exit_state {par : Nat → Nat} {s : St} (I : Inv par s) {p : Nat} (h : (s.cx p).cp = .exit) : (s.cx p).state ≠ 0 := by
  intro h0
  rw [I.idle p h0] at h; cases h

/-- A context that is made and refused. -/
theorem refused_new {par : Nat → Nat} (ht : Tree par) {s : St} {x : Nat} (I : Inv par s) (hr : (s.cx (par x)).ap x = .refused) :
    x ≠ par x ∧ s.cx x = Context.init ∧ s.inside x = false ∧ ¬ Has par s x := by
  obtain ⟨h0, _⟩ := I.own (par x) x (by rw [hr]; simp)
  have hn : ¬ Has par s x := by
    rintro (h | h | h)
    · exact h0 h
    · rw [hr] at h; cases h
    · rw [hr] at h; cases h
  have := ht x h0
  exact ⟨by omega, (I.new x hn).1, (I.new x hn).2, hn⟩

theorem keep_step {par : Nat → Nat} (ht : Tree par) {s s' : St} {c : Choice} (I : Inv par s) (h : step par s c = some s') : Keep par s s' := by
  have up : ∀ {p d k}, Context.step (s.cx p) d = some k → ∀ {i}, Keep par s { cx := fun q => if q = p then k else s.cx q, inside := i } := by
    intro p d k hk i
    refine ⟨fun q x b h => ?_, fun q h => ?_, fun q x h => ?_, fun q h => ?_⟩ <;> dsimp only <;> split
    · rename_i e; subst e; exact done_step hk h
    · exact h
    · rename_i e; subst e; exact state_step hk h
    · rfl
    · rename_i e; subst e; exact (keep_cx hk).1 x h
    · exact h
    · rename_i e; subst e; exact (keep_cx hk).2 h (exit_state I h)
    · exact h
  cases kind h with
  | plain p d k _ _ _ hk _ e => subst e; exact up hk
  | removed k _ _ _ hk e => subst e; exact up hk
  | begins y l k _ _ _ hk e => subst e; exact up hk
  | skips y l k _ _ _ hk e => subst e; exact up hk
  | ends y l k _ _ _ hk e => subst e; exact up hk
  | @refused x k l hr hk hl e =>
    obtain ⟨hne, hi, _, _⟩ := refused_new ht I hr
    rw [if_neg hne, hi, early_eq] at hl
    cases hl
    have K := up hk (i := s.inside)
    subst e
    refine ⟨fun q y b hh => ?_, fun q hh => ?_, fun q y hh => ?_, fun q hh => ?_⟩ <;> dsimp only <;> by_cases e : q = x <;> simp only [e, if_true, if_false]
    · subst e; rw [hi] at hh; cases hh
    · exact K.done q y b hh
    · subst e; rw [hi] at hh; exact absurd rfl hh
    · exact K.state q hh
    · subst e; rw [hi] at hh; cases hh
    · exact K.gone q y hh
    · subst e; rw [hi] at hh; cases hh
    · exact K.exit q hh

theorem has_step {par : Nat → Nat} {s s' : St} (K : Keep par s s') {x : Nat} (h : Has par s x) : Has par s' x := by
  rcases h with h | h | h
  · exact .inl h
  · exact .inr (.inl (K.done _ _ _ h))
  · exact .inr (.inr (K.done _ _ _ h))

theorem has_ap {par : Nat → Nat} {s : St} (I : Inv par s) {p x : Nat} {b : Bool} (h : (s.cx p).ap x = .done b) : Has par s x := by
  obtain ⟨_, rfl⟩ := I.own p x (by rw [h]; simp)
  cases b with
  | true => exact .inr (.inl h)
  | false => exact .inr (.inr h)

theorem tree_ne {par : Nat → Nat} (ht : Tree par) {s : St} (I : Inv par s) {p x : Nat} (h : (s.cx p).ap x ≠ .idle) : p < x ∧ x ≠ p := by
  obtain ⟨h0, rfl⟩ := I.own p x h
  have := ht x h0
  omega

theorem inv_step {par : Nat → Nat} (ht : Tree par) {s s' : St} {c : Choice} (I : Inv par s) (h : step par s c = some s') : Inv par s' := by
  have K := keep_step ht I h
  have live : ∀ x, (s.cx x).state ≠ 0 → (s'.cx x).state ≠ 0 := fun x hx => by rw [K.state x hx]; exact hx
  have nw : ∀ x, ¬ Has par s' x → s.cx x = Context.init ∧ s.inside x = false := fun x hx => I.new x fun h => hx (has_step K h)
  have ne : ∀ {p x}, ¬ Has par s' x → Has par s p → x ≠ p := by
    rintro p x hx hp rfl
    exact hx (has_step K hp)
  -- a step of one context
  have own1 : ∀ {p d k}, Context.step (s.cx p) d = some k → (∀ x, d = .add x → x ≠ 0 ∧ par x = p) → ∀ q x, (if q = p then k else s.cx q).ap x ≠ .idle → x ≠ 0 ∧ par x = q := by
    intro p d k hk hx q x hq
    split at hq
    · rename_i e; subst e
      rcases ap_step hk hq with h | h
      · exact I.own q x h
      · exact hx x h
    · exact I.own q x hq
  have cx1 : ∀ {p d k}, Context.step (s.cx p) d = some k → ∀ q, Context.Inv (if q = p then k else s.cx q) := by
    intro p d k hk q
    split
    · rename_i e; subst e; exact Context.inv_step (I.cx q) hk
    · exact I.cx q
  cases kind h with
  | plain p d k hd hx hh hk _ e =>
    obtain ⟨a1, a2, a3, a4, a5, a6⟩ := plain_eq hd hk (I.cx p) (I.idle p)
    subst e
    refine ⟨cx1 hk, own1 hk (fun x h => (hx x h).2), fun q => ?_, fun q l hl x hxl => ?_, fun q x hc => live x ?_, fun q hb => ?_, fun x hx => ?_⟩
    · dsimp only
      split
      · exact a5
      · exact I.idle q
    · dsimp only at hl ⊢
      split at hl
      · rename_i e; subst e
        rw [if_pos rfl]
        exact a3 x _ ((a6 l hl).elim (fun h => I.list q l h x hxl) fun h => h x hxl)
      · rename_i e
        rw [if_neg e]
        exact I.list q l hl x hxl
    · dsimp only at hc
      split at hc
      · rename_i e; subst e
        exact I.called q x (a2 ▸ hc)
      · exact I.called q x hc
    · obtain ⟨y, l, b1, b2⟩ := I.ins q hb
      refine ⟨y, l, ?_, live y b2⟩
      dsimp only
      split
      · rename_i e; subst e
        exact (a4 y l b1).trans b1
      · exact b1
    · have := nw x hx
      refine ⟨?_, this.2⟩
      dsimp only
      split
      · rename_i e; subst e
        rcases hh with hh | hh
        · exact absurd rfl (ne hx hh)
        · rw [this.1, hh] at hk; cases hk
      · exact this.1
  | @refused x k l hr hk hl e =>
    obtain ⟨hne, hi, hin, hnh⟩ := refused_new ht I hr
    rw [if_neg hne, hi, early_eq] at hl
    cases hl
    have hx := refused_eq hr hk
    have J := Context.inv_step (I.cx (par x)) hk
    have cl : ∀ l, (if x = x then closed else s.cx x).cp ≠ .calling l := by intro l; simp [closed]
    have ix : Context.Inv closed := by
      have := Context.inv_init
      exact { this with }
    have ap1 : ∀ q y, (s'.cx q).ap y ≠ .idle → (s.cx q).ap y ≠ .idle := by
      intro q y hq
      rw [e] at hq
      dsimp only at hq
      split at hq
      · exact absurd rfl hq
      · split at hq
        · rename_i e; subst e
          exact (ap_step hk hq).resolve_right (by simp)
        · exact hq
    have hcp : ∀ q l, (s'.cx q).cp = .calling l → (s.cx q).cp = .calling l := by
      intro q l hq
      rw [e] at hq
      dsimp only at hq
      split at hq
      · cases hq
      · split at hq
        · rename_i e; subst e; subst hx; exact hq
        · exact hq
    have ca : ∀ q l, (s.cx q).cp = .calling l → (s'.cx q).cp = .calling l := by
      intro q l hq
      rw [e]
      dsimp only
      split
      · rename_i e; subst e; rw [hi] at hq; cases hq
      · split
        · rename_i e; subst e; subst hx; exact hq
        · exact hq
    refine ⟨fun q => ?_, fun q y hq => I.own q y (ap1 q y hq), fun q hq => ?_, fun q l hl y hy => K.done _ _ _ (I.list q l (hcp q l hl) y hy), fun q y hc => ?_, fun q hb => ?_, fun y hy => ?_⟩
    · rw [e]; dsimp only
      split
      · exact ix
      · split
        · rename_i e; subst e; exact J
        · exact I.cx q
    · rw [e] at hq ⊢
      dsimp only at hq ⊢
      split at hq
      · cases hq
      · rename_i e
        rw [if_neg e]
        split at hq
        · rename_i e; subst e
          rw [if_pos rfl]
          subst hx
          exact I.idle _ hq
        · rename_i e
          rw [if_neg e]
          exact I.idle q hq
    · by_cases hyx : y = x
      · subst hyx
        rw [e]; simp [closed]
      · refine live y ?_
        rw [e] at hc
        dsimp only at hc
        split at hc
        · cases hc
        · split at hc
          · rename_i e; subst e; subst hx
            simp only [Context.set, if_neg hyx] at hc
            exact I.called _ y hc
          · exact I.called q y hc
    · have hb : s.inside q = true := by rw [e] at hb; exact hb
      obtain ⟨y, l, b1, b2⟩ := I.ins q hb
      exact ⟨y, l, ca q _ b1, live y b2⟩
    · have := nw y hy
      have y1 : y ≠ x := by
        rintro rfl
        refine hy (.inr (.inr ?_))
        rw [e]; dsimp only
        rw [if_neg (Ne.symm hne), if_pos rfl]
        subst hx
        simp [Context.set]
      have y2 : y ≠ par x := by
        rintro rfl
        rw [this.1] at hr; cases hr
      rw [e]; dsimp only
      rw [if_neg y1, if_neg y2]
      exact this
  | @removed x k hn hh hg hk e =>
    obtain ⟨r1, r2, r3, r4, r5⟩ := remove_eq hk
    have hp : (s.cx (par x)).ap x = .done true ∨ (s.cx (par x)).ap x = .done false := hh.resolve_left hn
    subst e
    refine ⟨cx1 hk, own1 hk (by simp), fun q => ?_, fun q l hl y hy => ?_, fun q y hc => live y ?_, fun q hb => ?_, fun y hy => ?_⟩
    · dsimp only
      split
      · rename_i e; subst e; rw [r4, r5]; exact I.idle _
      · exact I.idle q
    · refine K.done _ _ _ (I.list q l ?_ y hy)
      dsimp only at hl
      split at hl
      · rename_i e; subst e; exact r4 ▸ hl
      · exact hl
    · dsimp only at hc
      split at hc
      · rename_i e; subst e; exact I.called _ y (r3 ▸ hc)
      · exact I.called q y hc
    · obtain ⟨y, l, b1, b2⟩ := I.ins q hb
      refine ⟨y, l, ?_, live y b2⟩
      dsimp only
      split
      · rename_i e; subst e; exact r4.trans b1
      · exact b1
    · have := nw y hy
      refine ⟨?_, this.2⟩
      dsimp only
      split
      · rename_i e; subst e
        rw [this.1] at hp
        rcases hp with h | h <;> cases h
      · exact this.1
  | @begins x y l k hl hb hy hk e =>
    have hk' : k = { s.cx y with state := 1, cp := .readM } := by
      simp only [Context.step, hy, if_true, Bool.false_eq_true, if_false] at hk
      cases hk; rfl
    have hm := I.list x _ hl y (List.mem_cons_self ..)
    have hxy := tree_ne ht I (p := x) (x := y) (by rw [hm]; simp)
    have hi := I.idle y hy
    have nl : ∀ l, (s.cx y).cp ≠ .calling l := by rw [hi]; simp
    subst e
    refine ⟨cx1 hk, own1 hk (by simp), fun q hq => ?_, fun q l' hl' z hz => ?_, fun q z hc => live z ?_, fun q hb' => ?_, fun z hz => ?_⟩
    · dsimp only at hq ⊢
      split at hq
      · subst hk'; cases hq
      · rename_i e; rw [if_neg e]; exact I.idle q hq
    · refine K.done _ _ _ (I.list q l' ?_ z hz)
      dsimp only at hl'
      split at hl'
      · subst hk'; cases hl'
      · exact hl'
    · dsimp only at hc
      split at hc
      · rename_i e; subst e; subst hk'; exact I.called _ z hc
      · exact I.called q z hc
    · by_cases hq : q = x
      · subst hq
        refine ⟨y, l, ?_, ?_⟩
        · dsimp only; rw [if_neg (Ne.symm hxy.2)]; exact hl
        · dsimp only; rw [if_pos rfl, hk']; simp
      · dsimp only at hb'
        rw [if_neg hq] at hb'
        obtain ⟨z, l', b1, b2⟩ := I.ins q hb'
        refine ⟨z, l', ?_, live z b2⟩
        dsimp only
        rw [if_neg (by rintro rfl; exact nl _ b1)]
        exact b1
    · have := nw z hz
      have z1 : z ≠ y := ne hz (has_ap I hm)
      have z2 : z ≠ x := by rintro rfl; rw [this.1] at hl; cases hl
      dsimp only
      rw [if_neg z1, if_neg z2]
      exact this
  | @skips x y l k hl hb hy hk e =>
    have hk' := canc_eq hl hk
    subst e
    refine ⟨cx1 hk, own1 hk (by simp), fun q hq => ?_, fun q l' hl' z hz => ?_, fun q z hc => live z ?_, fun q hb' => ?_, fun z hz => ?_⟩
    · dsimp only at hq ⊢
      split at hq
      · subst hk'
        have := I.idle x hq
        rw [hl] at this; cases this
      · rename_i e; rw [if_neg e]; exact I.idle q hq
    · refine K.done _ _ _ ?_
      dsimp only at hl'
      split at hl'
      · rename_i e; subst e; subst hk'; cases hl'
        exact I.list q _ hl z (List.mem_cons_of_mem _ hz)
      · exact I.list q l' hl' z hz
    · dsimp only at hc
      split at hc
      · rename_i e; subst e; subst hk'
        simp only [Context.set] at hc
        split at hc
        · rename_i e; subst e; exact hy
        · exact I.called q z hc
      · exact I.called q z hc
    · obtain ⟨z, l', b1, b2⟩ := I.ins q hb'
      refine ⟨z, l', ?_, live z b2⟩
      dsimp only
      rw [if_neg (by rintro rfl; rw [hb] at hb'; cases hb')]
      exact b1
    · have := nw z hz
      have z2 : z ≠ x := by rintro rfl; rw [this.1] at hl; cases hl
      dsimp only
      rw [if_neg z2]
      exact this
  | @ends x y l k hl hb hy hk e =>
    have hk' := canc_eq hl hk
    subst e
    refine ⟨cx1 hk, own1 hk (by simp), fun q hq => ?_, fun q l' hl' z hz => ?_, fun q z hc => live z ?_, fun q hb' => ?_, fun z hz => ?_⟩
    · dsimp only at hq ⊢
      split at hq
      · subst hk'
        have := I.idle x hq
        rw [hl] at this; cases this
      · rename_i e; rw [if_neg e]; exact I.idle q hq
    · refine K.done _ _ _ ?_
      dsimp only at hl'
      split at hl'
      · rename_i e; subst e; subst hk'; cases hl'
        exact I.list q _ hl z (List.mem_cons_of_mem _ hz)
      · exact I.list q l' hl' z hz
    · dsimp only at hc
      split at hc
      · rename_i e; subst e; subst hk'
        simp only [Context.set] at hc
        split at hc
        · rename_i e; subst e; exact exit_state I hy
        · exact I.called q z hc
      · exact I.called q z hc
    · dsimp only at hb'
      split at hb'
      · cases hb'
      · rename_i hq
        obtain ⟨z, l', b1, b2⟩ := I.ins q hb'
        refine ⟨z, l', ?_, live z b2⟩
        dsimp only
        rw [if_neg hq]
        exact b1
    · have := nw z hz
      have z2 : z ≠ x := by rintro rfl; rw [this.1] at hl; cases hl
      dsimp only
      rw [if_neg z2, if_neg z2]
      exact this

theorem inv_run {par : Nat → Nat} (ht : Tree par) {s s' : St} {cs : List Choice} (I : Inv par s) (h : run par s cs = some s') : Inv par s' := by
  induction cs generalizing s with
  | nil => cases h; exact I
  | cons c cs ih =>
    obtain ⟨t, h1, h2⟩ := bind_some h
    exact ih (inv_step ht I h1) h2

end Verif.CtxTree
