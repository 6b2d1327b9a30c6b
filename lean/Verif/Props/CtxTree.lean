import Verif.Proofs.CtxTreeEnds
/-! C132: contexts made from contexts. -/
namespace Verif.CtxTree
open Verif.CtxReq (remove_eq adder_eq bind_some)
open Verif.CtxMulti (Plain plain_eq canc_eq refused_eq)

/-! ### Refused contexts -/

theorem late_cx {s s' : Context.St} {d : Context.Choice} (h : Context.step s d = some s') {x : Nat} (ha : s'.ap x = .done false) : s.ap x = .done false ∨ (d = .adder x ∧ s.ap x = .refused) := by
  cases d with
  | adder y =>
    obtain ⟨_, _, _, h4, h5⟩ := adder_eq h
    by_cases hy : x = y
    · subst hy
      cases e : s.ap x <;> simp only [e, ha] at h5
      case refused => exact .inr ⟨rfl, rfl⟩
      all_goals first | (split at h5 <;> simp at h5; done) | simp at h5
    · left; rw [← (h4 x hy).1]; exact ha
  | remove y => left; rw [← (remove_eq h).1]; exact ha
  | canc =>
    left
    simp only [Context.step, Context.stepCancel] at h
    (repeat' split at h) <;> cases h <;> exact ha
  | _ =>
    left
    simp only [Context.step] at h
    (repeat' split at h) <;> cases h <;> first | exact ha | (simp only [Context.set] at ha; grind)

def Late (par : Nat → Nat) (s : St) : Prop := ∀ x, (s.cx (par x)).ap x = .done false → Cancelled s x

theorem late_step {par : Nat → Nat} (ht : Tree par) {s s' : St} {c : Choice} (I : Inv par s) (L : Late par s) (h : step par s c = some s') : Late par s' := by
  have K := keep_step ht I h
  have up : ∀ x, (s.cx (par x)).ap x = .done false → Cancelled s' x := fun x hx => by
    have := L x hx
    unfold Cancelled at *
    rw [K.state x this]; exact this
  have one : ∀ {p d k}, Context.step (s.cx p) d = some k → (∀ x, d = .adder x → (s.cx p).ap x ≠ .refused) → ∀ q x, (if q = p then k else s.cx q).ap x = .done false → (s.cx q).ap x = .done false := by
    intro p d k hk hd q x hq
    split at hq
    · rename_i e; subst e
      exact (late_cx hk hq).resolve_right fun ⟨a, b⟩ => hd x a b
    · exact hq
  cases kind h with
  | plain p d k hd hx hh hk hc e =>
    subst e
    exact fun x hx => up x (one hk (fun y e => by subst e; exact hd) _ _ hx)
  | @refused x k l hr hk hl e =>
    obtain ⟨hne, hi, hin, hnh⟩ := refused_new ht I hr
    rw [if_neg hne, hi, early_eq] at hl
    cases hl
    intro y hy
    by_cases hyx : y = x
    · subst hyx; rw [e]; simp [Cancelled, closed]
    · refine up y ?_
      rw [e] at hy
      dsimp only at hy
      split at hy
      · cases hy
      · split at hy
        · rename_i e; rw [← e] at hk
          exact (late_cx hk hy).resolve_right fun ⟨a, _⟩ => hyx (by cases a; rfl)
        · exact hy
  | removed k _ _ _ hk e => subst e; exact fun x hx => up x (one hk (by simp) _ _ hx)
  | begins y l k _ _ _ hk e => subst e; exact fun x hx => up x (one hk (by simp) _ _ hx)
  | skips y l k _ _ _ hk e => subst e; exact fun x hx => up x (one hk (by simp) _ _ hx)
  | ends y l k _ _ _ hk e => subst e; exact fun x hx => up x (one hk (by simp) _ _ hx)

theorem late_run {par : Nat → Nat} (ht : Tree par) {s s' : St} {cs : List Choice} (I : Inv par s) (L : Late par s) (h : run par s cs = some s') : Late par s' := by
  induction cs generalizing s with
  | nil => cases h; exact L
  | cons c cs ih =>
    obtain ⟨t, h1, h2⟩ := bind_some h
    exact ih (inv_step ht I h1) (late_step ht I L h1) h2

/-- Not on the way to be registered. -/
def Out : Context.APc → Prop
  | .idle | .pre | .refused | .done false => True
  | _ => False

theorem out_step {s s' : Context.St} {d : Context.Choice} (h0 : s.state ≠ 0) (h : Context.step s d = some s') {x : Nat} (ho : Out (s.ap x)) : Out (s'.ap x) := by
  cases d with
  | adder y =>
    by_cases hy : x = y
    · subst hy
      simp only [Context.step, Context.stepAdder] at h
      cases e : s.ap x <;> rw [e] at h ho <;> dsimp only at h <;> first | exact ho.elim | (cases h; done) | (cases h; simp [Context.set, Out, h0])
    · rw [((adder_eq h).2.2.2.1 x hy).1]; exact ho
  | remove y => rw [(remove_eq h).1]; exact ho
  | canc =>
    simp only [Context.step, Context.stepCancel] at h
    (repeat' split at h) <;> cases h <;> exact ho
  | add y =>
    simp only [Context.step] at h
    split at h <;> cases h
    simp only [Context.set]
    split
    · trivial
    · exact ho
  | _ =>
    simp only [Context.step] at h
    (repeat' split at h) <;> cases h <;> exact ho

theorem out_run {par : Nat → Nat} (ht : Tree par) {s s' : St} {cs : List Choice} {p x : Nat} (I : Inv par s) (h0 : Cancelled s p) (ho : Out ((s.cx p).ap x))
    (h : run par s cs = some s') : Out ((s'.cx p).ap x) := by
  induction cs generalizing s with
  | nil => cases h; exact ho
  | cons c cs ih =>
    obtain ⟨t, h1, h2⟩ := bind_some h
    have K := keep_step ht I h1
    refine ih (inv_step ht I h1) ?_ ?_ h2
    · unfold Cancelled at *
      rw [K.state p h0]; exact h0
    · rcases cx_step ht I h1 p with h1 | ⟨d, h1, _⟩ | ⟨_, h1⟩
      · rw [h1]; exact ho
      · exact out_step h0 h1 ho
      · rw [h1]; trivial

/-! ### A context whose `cancelAll` has no end -/

structure Stuck (par : Nat → Nat) (s : St) (p a g : Nat) : Prop where
  busy : Busy s p a
  op : Open par s g
  par : par g = a
  cp : (s.cx a).cp ≠ .exit
  rn : (s.cx a).cp = .readN → g ∉ (s.cx a).m

/-- Where a canceler is stored. -/
theorem stored_step {s s' : Context.St} {d : Context.Choice} {x : Nat} (I : Context.Inv s) (hs : Context.Outstanding s x) (h : Context.step s d = some s') (hn : d ≠ .remove x) :
    (x ∈ s'.m → x ∈ s.m) := by
  intro hx
  cases d with
  | adder y =>
    by_cases hy : x = y
    · subst hy
      have := (adder_eq h).2.2.2.2
      rw [hs.1] at this; exact this.elim
    · simp only [Context.step, Context.stepAdder, Context.store] at h
      (repeat' split at h) <;> cases h <;> first | exact hx | simp_all
  | remove y =>
    simp only [Context.step, Context.delete, Context.signal] at h
    (repeat' split at h) <;> cases h <;> first | exact hx | exact (List.mem_filter.1 hx).1
  | canc =>
    simp only [Context.step, Context.stepCancel] at h
    (repeat' split at h) <;> cases h <;> exact hx
  | _ =>
    simp only [Context.step] at h
    (repeat' split at h) <;> cases h <;> exact hx

theorem loop_step {s s' : Context.St} {d : Context.Choice} {x : Nat} (I : Context.Inv s) (hs : Context.Outstanding s x) (h0 : s.state ≠ 0) (he : s.cp ≠ .exit)
    (hr : s.cp = .readN → x ∉ s.m) (h : Context.step s d = some s') (hn : d ≠ .remove x) : s'.cp ≠ .exit ∧ (s'.cp = .readN → x ∉ s'.m) := by
  have st := stored_step I hs h hn
  cases d with
  | adder y =>
    have := (adder_eq h).2.1
    rw [this]
    exact ⟨he, fun e hx => hr e (st hx)⟩
  | remove y =>
    have := (remove_eq h).2.2.2.1
    rw [this]
    exact ⟨he, fun e hx => hr e (st hx)⟩
  | cancel e =>
    simp only [Context.step, if_neg h0] at h
    cases h
    exact ⟨he, hr⟩
  | canc =>
    have ho := (I.stored x).2 hs
    have hnn := I.n
    simp only [Context.step, Context.stepCancel] at h
    cases e : s.cp <;> rw [e] at h <;> (try dsimp only at h)
    case readM =>
      cases h
      dsimp only
      split
      · exact ⟨by simp, by simp⟩
      · rename_i hm
        refine ⟨by simp, fun _ hx => hm ?_⟩
        exact List.length_pos_iff.2 (by rintro e; rw [e] at hx; cases hx)
    case readN =>
      cases h
      have hxm := hr e
      have hp : 0 < s.n := by
        unfold Context.one at hnn
        rcases ho with ho | ho | ho
        · rw [ho] at hnn; simp at hnn; split at hnn <;> omega
        · rw [ho] at hnn; simp at hnn; split at hnn <;> omega
        · exact absurd ho hxm
      rw [if_pos hp]
      exact ⟨by simp, by simp⟩
    all_goals (repeat' split at h) <;> first | (cases h; done) | (rename_i e'; cases e'; done) | (rename_i e' _; cases e'; done) | (cases h; exact ⟨by simp, by simp⟩)
  | _ =>
    simp only [Context.step] at h
    (repeat' split at h) <;> cases h <;> exact ⟨he, hr⟩

theorem stuck_step {par : Nat → Nat} (ht : Tree par) {s s' : St} {c : Choice} {p a g : Nat} (I : Inv par s) (S : Stuck par s p a g) (h : step par s c = some s') (hc : c ≠ .done g) :
    Stuck par s' p a g := by
  obtain ⟨⟨hb, l, hl⟩, ho, hp, he, hr⟩ := S
  obtain ⟨a', l', b1, b2⟩ := I.ins p hb
  rw [hl] at b1; cases b1
  have hoa : Context.Outstanding (s.cx a) g := hp ▸ ho.2
  suffices Busy s' p a ∧ (s'.cx a).cp ≠ .exit ∧ ((s'.cx a).cp = .readN → g ∉ (s'.cx a).m) from ⟨this.1, open_step ht I h hc ho, hp, this.2.1, this.2.2⟩
  constructor
  · cases kind h with
    | plain q d k hd hx hh hk _ e =>
      have := plain_eq hd hk (I.cx q) (I.idle q)
      subst e
      refine ⟨hb, l, ?_⟩
      dsimp only
      split
      · rename_i e; subst e; exact (this.2.2.2.1 _ _ hl).trans hl
      · exact hl
    | @refused x k l' hr hk hl' e =>
      obtain ⟨hne, hi, hin, hnh⟩ := refused_new ht I hr
      have hx := refused_eq hr hk
      subst e
      refine ⟨hb, l, ?_⟩
      dsimp only
      split
      · rename_i e; subst e; rw [hi] at hl; cases hl
      · split
        · rename_i e; subst e; rw [hx]; exact hl
        · exact hl
    | @removed x k hn hh hg hk e =>
      have := (remove_eq hk).2.2.2.1
      subst e
      refine ⟨hb, l, ?_⟩
      dsimp only
      split
      · rename_i e; subst e; rw [this]; exact hl
      · exact hl
    | @begins x y l' k hl' hb' hy hk e =>
      have hne : p ≠ y := by rintro rfl; rw [I.idle p hy] at hl; cases hl
      subst e
      refine ⟨?_, l, ?_⟩
      · dsimp only; split
        · rfl
        · exact hb
      · dsimp only; rw [if_neg hne]; exact hl
    | @skips x y l' k hl' hb' hy hk e =>
      have hne : p ≠ x := by rintro rfl; rw [hb] at hb'; cases hb'
      subst e
      exact ⟨hb, l, by dsimp only; rw [if_neg hne]; exact hl⟩
    | @ends x y l' k hl' hb' hy hk e =>
      have hne : p ≠ x := by
        rintro rfl
        rw [hl] at hl'; cases hl'
        exact he hy
      subst e
      refine ⟨by dsimp only; rw [if_neg hne]; exact hb, l, by dsimp only; rw [if_neg hne]; exact hl⟩
  · rcases cx_step ht I h a with h1 | ⟨d, h1, hd⟩ | ⟨h1, _⟩
    · rw [h1]; exact ⟨he, hr⟩
    · exact loop_step (I.cx a) hoa b2 he hr h1 (fun e => hc (hd.remove g e))
    · have := hoa.1
      rw [h1] at this; cases this

theorem live_step {par : Nat → Nat} (ht : Tree par) {s s' : St} {c : Choice} {p a g b : Nat} (I : Inv par s) (S : Stuck par s p a g) (hb : Made par s b) (hp : par b = p)
    (h0 : ¬ Cancelled s b) (h : step par s c = some s') (hc : ∀ e, c ≠ .cancel b e) : ¬ Cancelled s' b := by
  have h0 : (s.cx b).state = 0 := Decidable.of_not_not h0
  suffices (s'.cx b).state = 0 from fun h => h this
  have hh : Has par s b := .inr hb.2
  rcases cx_step ht I h b with h1 | ⟨d, h1, hd⟩ | ⟨h1, h2⟩
  · rw [h1]; exact h0
  · by_cases hcan : ∃ e, d = .cancel e
    · obtain ⟨e, rfl⟩ := hcan
      rcases hd.cancel e rfl with h2 | ⟨_, x, l, rfl, h3, h4⟩
      · exact absurd h2 (hc e)
      · have := (I.own x b (by rw [I.list x _ h3 b (List.mem_cons_self ..)]; simp)).2
        rw [hp] at this; subst this
        rw [S.busy.1] at h4; cases h4
    · rw [same_state h1 (fun e he => hcan ⟨e, he⟩)]; exact h0
  · exfalso
    cases kind h with
    | @refused x k l hr hk hl e =>
      obtain ⟨hne, hi, hin, hnh⟩ := refused_new ht I hr
      rw [e] at h2
      dsimp only at h2
      split at h2
      · rename_i e; subst e; exact hnh hh
      · split at h2
        · rename_i e; subst e; rw [h1] at hr; cases hr
        · rw [h1] at h2; cases h2
    | plain q d k hd hx hh hk _ e =>
      rw [e] at h2
      dsimp only at h2
      split at h2
      · rename_i e; subst e; subst h2; rw [h1] at hk
        cases d <;> simp [Context.step, Context.stepAdder, Context.stepCancel, Context.init, closed] at hk
        all_goals (have := congrArg Context.St.state hk; simp at this)
      · rw [h1] at h2; cases h2
    | @removed x k hn hh' hg hk e =>
      rw [e] at h2
      dsimp only at h2
      split at h2
      · rename_i e; subst e; subst h2; rw [h1] at hk; simp [Context.step, Context.init] at hk
      · rw [h1] at h2; cases h2
    | @begins x y l' k hl' hb' hy hk e =>
      rw [e] at h2
      dsimp only at h2
      split at h2
      · rename_i e; subst e; subst h2; rw [h1] at hk; simp [Context.step, Context.init, closed] at hk
      · rw [h1] at h2; cases h2
    | @skips x y l' k hl' hb' hy hk e =>
      rw [e] at h2
      dsimp only at h2
      split at h2
      · rename_i e; subst e; rw [h1] at hl'; cases hl'
      · rw [h1] at h2; cases h2
    | @ends x y l' k hl' hb' hy hk e =>
      rw [e] at h2
      dsimp only at h2
      split at h2
      · rename_i e; subst e; rw [h1] at hl'; cases hl'
      · rw [h1] at h2; cases h2

theorem stuck_run {par : Nat → Nat} (ht : Tree par) {s s' : St} {cs : List Choice} {p a g : Nat} (I : Inv par s) (S : Stuck par s p a g) (hc : .done g ∉ cs) (h : run par s cs = some s') :
    Stuck par s' p a g ∧ ∀ b, Made par s b → par b = p → ¬ Cancelled s b → (∀ e, .cancel b e ∉ cs) → ¬ Cancelled s' b := by
  induction cs generalizing s with
  | nil => cases h; exact ⟨S, fun b _ _ h _ => h⟩
  | cons c cs ih =>
    obtain ⟨t, h1, h2⟩ := bind_some h
    have K := keep_step ht I h1
    obtain ⟨r1, r2⟩ := ih (inv_step ht I h1) (stuck_step ht I S h1 (fun e => hc (by rw [e]; exact List.mem_cons_self ..))) (fun h => hc (List.mem_cons_of_mem _ h)) h2
    refine ⟨r1, fun b hb hp h0 hn => r2 b ⟨hb.1, hb.2.imp (K.done _ _ _) (K.done _ _ _)⟩ hp ?_ (fun e h => hn e (List.mem_cons_of_mem _ h))⟩
    exact live_step ht I S hb hp h0 h1 (fun e he => hn e (by rw [he]; exact List.mem_cons_self ..))

/-! ### Deciding `Unraced` for given runs -/

def clearB (s : Context.St) : Bool := s.state = 0 || match s.lock with
  | none => true
  | some x => s.ap x ≠ .reg

def upTo (N : Nat) (s : St) : Bool := (List.range N).all fun p => clearB (s.cx p)

def alongB (par : Nat → Nat) (N : Nat) : St → List Choice → Bool
  | s, [] => upTo N s
  | s, c :: cs => upTo N s && match step par s c with
    | none => true
    | some s => alongB par N s cs

theorem clear_of {par : Nat → Nat} {N : Nat} {s : St} (i : Inv par s) (hb : ∀ p, N ≤ p → s.cx p = Context.init) (h : upTo N s = true) (p : Nat) : Context.Clear (s.cx p) := by
  by_cases hp : p < N
  · have h := List.all_eq_true.1 h p (List.mem_range.2 hp)
    intro h0 x hx
    have hl := ((i.cx p).lock x).2 (.inr hx)
    simp [clearB, h0, hl, hx] at h
  · rw [hb p (by omega)]
    intro h; exact absurd rfl h

/-- Only contexts below `N` are made in the run. -/
def Below (N : Nat) (cs : List Choice) : Bool := cs.all fun c => match c with
  | .make x => decide (x < N)
  | _ => true

theorem unmade_cx {par : Nat → Nat} {N : Nat} {s : St} (hN : 0 < N) (i : Inv par s) (hb : ∀ x, N ≤ x → (s.cx (par x)).ap x = .idle) (p : Nat) (hp : N ≤ p) : s.cx p = Context.init := by
  refine (i.new p ?_).1
  rintro (h | h | h)
  · omega
  · rw [hb p hp] at h; cases h
  · rw [hb p hp] at h; cases h

theorem along_of {par : Nat → Nat} {N : Nat} (ht : Tree par) (hN : 0 < N) {s : St} {cs : List Choice} (i : Inv par s) (hb : ∀ x, N ≤ x → (s.cx (par x)).ap x = .idle) (hm : Below N cs = true)
    (h : alongB par N s cs = true) : Unraced par s cs := by
  induction cs generalizing s with
  | nil => exact clear_of i (unmade_cx hN i hb) h
  | cons c cs ih =>
    simp only [alongB, Bool.and_eq_true] at h
    simp only [Below, List.all_cons, Bool.and_eq_true] at hm
    refine ⟨clear_of i (unmade_cx hN i hb) h.1, fun s' hs => ih (inv_step ht i hs) (fun x hx => ap_keep ht i hs ?_ (hb x hx)) hm.2 ?_⟩
    · rintro rfl
      have := hm.1
      simp at this
      omega
    · have := h.2
      rw [hs] at this
      exact this

theorem unraced_of {par : Nat → Nat} {N : Nat} {cs : List Choice} (ht : Tree par) (hN : 0 < N) (hm : Below N cs = true) (h : alongB par N init cs = true) : Unraced par init cs :=
  along_of ht hN (inv_init par) (fun _ _ => rfl) hm h

/-! ### Runs -/

/-- `Child` on a live context. -/
def child (x : Nat) : List Choice := .make x :: List.replicate 4 (.maker x)

/-- Contexts 1 and 2 are made from context 0, contexts 3 and 4 from context 1, context 5 from 3. -/
def tree : Nat → Nat
  | 3 => 1
  | 4 => 1
  | 5 => 3
  | _ => 0

theorem tree_tree : Tree tree := by
  intro x hx
  unfold tree
  split <;> omega

/-- The six contexts, context 0 expires and its goroutine calls `Cancel` of context 1. -/
def six : List Choice := child 1 ++ child 2 ++ child 3 ++ child 4 ++ child 5 ++ [.cancel 0 true] ++ List.replicate 4 (.canc 0)

theorem six_unraced : Unraced tree init six := unraced_of (N := 6) tree_tree (by decide) (by decide) (by decide +kernel)

/-- A run that ends everything after `six`. -/
def after : List Choice :=
  List.replicate 4 (.canc 1) ++            -- calls Cancel of context 3
  List.replicate 4 (.canc 3) ++            -- calls Cancel of context 5
  List.replicate 2 (.canc 5) ++            -- context 5 has nothing in it
  [.canc 3, .done 5] ++ List.replicate 3 (.canc 3) ++  -- context 3 ends
  [.canc 1, .canc 1, .canc 4, .canc 4, .canc 1] ++      -- and so does context 4
  [.done 3, .done 4] ++ List.replicate 3 (.canc 1) ++
  [.canc 0, .canc 0, .canc 2, .canc 2, .canc 0, .done 1, .done 2] ++ List.replicate 3 (.canc 0)

end Verif.CtxTree

namespace Verif.Props
open Verif.CtxTree

/-- C132 (partial): if a context has been cancelled (or has expired) and no context is cancelled between the look at `State` in `AddCanceler` and the storing of the canceler, then the goroutines
that are inside `Child` and `cancelAll` can go on, with nothing else happening but calls of `Done` for contexts that are cancelled already, until every context below it is cancelled and its
`cancelAll` has ended. Missing: that they do go on (the schedule is not shown fair), and the race of C44. -/
theorem C132_below_partial {par : Nat → Nat} (ht : Tree par) {cs : List Choice} {s : St} {p : Nat} (hu : Unraced par init cs) (h : run par init cs = some s) (hc : Cancelled s p) :
    ∃ ds s', Goes par s ds ∧ run par s ds = some s' ∧ ∀ d, Under par s p d → Cancelled s' d ∧ Ended s' d := by
  obtain ⟨N, w⟩ := w_of ht hu h
  obtain ⟨ds, s', h1, h2, _, h3⟩ := sweep w hc (N + p + 1)
  exact ⟨ds, s', h1, h2, fun d hd => h3 d (under_bound w hd) hd⟩

/-- The hypotheses hold of the run `six`; context 5 is below context 0. -/
example : ∃ s, run tree init six = some s ∧ Cancelled s 0 ∧ ¬ Cancelled s 5 ∧ Under tree s 0 5 := by
  cases h : run tree init six with
  | none => exact absurd h (by decide +kernel)
  | some s =>
    have hc : (run tree init six).map (fun s => ((s.cx 0).state, (s.cx 5).state)) = some (2, 0) := by decide +kernel
    have hd : (run tree init six).map (fun s => [((s.cx 0).ap 1, (s.cx 0).gone 1), ((s.cx 1).ap 3, (s.cx 1).gone 3), ((s.cx 3).ap 5, (s.cx 3).gone 5)]) =
        some [(.done true, false), (.done true, false), (.done true, false)] := by decide +kernel
    rw [h] at hc hd
    simp only [Option.map_some, Option.some.injEq, Prod.mk.injEq, List.cons.injEq, and_true] at hc hd
    obtain ⟨a, b⟩ := hc
    obtain ⟨⟨c1, c2⟩, ⟨d1, d2⟩, e1, e2⟩ := hd
    refine ⟨s, rfl, by simp [Cancelled, a], by simp [Cancelled, b], ?_⟩
    exact .child (.child (.child .refl ⟨by decide, c1, c2⟩) ⟨by decide, d1, d2⟩) ⟨by decide, e1, e2⟩

/-- And this is a run as in the theorem. -/
example : (run tree init (six ++ after)).map (fun s => (List.range 6).map fun x => ((s.cx x).state, (s.cx x).cp)) =
    some [(2, .exit), (1, .exit), (1, .exit), (1, .exit), (1, .exit), (1, .exit)] := by decide +kernel

/-- C132 (partial): once `cancelAll` of a context is through with what it had (or has ended), every child registered with it, and not closed with `Done`, is cancelled.
Missing: without the assumption it is false (C44). -/
theorem C132_passed_partial {par : Nat → Nat} (ht : Tree par) {cs : List Choice} {s : St} {x : Nat} (hu : Unraced par init cs) (h : run par init cs = some s) (hp : Passed s (par x))
    (ho : Open par s x) : Cancelled s x := by
  obtain ⟨N, w⟩ := w_of ht hu h
  rcases hp with hp | hp
  · exact w.inv.called _ x ((w.can _).passed hp x ho.2.1 ho.2.2)
  · have := exit_gone (w.inv.cx _) (w.can _) hp ho.2.1
    rw [ho.2.2] at this; cases this

/-- C132: when `cancelAll` of a context has ended, all the children registered with it have been closed. -/
theorem C132_ended_partial {par : Nat → Nat} (ht : Tree par) {cs : List Choice} {s : St} {x : Nat} (hu : Unraced par init cs) (h : run par init cs = some s) (he : Ended s (par x)) :
    ¬ Open par s x := by
  obtain ⟨N, w⟩ := w_of ht hu h
  intro ho
  have := exit_gone (w.inv.cx _) (w.can _) he ho.2.1
  rw [ho.2.2] at this; cases this

/-- Some steps after the run `six` the goroutine is through with the list of context 3, and context 5 is not closed. -/
example : Unraced tree init (six ++ after.take 11 ++ [.canc 3]) ∧
    (run tree init (six ++ after.take 11 ++ [.canc 3])).map (fun s => ((s.cx 3).passes, (s.cx 3).ap 5, (s.cx 3).gone 5)) = some (1, .done true, false) :=
  ⟨unraced_of (N := 6) tree_tree (by decide) (by decide) (by decide +kernel), by decide +kernel⟩

/-- C132: a context made from a cancelled one is cancelled when `Child` returns it. -/
theorem C132_born {par : Nat → Nat} (ht : Tree par) {cs ds : List Choice} {s s' : St} {x : Nat} (h : run par init cs = some s) (hc : Cancelled s (par x)) (hn : Unmade par s x)
    (h' : run par s ds = some s') (hm : Made par s' x) : Cancelled s' x := by
  have I := inv_run ht (inv_init par) h
  have L : Late par s := late_run ht (inv_init par) (fun x hx => by cases hx) h
  refine late_run ht I L h' x (hm.2.resolve_left fun e => ?_)
  have := out_run ht (x := x) I hc (by rw [show (s.cx (par x)).ap x = _ from hn]; trivial) h'
  rw [e] at this
  exact this

/-- Context 7 is made from context 0 after that has expired. -/
example : (run tree init (six ++ [.make 7, .maker 7, .maker 7])).map (fun s => ((s.cx 0).ap 7, (s.cx 7).state)) = some (.done false, 1) := by decide +kernel

/-- C132: only `Expire` of the context itself makes `Timeout` of it true: the contexts below an expired context are cancelled but not timed out. -/
theorem C132_timeout {par : Nat → Nat} (ht : Tree par) {cs : List Choice} {s : St} {x : Nat} (h : run par init cs = some s) (hx : TimedOut s x) : .cancel x true ∈ cs := by
  suffices ∀ s0, Inv par s0 → ¬ TimedOut s0 x → run par s0 cs = some s → .cancel x true ∈ cs from this _ (inv_init par) (by simp [TimedOut, init, Context.init]) h
  clear h
  induction cs with
  | nil => intro s0 _ hn h; cases h; exact absurd hx hn
  | cons c cs ih =>
    intro s0 I hn h
    obtain ⟨t, h1, h2⟩ := CtxReq.bind_some h
    by_cases ht' : TimedOut t x
    · unfold TimedOut at hn ht'
      rcases cx_step ht I h1 x with h3 | ⟨d, h3, hd⟩ | ⟨_, h3⟩
      · rw [h3] at ht'; exact absurd ht' hn
      · by_cases hcan : ∃ e, d = .cancel e
        · obtain ⟨e, rfl⟩ := hcan
          have he : e = true := by
            cases e with
            | true => rfl
            | false =>
              by_cases h0 : (s0.cx x).state = 0
              · simp only [Context.step, h0, if_true, Bool.false_eq_true, if_false] at h3
                have := Option.some.inj h3
                rw [← this] at ht'; cases ht'
              · have := state_step h3 h0
                rw [this] at ht'; exact absurd ht' hn
          subst he
          rcases hd.cancel true rfl with h4 | ⟨h4, _⟩
          · rw [h4]; exact List.mem_cons_self ..
          · cases h4
        · rw [same_state h3 (fun e he => hcan ⟨e, he⟩)] at ht'; exact absurd ht' hn
      · rw [h3] at ht'; cases ht'
    · exact List.mem_cons_of_mem _ (ih t (inv_step ht I h1) ht' h2)

/-- Context 0 of the run `six` is timed out; context 1, which its `Expire` cancels, is not. -/
example : (run tree init six).map (fun s => ((s.cx 0).state, (s.cx 1).state)) = some (2, 1) := by decide +kernel

/-- C132, violated: while `cancelAll` of a context waits for the end of `Cancel` of one child, and a context made from that child is not closed, the other children of the context are not cancelled:
`Cancel` of a context reaches a part of the tree only after another part, unrelated to it, was closed by its owners. -/
theorem C132_blocked_violated {par : Nat → Nat} (ht : Tree par) {cs ds : List Choice} {s s' : St} {p a g b : Nat} (hu : Unraced par init cs) (h : run par init cs = some s)
    (hp : Busy s p a) (hg : Open par s g) (hga : par g = a) (hb : Open par s b) (hbp : par b = p) (h0 : ¬ Cancelled s b)
    (h' : run par s ds = some s') (hd : .done g ∉ ds) (hc : ∀ e, .cancel b e ∉ ds) : ¬ Cancelled s' b := by
  obtain ⟨N, w⟩ := w_of ht hu h
  have S : Stuck par s p a g := by
    refine ⟨hp, hg, hga, fun e => ?_, fun e => ?_⟩
    · have := exit_gone (w.inv.cx a) (w.can a) e (x := g) (hga ▸ hg.2.1)
      rw [← hga, hg.2.2] at this; cases this
    · rw [(w.can a).readN e]; simp
  exact (stuck_run ht w.inv S hd h').2 b ⟨hb.1, .inl hb.2.1⟩ hbp h0 hc

/-- In the run `six` the goroutine waits for the end of `Cancel` of context 1, context 3 is not closed, and context 2 is not cancelled. -/
example : (run tree init six).map (fun s => (s.inside 0, (s.cx 0).cp, (s.cx 2).state, [((s.cx 1).ap 3, (s.cx 1).gone 3), ((s.cx 0).ap 2, (s.cx 0).gone 2)])) =
    some (true, .calling [1, 2], 0, [(.done true, false), (.done true, false)]) := by decide +kernel

end Verif.Props
