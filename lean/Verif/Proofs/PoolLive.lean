import Verif.Spec.PoolLive
import Verif.Props.Pool
/-!
The connection pool comes to have its connections.
-/
namespace Verif.Pool

/-- What holds as long as nothing is stopped. -/
structure Grow (s : St) : Prop where
  inv : Inv s
  tot : Tot s
  stops : s.stopsE = 0
  on : s.exiting = false
  few : s.dialing + s.established ≤ s.need
  pc : s.pc = .loop ∨ s.pc = .check ∨ s.pc = .fix
  stopped : ∀ i, (s.con i).stopped = false
  rp : ∀ i, (s.con i).lp = .running → (s.con i).rp ≠ .off ∧ (s.con i).wp ≠ .off

theorem grow_init (n : Nat) : Grow (init n) := by
  refine ⟨inv_init n, tot_init n, rfl, rfl, ?_, .inr (.inr rfl), fun _ => rfl, ?_⟩
  · simp [init]
  · intro i h; cases h

set_option maxHeartbeats 4000000 in
theorem grow_step {s s' : St} {c : Choice} (g : Grow s) (h1 : c ≠ .exit) (h2 : ∀ m, c = .setConns m → s.need ≤ m) (hs : step s c = some s') : Grow s' := by
  have hi := inv_step g.inv hs
  have ht := tot_step g.inv g.tot hs
  have np := hi.noPanic
  obtain ⟨-, -, a, b, d, e, f, f2⟩ := g
  refine ⟨hi, ht, ?_, ?_, ?_, ?_, ?_, ?_⟩ <;>
    cases c <;> simp only [step, stepServ, stepPick, stepLp, stepWp, stepCtl, push, onConnError] at hs <;>
      (repeat' split at hs) <;> cases hs <;> grind [Con.new]


def lw : LPc → Nat
  | .start => 12 | .dial => 11 | .sendErr => 15 | .sendOk => 10 | .markUp => 8 | .running => 0 | .failed => 0

def ww (r : RPc) : WPc → Nat
  | .off => 0
  | .top | .body | .wait => if r = .done then 17 else 0
  | .notify => 16 | .send => 15 | .done => 0

def cpw (w r : Bool) : CPc → Nat
  | .off => 0
  | .loop => 6 - one w - one r
  | .send => 3 | .flush => 1 | .done => 0

def cw (c : Con) : Nat := lw c.lp + ww c.rp c.wp + cpw c.wSeen c.rSeen c.cp

def mw : Msg → Nat
  | .dialErr _ => 14 | .dialOk _ => 1 | .write _ => 14 | .read _ => 1

def sm (f : Nat → Con) : Nat → Nat
  | 0 => 0
  | n + 1 => sm f n + cw (f n)

def ql : List Msg → Nat
  | [] => 0
  | m :: q => mw m + ql q

theorem ql_append (a b : List Msg) : ql (a ++ b) = ql a + ql b := by
  induction a with
  | nil => simp [ql]
  | cons m a ih => simp only [List.cons_append, ql, ih]; omega

theorem sm_congr {f g : Nat → Con} {n : Nat} (h : ∀ i, i < n → f i = g i) : sm f n = sm g n := by
  induction n with
  | zero => rfl
  | succ n ih => rw [sm, sm, ih fun i hi => h i (by omega), h n (by omega)]

theorem sm_set (f : Nat → Con) (i : Nat) (c : Con) (n : Nat) (hi : i < n) : sm (set f i c) n + cw (f i) = sm f n + cw c := by
  induction n with
  | zero => omega
  | succ n ih =>
    rw [sm, sm]
    by_cases h : i = n
    · subst h
      rw [sm_congr (g := f) fun j hj => by rw [set, if_neg (by omega)]]
      simp only [set, if_true]
      omega
    · have := ih (by omega)
      have e : set f i c n = f n := by rw [set, if_neg (by omega)]
      rw [e]
      omega

/-- What is left to do. -/
def left (s : St) : Nat := sm s.con s.cur + ql s.q + 13 * (s.need - s.dialing - s.established).toNat

/-- A step either lowers what is left, or does not open anything and is none that counts. -/
def Low (s : St) (c : Choice) (s' : St) : Prop :=
  left s' + one (Works c) + (s'.cur - s.cur) ≤ left s ∧ s.cur ≤ s'.cur

theorem low_con {s : St} {i : Nat} {ch : Choice} (hi : i < s.cur) {c : Con} {q : List Msg} (h : cw c + ql q + one (Works ch) ≤ cw (s.con i)) :
    Low s ch { s with con := set s.con i c, q := s.q ++ q } := by
  have := sm_set s.con i c s.cur hi
  refine ⟨?_, Nat.le_refl _⟩
  simp only [left, ql_append]
  omega

theorem low_one {s : St} {i : Nat} {ch : Choice} (hi : i < s.cur) {c : Con} (h : cw c + one (Works ch) ≤ cw (s.con i)) :
    Low s ch { s with con := set s.con i c } := by
  have := low_con hi (c := c) (q := []) (ch := ch) (by simpa [ql] using h)
  simpa using this

theorem low_serv {s s' : St} (g : Grow s) (hs : stepServ s = some s') : Low s .serv s' := by
  unfold stepServ at hs
  split at hs
  · split at hs <;> cases hs <;> exact ⟨by simp [left, one, Works], Nat.le_refl _⟩
  · dsimp only at hs
    split at hs
    · cases hs
      have hc : sm (set s.con s.cur Con.new) s.cur = sm s.con s.cur := sm_congr fun i hi => by rw [set, if_neg (by omega)]
      have hn : set s.con s.cur Con.new s.cur = Con.new := by simp [set]
      refine ⟨?_, by simp only; omega⟩
      simp only [left, sm, hc, hn, show cw Con.new = 12 by rfl, one, Works]
      simp only [Bool.false_eq_true, if_false]
      omega
    · split at hs <;> cases hs <;> exact ⟨by simp [left, one, Works], Nat.le_refl _⟩
  · have := g.pc; simp_all
  · have := g.pc; simp_all
  · cases hs

theorem low_lp {s s' : St} {i : Nat} (g : Grow s) (hi : i < s.cur) (hs : stepLp s i = some s') : Low s (.lp i) s' := by
  have h1 := g.inv.wOff i
  have h2 := g.inv.cOff i
  unfold stepLp push at hs
  dsimp only at hs
  split at hs <;> try (cases hs; done)
  all_goals
    rename_i e
    have a : (s.con i).wp = .off := Classical.byContradiction fun h => by simp_all
    have b : (s.con i).cp = .off := Classical.byContradiction fun h => by simp_all
  · cases hs
    exact low_one hi (by simp [cw, lw, e, a, b, ww, cpw, one, Works])
  · split at hs <;> cases hs
    exact low_con hi (by simp [cw, lw, e, a, b, ww, cpw, one, Works, ql, mw])
  · split at hs <;> cases hs
    exact low_con hi (by simp [cw, lw, e, a, b, ww, cpw, one, Works, ql, mw])
  · cases hs
    refine low_one hi ?_
    simp only [cw, lw, e, a, b, ww, cpw, one, Works]
    rw [if_neg (by simp)]
    simp
    omega

theorem low_wp {s s' : St} {i : Nat} (g : Grow s) (hs : stepWp s i = some s') : Low s (.wp i) s' := by
  have hi := wp_lt g.inv (i := i)
  have hst := g.stopped i
  unfold stepWp push at hs
  dsimp only at hs
  split at hs <;> rename_i e
  all_goals (repeat' split at hs) <;> cases hs
  all_goals first
    | (simp_all; done)
    | exact low_one (hi (by simp [e])) (by simp [cw, e, ww, one, Works])
    | exact low_con (hi (by simp [e])) (by simp [cw, e, ww, one, Works, ql, mw]; try omega)

theorem low_ctl {s s' : St} {i : Nat} (g : Grow s) (hs : stepCtl s i = some s') : Low s (.ctl i) s' := by
  have hi := cp_lt g.inv (i := i)
  unfold stepCtl push at hs
  dsimp only at hs
  split at hs <;> rename_i e
  all_goals (repeat' split at hs) <;> cases hs
  all_goals first
    | exact low_con (hi (by simp [e])) (by simp [cw, e, cpw, one, Works, ql, mw]; try omega)
    | refine low_one (hi (by simp [e])) ?_
  all_goals
    simp only [cw, e, cpw, one, Works]
    (try simp_all)
  all_goals (try split) <;> (try split) <;> omega

theorem low_recv {s : St} {m : Msg} {q : List Msg} (g : Grow s) (hq : s.q = m :: q) : Low s .recv (onConnError { s with q } m) := by
  have hf := g.few
  unfold onConnError
  split
  · split
    · refine ⟨?_, Nat.le_refl _⟩
      simp only [left, hq, ql, mw, one, Works, if_true]; omega
    · rename_i hn
      exact absurd (g.inv.err _ (by rw [hq]; simp)).2 hn
  · refine ⟨?_, Nat.le_refl _⟩
    simp only [left, hq, ql, mw, one, Works, if_true]; omega
  · refine ⟨?_, Nat.le_refl _⟩
    simp only [left, hq, ql, mw, one, Works, if_true]; omega
  · split
    · refine ⟨?_, Nat.le_refl _⟩
      simp only [left, hq, ql, mw, one, Works, if_true]; omega
    · rename_i hn
      exact absurd (g.inv.rd _ (by rw [hq]; simp)).2 hn

theorem low_step {s s' : St} {c : Choice} (g : Grow s) (hs : step s c = some s') (hm : Mends s c) : Low s c s' ∧ Grow s' := by
  refine ⟨?_, grow_step g (by rintro rfl; exact hm) (by rintro m rfl; exact hm.elim) hs⟩
  cases c with
  | serv => exact low_serv g hs
  | pick i =>
    simp only [step, stepPick] at hs
    have := g.pc
    split at hs
    · simp_all
    · cases hs
  | lp i =>
    simp only [step] at hs
    split at hs
    · exact low_lp g ‹_› hs
    · cases hs
  | wp i => exact low_wp g hs
  | ctl i => exact low_ctl g hs
  | recv =>
    simp only [step] at hs
    (repeat' split at hs) <;> cases hs
    exact low_recv g ‹_›
  | tick => simp only [step] at hs; split at hs <;> cases hs; exact ⟨by simp [left, one, Works], Nat.le_refl _⟩
  | setConns n => exact hm.elim
  | exit => exact hm.elim
  | rErr i => exact hm.elim
  | dialed i ok =>
    have : ok = true := hm
    subst this
    simp only [step] at hs
    split at hs
    · rename_i hc
      split at hs <;> cases hs
      · have h1 := g.inv.wOff i
        have h2 := g.inv.cOff i
        exact low_one hc.1 (by simp only [cw, lw, hc.2, one, Works, if_true]; omega)
      · rename_i hx; exact absurd trivial hx
    · cases hs
  | waits i =>
    simp only [step] at hs
    split at hs <;> cases hs
    rename_i hw
    exact low_one (wp_lt g.inv (by rw [hw]; simp)) (by simp [cw, hw, ww, one, Works])
  | wErr i =>
    have hr : (s.con i).rp = .done := hm
    simp only [step] at hs
    split at hs <;> cases hs
    rename_i hw
    exact low_one (wp_lt g.inv (by rw [hw]; simp)) (by simp only [cw, hw, ww, hr, one, Works, if_true]; omega)

theorem low_run {ds : List Choice} {s s' : St} (g : Grow s) (h : Mended s ds s') :
    left s' + ds.countP Works + (s'.cur - s.cur) ≤ left s ∧ s.cur ≤ s'.cur ∧ Grow s' := by
  induction ds generalizing s with
  | nil =>
    have : s' = s := h
    subst this
    exact ⟨by simp, Nat.le_refl _, g⟩
  | cons c ds ih =>
    obtain ⟨hm, t, ht, h⟩ := h
    obtain ⟨⟨a, b⟩, g'⟩ := low_step g ht hm
    obtain ⟨d, e, f⟩ := ih g' h
    refine ⟨?_, by omega, f⟩
    rw [List.countP_cons]
    unfold one at a
    omega

theorem mended_append {ds es : List Choice} {s t u : St} (h : Mended s ds t) (k : Mended t es u) : Mended s (ds ++ es) u := by
  induction ds generalizing s with
  | nil =>
    have : t = s := h
    subst this
    exact k
  | cons c ds ih =>
    obtain ⟨hm, x, hx, h⟩ := h
    exact ⟨hm, x, hx, ih h⟩

theorem mended_run {ds : List Choice} {s t : St} (h : Mended s ds t) : run s ds = some t := by
  induction ds generalizing s with
  | nil =>
    have : t = s := h
    subst this
    rfl
  | cons c ds ih =>
    obtain ⟨-, x, hx, h⟩ := h
    rw [run, hx]
    exact ih h

/-- The settled pool. -/
theorem settled_step {s s' : St} {c : Choice} (h : Settled s) (hs : step s c = some s') (hm : Mends s c) : Works c = false ∧ Settled s' ∧ s'.cur = s.cur := by
  have a := h [c] s' ⟨hm, s', hs, rfl⟩
  refine ⟨?_, fun ds t k => ?_, a.2⟩
  · cases e : Works c with
    | false => rfl
    | true => simp [e] at a
  · have b := h (c :: ds) t ⟨hm, s', hs, k⟩
    rw [List.countP_cons] at b
    exact ⟨by omega, by rw [b.2, a.2]⟩

theorem settled_no {s : St} {c : Choice} (h : Settled s) (hm : Mends s c) (hw : Works c = true) : step s c = none := by
  cases e : step s c with
  | none => rfl
  | some t => rw [(settled_step h e hm).1] at hw; cases hw

/-- The server gets back to its select. -/
theorem settled_loop {s : St} (g : Grow s) (h : Settled s) : ∃ t, Settled t ∧ Grow t ∧ t.pc = .loop ∧ t.q = s.q ∧ t.con = s.con ∧ t.cur = s.cur ∧
    t.need = s.need ∧ t.dialing = s.dialing ∧ t.established = s.established := by
  have chk : ∀ s, Grow s → Settled s → s.pc = .check → ∃ t, Settled t ∧ Grow t ∧ t.pc = .loop ∧ t.q = s.q ∧ t.con = s.con ∧ t.cur = s.cur ∧
      t.need = s.need ∧ t.dialing = s.dialing ∧ t.established = s.established := by
    intro s g h hp
    have e : step s .serv = some { s with pc := .loop } := by simp [step, stepServ, hp, g.on]
    exact ⟨_, (settled_step h e trivial).2.1, (low_step g e trivial).2, rfl, rfl, rfl, rfl, rfl, rfl, rfl⟩
  rcases g.pc with hp | hp | hp
  · exact ⟨s, h, g, hp, rfl, rfl, rfl, rfl, rfl, rfl⟩
  · exact chk s g h hp
  · have hf := g.few
    by_cases hn : 0 < s.need - (s.dialing + s.established)
    · have e : step s .serv = some { s with cur := s.cur + 1, con := set s.con s.cur Con.new, conns := s.cur :: s.conns, dialing := s.dialing + 1 } := by
        simp only [step, stepServ, hp]
        rw [if_pos hn]
      have := (settled_step h e trivial).2.2
      simp only at this
      omega
    · have e : step s .serv = some { s with pc := .check } := by
        simp only [step, stepServ, hp]
        rw [if_neg hn, if_neg (by omega)]
      exact chk { s with pc := .check } (low_step g e trivial).2 (settled_step h e trivial).2.1 rfl

theorem settled_q {s : St} (g : Grow s) (h : Settled s) : s.q = [] := by
  obtain ⟨t, h, g, hp, hq, -⟩ := settled_loop g h
  rw [← hq]
  have := settled_no h (c := .recv) trivial rfl
  simp only [step, hp, if_true] at this
  split at this
  · cases this
  · assumption

theorem settled_need {s : St} (g : Grow s) (h : Settled s) : s.need = s.dialing + s.established := by
  obtain ⟨t, h, g, hp, -, -, -, e1, e2, e3⟩ := settled_loop g h
  have hf := g.few
  have e : step t .tick = some { t with pc := .fix } := by simp [step, hp]
  have h' := (settled_step h e trivial).2.1
  apply Classical.byContradiction
  intro hn
  have e : step { t with pc := .fix } .serv = some { t with pc := .fix, cur := t.cur + 1, con := set t.con t.cur Con.new, conns := t.cur :: t.conns, dialing := t.dialing + 1 } := by
    simp only [step, stepServ]
    rw [if_pos (by omega)]
  have := (settled_step h' e trivial).2.2
  simp only at this
  omega

theorem settled_con {s : St} (g : Grow s) (h : Settled s) {i : Nat} (hi : i < s.cur) :
    (s.con i).lp = .failed ∨ ((s.con i).lp = .running ∧ ((s.con i).wp = .done ∨ Alive (s.con i))) := by
  have hq := settled_q g h
  have hc : s.q.length < cap := by rw [hq]; decide
  have h1 := settled_no h (c := .lp i) trivial rfl
  simp only [step, hi, if_true, stepLp, push, hc] at h1
  split at h1 <;> try (cases h1; done)
  rename_i a b d e
  have h2 := settled_no h (c := .dialed i true) rfl rfl
  simp only [step, hi, true_and, if_true] at h2
  have hd : (s.con i).lp ≠ .dial := by intro x; rw [if_pos x] at h2; cases h2
  cases el : (s.con i).lp with
  | start => exact absurd el a
  | sendErr => exact absurd el b
  | sendOk => exact absurd el d
  | markUp => exact absurd el e
  | dial => exact absurd el hd
  | failed => exact .inl rfl
  | running =>
    refine .inr ⟨rfl, ?_⟩
    obtain ⟨hr, hw⟩ := g.rp i el
    have last : ∀ t, Grow t → Settled t → (t.con i).wp ≠ .send := by
      intro t g h e
      have hq := settled_q g h
      have hs : step t (.wp i) = some { t with q := t.q ++ [.write i], con := set t.con i { t.con i with wp := .done } } := by
        simp only [step, stepWp, push, e]
        rw [if_pos (by rw [hq]; decide)]
      have := settled_q (low_step g hs trivial).2 (settled_step h hs trivial).2.1
      simp at this
    have next : ∀ t, Grow t → Settled t → (t.con i).wp ≠ .notify := by
      intro t g h e
      have hs : step t (.wp i) = some { t with con := set t.con i { t.con i with wp := .send, wClosed := true } } := by
        simp only [step, stepWp, e]
      exact last _ (low_step g hs trivial).2 (settled_step h hs trivial).2.1 (by simp [set])
    have body : ∀ t, Settled t → (t.con i).rp = .done → (t.con i).wp ≠ .body := by
      intro t h hr e
      have := settled_no h (c := .wErr i) hr rfl
      simp [step, e] at this
    have top : ∀ t, Grow t → Settled t → (t.con i).rp = .done → (t.con i).wp ≠ .top := by
      intro t g h hr e
      have hs : step t (.wp i) = some { t with con := set t.con i { t.con i with wp := .body } } := by
        simp [step, stepWp, e, g.stopped i]
      exact body _ (settled_step h hs trivial).2.1 (by simp [set, hr]) (by simp [set])
    have wait : (s.con i).rp = .done → (s.con i).wp ≠ .wait := by
      intro hr e
      have hs : step s (.wp i) = some { s with con := set s.con i { s.con i with wp := .top } } := by
        simp [step, stepWp, e]
      exact top _ (low_step g hs trivial).2 (settled_step h hs trivial).2.1 (by simp [set, hr]) (by simp [set])
    have n1 := next s g h
    have n2 := last s g h
    have n3 := top s g h
    have n4 := body s h
    cases er : (s.con i).rp <;> cases ew : (s.con i).wp <;> simp_all [Alive]

end Verif.Pool
