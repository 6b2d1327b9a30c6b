import Verif.Proofs.PoolLive
/-!
C143: a connection pool gets its connections back.
-/
namespace Verif.Pool

theorem grow {cs : List Choice} : ∀ {s s' : St}, Grow s → Raises s.need cs → run s cs = some s' → Grow s' := by
  induction cs with
  | nil => intro s s' g _ h; cases h; exact g
  | cons c cs ih =>
    intro s s' g hr h
    simp only [run, Option.bind_eq_some_iff] at h
    obtain ⟨t, h1, h2⟩ := h
    have key : (∀ m, c ≠ .setConns m) → c ≠ .exit → t.need = s.need := by
      intro a b
      cases c <;> simp only [step, stepServ, stepPick, stepLp, stepWp, stepCtl, push, onConnError] at h1 <;>
        (repeat' split at h1) <;> cases h1 <;> first | rfl | (exfalso; exact a _ rfl) | (exfalso; exact b rfl)
    by_cases hx : c = .exit
    · subst hx; exact hr.elim
    by_cases hy : ∃ m, c = .setConns m
    · obtain ⟨m, rfl⟩ := hy
      refine ih (grow_step g hx (fun k e => by cases e; exact hr.1) h1) ?_ h2
      have : t.need = m := by
        simp only [step] at h1
        split at h1 <;> cases h1
        rfl
      rw [this]
      exact hr.2
    · have hy' : ∀ m, c ≠ .setConns m := fun m e => hy ⟨m, e⟩
      refine ih (grow_step g hx (fun k e => absurd e (hy' k)) h1) ?_ h2
      rw [key hy' hx]
      cases c <;> first | exact hr | exact absurd rfl (hy' _) | exact absurd rfl hx

theorem mended_need {ds : List Choice} {s s' : St} (h : Mended s ds s') : s'.need = s.need := by
  induction ds generalizing s with
  | nil =>
    have : s' = s := h
    rw [this]
  | cons c ds ih =>
    obtain ⟨hm, t, h1, h⟩ := h
    rw [ih h]
    cases c <;> simp only [step, stepServ, stepPick, stepLp, stepWp, stepCtl, push, onConnError] at h1 <;>
      (repeat' split at h1) <;> cases h1 <;> first | rfl | exact hm.elim

theorem cnt_le {p a : Con → Bool} {f : Nat → Con} {n : Nat} (h : ∀ i, i < n → p (f i) = true → a (f i) = true) : cnt p f n ≤ cnt a f n := by
  induction n with
  | zero => exact Nat.le_refl _
  | succ n ih =>
    have h1 := ih fun i hi => h i (by omega)
    have h2 := h n (by omega)
    simp only [cnt_succ, one]
    split
    · rw [if_pos (h2 ‹_›)]; omega
    · omega

end Verif.Pool

namespace Verif.Props
open Verif.Pool

variable {n : Nat} {cs : List Pool.Choice} {s : Pool.St}

/-- C143: the pool never has more connections, dialing and established, than it should have. -/
theorem C143_never_more (hr : Raises n cs) (h : Pool.run (Pool.init n) cs = some s) : (count Dials s + count Up s : Nat) ≤ s.need := by
  have g := grow (grow_init n) hr h
  obtain ⟨t1, t2⟩ := g.tot
  have h1 : count Dials s ≤ cnt pD s.con s.cur := cnt_le fun i _ => by simp only [Dials, pD, decide_eq_true_eq]; grind
  have h2 : count Up s + cnt pW s.con s.cur ≤ cnt pU s.con s.cur := by
    have : cnt (fun c => pU c && !pW c) s.con s.cur + cnt pW s.con s.cur = cnt pU s.con s.cur := by
      apply cnt_add
      intro i _
      have := g.inv.wOff i
      simp only [pU, pW, one]
      grind
    have h3 : count Up s ≤ cnt (fun c => pU c && !pW c) s.con s.cur := cnt_le fun i _ => by
      simp only [Up, pU, pW]
      grind
    omega
  have hf := g.few
  have h3 := g.stops
  have h4 := g.inv.stopsD
  omega

/-- C143: when nothing goes wrong any more, only a bounded number of things happen until the pool has settled, however often the ticker ticks. -/
theorem C143_bounded (hr : Raises n cs) (h : Pool.run (Pool.init n) cs = some s) :
    ∃ b, ∀ ds s', Mended s ds s' → ds.countP Works ≤ b ∧ s'.cur ≤ s.cur + b :=
  ⟨left s, fun ds s' hm => by have := low_run (grow (grow_init n) hr h) hm; omega⟩

/-- C143: and when the pool has settled, it has exactly the connections it should have, and knows: all of them are alive on both sides, no one is
dialing, and those that broke off were given up. -/
theorem C143_settled (hr : Raises n cs) (h : Pool.run (Pool.init n) cs = some s) {ds : List Pool.Choice} {s' : Pool.St} (hm : Mended s ds s')
    (hs : Settled s') : s'.need = s.need ∧ (count Alive s' : Nat) = s.need ∧ count Up s' = count Alive s' ∧ count Dials s' = 0 ∧
      s'.established = s.need ∧ s'.dialing = 0 := by
  have g := (low_run (grow (grow_init n) hr h) hm).2.2
  have e := mended_need hm
  have hq := settled_q g hs
  have hn := settled_need g hs
  have hc := fun i hi => settled_con g hs (i := i) hi
  have z : count Dials s' = 0 := by
    have : cnt Dials s'.con s'.cur = cnt (fun _ => false) s'.con s'.cur := cnt_congr' fun i hi => by
      rcases hc i hi with a | ⟨a, -⟩ <;> simp [Dials, a]
    rw [count_eq, this]
    simp [cnt]
  have u : count Up s' = count Alive s' := cnt_congr' fun i hi => by
    rcases hc i hi with a | ⟨a, b | b⟩
    · simp [Up, Alive, a]
    · simp [Up, Alive, a, b]
    · rw [b]
      simp only [Alive, decide_eq_true_eq] at b
      obtain ⟨-, -, c⟩ := b
      rcases c with c | c | c <;> simp [Up, a, c]
  have quiet : Quiet s' := ⟨hq, fun i hi => by
    rcases hc i hi with a | ⟨a, b | b⟩
    · have hw : (s'.con i).wp = .off := Classical.byContradiction fun x => by rw [g.inv.wOff i x] at a; cases a
      simp [a, hw]
    · simp [a, b]
    · simp only [Alive, decide_eq_true_eq] at b
      obtain ⟨-, -, c⟩ := b
      rcases c with c | c | c <;> simp [a, c]⟩
  obtain ⟨h1, h2⟩ := quiet_counts g.inv quiet
  obtain ⟨t1, t2⟩ := g.tot
  have h3 := g.inv.stopsD
  have h4 := g.stops
  rw [hq] at t1 t2
  simp only [List.countP_nil] at t1 t2
  refine ⟨e, ?_, u, z, ?_, ?_⟩ <;> omega

/-- C143: whatever has broken, the pool can settle. -/
theorem C143_recovers (hr : Raises n cs) (h : Pool.run (Pool.init n) cs = some s) : ∃ ds s', Mended s ds s' ∧ Settled s' := by
  have key : ∀ w s, Grow s → left s = w → ∃ ds s', Mended s ds s' ∧ Settled s' := by
    intro w
    induction w using Nat.strongRecOn with
    | ind w ih =>
      intro s g hw
      by_cases hs : Settled s
      · exact ⟨[], s, rfl, hs⟩
      · unfold Settled at hs
        simp only [Classical.not_forall] at hs
        obtain ⟨ds, t, hm, hne⟩ := hs
        obtain ⟨a, b, g'⟩ := low_run g hm
        obtain ⟨es, u, hm', hs'⟩ := ih (left t) (by omega) t g' rfl
        exact ⟨ds ++ es, u, mended_append hm hm', hs'⟩
  exact key _ s (grow (grow_init n) hr h) rfl

/-- Of two connections one broke off while reading, and one dial failed; a third connection is asked for. -/
def broken : List Pool.Choice :=
  [.serv, .serv, .serv, .serv] ++ connect 0 ++ [.lp 1, .dialed 1 false, .lp 1, .recv, .serv, .rErr 0, .ctl 0, .setConns 3, .serv]

/-- Meets the hypotheses of C143. -/
example : Raises 2 broken ∧ ∃ s, Pool.run (Pool.init 2) broken = some s ∧ (s.need = 3 ∧ count Alive s = 0 ∧ s.established = 1 ∧ s.dialing = 0) := by
  refine ⟨by simp [broken, connect, Raises], ?_⟩
  apply Pool.any_some (p := fun s : Pool.St => s.need = 3 ∧ count Alive s = 0 ∧ s.established = 1 ∧ s.dialing = 0)
  decide +kernel

end Verif.Props
