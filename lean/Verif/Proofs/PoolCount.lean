import Verif.Proofs.Pool
/-!
The counters of the connection pool.
-/
namespace Verif.Pool

def one (b : Bool) : Nat := if b then 1 else 0

def cnt (p : Con → Bool) (f : Nat → Con) (n : Nat) : Nat := ((List.range n).filter fun i => p (f i)).length

theorem cnt_succ (p : Con → Bool) (f : Nat → Con) (n : Nat) : cnt p f (n + 1) = cnt p f n + one (p (f n)) := by
  unfold cnt one
  rw [List.range_succ, List.filter_append, List.length_append]
  congr 1
  cases h : p (f n) <;> simp [h]

theorem cnt_congr {p : Con → Bool} {f g : Nat → Con} {n : Nat} (h : ∀ i, i < n → p (f i) = p (g i)) : cnt p f n = cnt p g n := by
  induction n with
  | zero => rfl
  | succ n ih => rw [cnt_succ, cnt_succ, ih fun i hi => h i (by omega), h n (by omega)]

theorem cnt_set (p : Con → Bool) (f : Nat → Con) (i : Nat) (c : Con) (n : Nat) (hi : i < n) :
    cnt p (set f i c) n + one (p (f i)) = cnt p f n + one (p c) := by
  induction n with
  | zero => omega
  | succ n ih =>
    rw [cnt_succ, cnt_succ]
    by_cases h : i = n
    · subst h
      rw [cnt_congr (g := f) fun j hj => by rw [set, if_neg (by omega)]]
      simp only [set, if_true]
      omega
    · have := ih (by omega)
      have e : set f i c n = f n := by rw [set, if_neg (by omega)]
      rw [e]
      omega

/-- Not reported, dialing. -/
def pD (c : Con) : Bool := c.lp = .start ∨ c.lp = .dial ∨ c.lp = .sendErr ∨ c.lp = .sendOk
def pU (c : Con) : Bool := c.lp = .markUp ∨ c.lp = .running
def pW (c : Con) : Bool := c.wp = .done

def mErr : Msg → Bool | .dialErr _ => true | _ => false
def mOk : Msg → Bool | .dialOk _ => true | _ => false
def mW : Msg → Bool | .write _ => true | _ => false

structure Tot (s : St) : Prop where
  d : s.dialing + s.stopsD = (cnt pD s.con s.cur + s.q.countP mErr + s.q.countP mOk : Nat)
  e : s.established + s.stopsE + (s.q.countP mOk + cnt pW s.con s.cur : Nat) = (cnt pU s.con s.cur + s.q.countP mW : Nat)

theorem tot_init (n : Nat) : Tot (init n) := by
  constructor <;> simp [init, cnt]

/-- One connection changes, and perhaps sends. -/
theorem Tot.con {s : St} (t : Tot s) {i : Nat} (hi : i < s.cur) {c : Con} {q : List Msg} {pc : SPc}
    (h1 : one (pD c) + q.countP mErr + q.countP mOk = one (pD (s.con i)))
    (h2 : one (pU (s.con i)) + q.countP mOk + one (pW c) = one (pU c) + q.countP mW + one (pW (s.con i))) :
    Tot { s with con := set s.con i c, q := s.q ++ q, pc := pc } := by
  have a := cnt_set pD s.con i c s.cur hi
  have b := cnt_set pU s.con i c s.cur hi
  have d := cnt_set pW s.con i c s.cur hi
  obtain ⟨t1, t2⟩ := t
  constructor
  · simp only [List.countP_append]
    omega
  · simp only [List.countP_append]
    omega

theorem Tot.one {s : St} (t : Tot s) {i : Nat} (hi : i < s.cur) {c : Con} {pc : SPc}
    (h1 : pD c = pD (s.con i)) (h2 : pU c = pU (s.con i)) (h3 : pW c = pW (s.con i)) :
    Tot { s with con := set s.con i c, pc := pc } := by
  have := Tot.con t hi (c := c) (q := []) (pc := pc) (by simp [h1]) (by simp [h2, h3])
  simpa using this

theorem Tot.pc {s : St} (t : Tot s) (pc : SPc) : Tot { s with pc := pc } := { t with }

theorem on_lt {s : St} (h : Inv s) {i : Nat} (hn : s.con i ≠ Con.new) : i < s.cur := by
  apply Classical.byContradiction
  intro hc
  exact hn (h.new i (by omega))

theorem wp_lt {s : St} (h : Inv s) {i : Nat} (hn : (s.con i).wp ≠ .off) : i < s.cur :=
  on_lt h fun e => hn (by rw [e]; rfl)

theorem cp_lt {s : St} (h : Inv s) {i : Nat} (hn : (s.con i).cp ≠ .off) : i < s.cur :=
  on_lt h fun e => hn (by rw [e]; rfl)

theorem rp_lt {s : St} (h : Inv s) {i : Nat} (hn : (s.con i).rp ≠ .off) : i < s.cur :=
  on_lt h fun e => hn (by rw [e]; rfl)

theorem tot_serv {s s' : St} (h : Inv s) (t : Tot s) (hs : stepServ s = some s') : Tot s' := by
  unfold stepServ at hs
  split at hs
  · split at hs <;> cases hs <;> exact { t with }
  · dsimp only at hs
    split at hs
    · cases hs
      obtain ⟨t1, t2⟩ := t
      have hc : ∀ p, cnt p (set s.con s.cur Con.new) s.cur = cnt p s.con s.cur := fun p =>
        cnt_congr fun i hi => by rw [set, if_neg (by omega)]
      have hn : set s.con s.cur Con.new s.cur = Con.new := by simp [set]
      constructor
      · simp only [cnt_succ, hc, hn, show one (pD Con.new) = 1 by rfl]
        omega
      · simp only [cnt_succ, hc, hn, show one (pU Con.new) = 0 by rfl, show one (pW Con.new) = 0 by rfl]
        omega
    · split at hs <;> cases hs <;> exact { t with }
  · cases hs; exact { t with }
  · rename_i i need todo dial hp
    split at hs
    · rename_i hw
      split at hs
      · exfalso
        have := h.stuck i need todo
        simp_all
      · cases hs
        have hi := wp_lt h (i := i) (by rw [hw]; simp)
        have t3 := t.one hi (c := { s.con i with wp := .notify }) (pc := s.pc) rfl rfl (by simp [pW, hw])
        obtain ⟨t1, t2⟩ := t3
        refine ⟨t1, ?_⟩
        simp only at t2 ⊢
        omega
    · cases hs
  · cases hs

theorem tot_pick {s s' : St} {i : Nat} (h : Inv s) (t : Tot s) (hs : stepPick s i = some s') : Tot s' := by
  unfold stepPick at hs
  split at hs
  · rename_i need todo hp
    split at hs
    · rename_i hm
      have hi := h.todo _ _ hp i hm
      dsimp only at hs
      split at hs <;> cases hs
      · exact t.one hi rfl rfl rfl
      · exact t.one hi rfl rfl rfl
      · exact { t with }
    · cases hs
  · cases hs

theorem tot_lp {s s' : St} {i : Nat} (t : Tot s) (hi : i < s.cur) (hw : (s.con i).lp ≠ .running → (s.con i).wp = .off)
    (hs : stepLp s i = some s') : Tot s' := by
  unfold stepLp push at hs
  dsimp only at hs
  split at hs <;> rename_i e
  · cases hs
    exact t.one hi (by simp [pD, e]) (by simp [pU, e]) rfl
  · split at hs <;> cases hs
    exact t.con hi (by simp [pD, e, one, mErr, mOk]) (by simp [pU, pW, e, one, mOk, mW, hw])
  · split at hs <;> cases hs
    exact t.con hi (by simp [pD, e, one, mErr, mOk]) (by simp [pU, pW, e, one, mOk, mW, hw])
  · cases hs
    exact t.one hi (by simp [pD, e]) (by simp [pU, e]) (by simp [pW, e, hw])
  · cases hs

theorem tot_wp {s s' : St} {i : Nat} (h : Inv s) (t : Tot s) (hs : stepWp s i = some s') : Tot s' := by
  have hi := wp_lt h (i := i)
  unfold stepWp push at hs
  dsimp only at hs
  split at hs <;> rename_i e
  all_goals (repeat' split at hs) <;> cases hs
  all_goals first
    | exact t.one (hi (by simp [e])) rfl rfl (by simp [pW, e])
    | exact t.con (hi (by simp [e])) (by simp [pD, one, mErr, mOk]) (by simp [pU, pW, e, one, mOk, mW])

theorem tot_ctl {s s' : St} {i : Nat} (h : Inv s) (t : Tot s) (hs : stepCtl s i = some s') : Tot s' := by
  have hi := cp_lt h (i := i)
  unfold stepCtl push at hs
  dsimp only at hs
  split at hs <;> rename_i e
  all_goals (repeat' split at hs) <;> cases hs
  all_goals first
    | exact t.one (hi (by simp [e])) rfl rfl rfl
    | exact t.con (hi (by simp [e])) (by simp [pD, one, mErr, mOk]) (by simp [pU, pW, one, mOk, mW])

theorem tot_recv {s : St} {m : Msg} {q : List Msg} (h : Inv s) (t : Tot s) (hq : s.q = m :: q) : Tot (onConnError { s with q } m) := by
  obtain ⟨t1, t2⟩ := t
  rw [hq] at t1 t2
  unfold onConnError
  split
  · split
    · simp only [List.countP_cons, mErr, mOk, mW] at t1 t2
      constructor <;> simp only <;> simp at t1 t2 <;> omega
    · rename_i hn
      exact absurd (h.err _ (by rw [hq]; simp)).2 hn
  · simp only [List.countP_cons, mErr, mOk, mW] at t1 t2
    constructor <;> simp only <;> simp at t1 t2 <;> omega
  · simp only [List.countP_cons, mErr, mOk, mW] at t1 t2
    constructor <;> simp only <;> simp at t1 t2 <;> omega
  · split
    · simp only [List.countP_cons, mErr, mOk, mW] at t1 t2
      constructor <;> simp only <;> simp at t1 t2 <;> omega
    · rename_i hn
      exact absurd (h.rd _ (by rw [hq]; simp)).2 hn

theorem tot_step {s s' : St} {c : Choice} (h : Inv s) (t : Tot s) (hs : step s c = some s') : Tot s' := by
  have hwo : ∀ i, (s.con i).lp ≠ .running → (s.con i).wp = .off := by
    intro i hl
    apply Classical.byContradiction
    intro hw
    exact hl (h.wOff i hw)
  cases c with
  | serv => exact tot_serv h t hs
  | pick i => exact tot_pick h t hs
  | lp i =>
    simp only [step] at hs
    split at hs
    · exact tot_lp t ‹_› (hwo i) hs
    · cases hs
  | wp i => exact tot_wp h t hs
  | ctl i => exact tot_ctl h t hs
  | recv =>
    simp only [step] at hs
    (repeat' split at hs) <;> cases hs
    exact tot_recv h t ‹_›
  | tick => simp only [step] at hs; split at hs <;> cases hs; exact { t with }
  | setConns n => simp only [step] at hs; split at hs <;> cases hs; exact { t with }
  | exit => simp only [step] at hs; split at hs <;> cases hs; exact { t with }
  | dialed i ok =>
    simp only [step] at hs
    split at hs
    · rename_i hc
      split at hs <;> cases hs
      · exact t.one hc.1 (pc := s.pc) (by simp [pD, hc.2]) (by simp [pU, hc.2]) rfl
      · exact t.one hc.1 (pc := s.pc) (by simp [pD, hc.2]) (by simp [pU, hc.2]) rfl
    · cases hs
  | waits i =>
    simp only [step] at hs
    split at hs <;> cases hs
    rename_i hw
    exact t.one (wp_lt h (by rw [hw]; simp)) (pc := s.pc) rfl rfl (by simp [pW, hw])
  | wErr i =>
    simp only [step] at hs
    split at hs <;> cases hs
    rename_i hw
    exact t.one (wp_lt h (by rw [hw]; simp)) (pc := s.pc) rfl rfl (by simp [pW, hw])
  | rErr i =>
    simp only [step] at hs
    split at hs <;> cases hs
    rename_i hw
    exact t.one (rp_lt h (by rw [hw]; simp)) (pc := s.pc) rfl rfl rfl

theorem tot_run {cs : List Choice} {s s' : St} (h : Inv s) (t : Tot s) (hs : run s cs = some s') : Tot s' := by
  induction cs generalizing s with
  | nil => cases hs; exact t
  | cons c cs ih =>
    simp only [run] at hs
    cases e : step s c with
    | none => rw [e] at hs; cases hs
    | some s1 =>
      rw [e] at hs
      exact ih (inv_step h e) (tot_step h t e) hs

end Verif.Pool
