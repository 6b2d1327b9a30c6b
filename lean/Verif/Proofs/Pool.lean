import Verif.Spec.Pool
/-!
Invariants of the connection pool.
-/
namespace Verif.Pool

structure Inv (s : St) : Prop where
  new : ∀ i, s.cur ≤ i → s.con i = Con.new
  lt : ∀ i, i ∈ s.conns → i < s.cur
  err : ∀ i, .dialErr i ∈ s.q → (s.con i).lp = .failed ∧ i ∈ s.conns
  ok : ∀ i, .dialOk i ∈ s.q → (s.con i).lp = .markUp ∨ (s.con i).lp = .running
  wr : ∀ i, .write i ∈ s.q → (s.con i).wp = .done
  rd : ∀ i, .read i ∈ s.q → ((s.con i).cp = .flush ∨ (s.con i).cp = .done) ∧ i ∈ s.conns
  nodup : s.q.Nodup
  alive : ∀ i, i < s.cur → (s.con i).lp ≠ .failed → (s.con i).cp ≠ .flush → (s.con i).cp ≠ .done → i ∈ s.conns
  cOff : ∀ i, (s.con i).cp ≠ .off → (s.con i).lp = .running
  wOff : ∀ i, (s.con i).wp ≠ .off → (s.con i).lp = .running
  rOff : ∀ i, (s.con i).rp ≠ .off → (s.con i).lp = .running
  dials : ∀ i, (s.con i).st = .dialing → (s.con i).wp = .off
  stuck : ∀ i n t, s.pc = .stopping i n t true → (s.con i).stopped = true ∧ (s.con i).wp ≠ .body ∧ (s.con i).wp ≠ .wait
  stopd : ∀ i n t d, s.pc = .stopping i n t d → (s.con i).stopped = true
  qlen : s.q.length ≤ cap
  noPanic : s.pc ≠ .panicked
  todo : ∀ n t, s.pc = .shrink n t → ∀ i, i ∈ t → i < s.cur
  todo2 : ∀ j n t d, s.pc = .stopping j n t d → j < s.cur ∧ ∀ i, i ∈ t → i < s.cur
  stopsD : s.stopsD = 0

theorem inv_init (n : Nat) : Inv (init n) := by
  constructor <;> simp [init, Con.new]

attribute [grind] set

theorem shrunk_cases (n : Int) (t : List Nat) : shrunk n t = .check ∨ shrunk n t = .shrink n t := by
  unfold shrunk
  split
  · exact .inl rfl
  · exact .inr rfl

set_option maxHeartbeats 4000000 in
theorem inv_serv {s s' : St} (h : Inv s) (hs : stepServ s = some s') : Inv s' := by
  unfold stepServ at hs
  split at hs
  · split at hs <;> cases hs <;> (obtain ⟨⟩ := h; constructor <;> dsimp only <;> first | assumption | grind)
  · dsimp only at hs
    split at hs
    · cases hs
      obtain ⟨⟩ := h
      constructor <;> dsimp only <;> first | assumption | grind [Con.new]
    · split at hs <;> cases hs <;> (obtain ⟨⟩ := h; constructor <;> dsimp only <;> first | assumption | grind)
  · cases hs
    obtain ⟨⟩ := h
    constructor <;> dsimp only <;> first | assumption | grind
  · rename_i i need todo dial hp
    split at hs
    · split at hs
      · exfalso
        have := h.stuck i need todo
        simp_all
      · cases hs
        rcases shrunk_cases (need + 1) todo with e | e <;> rw [e] <;>
          (obtain ⟨⟩ := h; constructor <;> dsimp only <;> first | assumption | grind [Con.new])
    · cases hs
  · cases hs

set_option maxHeartbeats 4000000 in
theorem inv_pick {s s' : St} {i : Nat} (h : Inv s) (hs : stepPick s i = some s') : Inv s' := by
  unfold stepPick at hs
  split at hs
  · rename_i need todo hp
    split at hs
    · dsimp only at hs
      split at hs
      · cases hs
        obtain ⟨⟩ := h
        constructor <;> dsimp only <;> first | assumption | grind [Con.new]
      · cases hs
        obtain ⟨⟩ := h
        constructor <;> dsimp only <;> first | assumption | grind [Con.new]
      · cases hs
        rcases shrunk_cases need (todo.filter (· ≠ i)) with e | e <;> rw [e] <;>
          (obtain ⟨⟩ := h; constructor <;> dsimp only <;> first | assumption | grind)
    · cases hs
  · cases hs

set_option maxHeartbeats 4000000 in
theorem inv_lp {s s' : St} {i : Nat} (h : Inv s) (hi : i < s.cur) (hs : stepLp s i = some s') : Inv s' := by
  unfold stepLp push at hs
  dsimp only at hs
  split at hs <;> (repeat' split at hs) <;> cases hs <;>
    (obtain ⟨⟩ := h; constructor <;> dsimp only <;> first | assumption | grind [Con.new, List.nodup_append])

set_option maxHeartbeats 4000000 in
theorem inv_wp {s s' : St} {i : Nat} (h : Inv s) (hs : stepWp s i = some s') : Inv s' := by
  have hi : (s.con i).wp ≠ .off → i < s.cur := by
    intro hw
    apply Classical.byContradiction
    intro hn
    rw [h.new i (by omega)] at hw
    exact hw rfl
  unfold stepWp push at hs
  dsimp only at hs
  split at hs <;> (repeat' split at hs) <;> cases hs <;>
    (obtain ⟨⟩ := h; constructor <;> dsimp only <;> first | assumption | grind [Con.new, List.nodup_append])

set_option maxHeartbeats 4000000 in
theorem inv_ctl {s s' : St} {i : Nat} (h : Inv s) (hs : stepCtl s i = some s') : Inv s' := by
  have hi : (s.con i).cp ≠ .off → i < s.cur := by
    intro hw
    apply Classical.byContradiction
    intro hn
    rw [h.new i (by omega)] at hw
    exact hw rfl
  unfold stepCtl push at hs
  dsimp only at hs
  split at hs <;> (repeat' split at hs) <;> cases hs <;>
    (obtain ⟨⟩ := h; constructor <;> dsimp only <;> first | assumption | grind [Con.new, List.nodup_append])

set_option maxHeartbeats 4000000 in
theorem inv_recv {s : St} {m : Msg} {q : List Msg} (h : Inv s) (hq : s.q = m :: q) : Inv (onConnError { s with q } m) := by
  unfold onConnError
  split <;> (try split) <;> (obtain ⟨⟩ := h; constructor <;> dsimp only <;> first | assumption | grind [List.nodup_cons])

set_option maxHeartbeats 4000000 in
theorem inv_step {s s' : St} {c : Choice} (h : Inv s) (hs : step s c = some s') : Inv s' := by
  cases c with
  | serv => exact inv_serv h hs
  | pick i => exact inv_pick h hs
  | lp i =>
    simp only [step] at hs
    split at hs
    · exact inv_lp h ‹_› hs
    · cases hs
  | wp i => exact inv_wp h hs
  | ctl i => exact inv_ctl h hs
  | recv =>
    simp only [step] at hs
    (repeat' split at hs) <;> cases hs
    exact inv_recv h ‹_›
  | tick =>
    simp only [step] at hs
    split at hs <;> cases hs <;> (obtain ⟨⟩ := h; constructor <;> dsimp only <;> first | assumption | grind)
  | setConns n =>
    simp only [step] at hs
    split at hs <;> cases hs <;> (obtain ⟨⟩ := h; constructor <;> dsimp only <;> first | assumption | grind)
  | exit =>
    simp only [step] at hs
    split at hs <;> cases hs <;> (obtain ⟨⟩ := h; constructor <;> dsimp only <;> first | assumption | grind)
  | dialed i ok =>
    simp only [step] at hs
    (repeat' split at hs) <;> cases hs <;> (obtain ⟨⟩ := h; constructor <;> dsimp only <;> first | assumption | grind)
  | waits i =>
    simp only [step] at hs
    split at hs <;> cases hs <;> (obtain ⟨⟩ := h; constructor <;> dsimp only <;> first | assumption | grind [Con.new])
  | wErr i =>
    simp only [step] at hs
    split at hs <;> cases hs <;> (obtain ⟨⟩ := h; constructor <;> dsimp only <;> first | assumption | grind [Con.new])
  | rErr i =>
    simp only [step] at hs
    split at hs <;> cases hs <;> (obtain ⟨⟩ := h; constructor <;> dsimp only <;> first | assumption | grind [Con.new])

theorem inv_run {cs : List Choice} {s s' : St} (h : Inv s) (hs : run s cs = some s') : Inv s' := by
  induction cs generalizing s with
  | nil => cases hs; exact h
  | cons c cs ih =>
    simp only [run] at hs
    cases e : step s c with
    | none => rw [e] at hs; cases hs
    | some s1 =>
      rw [e] at hs
      exact ih (inv_step h e) hs

end Verif.Pool
