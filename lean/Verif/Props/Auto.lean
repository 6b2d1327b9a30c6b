import Verif.Proofs.Auto
/-!
Theorems about `client.Auto` (C81, C82, C83).
-/
namespace Verif.Auto

theorem any_some {o : Option St} {p : St → Prop} [DecidablePred p] (h : (o.any fun s => p s) = true) :
    ∃ s, o = some s ∧ p s := by
  cases o with
  | none => cases h
  | some s => exact ⟨s, rfl, of_decide_eq_true h⟩

def gos (t n : Nat) : List Choice := List.replicate n (.go t)

/-! ### C81: one server for each address -/

/-- Whatever `Get` calls and `Stop` calls overlap, there are never two running servers for one address. -/
theorem C81_one_running {s : St} (h : Reach s) {a v w : Nat} (hv : Live s a v) (hw : Live s a w) : v = w := by
  have hi := inv_reach h
  rcases hi.live a v hv with h1 | ⟨t, h1⟩ <;> rcases hi.live a w hw with h2 | ⟨u, h2⟩
  · exact keys_eq hi.keys h1 h2
  · have := hi.place u
    cases hq : s.pc u <;> rw [hq] at h2 this <;> simp only [fresh, Option.some.injEq, Prod.mk.injEq, reduceCtorEq] at h2
    all_goals (obtain ⟨rfl, rfl⟩ := h2; exact absurd h1 (this.1 _))
  · have := hi.place t
    cases hq : s.pc t <;> rw [hq] at h1 this <;> simp only [fresh, Option.some.injEq, Prod.mk.injEq, reduceCtorEq] at h1
    all_goals (obtain ⟨rfl, rfl⟩ := h1; exact absurd h2 (this.1 _))
  · have := other_holds hi (fresh_holds h1) (fresh_holds h2)
    subst this
    rw [h1] at h2
    exact (Prod.mk.inj (Option.some.inj h2)).2

/-- `Get` returns a server that was made for the address it was called with, and made for no other. -/
theorem C81_right_address {s : St} (h : Reach s) {t a v : Nat} (hg : Ev.got t a v ∈ s.log) :
    Ev.made a v ∈ s.log ∧ ∀ b, Ev.made b v ∈ s.log → b = a := by
  have hi := inv_reach h
  obtain ⟨l1, l2, hl⟩ := List.append_of_mem hg
  have h1 := (hi.gotten l1 l2 t a v hl).1
  have h2 : Ev.made a v ∈ s.log := by rw [hl]; simp [h1]
  exact ⟨h2, fun b hb => hi.madeOne b a v hb h2⟩

/-- As long as nothing was stopped all callers get the same server for the same address. -/
theorem C81_same {s : St} (h : Reach s) (hn : ∀ v, Ev.stopped v ∉ s.log) {t u a v w : Nat}
    (hv : Ev.got t a v ∈ s.log) (hw : Ev.got u a w ∈ s.log) : v = w :=
  C81_one_running h ⟨(C81_right_address h hv).1, hn v⟩ ⟨(C81_right_address h hw).1, hn w⟩

/-- A server which `Get` returned is not running for the address only if it was stopped. -/
theorem C81_replaced {s : St} (h : Reach s) {t a v w : Nat} (hv : Ev.got t a v ∈ s.log) (hw : Live s a w) (hne : v ≠ w) :
    Ev.stopped v ∈ s.log := by
  by_cases hs : Ev.stopped v ∈ s.log
  · exact hs
  · exact absurd (C81_one_running h ⟨(C81_right_address h hv).1, hs⟩ hw) hne

/-- Two goroutines asking for the same new address at the same time, and for another one: -/
def race : List Choice :=
  [.get 1 5, .get 2 5, .get 3 6, .go 1, .go 2, .go 1, .go 1, .go 1, .go 2, .go 2, .go 2] ++ [.go 1, .go 2] ++ gos 3 9 ++
    gos 1 7 ++ gos 2 4

example : (run init race).any (fun s => Ev.got 1 5 1 ∈ s.log ∧ Ev.got 2 5 1 ∈ s.log ∧ Ev.got 3 6 0 ∈ s.log ∧ s.next = 2) = true := by
  decide +kernel

/-! ### C82: Stop stops every server, once -/

/-- When `Stop` is through, every server made before has been stopped. -/
theorem C82_all {s : St} (h : Reach s) {l1 l2 : List Ev} (hl : s.log = l1 ++ .cleared :: l2) {a v : Nat}
    (hm : Ev.made a v ∈ l2) : Ev.stopped v ∈ l2 := (inv_reach h).clear l1 l2 hl a v hm

/-- No server is stopped twice (the second `Stop` of an endpoint never returns), and none that was not made. -/
theorem C82_once {s : St} (h : Reach s) (v : Nat) :
    s.log.count (.stopped v) ≤ 1 ∧ (Ev.stopped v ∈ s.log → ∃ a, Ev.made a v ∈ s.log) :=
  ⟨(inv_reach h).stopOnce v, (inv_reach h).stopMade v⟩

/-- `Get` called after `Stop` was through does not return a server which that `Stop`, or one before it, has stopped. -/
theorem C82_after_stop {s : St} (h : Reach s) {l1 l2 : List Ev} {t a v : Nat} (hl : s.log = l1 ++ .got t a v :: l2) :
    Ev.stopped v ∉ upToStop (upToCall t l2) := ((inv_reach h).gotten l1 l2 t a v hl).2

/-- The stopped server is given out while `Stop` is still at work on others: called after the server was stopped, `Get` returns it. -/
theorem C82_during_stop_violated : ∃ cs s l1 l2 v, run init cs = some s ∧ s.log = l1 ++ Ev.got 1 5 v :: l2 ∧
    Ev.stopped v ∈ upToCall 1 l2 := by
  refine ⟨[.get 1 5] ++ gos 1 12 ++ [.stop 2] ++ gos 2 3 ++ [.get 1 5] ++ gos 1 3, ?_⟩
  have h : (run init ([.get 1 5] ++ gos 1 12 ++ [.stop 2] ++ gos 2 3 ++ [.get 1 5] ++ gos 1 3)).any
      (fun s => s.log = [] ++ Ev.got 1 5 0 :: [.called 1 5, .stopped 0, .got 1 5 0, .made 5 0, .called 1 5]) = true := by
    decide +kernel
  obtain ⟨s, h1, h2⟩ := any_some h
  exact ⟨s, [], _, 0, h1, h2, by decide⟩

/-- Get, Stop, Get: the second `Get` makes a new server. -/
example : (run init ([.get 1 5] ++ gos 1 12 ++ [.stop 2] ++ gos 2 5 ++ [.get 1 5] ++ gos 1 12)).any
    (fun s => s.log = [.got 1 5 1, .made 5 1, .called 1 5, .cleared, .stopped 0, .got 1 5 0, .made 5 0, .called 1 5]) = true := by
  decide +kernel

/-! ### C83: the lock is always released -/

/-- The address a goroutine asks for. -/
def asks : Pc → Option Nat
  | .check a | .lock1 a | .make a | .unlock1 a | .read a | .lock2 a | .again a | .create a => some a
  | _ => none

def Asked (s : St) : Prop :=
  ∀ t, (∀ a, asks (s.pc t) = some a → Ev.called t a ∈ s.log) ∧ (s.pc t = .dead → Ev.called t 0 ∈ s.log)

theorem asked_step {s s1 : St} {c : Choice} (h : Asked s) (hs : step s c = some s1) : Asked s1 := by
  unfold Asked at *
  cases c <;> simp only [step, Auto.go, St.at, St.acquire, St.release] at hs <;> (repeat' split at hs) <;>
    simp only [Option.some.injEq, reduceCtorEq] at hs <;> subst hs <;> grind [setPc, asks]

theorem asked_run {cs : List Choice} : ∀ {s s' : St}, Asked s → run s cs = some s' → Asked s' := by
  induction cs with
  | nil => intro s s' h hr; cases hr; exact h
  | cons c cs ih =>
    intro s s' h hr
    unfold run at hr
    split at hr
    · cases hr
    · next s1 hs => exact ih (asked_step h hs) hr

theorem asked_reach {s : St} (h : Reach s) : Asked s :=
  h.elim fun _ hr => asked_run (s := init) (by simp [Asked, init, asks]) hr

/-- The owner of the lock can go on, and has less to do then. -/
theorem owner_goes {s : St} {t : Nat} (ha : Asked s) (hn : NoEmpty s) (hh : holds (s.pc t) = true) :
    ∃ s', Auto.go s t = some s' ∧ NoEmpty s' ∧ (s'.lock = none ∨
      (holds (s'.pc t) = true ∧ todo s' (s'.pc t) < todo s (s.pc t))) := by
  have h1 := ha t
  have h2 := hn t
  cases hp : s.pc t <;> rw [hp] at hh h1 <;> simp only [holds, Bool.false_eq_true] at hh
  case dead => exact absurd (h1.2 rfl) h2
  case create a =>
    have : a ≠ 0 := fun e => h2 (e ▸ h1.1 a rfl)
    simp only [Auto.go, hp, if_neg this]; refine ⟨_, rfl, ?_, .inr ?_⟩
    · intro u; simpa using hn u
    · simp [St.at, setPc, holds, todo]
  case make a =>
    by_cases hs : s.servers = none
    · simp only [Auto.go, hp, if_pos hs]; exact ⟨_, rfl, hn, .inr (by simp [St.at, setPc, holds, todo])⟩
    · simp only [Auto.go, hp, if_neg hs]; exact ⟨_, rfl, hn, .inr (by simp [St.at, setPc, holds, todo])⟩
  case unlock1 a => simp only [Auto.go, hp]; exact ⟨_, rfl, hn, .inl rfl⟩
  case again a =>
    cases hs : lookNil s.servers a with
    | none => simp only [Auto.go, hp, hs]; exact ⟨_, rfl, hn, .inr (by simp [St.at, setPc, holds, todo])⟩
    | some v => simp only [Auto.go, hp, hs]; exact ⟨_, rfl, hn, .inr (by simp [St.at, setPc, holds, todo])⟩
  case fill a v => simp only [Auto.go, hp]; exact ⟨_, rfl, hn, .inr (by simp [St.at, setPc, holds, todo])⟩
  case publish a v m => simp only [Auto.go, hp]; exact ⟨_, rfl, hn, .inr (by simp [St.at, setPc, holds, todo])⟩
  case unlock2 a v => simp only [Auto.go, hp]; exact ⟨_, rfl, hn, .inl rfl⟩
  case sCheck =>
    cases hs : s.servers with
    | none =>
      simp only [Auto.go, hp, hs]; refine ⟨_, rfl, ?_, .inr ?_⟩
      · intro u; simpa using hn u
      · simp [St.at, setPc, holds, todo]
    | some m => simp only [Auto.go, hp, hs]; exact ⟨_, rfl, hn, .inr (by simp [St.at, setPc, holds, todo, hs, entries])⟩
  case sLoop rest =>
    cases rest with
    | nil =>
      simp only [Auto.go, hp]; refine ⟨_, rfl, ?_, .inr ?_⟩
      · intro u; simpa using hn u
      · simp [St.at, setPc, holds, todo]
    | cons v rest =>
      simp only [Auto.go, hp]; refine ⟨_, rfl, ?_, .inr ?_⟩
      · intro u; simpa using hn u
      · simp [St.at, setPc, holds, todo]
  case sUnlock => simp only [Auto.go, hp]; exact ⟨_, rfl, hn, .inl rfl⟩

theorem owner_ends (k : Nat) : ∀ {s : St} {t : Nat}, Asked s → NoEmpty s → holds (s.pc t) = true → todo s (s.pc t) ≤ k →
    ∃ n s', n ≤ k ∧ run s (gos t n) = some s' ∧ s'.lock = none := by
  induction k with
  | zero =>
    intro s t ha hn hh hk
    obtain ⟨s1, h1, h2, h3 | h3⟩ := owner_goes ha hn hh
    · cases hp : s.pc t <;> rw [hp] at hh hk <;> simp [holds, todo] at hh hk
      have := (ha t).2 hp
      exact absurd this (hn t)
    · omega
  | succ k ih =>
    intro s t ha hn hh hk
    obtain ⟨s1, h1, h2, h3 | h3⟩ := owner_goes ha hn hh
    · exact ⟨1, s1, by omega, by simp [gos, run, step, h1], h3⟩
    · obtain ⟨n, s2, h4, h5, h6⟩ := ih (asked_step (c := .go t) ha h1) h2 h3.1 (by omega)
      refine ⟨n + 1, s2, by omega, ?_, h6⟩
      show run s (.go t :: gos t n) = some s2
      simp only [run, step, h1]
      exact h5

/-- While nobody asks for the empty address, whoever holds the lock can always go on by itself and releases it after at most five steps
more than there are servers. -/
theorem C83_released_partial {s : St} (h : Reach s) (hn : NoEmpty s) {t : Nat} (hl : s.lock = some t) :
    ∃ n s', n ≤ (entries s.servers).length + 5 ∧ run s (gos t n) = some s' ∧ s'.lock = none := by
  have hi := inv_reach h
  have hh := (hi.own t).2 hl
  have hk : todo s (s.pc t) ≤ (entries s.servers).length + 5 := by
    have hP := hi.place t
    cases hp : s.pc t <;> rw [hp] at hP <;> simp [todo]
    case sLoop rest =>
      obtain ⟨fin, h1, -⟩ := hP
      have := congrArg List.length h1
      simp at this
      omega
  exact owner_ends _ (asked_reach h) hn hh hk

example : (run init ([.get 1 5] ++ gos 1 12 ++ [.get 1 6, .stop 2] ++ gos 2 2)).any
    (fun s => s.lock = some 2 ∧ (entries s.servers).length = 1 ∧ s.log = [.called 1 6, .got 1 5 0, .made 5 0, .called 1 5]) = true := by
  decide +kernel

/-- After `Get("")`, which panics with the lock held, no `Get` of a new address and no `Stop` ever returns: whatever happens then,
the lock stays taken, no server is made and none is stopped. -/
theorem C83_empty_address_violated : ∃ cs s, run init cs = some s ∧ s.log = [Ev.panicked 1, .called 1 0] ∧
    ∀ ds s', run s ds = some s' → s'.lock = some 1 ∧ (∀ a v, Ev.made a v ∉ s'.log) ∧ (∀ t a v, Ev.got t a v ∉ s'.log) ∧
      Ev.cleared ∉ s'.log := by
  refine ⟨[.get 1 0] ++ gos 1 8, ?_⟩
  have h : (run init ([.get 1 0] ++ gos 1 8)).any (fun s => s.log = [Ev.panicked 1, .called 1 0] ∧ s.pc 1 = .dead ∧
      s.servers = some []) = true := by decide +kernel
  obtain ⟨s, h1, h2, h3, h4⟩ := any_some h
  refine ⟨s, h1, h2, fun ds s' hr => ?_⟩
  have hi : Inv s := inv_reach ⟨_, h1⟩
  have key : ∀ ds (s s' : St), Inv s → s.pc 1 = .dead → s.servers = some [] → (∀ e ∈ s.log, ¬ ∃ a v, e = .made a v) →
      Ev.cleared ∉ s.log → run s ds = some s' →
      Inv s' ∧ s'.pc 1 = .dead ∧ (∀ e ∈ s'.log, ¬ ∃ a v, e = .made a v) ∧ Ev.cleared ∉ s'.log := by
    intro ds
    induction ds with
    | nil => intro s s' hi hd _ hm hc hr; cases hr; exact ⟨hi, hd, hm, hc⟩
    | cons c ds ih =>
      intro s s' hi hd hs hm hc hr
      unfold run at hr
      split at hr
      · cases hr
      · next s1 h1 =>
        have hi1 := inv_step hi h1
        have hl : s.lock = some 1 := (hi.own 1).1 (by rw [hd]; rfl)
        have hot : ∀ t, t ≠ 1 → holds (s.pc t) = false := by
          intro t ht
          cases hq : holds (s.pc t) with
          | false => rfl
          | true => exact absurd (other_holds hi (t := 1) (by rw [hd]; rfl) hq) ht
        have hgot : ∀ t a v, s.pc t ≠ .ret a v := by
          intro t a v hp
          have := hi.place t
          rw [hp] at this
          exact hm _ this.1 ⟨a, v, rfl⟩
        clear hi
        refine ih s1 s' hi1 ?_ ?_ ?_ ?_ hr <;> clear ih hr hi1
        all_goals
          cases c <;> simp only [step, Auto.go, St.at, St.acquire, St.release] at h1 <;> (repeat' split at h1) <;>
            simp only [Option.some.injEq, reduceCtorEq] at h1 <;> subst h1 <;> grind [setPc, holds]
  obtain ⟨h5, h6, h7, h8⟩ := key ds s s' hi h3 h4 (by rw [h2]; simp) (by rw [h2]; simp) hr
  refine ⟨(h5.own 1).1 (by rw [h6]; rfl), fun a v hm => h7 _ hm ⟨a, v, rfl⟩, fun t a v hg => ?_, h8⟩
  obtain ⟨l1, l2, hl⟩ := List.append_of_mem hg
  have := (h5.gotten l1 l2 t a v hl).1
  exact h7 (.made a v) (by rw [hl]; simp [this]) ⟨a, v, rfl⟩

end Verif.Auto
