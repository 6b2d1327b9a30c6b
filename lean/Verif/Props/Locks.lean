import Verif.Proofs.Race
import Verif.Spec.Locks
import Verif.Model.Locks
/-! C152: the order of mutexes. -/
namespace Verif.Locks
open Verif.Race Prog

def cls : Mx → Nat
  | .req _ => 0
  | .multi _ => 1
  | .cx _ | .leaf _ => 2

def num : Mx → Nat
  | .req i => i
  | _ => 0

/-- The order: requests in the order in which they were made, then multi-requests, then all others. -/
def lt (a b : Mx) : Bool := cls a < cls b || cls a = cls b && num a < num b

theorem lt_irrefl (a : Mx) : lt a a = false := by simp [lt]

theorem lt_trans {a b c : Mx} (h : lt a b = true) (h' : lt b c = true) : lt a c = true := by
  simp only [lt, Bool.or_eq_true, decide_eq_true_eq, Bool.and_eq_true] at *
  omega

theorem lt_cls {a b : Mx} (h : cls a < cls b) : lt a b = true := by simp [lt, h]

theorem lt_req {i j : Nat} (h : i < j) : lt (.req i) (.req j) = true := by simp [lt, cls, num, h]

def pol (q : Abs Mx) : Op Mx → Bool
  | .lock m => q.held.all fun a => lt a m
  | _ => true

/-- Which mutexes may be held where. -/
def Held : Where → List Mx → Prop
  | .top, l => l = []
  | .inner i, l => ∀ m ∈ l, ∃ j, j ≤ i ∧ m = .req j
  | .cancel c, l => ∀ m ∈ l, ∃ j, j < c ∧ m = .req j
  | .multi, l => ∀ m ∈ l, cls m ≤ 1

theorem held_cls {x : Where} {l : List Mx} (h : Held x l) : ∀ m ∈ l, cls m ≤ 1 := by
  cases x with
  | top => intro m hm; rw [show l = [] from h] at hm; cases hm
  | inner i => intro m hm; obtain ⟨j, -, rfl⟩ := h m hm; exact Nat.zero_le _
  | cancel i => intro m hm; obtain ⟨j, -, rfl⟩ := h m hm; exact Nat.zero_le _
  | multi => exact h

theorem held_zero {x : Where} {l : List Mx} (hx : x ≠ .multi) (h : Held x l) : ∀ m ∈ l, cls m = 0 := by
  cases x with
  | top => intro m hm; rw [show l = [] from h] at hm; cases hm
  | inner i => intro m hm; obtain ⟨j, -, rfl⟩ := h m hm; rfl
  | cancel i => intro m hm; obtain ⟨j, -, rfl⟩ := h m hm; rfl
  | multi => exact absurd rfl hx

/-- Taking a mutex that comes after all that are held, and giving it back. -/
theorem chk_locked {p : Prog Mx} {m : Mx} {c : Abs Mx → Bool} {q : Abs Mx} (h : ∀ a ∈ q.held, lt a m = true) (hc : c q = true)
    (hp : ∀ c' : Abs Mx → Bool, c' { q with held := m :: q.held } = true → chk pol p c' { q with held := m :: q.held } = true) :
    chk pol (locked m p) c q = true := by
  have hm : m ∉ q.held := fun hm => by have := h m hm; rw [lt_irrefl] at this; cases this
  simp only [locked, all, chk, upd, fine, pol]
  simp only [Bool.and_eq_true, List.all_eq_true]
  refine ⟨⟨by simpa using hm, h⟩, hp _ ?_⟩
  simp [hc]

/-- Code that takes mutexes as the library does keeps to the order. -/
theorem code_chk {W : World} (hW : ∀ j i, W.answers j i → j < i) {x : Where} {p : Prog Mx} (h : Code W x p) :
    ∀ {c : Abs Mx → Bool} {q : Abs Mx}, Held x q.held → c q = true → chk pol p c q = true := by
  induction h with
  | skip => intro c q _ h; exact h
  | seq _ _ ih1 ih2 => intro c q hq h; exact ih1 hq (ih2 hq h)
  | alt _ _ ih1 ih2 => intro c q hq h; simp only [chk, Bool.and_eq_true]; exact ⟨ih1 hq h, ih2 hq h⟩
  | loop _ ih => intro c q hq h; simp only [chk, Bool.and_eq_true]; exact ⟨ih hq (by simp), h⟩
  | leaf n =>
    intro c q hq h
    refine chk_locked (fun a ha => ?_) h fun c' h => h
    have := held_cls hq a ha
    exact lt_cls (Nat.lt_succ_of_le this)
  | cx n =>
    intro c q hq h
    refine chk_locked (fun a ha => ?_) h fun c' h => h
    have := held_cls hq a ha
    exact lt_cls (Nat.lt_succ_of_le this)
  | multi m hx _ ih =>
    intro c q hq h
    refine chk_locked (fun a ha => ?_) h fun c' h => ih (fun a ha => ?_) h
    · have := held_zero hx hq a ha
      exact lt_cls (by rw [this]; exact Nat.zero_lt_one)
    · rcases List.mem_cons.1 ha with rfl | ha
      · exact Nat.le_refl _
      · exact held_cls hq a ha
  | @respond i p _ ih =>
    intro c q hq h
    have hq' : q.held = [] := hq
    refine chk_locked (fun a ha => ?_) h fun c' h => ih (fun a ha => ?_) h
    · rw [hq'] at ha; cases ha
    · simp only [hq', List.mem_singleton] at ha; exact ⟨i, Nat.le_refl _, ha⟩
  | cancel _ ih =>
    intro c q hq h
    have hq' : q.held = [] := hq
    exact ih (fun a ha => by rw [hq'] at ha; cases ha) h
  | reqContext hm _ ih =>
    intro c q hq h
    refine ih (fun a ha => ?_) h
    obtain ⟨j, hj, e⟩ := hq a ha
    exact ⟨j, Nat.lt_of_le_of_lt hj (W.later _ _ hm), e⟩
  | @cancelReq c' i p hm _ ih =>
    intro c q hq h
    have hl := W.later _ _ hm
    refine chk_locked (fun a ha => ?_) h fun c' h => ih (fun a ha => ?_) h
    · obtain ⟨j, hj, rfl⟩ := hq a ha
      exact lt_req (by omega)
    · rcases List.mem_cons.1 ha with rfl | ha
      · exact ⟨i, Nat.le_refl _, rfl⟩
      · obtain ⟨j, hj, e⟩ := hq a ha
        exact ⟨j, by omega, e⟩
  | cancelIn hm _ ih =>
    intro c q hq h
    refine ih (fun a ha => ?_) h
    obtain ⟨j, hj, e⟩ := hq a ha
    exact ⟨j, Nat.lt_trans hj (W.later _ _ hm), e⟩
  | @answer j i p ha _ ih =>
    intro c q hq h
    have hl := hW _ _ ha
    refine chk_locked (fun a ha => ?_) h fun c' h => ih (fun a ha => ?_) h
    · obtain ⟨j, hj, rfl⟩ := hq a ha
      exact lt_req (by omega)
    · rcases List.mem_cons.1 ha with rfl | ha
      · exact ⟨i, Nat.le_refl _, rfl⟩
      · obtain ⟨j, hj, e⟩ := hq a ha
        exact ⟨j, by omega, e⟩

theorem inv {W : World} (hW : ∀ j i, W.answers j i → j < i) {menu : Nat → List (Prog Mx)} (hm : ∀ t p, p ∈ menu t → Code W .top p)
    {cs : List (Nat × Nat)} {s : St Mx} (h : run menu idle cs = some s) : Inv (fun _ => pol) (fun _ q => q = {}) (fun _ => true) s := by
  refine inv_of (menu := menu) (s := idle) ⟨fun _ => rfl, fun t p hp q hq => ?_, rfl, fun _ => rfl⟩ h
  have e : q = {} := by simpa using hq
  subst e
  exact code_chk hW (hm t p hp) rfl hq

/-- Of finitely many goroutines one wants a mutex that no other wanted one comes after. -/
theorem greatest (f : Nat → Mx) : ∀ ts : List Nat, ts ≠ [] → ∃ t ∈ ts, ∀ u ∈ ts, lt (f t) (f u) = false
  | [], h => absurd rfl h
  | [t], _ => ⟨t, by simp, fun u hu => by simp only [List.mem_singleton] at hu; subst hu; exact lt_irrefl _⟩
  | t :: t' :: ts, _ => by
    obtain ⟨v, hv, h⟩ := greatest f (t' :: ts) (by simp)
    cases hl : lt (f v) (f t) with
    | false =>
      refine ⟨v, List.mem_cons_of_mem _ hv, fun u hu => ?_⟩
      rcases List.mem_cons.1 hu with rfl | hu
      · exact hl
      · exact h u hu
    | true =>
      refine ⟨t, by simp, fun u hu => ?_⟩
      rcases List.mem_cons.1 hu with rfl | hu
      · exact lt_irrefl _
      · cases h' : lt (f t) (f u) with
        | false => rfl
        | true => rw [← h u hu]; exact (lt_trans hl h').symm

theorem no_deadlock {z : Nat → Abs Mx → Bool} {on : Nat → Bool} {s : St Mx} (I : Inv (fun _ => pol) z on s) : ¬ Deadlock s := by
  rintro ⟨ts, hne, h⟩
  have hf : ∀ t, ∃ m, t ∈ ts → ∃ u, Wants s t m ∧ s.own m = some u ∧ u ∈ ts := fun t => by
    by_cases ht : t ∈ ts
    · obtain ⟨m, u, h⟩ := h t ht; exact ⟨m, fun _ => ⟨u, h⟩⟩
    · exact ⟨.req 0, fun h => absurd h ht⟩
  let f := fun t => Classical.choose (hf t)
  have hf' : ∀ t ∈ ts, ∃ u, Wants s t (f t) ∧ s.own (f t) = some u ∧ u ∈ ts := fun t => Classical.choose_spec (hf t)
  obtain ⟨t, ht, hg⟩ := greatest f ts hne
  obtain ⟨u, -, ho, hu⟩ := hf' t ht
  obtain ⟨v, ⟨-, k, hk⟩, -, -⟩ := hf' u hu
  have hheld := (I.own _ _).1 ho
  have hok := I.ok u
  rw [hk] at hok
  simp only [chkS, chk, pol, Bool.and_eq_true, List.all_eq_true] at hok
  have := hok.1.2 _ hheld
  rw [hg u hu] at this
  cases this

end Verif.Locks

namespace Verif.Props
open Verif.Race Verif.Locks Prog

/-- C152. Goroutines never wait for each other's mutexes, whatever they call: requests that are answered, cancelled and forwarded, contexts of requests and
their children, multi-requests, timers, queues, connections. Responders and bookmarks may answer other requests only if these were made later. -/
theorem C152_mutexes_partial {W : World} (hW : ∀ j i, W.answers j i → j < i) {menu : Nat → List (Prog Mx)} (hm : ∀ t p, p ∈ menu t → Code W .top p)
    {cs : List (Nat × Nat)} {s : St Mx} (h : run menu idle cs = some s) : ¬ Deadlock s :=
  no_deadlock (Locks.inv hW hm h)

/-- Request 0 has context 1, in which request 2 was made. -/
private def world (p : Nat → Nat → Prop) : World where
  made a b := a = 1 ∧ b = 0 ∨ a = 2 ∧ b = 1
  answers := p
  later a b h := by omega

/-- Request 0 is cancelled, and with it request 2. -/
private def cancel0 : Prog Mx := locked (.req 0) (.seq (locked (.cx 1) .skip) (locked (.req 2) (locked (.cx 1) .skip)))

private theorem code_cancel0 (p : Nat → Nat → Prop) : Code (world p) .top cancel0 :=
  .respond (.reqContext (.inl ⟨rfl, rfl⟩) (.seq (.cx 1) (.cancelReq (.inr ⟨rfl, rfl⟩) (.cx 1))))

/-- Request 2 is answered, and its responder does nothing that concerns mutexes. -/
private def answer2 : Prog Mx := locked (.req 2) (locked (.cx 1) .skip)

/-- Request 0 is cancelled while request 2, which was made for it, is answered: one waits for the other. -/
theorem C152_example : ∃ (W : World) (menu : Nat → List (Prog Mx)) (cs : List (Nat × Nat)) (s : St Mx), (∀ j i, W.answers j i → j < i) ∧
    (∀ t p, p ∈ menu t → Code W .top p) ∧ run menu idle cs = some s ∧ Wants s 0 (.req 2) ∧ s.own (.req 2) = some 1 ∧ s.own (.req 0) = some 0 :=
  ⟨world fun _ _ => False, fun _ => [cancel0, answer2], [(0, 0), (0, 0), (0, 0), (0, 0), (1, 1), (1, 0)], _, fun _ _ h => h.elim,
    fun t p hp => by
      rcases List.mem_cons.1 hp with rfl | hp
      · exact code_cancel0 _
      · rw [List.mem_singleton.1 hp]
        exact .respond (.cx 1),
    rfl, ⟨rfl, _, rfl⟩, rfl, rfl⟩

/-- Request 2 is answered, and its responder, a callback, passes the answer on to request 0. -/
private def proxy2 : Prog Mx := locked (.req 2) (locked (.req 0) .skip)

/-- C152 is violated by proxies: a callback that answers the request for which its own was made deadlocks with whoever cancels that request. -/
theorem C152_proxy_violated : ∃ (W : World) (menu : Nat → List (Prog Mx)) (cs : List (Nat × Nat)) (s : St Mx),
    (∀ j i, W.answers j i → ∃ c, W.made c i ∧ W.made j c) ∧ (∀ t p, p ∈ menu t → Code W .top p) ∧ run menu idle cs = some s ∧ Deadlock s :=
  ⟨world fun j i => j = 2 ∧ i = 0, fun _ => [cancel0, proxy2], [(0, 0), (0, 0), (0, 0), (0, 0), (1, 1), (1, 0)], _,
    fun j i h => ⟨1, .inl ⟨rfl, h.2⟩, .inr ⟨h.1, rfl⟩⟩,
    fun t p hp => by
      rcases List.mem_cons.1 hp with rfl | hp
      · exact code_cancel0 _
      · rw [List.mem_singleton.1 hp]
        exact .respond (.answer ⟨rfl, rfl⟩ .skip),
    rfl, [0, 1], by simp, fun t ht => by
      rcases List.mem_cons.1 ht with rfl | ht
      · exact ⟨.req 2, 1, ⟨rfl, _, rfl⟩, rfl, by simp⟩
      · rw [List.mem_singleton.1 ht]
        exact ⟨.req 0, 0, ⟨rfl, _, rfl⟩, rfl, by simp⟩⟩

/-- C152 is violated by callbacks and statistics functions that cancel or answer the very request whose answer they are called with: they wait for themselves. -/
theorem C152_self_violated : ∃ (W : World) (menu : Nat → List (Prog Mx)) (cs : List (Nat × Nat)) (s : St Mx),
    (∀ j i, W.answers j i → j = i) ∧ (∀ t p, p ∈ menu t → Code W .top p) ∧ run menu idle cs = some s ∧ Deadlock s :=
  ⟨world fun j i => j = i, fun _ => [locked (.req 0) (locked (.req 0) .skip)], [(0, 0), (0, 0)], _, fun _ _ h => h,
    fun t p hp => by rw [List.mem_singleton.1 hp]; exact .respond (.answer rfl .skip),
    rfl, [0], by simp, fun t ht => by rw [List.mem_singleton.1 ht]; exact ⟨.req 0, 0, ⟨rfl, _, rfl⟩, rfl, by simp⟩⟩

end Verif.Props
