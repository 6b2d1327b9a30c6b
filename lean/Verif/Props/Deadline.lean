import Verif.Model.Deadline
import Verif.Spec.Deadline

/-!
C141. With a read timeout, reading fails exactly when nothing comes for that long; it then fails at that moment. Idle times of the reader do not count, and
no deadline is left behind. The timeout is not a bound on the call (a peer that sends byte after byte), and it is without effect on a connection that has no
deadlines, such as a wrapped one.
-/
namespace Verif.Deadline
open Verif.Spec.Deadline

theorem read_some {timeout : Nat} {c : Conn} {a k : Nat} {r : List (Nat × Nat)} (h0 : 0 < timeout) (hd : c.hasDl = true) (e : c.coming = (a, k) :: r)
    (ha : a < c.now + timeout) : read timeout c = ({ c with now := max c.now a, dl := none, coming := r }, .ok k) := by
  have : ¬ (c.now + timeout ≤ max c.now a) := by omega
  simp [read, Conn.recv, h0, hd, e, this]

theorem read_stalled {timeout : Nat} {c : Conn} (h0 : 0 < timeout) (hd : c.hasDl = true) (h : Stalled timeout c.now c.coming) :
    read timeout c = ({ c with now := c.now + timeout, dl := some (c.now + timeout) }, .timeout) := by
  have h1 : max c.now (c.now + timeout) = c.now + timeout := by omega
  cases e : c.coming with
  | nil => simp [read, Conn.recv, h0, hd, e, h1]
  | cons x r =>
    obtain ⟨a, k⟩ := x
    rw [e] at h
    have h2 : c.now + timeout ≤ max c.now a := by have : c.now + timeout ≤ a := h; omega
    simp [read, Conn.recv, h0, hd, e, h1, h2]

theorem loop_done {timeout n l : Nat} {c : Conn} (h : n ≤ l) : readLoop timeout n l c = (c, .ok (l - n)) := by
  rw [readLoop]; simp [h]

theorem loop_ok {timeout n l k : Nat} {c c' : Conn} (h : l < n) (e : read timeout c = (c', .ok k)) :
    readLoop timeout n l c = readLoop timeout n (l + k) c' := by
  rw [readLoop]
  have : ¬ n ≤ l := by omega
  simp only [this, if_false]
  split
  · rename_i e'; rw [e] at e'; cases e'; rfl
  · rename_i hn; exact (hn _ _ e).elim

theorem loop_err {timeout n l : Nat} {c c' : Conn} (h : l < n) (e : read timeout c = (c', .timeout)) :
    readLoop timeout n l c = (c', .timeout) := by
  rw [readLoop]
  have : ¬ n ≤ l := by omega
  simp only [this, if_false]
  split
  · rename_i e'; rw [e] at e'; cases e'
  · exact e

theorem loop_hang {timeout n l : Nat} {c c' : Conn} (h : l < n) (e : read timeout c = (c', .hang)) :
    readLoop timeout n l c = (c', .hang) := by
  rw [readLoop]
  have : ¬ n ≤ l := by omega
  simp only [this, if_false]
  split
  · rename_i e'; rw [e] at e'; cases e'
  · exact e

/-- What there is before the call gets to the rest. -/
theorem loop_prefix {timeout n : Nat} (h0 : 0 < timeout) : ∀ (pre rest : List (Nat × Nat)) (l : Nat) (c : Conn), c.hasDl = true →
    c.coming = pre ++ rest → Steady timeout c.now pre → l + total pre < n → pre ≠ [] →
    readLoop timeout n l c = readLoop timeout n (l + total pre) { c with now := last c.now pre, dl := none, coming := rest } := by
  intro pre
  induction pre with
  | nil => intro _ _ _ _ _ _ _ h; exact absurd rfl h
  | cons x p ih =>
    intro rest l c hd e hs ht _
    obtain ⟨a, k⟩ := x
    obtain ⟨h1, h2⟩ := hs
    simp only [total] at ht
    rw [loop_ok (by omega) (read_some h0 hd e h1)]
    cases p with
    | nil => simp [total, last]
    | cons y q =>
      refine (ih rest (l + k) { c with now := max c.now a, dl := none, coming := y :: q ++ rest } hd rfl h2 (by omega) (by simp)).trans ?_
      simp only [total, last]
      congr 1
      omega

theorem loop_enough {timeout n : Nat} (h0 : 0 < timeout) : ∀ (pre rest : List (Nat × Nat)) (l : Nat) (c : Conn), c.hasDl = true →
    c.coming = pre ++ rest → Steady timeout c.now pre → n ≤ l + total pre → c.dl = none →
    ∃ c' m, readLoop timeout n l c = (c', .ok m) ∧ c'.dl = none ∧ c'.hasDl = true ∧ c'.now ≤ last c.now pre
      ∧ m + n + total c'.coming = l + total c.coming := by
  intro pre
  induction pre with
  | nil =>
    intro rest l c hd _ _ h hl
    simp only [total] at h
    exact ⟨c, l - n, loop_done (by omega), hl, hd, Nat.le_refl _, by omega⟩
  | cons x p ih =>
    intro rest l c hd e hs ht hl
    obtain ⟨a, k⟩ := x
    obtain ⟨h1, h2⟩ := hs
    simp only [total] at ht
    by_cases hn : n ≤ l
    · refine ⟨c, l - n, loop_done hn, hl, hd, ?_, by omega⟩
      have : ∀ (q : List (Nat × Nat)) (t : Nat), t ≤ last t q := by
        intro q
        induction q with
        | nil => intro t; exact Nat.le_refl _
        | cons y q ih => intro t; have := ih (max t y.1); simp only [last]; omega
      exact this _ _
    · obtain ⟨c', m, h3, h4, h5, h6, h7⟩ := ih rest (l + k) { c with now := max c.now a, dl := none, coming := p ++ rest } hd rfl h2 (by omega) rfl
      refine ⟨c', m, ?_, h4, h5, h6, ?_⟩
      · rw [loop_ok (by omega) (read_some h0 hd e h1)]; exact h3
      · rw [h7, e]; simp only [List.cons_append, total]; omega

/-- Every call with a timeout returns, within the timeout for every byte asked for. -/
theorem loop_returns {timeout n : Nat} (h0 : 0 < timeout) : ∀ (coming : List (Nat × Nat)) (l : Nat) (c : Conn), c.hasDl = true → c.coming = coming →
    (∀ x ∈ coming, 0 < x.2) → (readLoop timeout n l c).2 ≠ .hang ∧ (readLoop timeout n l c).1.now ≤ c.now + (n - l) * timeout := by
  intro coming
  induction coming with
  | nil =>
    intro l c hd e _
    by_cases hn : n ≤ l
    · rw [loop_done hn]; exact ⟨nofun, Nat.le_add_right _ _⟩
    · rw [loop_err (by omega) (read_stalled h0 hd (by rw [e]; trivial))]
      refine ⟨nofun, ?_⟩
      have : 1 * timeout ≤ (n - l) * timeout := Nat.mul_le_mul_right _ (by omega)
      show c.now + timeout ≤ _
      omega
  | cons x p ih =>
    intro l c hd e hp
    obtain ⟨a, k⟩ := x
    by_cases hn : n ≤ l
    · rw [loop_done hn]; exact ⟨nofun, Nat.le_add_right _ _⟩
    · have hm : 1 * timeout ≤ (n - l) * timeout := Nat.mul_le_mul_right _ (by omega)
      by_cases ha : a < c.now + timeout
      · rw [loop_ok (by omega) (read_some h0 hd e ha)]
        have hk : 0 < k := hp (a, k) (by simp)
        obtain ⟨h1, h2⟩ := ih (l + k) { c with now := max c.now a, dl := none, coming := p } hd rfl (fun x hx => hp x (by simp [hx]))
        refine ⟨h1, Nat.le_trans h2 ?_⟩
        show max c.now a + (n - (l + k)) * timeout ≤ _
        have h3 : (n - (l + k) + 1) * timeout ≤ (n - l) * timeout := Nat.mul_le_mul_right _ (by omega)
        rw [Nat.add_mul] at h3
        omega
      · rw [loop_err (by omega) (read_stalled h0 hd (by rw [e]; show c.now + timeout ≤ a; omega))]
        refine ⟨nofun, ?_⟩
        show c.now + timeout ≤ _
        omega

theorem read_patient {timeout : Nat} {c : Conn} {a k : Nat} {r : List (Nat × Nat)} (h0 : timeout = 0 ∨ c.hasDl = false) (hl : c.dl = none)
    (e : c.coming = (a, k) :: r) : read timeout c = ({ c with now := max c.now a, coming := r }, .ok k) := by
  rcases h0 with h0 | h0 <;> simp [read, Conn.recv, h0, hl, e]

end Verif.Deadline

namespace Verif.Props
open Verif Verif.Deadline Verif.Spec.Deadline

/-- C141: as long as the waiting is never as long as the timeout the call succeeds, no later than the bytes it needs are there; no deadline is left. -/
theorem C141_steady {timeout n l : Nat} {c : Conn} {pre rest : List (Nat × Nat)} (h0 : 0 < timeout) (hd : c.hasDl = true) (hl : c.dl = none)
    (e : c.coming = pre ++ rest) (hs : Steady timeout c.now pre) (h : n ≤ l + total pre) :
    ∃ c' m, readLoop timeout n l c = (c', .ok m) ∧ c'.dl = none ∧ c'.now ≤ last c.now pre ∧ m + n + total c'.coming = l + total c.coming := by
  obtain ⟨c', m, h1, h2, _, h4, h5⟩ := loop_enough h0 pre rest l c hd e hs h hl
  exact ⟨c', m, h1, h2, h4, h5⟩

/-- C141: a peer that stops sending for the timeout makes the call fail, exactly that long after the last bytes (after the call, if none came). -/
theorem C141_stall {timeout n l : Nat} {c : Conn} {pre rest : List (Nat × Nat)} (h0 : 0 < timeout) (hd : c.hasDl = true)
    (e : c.coming = pre ++ rest) (hs : Steady timeout c.now pre) (h : l + total pre < n) (hr : Stalled timeout (last c.now pre) rest) :
    ∃ c', readLoop timeout n l c = (c', .timeout) ∧ c'.now = last c.now pre + timeout := by
  cases pre with
  | nil =>
    rw [List.nil_append] at e
    refine ⟨_, loop_err (by simp only [total] at h; omega) (read_stalled h0 hd ?_), rfl⟩
    rw [e]; exact hr
  | cons x p =>
    rw [loop_prefix h0 (x :: p) rest l c hd e hs h (by simp)]
    exact ⟨_, loop_err h (read_stalled h0 hd hr), rfl⟩

/-- C141: with a timeout every call returns, after at most the timeout for each byte that was missing. -/
theorem C141_returns {timeout n l : Nat} {c : Conn} (h0 : 0 < timeout) (hd : c.hasDl = true) (hp : ∀ x ∈ c.coming, 0 < x.2) :
    (readLoop timeout n l c).2 ≠ .hang ∧ (readLoop timeout n l c).1.now ≤ c.now + (n - l) * timeout :=
  loop_returns h0 c.coming l c hd rfl hp

/-- C141: if all the bytes are there, the calls succeed at once, however long the caller waits between them. -/
theorem C141_idle {timeout : Nat} (h0 : 0 < timeout) : ∀ (ns : List (Nat × Nat)) (l : Nat) (c : Conn), c.hasDl = true → c.dl = none →
    (∀ x ∈ c.coming, x.1 ≤ c.now) → total ns ≤ l + total c.coming →
    (calls timeout ns l c).length = ns.length ∧ ∀ o ∈ calls timeout ns l c, o.1 = 0 ∧ ∃ m, o.2 = .ok m := by
  have hst : ∀ (p : List (Nat × Nat)) (t : Nat), (∀ x ∈ p, x.1 ≤ t) → Steady timeout t p ∧ last t p = t := by
    intro p
    induction p with
    | nil => intro t _; exact ⟨trivial, rfl⟩
    | cons x p ih =>
      intro t hp
      have hx := hp x (by simp)
      have hm : max t x.1 = t := by omega
      obtain ⟨h1, h2⟩ := ih t (fun y hy => hp y (by simp [hy]))
      refine ⟨⟨by omega, by rw [hm]; exact h1⟩, ?_⟩
      simp only [last, hm, h2]
  have hsub : ∀ (n : Nat) (p : List (Nat × Nat)) (l : Nat) (c : Conn), c.hasDl = true → c.coming = p → (∀ x ∈ p, x.1 ≤ c.now) →
      c.now ≤ (readLoop timeout n l c).1.now ∧ ∀ x ∈ (readLoop timeout n l c).1.coming, x ∈ p := by
    intro n p
    induction p with
    | nil =>
      intro l c hd e _
      by_cases hn : n ≤ l
      · rw [loop_done hn]; exact ⟨Nat.le_refl _, by simp [e]⟩
      · rw [loop_err (by omega) (read_stalled h0 hd (by rw [e]; trivial))]
        exact ⟨Nat.le_add_right _ _, by simp [e]⟩
    | cons x p ih =>
      intro l c hd e hp
      by_cases hn : n ≤ l
      · rw [loop_done hn]; exact ⟨Nat.le_refl _, by simp [e]⟩
      · have hx := hp x (by simp)
        have hm : max c.now x.1 = c.now := by omega
        rw [loop_ok (by omega) (read_some h0 hd e (by omega))]
        obtain ⟨h1, h2⟩ := ih (l + x.2) { c with now := max c.now x.1, dl := none, coming := p } hd rfl
          (fun y hy => by have := hp y (by simp [hy]); show y.1 ≤ max c.now x.1; omega)
        exact ⟨by have : max c.now x.1 ≤ _ := h1; omega, fun y hy => by simp [h2 y hy]⟩
  intro ns
  induction ns with
  | nil => intro l c _ _ _ _; simp [calls]
  | cons x ns ih =>
    intro l c hd hl hp ht
    obtain ⟨idle, n⟩ := x
    simp only [total] at ht
    have hp' : ∀ x ∈ c.coming, x.1 ≤ c.now + idle := fun x hx => Nat.le_trans (hp x hx) (Nat.le_add_right _ _)
    obtain ⟨s1, s2⟩ := hst c.coming (c.now + idle) hp'
    obtain ⟨c', m, h1, h2, h3, h4, h5⟩ := loop_enough (n := n) h0 c.coming [] l { c with now := c.now + idle } hd (by simp) s1 (by omega) hl
    obtain ⟨k1, k2⟩ := hsub n c.coming l { c with now := c.now + idle } hd rfl hp'
    rw [h1] at k1 k2
    have hnow : c'.now = c.now + idle := by
      have a : c'.now ≤ last (c.now + idle) c.coming := h4
      have b : c.now + idle ≤ c'.now := k1
      omega
    have hi := ih m c' h3 h2 (fun x hx => by rw [hnow]; exact hp' x (k2 x hx)) (by have : m + n + total c'.coming = l + total c.coming := h5; omega)
    simp only [calls, h1]
    refine ⟨by simp [hi.1], ?_⟩
    intro o ho
    rcases List.mem_cons.1 ho with rfl | ho
    · exact ⟨by show c'.now - (c.now + idle) = 0; omega, m, rfl⟩
    · exact hi.2 o ho

/-- C141 fails as a bound on the call: a peer that sends a byte just before each deadline keeps the reader for `n` times (almost) the timeout. -/
theorem C141_trickle_violated (timeout n : Nat) (h0 : 0 < timeout) :
    ∃ c : Conn, c.hasDl = true ∧ c.dl = none ∧ ∃ c' m, readLoop timeout n 0 c = (c', .ok m) ∧ c'.now = c.now + n * (timeout - 1) := by
  let tr : Nat → Nat → List (Nat × Nat) := fun m => Nat.rec (fun _ => []) (fun _ ih t => (t + (timeout - 1), 1) :: ih (t + (timeout - 1))) m
  have key : ∀ (m l t : Nat), l + m = n → ∃ c' k, readLoop timeout n l { now := t, dl := none, hasDl := true, coming := tr m t } = (c', .ok k)
      ∧ c'.now = t + m * (timeout - 1) := by
    intro m
    induction m with
    | zero => intro l t h; exact ⟨_, _, loop_done (by omega), by simp⟩
    | succ m ih =>
      intro l t h
      obtain ⟨c', k, h1, h2⟩ := ih (l + 1) (t + (timeout - 1)) (by omega)
      refine ⟨c', k, ?_, by rw [h2, Nat.add_mul]; omega⟩
      rw [loop_ok (by omega) (read_some (a := t + (timeout - 1)) (k := 1) (r := tr m (t + (timeout - 1))) h0 rfl rfl
        (by show t + (timeout - 1) < t + timeout; omega))]
      have hm : max t (t + (timeout - 1)) = t + (timeout - 1) := by omega
      simp only [hm]
      exact h1
  obtain ⟨c', k, h1, h2⟩ := key n 0 0 (by omega)
  exact ⟨_, rfl, rfl, c', k, h1, h2⟩

/-- C141 fails on connections without deadlines, such as a wrapped `ReadWriteCloser`: whatever the timeout, a silent peer keeps the reader for ever. -/
theorem C141_wrapped_violated (timeout n l t : Nat) (h : l < n) :
    (readLoop timeout n l { now := t, dl := none, hasDl := false, coming := [] }).2 = .hang := by
  rw [loop_hang h (c' := { now := t, dl := none, hasDl := false, coming := [] }) (by simp [Deadline.read, Conn.recv])]

/-- C141: without a timeout (or without deadlines) the call succeeds whenever the bytes come. -/
theorem C141_patient {timeout n : Nat} : ∀ (coming : List (Nat × Nat)) (l : Nat) (c : Conn), (timeout = 0 ∨ c.hasDl = false) → c.dl = none →
    c.coming = coming → n ≤ l + total coming → ∃ c' m, readLoop timeout n l c = (c', .ok m) ∧ c'.dl = none := by
  intro coming
  induction coming with
  | nil => intro l c _ hl _ h; exact ⟨c, _, loop_done (by simpa [total] using h), hl⟩
  | cons x p ih =>
    intro l c h0 hl e h
    obtain ⟨a, k⟩ := x
    simp only [total] at h
    by_cases hn : n ≤ l
    · exact ⟨c, _, loop_done hn, hl⟩
    · rw [loop_ok (by omega) (read_patient h0 hl e)]
      exact ih (l + k) _ h0 hl rfl (by omega)

/-- C141: a write with a timeout returns within it: it succeeds if the transport has taken the bytes before, and then leaves no deadline. -/
theorem C141_write {timeout : Nat} {c : Conn} (h0 : 0 < timeout) (hd : c.hasDl = true) (done : Option Nat) :
    (write timeout done c).1.now ≤ c.now + timeout
      ∧ ((∃ t, done = some t ∧ t < c.now + timeout) → (write timeout done c).2 = .ok 0 ∧ (write timeout done c).1.dl = none)
      ∧ ((∀ t, done = some t → c.now + timeout ≤ t) → (write timeout done c).2 = .timeout ∧ (write timeout done c).1.now = c.now + timeout) := by
  cases done with
  | none =>
    simp [write, h0, hd]
  | some t =>
    by_cases h : t < c.now + timeout
    · have h2 : ¬ (c.now + timeout ≤ max c.now t) := by omega
      simp [write, h0, hd, h2]
      omega
    · have h2 : c.now + timeout ≤ max c.now t := by omega
      simp [write, h0, hd, h2]
      omega

/-- C141: an idle connection is not closed: with data in time between two pauses both calls succeed; a stall of the timeout fails at that moment. -/
example : calls 10 [(0, 4), (1000, 4)] 0 { now := 0, dl := none, hasDl := true, coming := [(5, 2), (14, 3), (1020, 3)] } = [(14, .ok 1), (6, .ok 0)]
    ∧ calls 10 [(0, 4), (1000, 4)] 0 { now := 0, dl := none, hasDl := true, coming := [(5, 2), (15, 3)] } = [(15, .timeout)] := by
  decide +kernel

/-- The hypotheses of `C141_steady` and `C141_stall`. -/
example : Steady 10 0 [(5, 2), (14, 3)] ∧ total [(5, 2), (14, 3)] = 5 ∧ last 0 [(5, 2), (14, 3)] = 14 ∧ Stalled 10 14 [(24, 1)] := by
  simp [Steady, total, last, Stalled]

end Verif.Props
