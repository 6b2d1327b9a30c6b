import Verif.Model.Race
/-! A static analysis of programs and what it says about their executions. -/
namespace Verif.Race
variable {V : Type} [DecidableEq V]

/-- What a goroutine knows about itself: the mutexes it holds, the channels it has sent to and received from, whether it has started others. -/
structure Abs (V : Type) where
  held : List V := []
  sent : List V := []
  got : List V := []
  forked : Bool := false
  deriving DecidableEq

def upd (q : Abs V) : Op V → Abs V
  | .acc .. => q
  | .lock m => { q with held := m :: q.held }
  | .unlock m => { q with held := q.held.erase m }
  | .send c => { q with sent := c :: q.sent }
  | .recv c => { q with got := c :: q.got }
  | .fork _ => { q with forked := true }

/-- Locks are taken by goroutines which do not have them, and given back by those which have them; a message is sent and received only once. -/
def fine (q : Abs V) : Op V → Bool
  | .lock m => !q.held.contains m
  | .unlock m => q.held.contains m
  | .send c => !q.sent.contains c
  | .recv c => !q.got.contains c
  | _ => true

/-- `p` keeps to `fine` and to the policy `pol`, starting with `q`, and what is known afterwards meets `c`. -/
def chk (pol : Abs V → Op V → Bool) : Prog V → (Abs V → Bool) → Abs V → Bool
  | .op o, c, q => fine q o && pol q o && c (upd q o)
  | .skip, c, q => c q
  | .seq p r, c, q => chk pol p (chk pol r c) q
  | .alt p r, c, q => chk pol p c q && chk pol r c q
  | .loop p, c, q => chk pol p (fun a => a = q) q && c q

def chkS (pol : Abs V → Op V → Bool) : List (Prog V) → (Abs V → Bool) → Abs V → Bool
  | [], c, q => c q
  | p :: k, c, q => chk pol p (chkS pol k c) q

theorem chkS_push (pol : Abs V → Op V → Bool) (c : Abs V → Bool) (p : Prog V) : ∀ k : List (Prog V), chkS pol (push p k) c = chkS pol (p :: k) c := by
  induction p with
  | skip => intro k; funext q; simp [push, chkS, chk]
  | seq p r ih1 ih2 =>
    intro k
    funext q
    simp only [push, ih1, chkS, chk]
    congr 1
    rw [ih2]
    funext q
    simp only [chkS]
  | _ => intro k; rfl

theorem chk_mono {pol : Abs V → Op V → Bool} {p : Prog V} : ∀ {c c' : Abs V → Bool} {q : Abs V}, (∀ a, c a = true → c' a = true) →
    chk pol p c q = true → chk pol p c' q = true := by
  induction p with
  | op o => intro c c' q h h1; simp only [chk, Bool.and_eq_true] at h1 ⊢; exact ⟨h1.1, h _ h1.2⟩
  | skip => intro c c' q h h1; exact h _ h1
  | seq p r ih1 ih2 => intro c c' q h h1; exact ih1 (fun a ha => ih2 h ha) h1
  | alt p r ih1 ih2 => intro c c' q h h1; simp only [chk, Bool.and_eq_true] at h1 ⊢; exact ⟨ih1 h h1.1, ih2 h h1.2⟩
  | loop p ih => intro c c' q h h1; simp only [chk, Bool.and_eq_true] at h1 ⊢; exact ⟨h1.1, h _ h1.2⟩

/-- What goroutine `t` knows about itself after `tr`. -/
def know (t : Nat) (tr : Trace V) : Abs V := tr.foldl (fun q e => if e.t = t then upd q e.op else q) {}

theorem know_snoc {t : Nat} {tr : Trace V} {e : Ev V} : know t (tr ++ [e]) = if e.t = t then upd (know t tr) e.op else know t tr := by
  simp [know]

/-- The programs are checked: when goroutine `t` has nothing to do, what it knows meets `z t`. -/
structure Checked (menu : Nat → List (Prog V)) (pol : Nat → Abs V → Op V → Bool) (z : Nat → Abs V → Bool) (s : St V) : Prop where
  start : ∀ t, chkS (pol t) (s.k t) (z t) {} = true
  menus : ∀ t p, p ∈ menu t → ∀ q, z t q = true → chk (pol t) p (z t) q = true
  empty : s.tr = []
  free : ∀ m, s.own m = none

/-- What is true of all executions of checked programs. `on` are the goroutines which are there at the beginning. -/
structure Inv (pol : Nat → Abs V → Op V → Bool) (z : Nat → Abs V → Bool) (on : Nat → Bool) (s : St V) : Prop where
  ok : ∀ t, chkS (pol t) (s.k t) (z t) (know t s.tr) = true
  own : ∀ m t, s.own m = some t ↔ m ∈ (know t s.tr).held
  nodup : ∀ t, (know t s.tr).held.Nodup
  pol : ∀ (i t : Nat) (o : Op V), s.tr[i]? = some ⟨t, o⟩ → pol t (know t (s.tr.take i)) o = true
  fine : ∀ (i t : Nat) (o : Op V), s.tr[i]? = some ⟨t, o⟩ → fine (know t (s.tr.take i)) o = true
  /-- whoever has had `m` has given it back before somebody else gets it -/
  rel : ∀ (m : V) (i t : Nat) (o : Op V), s.tr[i]? = some ⟨t, o⟩ → m ∈ (know t (s.tr.take i)).held → s.own m = some t ∨
    ∃ l : Nat, i ≤ l ∧ s.tr[l]? = some ⟨t, .unlock m⟩ ∧ ∀ u, s.own m = some u → ∃ k : Nat, l < k ∧ s.tr[k]? = some ⟨u, .lock m⟩
  recv : ∀ (i t : Nat) (c : V), s.tr[i]? = some ⟨t, .recv c⟩ → recvs (s.tr.take i) c < sends (s.tr.take i) c
  forks : ∀ (i t : Nat) (o : Op V), s.tr[i]? = some ⟨t, o⟩ → on t = false → ∃ l u : Nat, l < i ∧ s.tr[l]? = some ⟨u, .fork t⟩
  ons : ∀ t, s.on t = true → on t = true ∨ ∃ l u : Nat, s.tr[l]? = some ⟨u, .fork t⟩
  /-- two goroutines which have the same mutex are ordered -/
  mutex : ∀ (m : V) (i j t u : Nat) (o o' : Op V), i < j → s.tr[i]? = some ⟨t, o⟩ → s.tr[j]? = some ⟨u, o'⟩ → t ≠ u → (∀ x, o ≠ .unlock x) →
    m ∈ (know t (s.tr.take i)).held → m ∈ (know u (s.tr.take j)).held → HB s.tr i j

omit [DecidableEq V] in
theorem get_lt {tr : Trace V} {i : Nat} {e : Ev V} (h : tr[i]? = some e) : i < tr.length := by
  rw [List.getElem?_eq_some_iff] at h; exact h.1

omit [DecidableEq V] in
theorem get_snoc {tr : Trace V} {i : Nat} {e e' : Ev V} : (tr ++ [e])[i]? = some e' ↔ tr[i]? = some e' ∨ i = tr.length ∧ e' = e := by
  rw [List.getElem?_append]
  split
  · constructor
    · exact .inl
    · rintro (h | ⟨h, -⟩)
      · exact h
      · omega
  · rename_i h
    constructor
    · intro h'
      have := (List.getElem?_eq_some_iff.1 h').1
      simp at this
      have e0 : i - tr.length = 0 := by omega
      rw [e0] at h'
      simp at h'
      exact .inr ⟨by omega, h'.symm⟩
    · rintro (h' | ⟨h', rfl⟩)
      · exact absurd (get_lt h') h
      · simp [h']

omit [DecidableEq V] in
theorem take_snoc {tr : Trace V} {i : Nat} {e : Ev V} (h : i ≤ tr.length) : (tr ++ [e]).take i = tr.take i := by
  rw [List.take_append_of_le_length h]

theorem HB.snoc {tr : Trace V} {i j : Nat} {e : Ev V} (h : HB tr i j) : HB (tr ++ [e]) i j := by
  induction h with
  | po h1 h2 h3 => exact .po h1 (get_snoc.2 (.inl h2)) (get_snoc.2 (.inl h3))
  | mutex h1 h2 h3 => exact .mutex h1 (get_snoc.2 (.inl h2)) (get_snoc.2 (.inl h3))
  | chan h1 h2 h3 h4 =>
    refine .chan h1 (get_snoc.2 (.inl h2)) (get_snoc.2 (.inl h3)) ?_
    rw [take_snoc (Nat.le_of_lt (get_lt h2)), take_snoc (Nat.le_of_lt (get_lt h3))]
    exact h4
  | fork h1 h2 h3 => exact .fork h1 (get_snoc.2 (.inl h2)) (get_snoc.2 (.inl h3))
  | trans _ _ h1 h2 => exact .trans h1 h2

/-- A step is invisible to others, or an operation. -/
theorem step_cases {menu : Nat → List (Prog V)} {pol : Nat → Abs V → Op V → Bool} {z : Nat → Abs V → Bool} {s s' : St V} {c : Nat × Nat} {q : Abs V}
    (hm : ∀ p, p ∈ menu c.1 → ∀ q, z c.1 q = true → chk (pol c.1) p (z c.1) q = true) (hs : step menu s c = some s')
    (hq : chkS (pol c.1) (s.k c.1) (z c.1) q = true) :
    s.on c.1 = true ∧ ((∃ k, s' = { s with k := set s.k c.1 k } ∧ chkS (pol c.1) k (z c.1) q = true) ∨
      ∃ o r, s.k c.1 = .op o :: r ∧ perform s c.1 o r = some s') := by
  unfold step at hs
  split at hs
  case isFalse => cases hs
  rename_i hon
  refine ⟨hon, ?_⟩
  split at hs
  · rename_i hk
    simp only [Option.map_eq_some_iff] at hs
    obtain ⟨p, hp, rfl⟩ := hs
    refine .inl ⟨_, rfl, ?_⟩
    rw [hk] at hq
    rw [chkS_push]
    exact hm p (List.mem_of_getElem? hp) q hq
  · rename_i o r hk
    exact .inr ⟨o, r, hk, hs⟩
  · rename_i p p' r hk
    cases hs
    refine .inl ⟨_, rfl, ?_⟩
    rw [hk] at hq
    simp only [chkS, chk, Bool.and_eq_true] at hq
    rw [chkS_push]
    simp only [chkS]
    split
    · exact hq.1
    · exact hq.2
  · rename_i p r hk
    cases hs
    refine .inl ⟨_, rfl, ?_⟩
    rw [hk] at hq
    have hq' := hq
    simp only [chkS, chk, Bool.and_eq_true] at hq
    split
    · exact hq.2
    · rw [chkS_push]
      refine chk_mono (fun a ha => ?_) hq.1
      have : a = q := by simpa using ha
      subst this
      exact hq'
  · rename_i r hk
    cases hs
    refine .inl ⟨_, rfl, ?_⟩
    rw [hk] at hq
    exact hq
  · rename_i p p' r hk
    cases hs
    refine .inl ⟨_, rfl, ?_⟩
    rw [hk] at hq
    rw [chkS_push]
    simp only [chkS, chk] at hq ⊢
    rw [chkS_push]
    exact hq

theorem inv_init {menu : Nat → List (Prog V)} {pol : Nat → Abs V → Op V → Bool} {z : Nat → Abs V → Bool} {s : St V} (h : Checked menu pol z s) :
    Inv pol z s.on s := by
  have e := h.empty
  constructor <;> simp only [e, know, List.foldl_nil, List.getElem?_nil, reduceCtorEq, false_implies, implies_true]
  · exact h.start
  · intro m t; simp [h.free m]
  · simp
  · intro t ht; exact .inl ht

/-- Who has which mutex after `t` has done `o`. -/
def owner (f : V → Option Nat) (t : Nat) : Op V → V → Option Nat
  | .lock m => set f m (some t)
  | .unlock m => set f m none
  | _ => f

theorem inv_step {menu : Nat → List (Prog V)} {pol : Nat → Abs V → Op V → Bool} {z : Nat → Abs V → Bool} {on : Nat → Bool} {s s' : St V} {c : Nat × Nat}
    (hm : ∀ t p, p ∈ menu t → ∀ q, z t q = true → chk (pol t) p (z t) q = true) (I : Inv pol z on s) (hs : step menu s c = some s') : Inv pol z on s' := by
  obtain ⟨t, n⟩ := c
  obtain ⟨hon, ⟨k, rfl, hk⟩ | ⟨o, r, hk, hp⟩⟩ := step_cases (hm t) hs (I.ok t)
  · refine { I with ok := fun u => ?_ }
    show chkS _ (set s.k t k u) _ _ = _
    by_cases e : u = t
    · subst e; simpa [set] using hk
    · simpa [set, e] using I.ok u
  have hq := I.ok t
  rw [hk] at hq
  simp only [chkS, chk, Bool.and_eq_true] at hq
  obtain ⟨⟨hf, hpol⟩, hr⟩ := hq
  -- what `perform` does
  have hs' : s'.k = set s.k t r ∧ s'.tr = s.tr ++ [⟨t, o⟩] ∧
      s'.own = owner s.own t o ∧
      (∀ m, o = .lock m → s.own m = none) ∧ (∀ c, o = .recv c → recvs s.tr c < sends s.tr c) ∧
      ∀ u, s'.on u = true → s.on u = true ∨ o = .fork u := by
    unfold perform at hp
    cases o <;> simp only at hp
    case fork u =>
      split at hp
      case isFalse => cases hp
      injection hp with hp
      subst hp
      refine ⟨rfl, rfl, rfl, by simp, by simp, fun v hv => ?_⟩
      by_cases e : v = u
      · subst e; exact .inr rfl
      · simp only [set, e, if_false] at hv; exact .inl hv
    all_goals
      (repeat' split at hp) <;> cases hp <;> refine ⟨rfl, rfl, rfl, ?_, ?_, fun _ h => .inl h⟩ <;> simp_all
  obtain ⟨h1, h2, h3, h4, h5, h6⟩ := hs'
  have kn : ∀ u, know u s'.tr = if t = u then upd (know u s.tr) o else know u s.tr := fun u => by rw [h2, know_snoc]
  have hfree : ∀ m, o = .lock m → ∀ u, m ∉ (know u s.tr).held := fun m e u hu => by
    have := (I.own m u).2 hu
    rw [h4 m e] at this
    cases this
  have hlocked : ∀ m, o = .unlock m → s.own m = some t := fun m e => by
    subst e
    exact (I.own m t).2 (by simpa [fine] using hf)
  have own' : ∀ m u, s'.own m = some u ↔ m ∈ (know u s'.tr).held := by
    intro m u
    rw [kn u, h3]
    have := I.own m u
    cases o with
    | lock x =>
      dsimp only [upd, owner]
      by_cases e : m = x
      · subst e
        by_cases e' : t = u
        · subst e'; simp [set]
        · simp only [set, if_true, e', if_false]
          constructor
          · intro h; cases h; exact absurd rfl e'
          · intro h; exact absurd h (hfree m rfl u)
      · by_cases e' : t = u <;> simp [set, e, e', this]
    | unlock x =>
      dsimp only [upd, owner]
      by_cases e : m = x
      · subst e
        by_cases e' : t = u
        · subst e'
          simp only [set, if_true]
          constructor
          · intro h; cases h
          · intro h
            have := (List.Nodup.mem_erase_iff (I.nodup t)).1 h
            exact absurd rfl this.1
        · simp only [set, if_true, e', if_false]
          constructor
          · intro h; cases h
          · intro h
            have a := this.2 h
            rw [hlocked m rfl] at a
            cases a; exact absurd rfl e'
      · by_cases e' : t = u
        · subst e'
          simp only [set, e, if_false, if_true, this]
          rw [List.Nodup.mem_erase_iff (I.nodup t)]
          exact ⟨fun h => ⟨e, h⟩, fun h => h.2⟩
        · simp [set, e, e', this]
    | _ =>
      by_cases e' : t = u <;> simp [upd, owner, e', this]
  have old : ∀ {i : Nat} {e : Ev V}, s.tr[i]? = some e → s'.tr.take i = s.tr.take i := fun h => by rw [h2, take_snoc (Nat.le_of_lt (get_lt h))]
  have new : s'.tr.take s.tr.length = s.tr := by rw [h2, take_snoc (Nat.le_refl _), List.take_length]
  have get : ∀ {i : Nat} {e : Ev V}, s'.tr[i]? = some e ↔ s.tr[i]? = some e ∨ i = s.tr.length ∧ e = ⟨t, o⟩ := by rw [h2]; exact get_snoc
  refine ⟨fun u => ?_, own', fun u => ?_, fun i u o' h => ?_, fun i u o' h => ?_, fun m i u o' h hh => ?_, fun i u c h => ?_, fun i u o' h hu => ?_,
    fun u hu => ?_, fun m i j u v o' o'' hij hi hj hne hun hmi hmj => ?_⟩
  · rw [kn u, h1]
    by_cases e : t = u
    · subst e; simpa [set] using hr
    · have e' : u ≠ t := fun h => e h.symm
      simpa [set, e, e'] using I.ok u
  · rw [kn u]
    have := I.nodup u
    by_cases e : t = u
    · subst e
      cases o with
      | lock x =>
        simp only [if_true, upd]
        exact List.nodup_cons.2 ⟨hfree x rfl t, this⟩
      | unlock x =>
        simp only [if_true, upd]
        exact this.erase _
      | _ => simpa [upd] using this
    · simpa [e] using this
  · rcases get.1 h with h | ⟨rfl, h'⟩
    · rw [old h]; exact I.pol i u o' h
    · cases h'; rw [new]; exact hpol
  · rcases get.1 h with h | ⟨rfl, h'⟩
    · rw [old h]; exact I.fine i u o' h
    · cases h'; rw [new]; exact hf
  · rcases get.1 h with h | ⟨rfl, h'⟩
    · rw [old h] at hh
      rcases I.rel m i u o' h hh with h7 | ⟨l, a, b, d⟩
      · by_cases e : o = .unlock m
        · have := hlocked m e
          rw [h7] at this
          cases this
          refine .inr ⟨s.tr.length, Nat.le_of_lt (get_lt h), get.2 (.inr ⟨rfl, by rw [e]⟩), fun v hv => ?_⟩
          rw [h3, e] at hv
          simp [owner, set] at hv
        · left
          rw [h3]
          cases o with
          | lock x =>
            by_cases e' : m = x
            · subst e'
              have := h4 m rfl
              rw [h7] at this; cases this
            · simpa [owner, set, e'] using h7
          | unlock x =>
            have : m ≠ x := fun h => e (by rw [h])
            simpa [owner, set, this] using h7
          | _ => exact h7
      · refine .inr ⟨l, a, get.2 (.inl b), fun v hv => ?_⟩
        by_cases e : o = .lock m
        · have : v = t := by rw [h3, e] at hv; simp [owner, set] at hv; exact hv.symm
          subst this
          exact ⟨s.tr.length, get_lt b, get.2 (.inr ⟨rfl, by rw [e]⟩)⟩
        · have : s.own m = some v := by
            rw [h3] at hv
            cases o with
            | lock x =>
              have : m ≠ x := fun h => e (by rw [h])
              simpa [owner, set, this] using hv
            | unlock x =>
              by_cases e' : m = x
              · simp [owner, set, e'] at hv
              · simpa [owner, set, e'] using hv
            | _ => exact hv
          obtain ⟨k, hk1, hk2⟩ := d v this
          exact ⟨k, hk1, get.2 (.inl hk2)⟩
    · cases h'
      rw [new] at hh
      have h7 := (I.own m t).2 hh
      by_cases e : o = .unlock m
      · refine .inr ⟨s.tr.length, Nat.le_refl _, get.2 (.inr ⟨rfl, by rw [e]⟩), fun v hv => ?_⟩
        rw [h3, e] at hv
        simp [owner, set] at hv
      · left
        rw [h3]
        cases o with
        | lock x =>
          by_cases e' : m = x
          · subst e'
            have := h4 m rfl
            rw [h7] at this; cases this
          · simpa [owner, set, e'] using h7
        | unlock x =>
          have : m ≠ x := fun h => e (by rw [h])
          simpa [owner, set, this] using h7
        | _ => exact h7
  · rcases get.1 h with h | ⟨rfl, h'⟩
    · rw [old h]; exact I.recv i u c h
    · cases h'; rw [new]; exact h5 c rfl
  · rcases get.1 h with h | ⟨rfl, h'⟩
    · obtain ⟨l, v, h8, h9⟩ := I.forks i u o' h hu
      exact ⟨l, v, h8, get.2 (.inl h9)⟩
    · cases h'
      rcases I.ons t hon with h | ⟨l, v, h⟩
      · rw [hu] at h; cases h
      · exact ⟨l, v, get_lt h, get.2 (.inl h)⟩
  · rcases h6 u hu with h | h
    · rcases I.ons u h with h | ⟨l, v, h⟩
      · exact .inl h
      · exact .inr ⟨l, v, get.2 (.inl h)⟩
    · exact .inr ⟨s.tr.length, t, get.2 (.inr ⟨rfl, by rw [h]⟩)⟩
  · rcases get.1 hi with hi | ⟨rfl, hi⟩
    · rw [old hi] at hmi
      rcases get.1 hj with hj | ⟨rfl, hj'⟩
      · rw [old hj] at hmj
        rw [h2]
        exact (I.mutex m i j u v o' o'' hij hi hj hne hun hmi hmj).snoc
      · cases hj'
        rw [new] at hmj
        have h7 := (I.own m t).2 hmj
        rcases I.rel m i u o' hi hmi with h8 | ⟨l, a, b, d⟩
        · rw [h7] at h8; cases h8; exact absurd rfl hne
        · obtain ⟨k, hk1, hk2⟩ := d t h7
          have hil : i < l := by
            rcases Nat.lt_or_eq_of_le a with h | rfl
            · exact h
            · rw [hi] at b; cases b; exact absurd rfl (hun m)
          have hkl := get_lt hk2
          exact .trans (.po hil (get.2 (.inl hi)) (get.2 (.inl b))) (.trans (.mutex hk1 (get.2 (.inl b)) (get.2 (.inl hk2)))
            (.po hkl (get.2 (.inl hk2)) (get.2 (.inr ⟨rfl, rfl⟩))))
    · have := get_lt hj
      rw [h2] at this
      simp at this
      omega

theorem inv_run {menu : Nat → List (Prog V)} {pol : Nat → Abs V → Op V → Bool} {z : Nat → Abs V → Bool} {on : Nat → Bool} {s s' : St V} {cs : List (Nat × Nat)}
    (hm : ∀ t p, p ∈ menu t → ∀ q, z t q = true → chk (pol t) p (z t) q = true) (I : Inv pol z on s) (hs : run menu s cs = some s') : Inv pol z on s' := by
  induction cs generalizing s with
  | nil => cases hs; exact I
  | cons c cs ih =>
    simp only [run, Option.bind_eq_some_iff] at hs
    obtain ⟨s1, h1, h2⟩ := hs
    exact ih (inv_step hm I h1) h2

theorem HB.lt {tr : Trace V} {i j : Nat} (h : HB tr i j) : i < j := by
  induction h with
  | trans _ _ h1 h2 => omega
  | _ => assumption

/-- Accesses which follow each other immediately are not ordered. -/
theorem clash_not {tr : Trace V} {x : V} (h : Clash tr x) : ¬ Free tr x := by
  obtain ⟨i, hc⟩ := h
  intro hf
  have hb := hf i (i + 1) (Nat.lt_succ_self i) hc
  obtain ⟨t, u, w, a, w', a', h1, h2, hne, -, -⟩ := hc
  generalize hj : i + 1 = j at hb
  induction hb with
  | po _ h3 h4 => subst hj; rw [h1] at h3; rw [h2] at h4; cases h3; cases h4; exact hne rfl
  | mutex _ h3 _ => rw [h1] at h3; cases h3
  | chan _ h3 _ _ => rw [h1] at h3; cases h3
  | fork _ h3 _ => rw [h1] at h3; cases h3
  | trans h3 h4 => have := h3.lt; have := h4.lt; omega

/-- The last two events are conflicting accesses to `x`. -/
def clashB (tr : Trace V) (x : V) : Bool :=
  match tr.reverse with
  | ⟨u, .acc y' w' a'⟩ :: ⟨t, .acc y w a⟩ :: _ => y = x && y' = x && t != u && (w || w') && !(a && a')
  | _ => false

theorem clash_of {tr : Trace V} {x : V} (h : clashB tr x = true) : Clash tr x := by
  unfold clashB at h
  split at h
  · rename_i u y' w' a' t y w a l hl
    have e : tr = l.reverse ++ [⟨t, .acc y w a⟩, ⟨u, .acc y' w' a'⟩] := by
      have := congrArg List.reverse hl
      simpa using this
    simp only [Bool.and_eq_true, decide_eq_true_eq, bne_iff_ne, ne_eq, Bool.not_eq_true'] at h
    obtain ⟨⟨⟨⟨rfl, rfl⟩, h1⟩, h2⟩, h3⟩ := h
    refine ⟨l.length, t, u, w, a, w', a', ?_, ?_, h1, h2, h3⟩ <;> rw [e] <;> simp
  · cases h

/-- An execution in which two goroutines clash. -/
theorem clashes {menu : Nat → List (Prog V)} {s0 : St V} {x : V} (cs : List (Nat × Nat)) (h : (run menu s0 cs).any (fun s => clashB s.tr x) = true) :
    ∃ cs s, run menu s0 cs = some s ∧ Clash s.tr x ∧ ¬ Free s.tr x := by
  cases h1 : run menu s0 cs with
  | none => rw [h1] at h; cases h
  | some s =>
    rw [h1] at h
    exact ⟨cs, s, h1, clash_of h, clash_not (clash_of h)⟩

/-- Events `i` and `j` are conflicting accesses to `x`. -/
def conflictB (tr : Trace V) (x : V) (i j : Nat) : Bool :=
  match tr[i]?, tr[j]? with
  | some ⟨t, .acc y w a⟩, some ⟨u, .acc y' w' a'⟩ => y = x && y' = x && t != u && (w || w') && !(a && a')
  | _, _ => false

theorem conflict_of {tr : Trace V} {x : V} {i j : Nat} (h : conflictB tr x i j = true) : Conflict tr x i j := by
  unfold conflictB at h
  split at h
  · rename_i t y w a u y' w' a' h1 h2
    simp only [Bool.and_eq_true, decide_eq_true_eq, bne_iff_ne, ne_eq, Bool.not_eq_true'] at h
    obtain ⟨⟨⟨⟨rfl, rfl⟩, h3⟩, h4⟩, h5⟩ := h
    exact ⟨t, u, w, a, w', a', h1, h2, h3, h4, h5⟩
  · cases h

/-- An execution with conflicting accesses to `x`. -/
theorem conflicts {menu : Nat → List (Prog V)} {s0 : St V} {x : V} (cs : List (Nat × Nat)) (i j : Nat)
    (h : (run menu s0 cs).any (fun s => i < j && conflictB s.tr x i j) = true) : ∃ cs s i j, run menu s0 cs = some s ∧ i < j ∧ Conflict s.tr x i j := by
  cases h1 : run menu s0 cs with
  | none => rw [h1] at h; cases h
  | some s =>
    rw [h1] at h
    simp only [Option.any_some, Bool.and_eq_true, decide_eq_true_eq] at h
    exact ⟨cs, s, i, j, h1, h.1, conflict_of h.2⟩

/-- Goroutines in `p` do not order what they do before anything that others do, if others neither lock nor receive, and those in `p` start none. -/
def cutB (tr : Trace V) (p : Nat → Bool) : Bool := tr.all fun e =>
  match e.op with
  | .lock _ | .recv _ => p e.t
  | .fork _ => !p e.t
  | _ => true

theorem cut_hb {tr : Trace V} {p : Nat → Bool} (h : cutB tr p = true) {i j : Nat} (hb : HB tr i j) :
    ∀ t u a b, tr[i]? = some ⟨t, a⟩ → tr[j]? = some ⟨u, b⟩ → p t = true → p u = true := by
  have hc : ∀ (j u : Nat) (o : Op V), tr[j]? = some ⟨u, o⟩ → (match o with | .lock _ | .recv _ => p u | .fork _ => !p u | _ => true) = true := fun j u o hj => by
    have := List.all_eq_true.1 h _ (List.mem_of_getElem? hj)
    exact this
  induction hb with
  | po _ h1 h2 => intro t u a b h3 h4; rw [h1] at h3; rw [h2] at h4; cases h3; cases h4; exact id
  | mutex _ h1 h2 => intro t u a b h3 h4 _; rw [h2] at h4; cases h4; exact hc _ _ _ h2
  | chan _ h1 h2 _ => intro t u a b h3 h4 _; rw [h2] at h4; cases h4; exact hc _ _ _ h2
  | fork _ h1 h2 =>
    intro t u a b h3 h4 h5
    have := hc _ _ _ h1
    rw [h1] at h3; cases h3
    simp [h5] at this
  | @trans i j k h1 h2 ih1 ih2 =>
    intro t u a b h3 h4 h5
    have hj : ∃ e, tr[j]? = some e := by
      clear ih1 ih2 h3 h4
      induction h2 with
      | po _ h _ => exact ⟨_, h⟩
      | mutex _ h _ => exact ⟨_, h⟩
      | chan _ h _ _ => exact ⟨_, h⟩
      | fork _ h _ => exact ⟨_, h⟩
      | trans _ _ ih _ => exact ih h1
    obtain ⟨⟨v, o⟩, hj⟩ := hj
    exact ih2 v u o b hj h4 (ih1 t v a o h3 hj h5)

/-- An execution in which conflicting accesses to `x` are not ordered. -/
theorem unordered {menu : Nat → List (Prog V)} {s0 : St V} {x : V} (cs : List (Nat × Nat)) (p : Nat → Bool) (i j : Nat)
    (h : (run menu s0 cs).any (fun s => i < j && conflictB s.tr x i j && cutB s.tr p && (s.tr[i]?.any fun e => p e.t) && (s.tr[j]?.any fun e => !p e.t)) = true) :
    ∃ cs s, run menu s0 cs = some s ∧ ¬ Free s.tr x := by
  cases h1 : run menu s0 cs with
  | none => rw [h1] at h; cases h
  | some s =>
    rw [h1] at h
    simp only [Option.any_some, Bool.and_eq_true, decide_eq_true_eq] at h
    obtain ⟨⟨⟨⟨h2, h3⟩, h4⟩, h5⟩, h6⟩ := h
    refine ⟨cs, s, h1, fun hf => ?_⟩
    have hc := conflict_of h3
    have hb := hf i j h2 hc
    obtain ⟨t, u, w, a, w', a', h7, h8, -⟩ := hc
    rw [h7] at h5
    rw [h8] at h6
    have := cut_hb h4 hb t u _ _ h7 h8 (by simpa using h5)
    simp [this] at h6

/-- What goroutines know grows. -/
theorem know_take {t : Nat} {tr : Trace V} {i j : Nat} (h : i ≤ j) :
    (∀ c, c ∈ (know t (tr.take i)).sent → c ∈ (know t (tr.take j)).sent) ∧ ((know t (tr.take i)).forked = true → (know t (tr.take j)).forked = true) := by
  induction j with
  | zero =>
    have : i = 0 := by omega
    subst this
    exact ⟨fun _ h => h, fun h => h⟩
  | succ j ih =>
    rcases Nat.lt_or_eq_of_le h with h | rfl
    · obtain ⟨h1, h2⟩ := ih (by omega)
      rw [List.take_add_one]
      cases e : tr[j]? with
      | none => simpa using ⟨h1, h2⟩
      | some ev =>
        simp only [Option.toList_some, know_snoc]
        split
        · cases ev.op <;> simp only [upd] <;> first | exact ⟨h1, h2⟩ | exact ⟨fun c h => List.mem_cons_of_mem _ (h1 c h), h2⟩ | exact ⟨h1, fun _ => trivial⟩
        · exact ⟨h1, h2⟩
    · exact ⟨fun _ h => h, fun h => h⟩

theorem know_at {tr : Trace V} {i t : Nat} {o : Op V} (h : tr[i]? = some ⟨t, o⟩) : know t (tr.take (i + 1)) = upd (know t (tr.take i)) o := by
  rw [List.take_add_one, h]
  simp [know_snoc]

/-- What somebody knows it has received, it has received. -/
theorem know_got {t : Nat} {tr : Trace V} {c : V} {j : Nat} (h : c ∈ (know t (tr.take j)).got) : ∃ k, k < j ∧ tr[k]? = some ⟨t, .recv c⟩ := by
  induction j with
  | zero => simp [know] at h
  | succ j ih =>
    rw [List.take_add_one] at h
    cases e : tr[j]? with
    | none =>
      rw [e] at h
      obtain ⟨k, h1, h2⟩ := ih (by simpa using h)
      exact ⟨k, by omega, h2⟩
    | some ev =>
      obtain ⟨u, o⟩ := ev
      rw [e] at h
      simp only [Option.toList_some, know_snoc] at h
      have old : c ∈ (know t (tr.take j)).got → ∃ k, k < j + 1 ∧ tr[k]? = some ⟨t, .recv c⟩ := fun h => by
        obtain ⟨k, h1, h2⟩ := ih h
        exact ⟨k, by omega, h2⟩
      split at h
      · rename_i e'
        subst e'
        cases o with
        | recv x =>
          simp only [upd, List.mem_cons] at h
          rcases h with rfl | h
          · exact ⟨j, by omega, e⟩
          · exact old h
        | _ => exact old h
      · exact old h

omit [DecidableEq V] in
theorem count_pos {tr : Trace V} {p : Ev V → Bool} (h : 0 < tr.countP p) : ∃ (k : Nat) (e : Ev V), tr[k]? = some e ∧ p e = true := by
  obtain ⟨e, h1, h2⟩ := List.countP_pos_iff.1 h
  obtain ⟨k, hk⟩ := List.mem_iff_getElem?.1 h1
  exact ⟨k, e, hk, h2⟩

/-- Goroutine `t`, knowing `q`, has not sent on `c`, and `u`, knowing `q'`, has received what `t` sends. -/
def Hand (pol : Nat → Abs V → Op V → Bool) (t : Nat) (q : Abs V) (u : Nat) (q' : Abs V) : Prop :=
  ∃ c, c ∉ q.sent ∧ c ∈ q'.got ∧ (∀ v q, pol v q (.send c) = true → v = t) ∧ ∀ v q, pol v q (.recv c) = true → v = u

/-- Goroutine `t`, knowing `q`, has started no other, and it is `t` who starts `u`. -/
def Start (pol : Nat → Abs V → Op V → Bool) (on : Nat → Bool) (t : Nat) (q : Abs V) (u : Nat) : Prop :=
  q.forked = false ∧ on u = false ∧ ∀ v q w, pol v q (.fork w) = true → v = t

theorem hand_send {pol : Nat → Abs V → Op V → Bool} {z : Nat → Abs V → Bool} {on : Nat → Bool} {s : St V} (I : Inv pol z on s) {t u j : Nat} {c : V}
    (hc : c ∈ (know u (s.tr.take j)).got) (h1 : ∀ v q, pol v q (.send c) = true → v = t) :
    ∃ l k, l < k ∧ k < j ∧ s.tr[l]? = some ⟨t, .send c⟩ ∧ s.tr[k]? = some ⟨u, .recv c⟩ := by
  obtain ⟨k, hkj, hk⟩ := know_got hc
  have := I.recv k u c hk
  obtain ⟨l, e, hl, he⟩ := count_pos (tr := s.tr.take k) (p := fun e => e.op = .send c) (by unfold sends at this; omega)
  have hlk : l < k := by have := get_lt hl; rw [List.length_take] at this; omega
  rw [List.getElem?_take_of_lt hlk] at hl
  obtain ⟨v, o⟩ := e
  have he' : o = .send c := by simpa using he
  subst he'
  have := h1 v _ (I.pol l v _ hl)
  subst this
  exact ⟨l, k, hlk, hkj, hl, hk⟩

omit [DecidableEq V] in
theorem count_zero {tr : Trace V} {p : Ev V → Bool} {i : Nat} (h : ∀ k e, k < i → tr[k]? = some e → p e = true → False) : (tr.take i).countP p = 0 := by
  rcases Nat.eq_zero_or_pos ((tr.take i).countP p) with h0 | h0
  · exact h0
  · obtain ⟨k, e, hk, he⟩ := count_pos h0
    have hki : k < i := by have := get_lt hk; rw [List.length_take] at this; omega
    rw [List.getElem?_take_of_lt hki] at hk
    exact (h k e hki hk he).elim

theorem know_sent {tr : Trace V} {t l k : Nat} {c : V} (h : tr[l]? = some ⟨t, .send c⟩) (hlk : l < k) : c ∈ (know t (tr.take k)).sent := by
  refine (know_take (Nat.succ_le_of_lt hlk)).1 c ?_
  rw [know_at h]
  simp [upd]

theorem know_recv {tr : Trace V} {t l k : Nat} {c : V} (h : tr[l]? = some ⟨t, .recv c⟩) (hlk : l < k) : c ∈ (know t (tr.take k)).got := by
  induction k with
  | zero => omega
  | succ k ih =>
    rcases Nat.lt_or_eq_of_le (Nat.le_of_lt_succ hlk) with h' | rfl
    · have := ih h'
      rw [List.take_add_one]
      cases tr[k]? with
      | none => simpa using this
      | some ev =>
        simp only [Option.toList_some, know_snoc]
        split
        · cases ev.op <;> simp only [upd] <;> first | exact this | exact List.mem_cons_of_mem _ this
        · exact this
    · rw [know_at h]; simp [upd]

/-- What was done before a message was sent happens before what is done after it was received. -/
theorem hand_hb {pol : Nat → Abs V → Op V → Bool} {z : Nat → Abs V → Bool} {on : Nat → Bool} {s : St V} (I : Inv pol z on s) {t u i j : Nat} {o o' : Op V}
    (hi : s.tr[i]? = some ⟨t, o⟩) (hj : s.tr[j]? = some ⟨u, o'⟩) (ho : ∀ c, o ≠ .send c)
    (h : Hand pol t (know t (s.tr.take i)) u (know u (s.tr.take j))) : HB s.tr i j := by
  obtain ⟨c, h1, h2, h3, h4⟩ := h
  obtain ⟨l, k, hlk, hkj, hl, hk⟩ := hand_send I h2 h3
  have hil : i < l := by
    rcases Nat.lt_trichotomy i l with h | rfl | h
    · exact h
    · rw [hi] at hl; cases hl; exact absurd rfl (ho c)
    · exact absurd (know_sent hl h) h1
  have e1 : sends (s.tr.take l) c = 0 := by
    apply count_zero
    rintro m ⟨v, o''⟩ hm hv he
    have he' : o'' = .send c := by simpa using he
    subst he'
    have := h3 v _ (I.pol m v _ hv)
    subst this
    have a := I.fine l v _ hl
    have b := know_sent hv hm
    simp [fine, b] at a
  have e2 : recvs (s.tr.take k) c = 0 := by
    apply count_zero
    rintro m ⟨v, o''⟩ hm hv he
    have he' : o'' = .recv c := by simpa using he
    subst he'
    have := h4 v _ (I.pol m v _ hv)
    subst this
    have a := I.fine k v _ hk
    have b := know_recv hv hm
    simp [fine, b] at a
  exact .trans (.po hil hi hl) (.trans (.chan hlk hl hk (by rw [e1, e2])) (.po hkj hk hj))

theorem hand_not {pol : Nat → Abs V → Op V → Bool} {z : Nat → Abs V → Bool} {on : Nat → Bool} {s : St V} (I : Inv pol z on s) {t u i j : Nat} (hij : j < i)
    (h : Hand pol t (know t (s.tr.take i)) u (know u (s.tr.take j))) : False := by
  obtain ⟨c, h1, h2, h3, h4⟩ := h
  obtain ⟨l, k, hlk, hkj, hl, hk⟩ := hand_send I h2 h3
  exact h1 (know_sent hl (by omega))

theorem start_fork {pol : Nat → Abs V → Op V → Bool} {z : Nat → Abs V → Bool} {on : Nat → Bool} {s : St V} (I : Inv pol z on s) {t u j : Nat} {o' : Op V}
    (hj : s.tr[j]? = some ⟨u, o'⟩) (ho : on u = false) (h : ∀ v q w, pol v q (.fork w) = true → v = t) :
    ∃ l, l < j ∧ s.tr[l]? = some ⟨t, .fork u⟩ := by
  obtain ⟨l, v, h1, h2⟩ := I.forks j u o' hj ho
  have := h v _ u (I.pol l v _ h2)
  subst this
  exact ⟨l, h1, h2⟩

theorem know_fork {tr : Trace V} {t l k u : Nat} (h : tr[l]? = some ⟨t, .fork u⟩) (hlk : l < k) : (know t (tr.take k)).forked = true := by
  refine (know_take (Nat.succ_le_of_lt hlk)).2 ?_
  rw [know_at h]
  rfl

/-- Why accesses of goroutines `t` and `u`, which know `q` and `q'`, are ordered. -/
def Sep (pol : Nat → Abs V → Op V → Bool) (on : Nat → Bool) (t : Nat) (q : Abs V) (u : Nat) (q' : Abs V) : Prop :=
  (∃ m, m ∈ q.held ∧ m ∈ q'.held) ∨ Hand pol t q u q' ∨ Hand pol u q' t q ∨ Start pol on t q u ∨ Start pol on u q' t

/-- A variable is free of races if the accesses that the policy allows are kept apart. -/
theorem free_of {pol : Nat → Abs V → Op V → Bool} {z : Nat → Abs V → Bool} {on : Nat → Bool} {s : St V} {x : V} (I : Inv pol z on s)
    (h : ∀ t u q q' w a w' a', t ≠ u → pol t q (.acc x w a) = true → pol u q' (.acc x w' a') = true → (w || w') = true → (a && a') = false →
      Sep pol on t q u q') : Free s.tr x := by
  rintro i j hij ⟨t, u, w, a, w', a', hi, hj, hne, hw, ha⟩
  rcases h t u _ _ w a w' a' hne (I.pol i t _ hi) (I.pol j u _ hj) hw ha with ⟨m, h1, h2⟩ | h | h | ⟨h1, h2, h3⟩ | ⟨h1, h2, h3⟩
  · exact I.mutex m i j t u _ _ hij hi hj hne (fun _ e => by cases e) h1 h2
  · exact hand_hb I hi hj (fun _ e => by cases e) h
  · exact (hand_not I hij h).elim
  · obtain ⟨l, h4, h5⟩ := start_fork I hj h2 h3
    have hil : i < l := by
      rcases Nat.lt_trichotomy i l with h | rfl | h
      · exact h
      · rw [hi] at h5; cases h5
      · rw [know_fork h5 h] at h1; cases h1
    exact .trans (.po hil hi h5) (.fork h4 h5 hj)
  · obtain ⟨l, h4, h5⟩ := start_fork I hi h2 h3
    rw [know_fork h5 (Nat.lt_trans h4 hij)] at h1
    cases h1

theorem inv_of {menu : Nat → List (Prog V)} {pol : Nat → Abs V → Op V → Bool} {z : Nat → Abs V → Bool} {s s' : St V} {cs : List (Nat × Nat)}
    (h : Checked menu pol z s) (hs : run menu s cs = some s') : Inv pol z s.on s' := inv_run h.menus (inv_init h) hs

end Verif.Race
