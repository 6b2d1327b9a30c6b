import Verif.Spec.Auto
/-!
Invariants of the machine of `client.Auto`.
-/
namespace Verif.Auto

/-! ### Maps -/

theorem look_some {m : Map} {k v : Nat} (h : look m k = some v) : (k, v) ∈ m := by
  unfold look at h
  cases hf : m.find? (·.1 = k) with
  | none => rw [hf] at h; cases h
  | some e =>
    rw [hf] at h
    have h1 := List.mem_of_find?_eq_some hf
    have h2 := List.find?_some hf
    simp at h h2
    obtain ⟨x, y⟩ := e
    simp_all

theorem look_none {m : Map} {k : Nat} (h : look m k = none) (v : Nat) : (k, v) ∉ m := by
  unfold look at h
  intro hm
  rw [Option.map_eq_none_iff, List.find?_eq_none] at h
  exact h _ hm (by simp)

theorem mem_put {m : Map} {k v : Nat} {e : Nat × Nat} : e ∈ put m k v ↔ e = (k, v) ∨ (e ∈ m ∧ e.1 ≠ k) := by
  unfold put
  simp

def Keys (m : Map) : Prop := (m.map (·.1)).Nodup

theorem keys_put {m : Map} {k v : Nat} (h : Keys m) : Keys (put m k v) := by
  unfold Keys put
  rw [List.map_cons, List.nodup_cons]
  refine ⟨?_, h.sublist (List.filter_sublist.map _)⟩
  simp

theorem keys_eq {m : Map} {k v w : Nat} (h : Keys m) (h1 : (k, v) ∈ m) (h2 : (k, w) ∈ m) : v = w := by
  induction m with
  | nil => cases h1
  | cons e m ih =>
    unfold Keys at h ih
    rw [List.map_cons, List.nodup_cons] at h
    rcases List.mem_cons.1 h1 with h3 | h3 <;> rcases List.mem_cons.1 h2 with h4 | h4
    · rw [← h3] at h4; exact (Prod.mk.inj h4).2.symm
    · exact absurd (List.mem_map.2 ⟨_, h4, by rw [← h3]⟩) h.1
    · exact absurd (List.mem_map.2 ⟨_, h3, by rw [← h4]⟩) h.1
    · exact ih h.2 h3 h4

theorem keys_fold {old m : Map} (h : Keys m) : Keys (old.foldl (fun m e => put m e.1 e.2) m) := by
  induction old generalizing m with
  | nil => exact h
  | cons e l ih => exact ih (keys_put h)

theorem keys_copy (old : Option Map) (a v : Nat) : Keys (copy old a v) :=
  keys_fold (keys_put (m := []) (by simp [Keys]))

theorem mem_fold {old m : Map} (hk : Keys old) {e : Nat × Nat} :
    e ∈ old.foldl (fun m e => put m e.1 e.2) m ↔ e ∈ old ∨ (e ∈ m ∧ ∀ w, (e.1, w) ∉ old) := by
  induction old generalizing m with
  | nil => simp
  | cons x l ih =>
    have hk' : Keys l := by unfold Keys at *; rw [List.map_cons, List.nodup_cons] at hk; exact hk.2
    have hx : ∀ w, (x.1, w) ∉ l := by
      unfold Keys at hk
      rw [List.map_cons, List.nodup_cons] at hk
      intro w hw
      exact hk.1 (List.mem_map.2 ⟨_, hw, rfl⟩)
    rw [List.foldl_cons, ih hk', mem_put]
    obtain ⟨x1, x2⟩ := x
    obtain ⟨e1, e2⟩ := e
    simp only [List.mem_cons, Prod.mk.injEq] at *
    constructor
    · rintro (h | ⟨h | h, h2⟩)
      · exact .inl (.inr h)
      · exact .inl (.inl h)
      · refine .inr ⟨h.1, fun w hw => ?_⟩
        rcases hw with hw | hw
        · exact h.2 hw.1
        · exact h2 w hw
    · rintro ((h | h) | ⟨h, h2⟩)
      · obtain ⟨rfl, rfl⟩ := h
        exact .inr ⟨.inl ⟨rfl, rfl⟩, hx⟩
      · exact .inl h
      · refine .inr ⟨.inr ⟨h, fun e => h2 x2 (.inl ⟨e, rfl⟩)⟩, fun w hw => h2 w (.inr hw)⟩

theorem mem_copy {old : Option Map} {a v : Nat} (hk : Keys (entries old)) (hn : ∀ w, (a, w) ∉ entries old)
    {e : Nat × Nat} : e ∈ copy old a v ↔ e = (a, v) ∨ e ∈ entries old := by
  unfold copy
  rw [mem_fold hk, mem_put]
  constructor
  · rintro (h | ⟨h | h, _⟩)
    · exact .inr h
    · exact .inl h
    · cases h.1
  · rintro (h | h)
    · subst h; exact .inr ⟨.inl rfl, hn⟩
    · exact .inl h

theorem lookNil_some {m : Option Map} {k v : Nat} (h : lookNil m k = some v) : (k, v) ∈ entries m := by
  cases m with
  | none => cases h
  | some m => exact look_some h

theorem lookNil_none {m : Option Map} {k : Nat} (h : lookNil m k = none) (v : Nat) : (k, v) ∉ entries m := by
  cases m with
  | none => simp [entries]
  | some m => exact look_none h v

/-! ### The lock -/

/-- Places where the mutex is held. -/
def holds : Pc → Bool
  | .make _ | .unlock1 _ | .again _ | .create _ | .fill _ _ | .publish _ _ _ | .unlock2 _ _ | .sCheck | .sLoop _
  | .sUnlock | .dead => true
  | _ => false

/-- What the place of a goroutine tells about the data. -/
def Place (s : St) (t : Nat) : Pc → Prop
  | .create a => ∀ w, (a, w) ∉ entries s.servers
  | .fill a v => (∀ w, (a, w) ∉ entries s.servers) ∧ Live s a v
  | .publish a v m => (∀ w, (a, w) ∉ entries s.servers) ∧ Live s a v ∧ m = copy s.servers a v
  | .unlock2 a v => Ev.made a v ∈ s.log ∧ Ev.stopped v ∉ upToStop (upToCall t s.log)
  | .ret a v => Ev.made a v ∈ s.log ∧ Ev.stopped v ∉ upToStop (upToCall t s.log)
  | .sLoop rest => ∃ fin, (entries s.servers).map (·.2) = fin ++ rest ∧ (∀ v ∈ fin, Ev.stopped v ∈ s.log) ∧
      (∀ v ∈ rest, Ev.stopped v ∉ s.log)
  | _ => True

/-- Whether the owner of the lock is stopping servers. -/
def stopping : Pc → Bool
  | .sLoop _ => true
  | _ => false

/-- A server that is not yet in the map. -/
def fresh : Pc → Option (Nat × Nat)
  | .fill a v => some (a, v)
  | .publish a v _ => some (a, v)
  | _ => none

structure Inv (s : St) : Prop where
  own : ∀ t, holds (s.pc t) = true ↔ s.lock = some t
  keys : Keys (entries s.servers)
  inMap : ∀ a v, (a, v) ∈ entries s.servers → Ev.made a v ∈ s.log
  madeLt : ∀ a v, Ev.made a v ∈ s.log → v < s.next
  madeOne : ∀ a b v, Ev.made a v ∈ s.log → Ev.made b v ∈ s.log → a = b
  stopMade : ∀ v, Ev.stopped v ∈ s.log → ∃ a, Ev.made a v ∈ s.log
  stopOnce : ∀ v, s.log.count (.stopped v) ≤ 1
  idle : (∀ t, stopping (s.pc t) = false) → ∀ a v, (a, v) ∈ entries s.servers → Ev.stopped v ∉ s.log
  live : ∀ a v, Live s a v → (a, v) ∈ entries s.servers ∨ ∃ t, fresh (s.pc t) = some (a, v)
  place : ∀ t, Place s t (s.pc t)
  old : ∀ a v, (a, v) ∈ entries s.servers → Ev.stopped v ∉ upToStop s.log
  clear : ∀ l1 l2, s.log = l1 ++ .cleared :: l2 → ∀ a v, Ev.made a v ∈ l2 → Ev.stopped v ∈ l2
  gotten : ∀ l1 l2 t a v, s.log = l1 ++ .got t a v :: l2 →
    Ev.made a v ∈ l2 ∧ Ev.stopped v ∉ upToStop (upToCall t l2)

theorem inv_init : Inv init := by
  constructor <;> simp [init, holds, entries, Keys, Live, Place, upToStop]

theorem at_pc (s : St) (t : Nat) (p : Pc) (u : Nat) : (s.at t p).pc u = if u = t then p else s.pc u := rfl

theorem place_at {s : St} {t : Nat} {p : Pc} (u : Nat) (q : Pc) : Place (s.at t p) u q ↔ Place s u q := by
  cases q <;> rfl

/-- A goroutine moves without touching anything else. -/
theorem inv_at {s : St} {t : Nat} {p : Pc} (h : Inv s) (hh : holds p = holds (s.pc t)) (hf : fresh p = fresh (s.pc t))
    (hs : stopping (s.pc t) = true → stopping p = true) (hp : Place s t p) : Inv (s.at t p) where
  own u := by
    rw [at_pc]
    split
    · next e => subst e; rw [hh]; exact h.own _
    · exact h.own u
  keys := h.keys
  inMap := h.inMap
  madeLt := h.madeLt
  madeOne := h.madeOne
  stopMade := h.stopMade
  stopOnce := h.stopOnce
  idle := by
    intro hu
    refine h.idle fun u => ?_
    have := hu u
    rw [at_pc] at this
    split at this
    · next e =>
      subst e
      cases hc : stopping (s.pc u) with
      | false => rfl
      | true => rw [hs hc] at this; exact this
    · exact this
  live a v hl := by
    rcases h.live a v hl with h1 | ⟨u, h1⟩
    · exact .inl h1
    · refine .inr ⟨u, ?_⟩
      rw [at_pc]
      split
      · next e => subst e; rw [hf]; exact h1
      · exact h1
  place u := by
    rw [place_at, at_pc]
    split
    · next e => subst e; exact hp
    · exact h.place u
  old := h.old
  clear := h.clear
  gotten := h.gotten

theorem place_lock {s : St} {l : Option Nat} (u : Nat) (q : Pc) : Place { s with lock := l } u q ↔ Place s u q := by
  cases q <;> rfl

theorem inv_acquire {s s' : St} {t : Nat} {p : Pc} (h : Inv s) (ha : s.acquire t p = some s') (hh : holds p = true)
    (hn : holds (s.pc t) = false) (hp : Place s t p) (hst : stopping (s.pc t) = true → stopping p = true) :
    Inv s' := by
  unfold St.acquire at ha
  split at ha
  next hl =>
    cases ha
    refine ⟨fun u => ?_, h.keys, h.inMap, h.madeLt, h.madeOne, h.stopMade, h.stopOnce, ?_, ?_, ?_, h.old, h.clear, h.gotten⟩
    · show holds ((s.at t p).pc u) = true ↔ some t = some u
      rw [at_pc]
      split
      · next e => subst e; simp [hh]
      · next e =>
        rw [h.own u, hl]
        simp [Ne.symm e]
    · intro hu
      refine h.idle fun u => ?_
      have := hu u
      change stopping ((s.at t p).pc u) = false at this
      rw [at_pc] at this
      split at this
      · next e =>
        subst e
        cases hc : stopping (s.pc u) with
        | false => rfl
        | true => rw [hst hc] at this; exact this
      · exact this
    · intro a v hl'
      rcases h.live a v hl' with h1 | ⟨u, h1⟩
      · exact .inl h1
      · refine .inr ⟨u, ?_⟩
        show fresh ((s.at t p).pc u) = some (a, v)
        rw [at_pc]
        split
        · next e =>
          subst e
          cases hq : s.pc u <;> rw [hq] at h1 hn <;> simp [fresh] at h1 <;> simp [holds] at hn
        · exact h1
    · intro u
      show Place { s.at t p with lock := some t } u ((s.at t p).pc u)
      rw [place_lock, place_at, at_pc]
      split
      · next e => subst e; exact hp
      · exact h.place u
  next => cases ha

theorem inv_release {s : St} {t : Nat} {p : Pc} (h : Inv s) (hh : holds p = false) (hn : holds (s.pc t) = true)
    (hf : fresh (s.pc t) = none) (hst : stopping (s.pc t) = false) (hp : Place s t p) : Inv (s.release t p) := by
  have hl := (h.own t).1 hn
  refine ⟨fun u => ?_, h.keys, h.inMap, h.madeLt, h.madeOne, h.stopMade, h.stopOnce, ?_, ?_, ?_, h.old, h.clear, h.gotten⟩
  · show holds ((s.at t p).pc u) = true ↔ none = some u
    rw [at_pc]
    split
    · next e => simp [hh]
    · next e =>
      rw [h.own u, hl]
      simp [Ne.symm e]
  · intro hu
    refine h.idle fun u => ?_
    have := hu u
    change stopping ((s.at t p).pc u) = false at this
    rw [at_pc] at this
    split at this
    · next e => subst e; exact hst
    · exact this
  · intro a v hl'
    rcases h.live a v hl' with h1 | ⟨u, h1⟩
    · exact .inl h1
    · refine .inr ⟨u, ?_⟩
      show fresh ((s.at t p).pc u) = some (a, v)
      rw [at_pc]
      split
      · next e => subst e; rw [hf] at h1; cases h1
      · exact h1
  · intro u
    show Place { s.at t p with lock := none } u ((s.at t p).pc u)
    rw [place_lock, place_at, at_pc]
    split
    · next e => subst e; exact hp
    · exact h.place u

/-! ### History -/

theorem upToStop_cons {e : Ev} {l : List Ev} (h : e ≠ .cleared) : upToStop (e :: l) = upToStop l := by
  simp [upToStop, h]

theorem upToStop_cleared {l : List Ev} : upToStop (.cleared :: l) = .cleared :: l := by
  simp [upToStop]

theorem upToStop_sub {l : List Ev} {e : Ev} (h : e ∈ upToStop l) : e ∈ l := (List.dropWhile_sublist _).subset h

theorem upToCall_suffix (t : Nat) (l : List Ev) : upToCall t l <:+ l := by
  induction l with
  | nil => exact List.suffix_refl _
  | cons e l ih =>
    cases e
    case called u a =>
      unfold upToCall
      split
      · exact List.suffix_cons _ _
      · exact ih.trans (List.suffix_cons _ _)
    all_goals exact ih.trans (List.suffix_cons _ _)

theorem upToStop_suffix {l m : List Ev} (h : l <:+ m) : upToStop l <:+ upToStop m := by
  induction m with
  | nil => rw [List.suffix_nil] at h; subst h; exact List.suffix_refl _
  | cons e m ih =>
    rcases List.suffix_cons_iff.1 h with h1 | h1
    · subst h1; exact List.suffix_refl _
    · by_cases he : e = .cleared
      · subst he
        rw [upToStop_cleared]
        exact (List.dropWhile_suffix _).trans h
      · rw [upToStop_cons he]; exact ih h1

theorem upToCall_cons {t : Nat} {e : Ev} {l : List Ev} (h : ∀ a, e ≠ .called t a) : upToCall t (e :: l) = upToCall t l := by
  cases e
  case called u a =>
    have : u ≠ t := fun e => h a (by rw [e])
    simp only [upToCall, if_neg this]
  all_goals rfl

theorem stopped_call {t v : Nat} {l : List Ev} (h : Ev.stopped v ∉ upToStop l) : Ev.stopped v ∉ upToStop (upToCall t l) :=
  fun h1 => h ((upToStop_suffix (upToCall_suffix t l)).subset h1)

/-- Splitting a history that got one more event. -/
theorem cons_split {e x : Ev} {l l1 l2 : List Ev} (h : e :: l = l1 ++ x :: l2) :
    (e = x ∧ l = l2) ∨ ∃ l1', l = l1' ++ x :: l2 := by
  cases l1 with
  | nil => simp at h; exact .inl h
  | cons y l1 => simp at h; exact .inr ⟨l1, h.2⟩

/-- Events which do not bear on the servers. -/
def plain : Ev → Bool
  | .called _ _ | .got _ _ _ | .panicked _ => true
  | _ => false

theorem live_plain {s : St} {e : Ev} (hp : plain e = true) {a v : Nat} :
    Live { s with log := e :: s.log } a v ↔ Live s a v := by
  unfold Live
  cases e <;> simp [plain] at hp <;> simp

theorem place_plain {s : St} {e : Ev} (hp : plain e = true) {u : Nat} {q : Pc}
    (hc : ∀ a v, (q = .unlock2 a v ∨ q = .ret a v) → ∀ a, e ≠ .called u a) (h : Place s u q) :
    Place { s with log := e :: s.log } u q := by
  cases q
  case fill a v => exact ⟨h.1, (live_plain hp).2 h.2⟩
  case publish a v m => exact ⟨h.1, (live_plain hp).2 h.2.1, h.2.2⟩
  case unlock2 a v =>
    refine ⟨List.mem_cons_of_mem _ h.1, ?_⟩
    show Ev.stopped v ∉ upToStop (upToCall u (e :: s.log))
    rw [upToCall_cons (hc a v (.inl rfl))]
    exact h.2
  case ret a v =>
    refine ⟨List.mem_cons_of_mem _ h.1, ?_⟩
    show Ev.stopped v ∉ upToStop (upToCall u (e :: s.log))
    rw [upToCall_cons (hc a v (.inr rfl))]
    exact h.2
  case sLoop rest =>
    obtain ⟨fin, h1, h2, h3⟩ := h
    refine ⟨fin, h1, fun v hv => List.mem_cons_of_mem _ (h2 v hv), fun v hv => ?_⟩
    have := h3 v hv
    show Ev.stopped v ∉ e :: s.log
    cases e <;> simp [plain] at hp <;> simpa using this
  all_goals exact h

/-- A plain event is noted. -/
theorem inv_plain {s : St} {e : Ev} (h : Inv s) (hp : plain e = true)
    (hc : ∀ u a v, (s.pc u = .unlock2 a v ∨ s.pc u = .ret a v) → ∀ a, e ≠ .called u a)
    (hg : ∀ t a v, e = .got t a v → Ev.made a v ∈ s.log ∧ Ev.stopped v ∉ upToStop (upToCall t s.log)) :
    Inv { s with log := e :: s.log } where
  own := h.own
  keys := h.keys
  inMap a v hm := List.mem_cons_of_mem _ (h.inMap a v hm)
  madeLt a v hm := by
    refine h.madeLt a v ?_
    cases e <;> simp [plain] at hp <;> simpa using hm
  madeOne a b v h1 h2 := by
    refine h.madeOne a b v ?_ ?_ <;> cases e <;> simp [plain] at hp <;> simp_all
  stopMade v hv := by
    have : Ev.stopped v ∈ s.log := by cases e <;> simp [plain] at hp <;> simpa using hv
    obtain ⟨a, ha⟩ := h.stopMade v this
    exact ⟨a, List.mem_cons_of_mem _ ha⟩
  stopOnce v := by
    have := h.stopOnce v
    show List.count _ (e :: s.log) ≤ 1
    rw [List.count_cons]
    cases e <;> simp [plain] at hp <;> simpa using this
  idle hu a v hm := by
    have := h.idle hu a v hm
    show Ev.stopped v ∉ e :: s.log
    cases e <;> simp [plain] at hp <;> simpa using this
  live a v hl := h.live a v ((live_plain hp).1 hl)
  place u := place_plain hp (hc u) (h.place u)
  old a v hm := by
    show Ev.stopped v ∉ upToStop (e :: s.log)
    rw [upToStop_cons (by cases e <;> simp [plain] at hp <;> simp)]
    exact h.old a v hm
  clear l1 l2 hl a v hm := by
    rcases cons_split hl with ⟨h1, -⟩ | ⟨l1', h1⟩
    · subst h1; cases hp
    · exact h.clear l1' l2 h1 a v hm
  gotten l1 l2 t a v hl := by
    rcases cons_split hl with ⟨h1, h2⟩ | ⟨l1', h1⟩
    · subst h2; exact hg t a v h1
    · exact h.gotten l1' l2 t a v h1

/-- Only the owner of the lock is at a place where it is held. -/
theorem other_holds {s : St} {t u : Nat} (h : Inv s) (ht : holds (s.pc t) = true) (hu : holds (s.pc u) = true) : u = t := by
  have h1 := (h.own t).1 ht
  rw [(h.own u).1 hu] at h1
  exact Option.some.inj h1

theorem fresh_holds {p : Pc} {e : Nat × Nat} (h : fresh p = some e) : holds p = true := by
  cases p <;> simp [fresh] at h <;> rfl

theorem stopping_holds {p : Pc} (h : stopping p = true) : holds p = true := by
  cases p <;> simp [stopping] at h <;> rfl

/-- What the place of a goroutine that does not hold the lock tells survives any change which keeps the history. -/
theorem place_off {s s' : St} {u : Nat} {q : Pc} (hq : holds q = false) (h : Place s u q)
    (hl : ∀ a v, Ev.made a v ∈ s.log → Ev.made a v ∈ s'.log) (hc : upToCall u s'.log = upToCall u s.log) : Place s' u q := by
  cases q <;> first | exact trivial | (simp [holds] at hq; done) | skip
  case ret a v => exact ⟨hl _ _ h.1, hc ▸ h.2⟩

/-- `servers = make(map)` (auto.go:19). -/
theorem inv_make {s : St} {t a : Nat} (h : Inv s) (hp : s.pc t = .make a) (hn : s.servers = none) :
    Inv { s.at t (.unlock1 a) with servers := some [] } := by
  have h1 : Inv (s.at t (.unlock1 a)) := inv_at h (by rw [hp]; rfl) (by rw [hp]; rfl) (by rw [hp]; simp [stopping]) trivial
  have e : entries (some ([] : Map)) = entries s.servers := by rw [hn]; rfl
  have hP : ∀ u q, Place (s.at t (.unlock1 a)) u q → Place { s.at t (.unlock1 a) with servers := some [] } u q := by
    intro u q hq
    cases q <;> first | exact hq | skip
    case create a => exact fun w => e ▸ hq w
    case fill a v => exact ⟨fun w => e ▸ hq.1 w, hq.2⟩
    case publish a v m =>
      refine ⟨fun w => e ▸ hq.1 w, hq.2.1, ?_⟩
      rw [hq.2.2]
      show copy s.servers a v = copy (some []) a v
      rw [hn]; rfl
    case sLoop rest =>
      obtain ⟨fin, h1, h2⟩ := hq
      refine ⟨fin, ?_, h2⟩
      rw [← h1]
      show (entries (some [])).map _ = (entries s.servers).map _
      rw [e]
  exact ⟨h1.own, e ▸ h.keys, e ▸ h.inMap, h1.madeLt, h1.madeOne, h1.stopMade, h1.stopOnce,
    fun hu => e ▸ h1.idle hu, fun a v hl => e ▸ h1.live a v hl, fun u => hP u _ (h1.place u), e ▸ h.old, h1.clear, h1.gotten⟩

/-- A server is created (auto.go:26-29). -/
theorem inv_create {s : St} {t a : Nat} (h : Inv s) (hp : s.pc t = .create a) :
    Inv { s.at t (.fill a s.next) with next := s.next + 1, log := .made a s.next :: s.log } := by
  have hh : holds (s.pc t) = true := by rw [hp]; rfl
  have hn : ∀ a, Ev.made a s.next ∉ s.log := fun a hm => Nat.lt_irrefl _ (h.madeLt _ _ hm)
  have hs : Ev.stopped s.next ∉ s.log := fun hm => (h.stopMade _ hm).elim fun a => hn a
  have hP := h.place t
  rw [hp] at hP
  refine ⟨fun u => ?_, h.keys, ?_, ?_, ?_, ?_, ?_, ?_, ?_, ?_, ?_, ?_, ?_⟩
  · show holds ((s.at t (.fill a s.next)).pc u) = true ↔ s.lock = some u
    rw [at_pc]
    split
    · next e => subst e; exact ⟨fun _ => (h.own _).1 hh, fun _ => rfl⟩
    · exact h.own u
  · intro b v hm; exact List.mem_cons_of_mem _ (h.inMap b v hm)
  · intro b v hm
    rcases List.mem_cons.1 hm with hm | hm
    · cases hm; exact Nat.lt_succ_self _
    · exact Nat.lt_succ_of_lt (h.madeLt _ _ hm)
  · intro b c v h1 h2
    rcases List.mem_cons.1 h1 with h1 | h1 <;> rcases List.mem_cons.1 h2 with h2 | h2
    · cases h1; cases h2; rfl
    · cases h1; exact absurd h2 (hn _)
    · cases h2; exact absurd h1 (hn _)
    · exact h.madeOne _ _ _ h1 h2
  · intro v hv
    obtain ⟨b, hb⟩ := h.stopMade v (by simpa using hv)
    exact ⟨b, List.mem_cons_of_mem _ hb⟩
  · intro v
    show List.count _ (_ :: s.log) ≤ 1
    rw [List.count_cons]
    simpa using h.stopOnce v
  · intro hu b v hm
    have : Ev.stopped v ∉ s.log := by
      refine h.idle (fun u => ?_) b v hm
      have := hu u
      change stopping ((s.at t (.fill a s.next)).pc u) = false at this
      rw [at_pc] at this
      split at this
      · next e => subst e; rw [hp]; rfl
      · exact this
    simpa using this
  · intro b v hl
    rcases List.mem_cons.1 hl.1 with h1 | h1
    · cases h1
      refine .inr ⟨t, ?_⟩
      show fresh ((s.at t (.fill a s.next)).pc t) = _
      rw [at_pc, if_pos rfl]; rfl
    · rcases h.live b v ⟨h1, fun h2 => hl.2 (List.mem_cons_of_mem _ h2)⟩ with h2 | ⟨u, h2⟩
      · exact .inl h2
      · have := other_holds h hh (fresh_holds h2)
        subst this
        rw [hp] at h2; cases h2
  · intro u
    show Place _ u ((s.at t (.fill a s.next)).pc u)
    rw [at_pc]
    split
    · exact ⟨hP, List.mem_cons_self .., by simpa using hs⟩
    · next e =>
      refine place_off (s := s) ?_ (h.place u) (fun _ _ => List.mem_cons_of_mem _) rfl
      cases hq : holds (s.pc u) with
      | false => rfl
      | true => exact absurd (other_holds h hh hq) e
  · intro b v hm
    exact h.old b v hm
  · intro l1 l2 hl b v hm
    rcases cons_split hl with ⟨h1, -⟩ | ⟨l1', h1⟩
    · cases h1
    · exact h.clear l1' l2 h1 b v hm
  · intro l1 l2 u b v hl
    rcases cons_split hl with ⟨h1, h2⟩ | ⟨l1', h1⟩
    · cases h1
    · exact h.gotten l1' l2 u b v h1

/-- The new map is published (auto.go:35). -/
theorem inv_publish {s : St} {t a v : Nat} {m : Map} (h : Inv s) (hp : s.pc t = .publish a v m) :
    Inv { s.at t (.unlock2 a v) with servers := some m } := by
  have hh : holds (s.pc t) = true := by rw [hp]; rfl
  have hP := h.place t
  rw [hp] at hP
  obtain ⟨h1, h2, rfl⟩ := hP
  have hm : ∀ e, e ∈ copy s.servers a v ↔ e = (a, v) ∨ e ∈ entries s.servers := fun e => mem_copy h.keys h1
  have hns : ∀ u, stopping (s.pc u) = false := by
    intro u
    cases hq : stopping (s.pc u) with
    | false => rfl
    | true =>
      have := other_holds h hh (stopping_holds hq)
      subst this
      rw [hp] at hq; cases hq
  refine ⟨fun u => ?_, keys_copy _ _ _, ?_, h.madeLt, h.madeOne, h.stopMade, h.stopOnce, ?_, ?_, ?_, ?_, h.clear, h.gotten⟩
  · show holds ((s.at t (.unlock2 a v)).pc u) = true ↔ s.lock = some u
    rw [at_pc]
    split
    · next e => subst e; exact ⟨fun _ => (h.own _).1 hh, fun _ => rfl⟩
    · exact h.own u
  · intro b w hb
    rcases (hm _).1 hb with hb | hb
    · cases hb; exact h2.1
    · exact h.inMap b w hb
  · intro _ b w hb
    rcases (hm _).1 hb with hb | hb
    · cases hb; exact h2.2
    · exact h.idle hns b w hb
  · intro b w hl
    refine .inl ((hm _).2 ?_)
    rcases h.live b w hl with h3 | ⟨u, h3⟩
    · exact .inr h3
    · have := other_holds h hh (fresh_holds h3)
      subst this
      rw [hp] at h3
      exact .inl (Option.some.inj h3).symm
  · intro u
    show Place _ u ((s.at t (.unlock2 a v)).pc u)
    rw [at_pc]
    split
    · exact ⟨h2.1, fun h3 => h2.2 ((upToCall_suffix _ _).subset (upToStop_sub h3))⟩
    · next e =>
      refine place_off (s := s) ?_ (h.place u) (fun _ _ hm => hm) rfl
      cases hq : holds (s.pc u) with
      | false => rfl
      | true => exact absurd (other_holds h hh hq) e
  · intro b w hb
    rcases (hm _).1 hb with hb | hb
    · cases hb; exact fun h3 => h2.2 (upToStop_sub h3)
    · exact h.old b w hb

/-- `Stop` stops one server (auto.go:46). -/
theorem inv_stop {s : St} {t v : Nat} {rest : List Nat} (h : Inv s) (hp : s.pc t = .sLoop (v :: rest)) :
    Inv { s.at t (.sLoop rest) with log := .stopped v :: s.log } := by
  have hh : holds (s.pc t) = true := by rw [hp]; rfl
  have hP := h.place t
  rw [hp] at hP
  obtain ⟨fin, h1, h2, h3⟩ := hP
  have hv : Ev.stopped v ∉ s.log := h3 v (List.mem_cons_self ..)
  have hvm : ∃ a, (a, v) ∈ entries s.servers := by
    have : v ∈ (entries s.servers).map (·.2) := by rw [h1]; simp
    obtain ⟨⟨a, w⟩, h4, h5⟩ := List.mem_map.1 this
    cases h5
    exact ⟨a, h4⟩
  have hnd : ((entries s.servers).map (·.2)).Nodup := by
    have key : ∀ m : Map, Keys m → (∀ a v, (a, v) ∈ m → Ev.made a v ∈ s.log) → (m.map (·.2)).Nodup := by
      intro m
      induction m with
      | nil => simp
      | cons e m ih =>
        intro hk hm
        unfold Keys at hk ih
        rw [List.map_cons, List.nodup_cons] at *
        refine ⟨fun hc => ?_, ih hk.2 fun a v hx => hm a v (List.mem_cons_of_mem _ hx)⟩
        obtain ⟨⟨b, w⟩, h4, h5⟩ := List.mem_map.1 hc
        obtain ⟨c, x⟩ := e
        simp only at h5
        subst h5
        have := h.madeOne _ _ _ (hm b w (List.mem_cons_of_mem _ h4)) (hm c w (List.mem_cons_self ..))
        subst this
        exact hk.1 (List.mem_map.2 ⟨_, h4, rfl⟩)
    exact key _ h.keys h.inMap
  have hvr : v ∉ rest := by
    rw [h1, List.nodup_append] at hnd
    exact (List.nodup_cons.1 hnd.2.1).1
  refine ⟨fun u => ?_, h.keys, ?_, ?_, ?_, ?_, ?_, ?_, ?_, ?_, ?_, ?_, ?_⟩
  · show holds ((s.at t (.sLoop rest)).pc u) = true ↔ s.lock = some u
    rw [at_pc]
    split
    · next e => subst e; exact ⟨fun _ => (h.own _).1 hh, fun _ => rfl⟩
    · exact h.own u
  · intro b w hm; exact List.mem_cons_of_mem _ (h.inMap b w hm)
  · intro b w hm; exact h.madeLt b w (by simpa using hm)
  · intro b c w h4 h5; exact h.madeOne b c w (by simpa using h4) (by simpa using h5)
  · intro w hw
    rcases List.mem_cons.1 hw with hw | hw
    · cases hw
      obtain ⟨a, ha⟩ := hvm
      exact ⟨a, List.mem_cons_of_mem _ (h.inMap _ _ ha)⟩
    · obtain ⟨b, hb⟩ := h.stopMade w hw
      exact ⟨b, List.mem_cons_of_mem _ hb⟩
  · intro w
    show List.count _ (_ :: s.log) ≤ 1
    rw [List.count_cons]
    by_cases e : v = w
    · subst e
      rw [List.count_eq_zero.2 hv]
      simp
    · simpa [e] using h.stopOnce w
  · intro hu
    have := hu t
    change stopping ((s.at t (.sLoop rest)).pc t) = false at this
    rw [at_pc, if_pos rfl] at this
    cases this
  · intro b w hl
    have hl1 : Ev.made b w ∈ s.log := by simpa using hl.1
    rcases h.live b w ⟨hl1, fun h4 => hl.2 (List.mem_cons_of_mem _ h4)⟩ with h4 | ⟨u, h4⟩
    · exact .inl h4
    · have := other_holds h hh (fresh_holds h4)
      subst this
      rw [hp] at h4; cases h4
  · intro u
    show Place _ u ((s.at t (.sLoop rest)).pc u)
    rw [at_pc]
    split
    · refine ⟨fin ++ [v], by rw [List.append_assoc]; exact h1, fun w hw => ?_, fun w hw => ?_⟩
      · rcases List.mem_append.1 hw with hw | hw
        · exact List.mem_cons_of_mem _ (h2 w hw)
        · rw [List.mem_singleton.1 hw]; exact List.mem_cons_self ..
      · intro h4
        rcases List.mem_cons.1 h4 with h4 | h4
        · cases h4; exact hvr hw
        · exact h3 w (List.mem_cons_of_mem _ hw) h4
    · next e =>
      refine place_off (s := s) ?_ (h.place u) (fun _ _ => List.mem_cons_of_mem _) rfl
      cases hq : holds (s.pc u) with
      | false => rfl
      | true => exact absurd (other_holds h hh hq) e
  · intro b w hm
    exact h.old b w hm
  · intro l1 l2 hl b w hm
    rcases cons_split hl with ⟨h4, -⟩ | ⟨l1', h4⟩
    · cases h4
    · exact h.clear l1' l2 h4 b w hm
  · intro l1 l2 u b w hl
    rcases cons_split hl with ⟨h4, -⟩ | ⟨l1', h4⟩
    · cases h4
    · exact h.gotten l1' l2 u b w h4

/-- `Stop` has stopped everything (auto.go:44-48). -/
theorem inv_clear {s : St} {t : Nat} (h : Inv s) (hh : holds (s.pc t) = true) (hf : fresh (s.pc t) = none)
    (hall : ∀ a v, (a, v) ∈ entries s.servers → Ev.stopped v ∈ s.log) :
    Inv { s.at t .sUnlock with servers := none, log := .cleared :: s.log } := by
  have hlive : ∀ a v, Ev.made a v ∈ s.log → Ev.stopped v ∈ s.log := by
    intro a v hm
    by_cases hs : Ev.stopped v ∈ s.log
    · exact hs
    · rcases h.live a v ⟨hm, hs⟩ with h1 | ⟨u, h1⟩
      · exact hall a v h1
      · have := other_holds h hh (fresh_holds h1)
        subst this
        rw [hf] at h1; cases h1
  refine ⟨fun u => ?_, by simp [entries, Keys], by simp [entries], ?_, ?_, ?_, ?_, by simp [entries], ?_, ?_, by simp [entries], ?_, ?_⟩
  · show holds ((s.at t .sUnlock).pc u) = true ↔ s.lock = some u
    rw [at_pc]
    split
    · next e => subst e; exact ⟨fun _ => (h.own _).1 hh, fun _ => rfl⟩
    · exact h.own u
  · intro b w hm; exact h.madeLt b w (by simpa using hm)
  · intro b c w h4 h5; exact h.madeOne b c w (by simpa using h4) (by simpa using h5)
  · intro w hw
    obtain ⟨b, hb⟩ := h.stopMade w (by simpa using hw)
    exact ⟨b, List.mem_cons_of_mem _ hb⟩
  · intro w
    show List.count _ (_ :: s.log) ≤ 1
    rw [List.count_cons]
    simpa using h.stopOnce w
  · intro b w hl
    have hl1 : Ev.made b w ∈ s.log := by simpa using hl.1
    exact absurd (List.mem_cons_of_mem _ (hlive b w hl1)) hl.2
  · intro u
    show Place _ u ((s.at t .sUnlock).pc u)
    rw [at_pc]
    split
    · trivial
    · next e =>
      refine place_off (s := s) ?_ (h.place u) (fun _ _ => List.mem_cons_of_mem _) rfl
      cases hq : holds (s.pc u) with
      | false => rfl
      | true => exact absurd (other_holds h hh hq) e
  · intro l1 l2 hl b w hm
    rcases cons_split hl with ⟨-, h4⟩ | ⟨l1', h4⟩
    · subst h4; exact hlive b w hm
    · exact h.clear l1' l2 h4 b w hm
  · intro l1 l2 u b w hl
    rcases cons_split hl with ⟨h4, -⟩ | ⟨l1', h4⟩
    · cases h4
    · exact h.gotten l1' l2 u b w h4

/-! ### All steps -/

theorem inv_go {s s' : St} {t : Nat} (h : Inv s) (hg : Auto.go s t = some s') : Inv s' := by
  have hP := h.place t
  unfold Auto.go at hg
  cases hp : s.pc t <;> rw [hp] at hg hP
  case idle => cases hg
  case check a =>
    simp only at hg
    split at hg <;> cases hg
    · exact inv_at h (by rw [hp]; rfl) (by rw [hp]; rfl) (by rw [hp]; simp [stopping]) trivial
    · exact inv_at h (by rw [hp]; rfl) (by rw [hp]; rfl) (by rw [hp]; simp [stopping]) trivial
  case lock1 a => exact inv_acquire h hg rfl (by rw [hp]; rfl) trivial (by rw [hp]; simp [stopping])
  case make a =>
    simp only at hg
    split at hg <;> cases hg
    · next hn => exact inv_make h hp hn
    · exact inv_at h (by rw [hp]; rfl) (by rw [hp]; rfl) (by rw [hp]; simp [stopping]) trivial
  case unlock1 a => cases hg; exact inv_release h rfl (by rw [hp]; rfl) (by rw [hp]; rfl) (by rw [hp]; rfl) trivial
  case read a =>
    simp only at hg
    split at hg <;> cases hg
    · next v hv =>
      have hm := lookNil_some hv
      exact inv_at h (by rw [hp]; rfl) (by rw [hp]; rfl) (by rw [hp]; simp [stopping])
        ⟨h.inMap _ _ hm, stopped_call (h.old _ _ hm)⟩
    · exact inv_at h (by rw [hp]; rfl) (by rw [hp]; rfl) (by rw [hp]; simp [stopping]) trivial
  case lock2 a => exact inv_acquire h hg rfl (by rw [hp]; rfl) trivial (by rw [hp]; simp [stopping])
  case again a =>
    simp only at hg
    split at hg <;> cases hg
    · next v hv =>
      have hm := lookNil_some hv
      exact inv_at h (by rw [hp]; rfl) (by rw [hp]; rfl) (by rw [hp]; simp [stopping])
        ⟨h.inMap _ _ hm, stopped_call (h.old _ _ hm)⟩
    · next hv => exact inv_at h (by rw [hp]; rfl) (by rw [hp]; rfl) (by rw [hp]; simp [stopping]) (lookNil_none hv)
  case create a =>
    simp only at hg
    split at hg <;> cases hg
    · have h1 : Inv (s.at t .dead) := inv_at h (by rw [hp]; rfl) (by rw [hp]; rfl) (by rw [hp]; simp [stopping]) trivial
      exact inv_plain (e := .panicked t) h1 rfl (by simp) (by simp)
    · exact inv_create h hp
  case fill a v =>
    cases hg
    exact inv_at h (by rw [hp]; rfl) (by rw [hp]; rfl) (by rw [hp]; simp [stopping]) ⟨hP.1, hP.2, rfl⟩
  case publish a v m => cases hg; exact inv_publish h hp
  case unlock2 a v => cases hg; exact inv_release h rfl (by rw [hp]; rfl) (by rw [hp]; rfl) (by rw [hp]; rfl) hP
  case ret a v =>
    cases hg
    have h1 : Inv (s.at t .idle) := inv_at h (by rw [hp]; rfl) (by rw [hp]; rfl) (by rw [hp]; simp [stopping]) trivial
    exact inv_plain (e := .got t a v) h1 rfl (by simp) (by rintro _ _ _ ⟨⟩; exact hP)
  case sLock => exact inv_acquire h hg rfl (by rw [hp]; rfl) trivial (by rw [hp]; simp [stopping])
  case sCheck =>
    have hns : ∀ u, stopping (s.pc u) = false := by
      intro u
      cases hq : stopping (s.pc u) with
      | false => rfl
      | true =>
        have := other_holds h (t := t) (by rw [hp]; rfl) (stopping_holds hq)
        subst this
        rw [hp] at hq; cases hq
    cases hm : s.servers with
    | none =>
      rw [hm] at hg
      cases hg
      have := inv_clear (t := t) h (by rw [hp]; rfl) (by rw [hp]; rfl) (by rw [hm]; simp [entries])
      rw [← hm] at this
      exact this
    | some m =>
      rw [hm] at hg
      cases hg
      refine inv_at h (by rw [hp]; rfl) (by rw [hp]; rfl) (by rw [hp]; simp [stopping]) ⟨[], by rw [hm]; rfl, by simp, ?_⟩
      intro v hv
      obtain ⟨⟨a, w⟩, h4, h5⟩ := List.mem_map.1 hv
      cases h5
      exact h.idle hns a w (by rw [hm]; exact h4)
  case sLoop rest =>
    cases rest with
    | nil =>
      cases hg
      obtain ⟨fin, h1, h2, -⟩ := hP
      refine inv_clear h (by rw [hp]; rfl) (by rw [hp]; rfl) fun a v hm => h2 v ?_
      rw [List.append_nil] at h1
      rw [← h1]
      exact List.mem_map.2 ⟨_, hm, rfl⟩
    | cons v rest => cases hg; exact inv_stop h hp
  case sUnlock => cases hg; exact inv_release h rfl (by rw [hp]; rfl) (by rw [hp]; rfl) (by rw [hp]; rfl) trivial
  case dead => cases hg

theorem inv_step {s s' : St} {c : Choice} (h : Inv s) (hs : step s c = some s') : Inv s' := by
  cases c with
  | get t a =>
    unfold step at hs
    simp only at hs
    split at hs
    next hp =>
      cases hs
      have h1 : Inv (s.at t (.check a)) := inv_at h (by rw [hp]; rfl) (by rw [hp]; rfl) (by rw [hp]; simp [stopping]) trivial
      refine inv_plain (e := .called t a) h1 rfl ?_ (by simp)
      intro u b v hu c hc
      cases hc
      rw [at_pc, if_pos rfl] at hu
      simp at hu
    next => cases hs
  | stop t =>
    unfold step at hs
    simp only at hs
    split at hs
    next hp =>
      cases hs
      exact inv_at h (by rw [hp]; rfl) (by rw [hp]; rfl) (by rw [hp]; simp [stopping]) trivial
    next => cases hs
  | go t => exact inv_go h hs

theorem inv_run {s s' : St} {cs : List Choice} (h : Inv s) (hr : run s cs = some s') : Inv s' := by
  induction cs generalizing s with
  | nil => cases hr; exact h
  | cons c cs ih =>
    unfold run at hr
    split at hr
    · cases hr
    · next s1 h1 => exact ih (inv_step h h1) hr

theorem inv_reach {s : St} (h : Reach s) : Inv s := h.elim fun _ hr => inv_run inv_init hr

end Verif.Auto
