import Verif.Model.CodecCache

/-! Invariants of the codec caches. -/
namespace Verif.CodecCache
set_option linter.unusedSectionVars false
variable {T A : Type} [DecidableEq T] {e : Env T A}

@[simp] theorem set_self {K B : Type} [DecidableEq K] (f : K → B) (k : K) (v : B) : set f k v k = v := by simp [set]
theorem set_ne {K B : Type} [DecidableEq K] (f : K → B) {k x : K} (v : B) (h : x ≠ k) : set f k v x = f x := by simp [set, h]

/-- The goroutine is changing `wss`. -/
def writing : PC T → Bool
  | .enter _ | .fill _ | .publish _ _ => true
  | _ => false

/-- The goroutine holds the lock. -/
def crit : PC T → Bool
  | .again _ | .copy _ | .enter _ | .fill _ | .publish _ _ | .unlock _ _ | .fail _ => true
  | _ => false

/-- The entry of a map is all right: a codec of that type, filled or being filled, all of whose parts are in the map. -/
def Entry (s : St T A) (m : Nat) (rt : T) (c : Nat) (P : Prop) : Prop :=
  ∃ x, s.cods c = some x ∧ x.ty = rt ∧ (x.done = true ∨ P) ∧ ∀ r ∈ x.refs, ∃ rt', s.maps m rt' = some r

structure Data (s : St T A) (w : Bool) : Prop where
  wslt : s.ws < s.nmap
  wsslt : s.wss < s.nmap
  fresh : ∀ c x, s.cods c = some x → c < s.ncod
  pubd : ∀ rt c, s.maps s.ws rt = some c → Entry s s.ws rt c False
  lt : w = true → s.ws < s.wss
  sub : w = true → ∀ rt c, s.maps s.ws rt = some c → s.maps s.wss rt = some c
  cons : w = true → ∀ rt c, s.maps s.wss rt = some c → Entry s s.wss rt c (∃ f ∈ s.stack, f.cod = c)
  frames : ∀ f ∈ s.stack, s.maps s.wss f.ty = some f.cod ∧ ∃ x, s.cods f.cod = some x ∧ x.done = false
  nodup : (s.stack.map Frame.cod).Nodup
  empty : w = false → s.stack = []

theorem Entry.mono {s s' : St T A} {m m' c : Nat} {rt : T} {P P' : Prop} (h : Entry s m rt c P) (hc : s'.cods c = s.cods c)
    (hm : ∀ x d, s.maps m x = some d → s'.maps m' x = some d) (hp : P → P') : Entry s' m' rt c P' := by
  obtain ⟨x, h1, h2, h3, h4⟩ := h
  exact ⟨x, hc ▸ h1, h2, h3.imp id hp, fun r hr => (h4 r hr).imp fun y hy => hm _ _ hy⟩

/-- Published codecs are not being filled. -/
theorem Data.not_stacked {s : St T A} {w : Bool} (h : Data s w) {rt : T} {c : Nat} (hc : s.maps s.ws rt = some c) :
    ∀ f ∈ s.stack, f.cod ≠ c := by
  intro f hf e
  obtain ⟨x, h1, _, h3, _⟩ := h.pubd rt c hc
  obtain ⟨_, y, h4, h5⟩ := h.frames f hf
  rw [e, h1] at h4
  cases h4
  simp [h5] at h3

theorem Data.create {s : St T A} (h : Data s true) (rt : T) (hn : s.maps s.wss rt = none) : Data (s.create e rt) true := by
  have hlt := h.lt rfl
  have hm : ∀ x d, s.maps s.wss x = some d → set (s.maps s.wss) rt (some s.ncod) x = some d := by
    intro x d hx
    by_cases c : x = rt
    · subst c; simp [hn] at hx
    · rw [set_ne _ _ c]; exact hx
  have hold : ∀ c x, s.cods c = some x → set s.cods s.ncod (some ⟨rt, e.init rt, [], false⟩) c = s.cods c := by
    intro c x hx
    exact set_ne _ _ (by have := h.fresh c x hx; omega)
  refine ⟨h.wslt, h.wsslt, ?_, ?_, fun _ => hlt, ?_, ?_, ?_, ?_, ?_⟩
  · intro c x hx
    simp only [St.create] at hx ⊢
    by_cases k : c = s.ncod
    · omega
    · rw [set_ne _ _ k] at hx
      have := h.fresh c x hx
      omega
  · intro x c hx
    simp only [St.create] at hx
    rw [set_ne _ _ (by omega)] at hx
    have hE := h.pubd x c hx
    obtain ⟨y, hy, _⟩ := hE
    refine (h.pubd x c hx).mono (hold c y hy) ?_ id
    intro x d hx
    simp only [St.create]
    rw [set_ne _ _ (by omega)]; exact hx
  · intro _ x c hx
    simp only [St.create] at hx ⊢
    rw [set_ne _ _ (by omega)] at hx
    rw [set_self]
    exact hm x c (h.sub rfl x c hx)
  · intro _ x c hx
    simp only [St.create] at hx
    rw [set_self] at hx
    by_cases k : x = rt
    · subst k
      rw [set_self] at hx
      cases hx
      exact ⟨_, by simp only [St.create]; rw [set_self], rfl, Or.inr ⟨_, List.mem_cons_self, rfl⟩, by simp⟩
    · rw [set_ne _ _ k] at hx
      have hE := h.cons rfl x c hx
      obtain ⟨y, hy, _⟩ := hE
      refine (h.cons rfl x c hx).mono (hold c y hy) ?_ ?_
      · intro x d hx
        simp only [St.create]
        rw [set_self]; exact hm x d hx
      · rintro ⟨f, hf, e⟩
        exact ⟨f, List.mem_cons_of_mem _ hf, e⟩
  · intro f hf
    simp only [St.create, List.mem_cons] at hf ⊢
    rw [set_self]
    rcases hf with rfl | hf
    · exact ⟨by simp, _, by rw [set_self], rfl⟩
    · obtain ⟨h1, x, h2, h3⟩ := h.frames f hf
      exact ⟨hm _ _ h1, x, by rw [hold _ x h2]; exact h2, h3⟩
  · simp only [St.create, List.map_cons, List.nodup_cons]
    refine ⟨?_, h.nodup⟩
    intro hmem
    obtain ⟨f, hf, e⟩ := List.mem_map.1 hmem
    obtain ⟨_, x, h2, _⟩ := h.frames f hf
    have := h.fresh _ _ h2
    omega
  · simp

/-- Changing the codec that is being filled. -/
theorem Data.edit {s : St T A} (h : Data s true) {f : Frame T A} {rest : List (Frame T A)} (hs : s.stack = f :: rest)
    (g : Codec T A → Codec T A) (st : List (Frame T A))
    (hg : ∀ x, (g x).ty = x.ty ∧ ∀ r ∈ (g x).refs, r ∈ x.refs ∨ ∃ rt, s.maps s.wss rt = some r)
    (hst : (st = rest ∧ ∀ x, (g x).done = true) ∨
      (∃ f', st = f' :: rest ∧ f'.cod = f.cod ∧ f'.ty = f.ty) ∧ ∀ x, (g x).done = x.done) :
    Data { s with cods := set s.cods f.cod ((s.cods f.cod).map g), stack := st } true := by
  have hlt := h.lt rfl
  have hf := h.frames f (by simp [hs])
  obtain ⟨hf1, x, hf2, hf3⟩ := hf
  have hnd := h.nodup
  simp only [hs, List.map_cons, List.nodup_cons] at hnd
  have hne : ∀ f' ∈ rest, f'.cod ≠ f.cod := by
    intro f' hf' e
    exact hnd.1 (e ▸ List.mem_map_of_mem hf')
  refine ⟨h.wslt, h.wsslt, ?_, ?_, fun _ => hlt, h.sub, ?_, ?_, ?_, ?_⟩
  · intro c y hy
    by_cases k : c = f.cod
    · subst k; exact h.fresh _ x hf2
    · simp only at hy
      rw [set_ne _ _ k] at hy
      exact h.fresh c y hy
  · intro rt c hc
    have := h.not_stacked hc f (by simp [hs])
    exact (h.pubd rt c hc).mono (set_ne _ _ (fun e => this e.symm)) (fun _ _ h => h) id
  · intro _ rt c hc
    have hE := h.cons rfl rt c hc
    by_cases k : c = f.cod
    · subst k
      obtain ⟨y, h1, h2, h3, h4⟩ := hE
      rw [hf2] at h1
      cases h1
      refine ⟨g x, by simp [hf2], (hg x).1.trans h2, ?_, ?_⟩
      · rcases hst with ⟨_, h⟩ | ⟨⟨f', h, h', _⟩, _⟩
        · exact Or.inl (h x)
        · exact Or.inr ⟨f', by simp [h], h'⟩
      · intro r hr
        rcases (hg x).2 r hr with h | h
        · exact h4 r h
        · exact h
    · refine hE.mono (set_ne _ _ k) (fun _ _ h => h) ?_
      rintro ⟨f1, h1, h2⟩
      simp only [hs, List.mem_cons] at h1
      rcases h1 with rfl | h1
      · exact absurd h2.symm k
      · refine ⟨f1, ?_, h2⟩
        rcases hst with ⟨h, _⟩ | ⟨⟨f', h, _⟩, _⟩ <;> simp [h, h1]
  · intro f1 hf1'
    simp only at hf1' ⊢
    have hrest : f1 ∈ rest → s.maps s.wss f1.ty = some f1.cod ∧
        ∃ x, set s.cods f.cod ((s.cods f.cod).map g) f1.cod = some x ∧ x.done = false := by
      intro hr
      obtain ⟨h1, y, h2, h3⟩ := h.frames f1 (by simp [hs, hr])
      exact ⟨h1, y, by rw [set_ne _ _ (hne f1 hr)]; exact h2, h3⟩
    rcases hst with ⟨h', _⟩ | ⟨⟨f', h', h2, h3⟩, hd⟩
    · rw [h'] at hf1'; exact hrest hf1'
    · rw [h', List.mem_cons] at hf1'
      rcases hf1' with rfl | hr
      · exact ⟨by rw [h2, h3]; exact hf1, g x, by rw [h2, set_self, hf2]; rfl, by rw [hd, hf3]⟩
      · exact hrest hr
  · rcases hst with ⟨h', _⟩ | ⟨⟨f', h', h2, h3⟩, _⟩
    · simp only [h']; exact hnd.2
    · simp only [h', List.map_cons, h2, List.nodup_cons]; exact hnd
  · simp

theorem Data.cast {s s' : St T A} {w : Bool} (h : Data s w) (h1 : s'.maps = s.maps) (h2 : s'.nmap = s.nmap) (h3 : s'.ws = s.ws)
    (h4 : s'.wss = s.wss) (h5 : s'.cods = s.cods) (h6 : s'.ncod = s.ncod) (h7 : s'.stack = s.stack) : Data s' w := by
  obtain ⟨⟩ := s
  obtain ⟨⟩ := s'
  simp only at *
  subst h1 h2 h3 h4 h5 h6 h7
  exact ⟨h.wslt, h.wsslt, h.fresh, h.pubd, h.lt, h.sub, h.cons, h.frames, h.nodup, h.empty⟩

/-- The `Fill` of everything is given up. -/
theorem Data.drop {s : St T A} {w : Bool} (h : Data s w) : Data { s with stack := [] } false :=
  ⟨h.wslt, h.wsslt, h.fresh, fun rt c hc => (h.pubd rt c hc).mono rfl (fun _ _ h => h) id, by simp, by simp, by simp, by simp,
   by simp, by simp⟩

theorem Data.copy {s : St T A} (h : Data s false) :
    Data { s with maps := set s.maps s.nmap (s.maps s.ws), wss := s.nmap, nmap := s.nmap + 1 } true := by
  have hw := h.wslt
  have hm : ∀ x d, s.maps s.ws x = some d → set s.maps s.nmap (s.maps s.ws) s.ws x = some d := by
    intro x d hx
    rw [set_ne _ _ (by omega)]; exact hx
  have hm' : ∀ x d, set s.maps s.nmap (s.maps s.ws) s.ws x = some d → s.maps s.ws x = some d := by
    intro x d hx
    rw [set_ne _ _ (by omega)] at hx; exact hx
  refine ⟨by simp only; omega, by simp, h.fresh, ?_, fun _ => hw, ?_, ?_, ?_, h.nodup, by simp⟩
  · intro x c hx
    exact (h.pubd x c (hm' x c hx)).mono rfl hm id
  · intro _ x c hx
    simp only [set_self]
    exact hm' x c hx
  · intro _ x c hx
    simp only [set_self] at hx
    exact (h.pubd x c hx).mono rfl (fun y d hy => by simp only [set_self]; exact hy) False.elim
  · simp [h.empty rfl]

theorem Data.publish {s : St T A} (h : Data s true) (hs : s.stack = []) : Data { s with ws := s.wss } false := by
  refine ⟨h.wsslt, h.wsslt, h.fresh, ?_, by simp, by simp, by simp, h.frames, h.nodup, fun _ => hs⟩
  intro rt c hc
  exact (h.cons rfl rt c hc).mono rfl (fun _ _ h => h) (by simp [hs])

/-- Every entry of the one map is an entry of the other. -/
def Sub (m m' : T → Option Nat) : Prop := ∀ rt c, m rt = some c → m' rt = some c

/-- The program counters agree with the data. -/
structure Thr (s : St T A) : Prop where
  lk : ∀ t, crit (s.pc t) = true ↔ s.lock = some t
  loaded : ∀ t rt m, s.pc t = .index rt m → m ≤ s.ws ∧ Sub (s.maps m) (s.maps s.ws)
  pub : ∀ t rt c, s.pc t = .publish rt c → s.maps s.wss rt = some c ∧ s.stack = []
  unl : ∀ t rt c, s.pc t = .unlock rt c → s.maps s.ws rt = some c
  ent : ∀ t rt, s.pc t = .enter rt → s.stack = []
  fil : ∀ t rt, s.pc t = .fill rt → s.stack ≠ [] ∧ ∀ f, s.stack.getLast? = some f → f.ty = rt
  ret : ∀ rt c, (rt, some c) ∈ s.rets → s.maps s.ws rt = some c

/-- Is somebody changing `wss`? -/
def phase (s : St T A) : Bool :=
  match s.lock with
  | some t => writing (s.pc t)
  | none => false

structure Inv (s : St T A) : Prop where
  data : Data s (phase s)
  thr : Thr s

theorem Thr.phase {s : St T A} (h : Thr s) {t : Nat} (hc : crit (s.pc t) = true) : phase s = writing (s.pc t) := by
  simp [CodecCache.phase, (h.lk t).1 hc]

/-- Two goroutines are not both in the critical section. -/
theorem Thr.one {s : St T A} (h : Thr s) {t u : Nat} (ht : crit (s.pc t) = true) (hu : crit (s.pc u) = true) : t = u := by
  have := (h.lk t).1 ht
  rw [(h.lk u).1 hu] at this
  simpa using this.symm

theorem init_inv : Inv (init : St T A) := by
  constructor
  · constructor <;> simp [init, phase]
  · constructor <;> simp [init, crit]

/-- A goroutine moves on, and neither takes nor gives back the lock. -/
theorem Thr.move {s : St T A} (h : Thr s) {t : Nat} {p : PC T} {q : St T A} (hq : q.pc = set s.pc t p) (hl : q.lock = s.lock)
    (hc : crit p = crit (s.pc t))
    (hoth : ∀ u, u ≠ t →
      (∀ rt m, s.pc u = .index rt m → m ≤ q.ws ∧ Sub (q.maps m) (q.maps q.ws)) ∧
      (∀ rt c, s.pc u = .publish rt c → q.maps q.wss rt = some c ∧ q.stack = []) ∧
      (∀ rt c, s.pc u = .unlock rt c → q.maps q.ws rt = some c) ∧
      (∀ rt, s.pc u = .enter rt → q.stack = []) ∧
      (∀ rt, s.pc u = .fill rt → q.stack ≠ [] ∧ ∀ f, q.stack.getLast? = some f → f.ty = rt))
    (hme : (∀ rt m, p = .index rt m → m ≤ q.ws ∧ Sub (q.maps m) (q.maps q.ws)) ∧
      (∀ rt c, p = .publish rt c → q.maps q.wss rt = some c ∧ q.stack = []) ∧
      (∀ rt c, p = .unlock rt c → q.maps q.ws rt = some c) ∧
      (∀ rt, p = .enter rt → q.stack = []) ∧
      (∀ rt, p = .fill rt → q.stack ≠ [] ∧ ∀ f, q.stack.getLast? = some f → f.ty = rt))
    (hr : ∀ rt c, (rt, some c) ∈ q.rets → q.maps q.ws rt = some c) : Thr q := by
  constructor
  · intro u
    rw [hq, hl]
    by_cases k : u = t
    · subst k; rw [set_self, hc]; exact h.lk u
    · rw [set_ne _ _ k]; exact h.lk u
  all_goals first
    | exact hr
    | (intro u
       rw [hq]
       by_cases k : u = t
       · subst k; rw [set_self]
         first | exact hme.1 | exact hme.2.1 | exact hme.2.2.1 | exact hme.2.2.2.1 | exact hme.2.2.2.2
       · rw [set_ne _ _ k]
         first | exact (hoth u k).1 | exact (hoth u k).2.1 | exact (hoth u k).2.2.1 | exact (hoth u k).2.2.2.1 |
           exact (hoth u k).2.2.2.2)

/-- The goroutine that has the lock gives it back. -/
theorem Thr.leave {s : St T A} (h : Thr s) {t : Nat} {q : St T A} (hc : crit (s.pc t) = true) (hq : q.pc = set s.pc t .idle)
    (hl : q.lock = none) (h1 : q.maps = s.maps) (h2 : q.ws = s.ws)
    (hr : ∀ rt c, (rt, some c) ∈ q.rets → q.maps q.ws rt = some c) : Thr q := by
  have key : ∀ u, u ≠ t → crit (s.pc u) = false := by
    intro u hu
    cases k : crit (s.pc u) with
    | false => rfl
    | true => exact absurd (h.one k hc) hu
  have pcs : ∀ u p, q.pc u = p → p = .idle ∨ (u ≠ t ∧ s.pc u = p) := by
    intro u p hp
    rw [hq] at hp
    by_cases k : u = t
    · subst k; rw [set_self] at hp; exact Or.inl hp.symm
    · rw [set_ne _ _ k] at hp; exact Or.inr ⟨k, hp⟩
  constructor
  · intro u
    rw [hl]
    rcases pcs u _ rfl with k | ⟨k, k'⟩
    · simp [k, crit]
    · rw [← k', key u k]; simp
  · intro u rt m hu
    rcases pcs u _ hu with k | ⟨_, k⟩
    · cases k
    · rw [h1, h2]; exact h.loaded u rt m k
  all_goals first
    | exact hr
    | (intro u
       intros
       rename_i hu
       rcases pcs u _ hu with k | ⟨k, k'⟩
       · cases k
       · have := key u k
         simp [k', crit] at this)

theorem step_inv {s s' : St T A} (h : Inv s) (c : Choice T) (hs : step e s c = some s') : Inv s' := by
  obtain ⟨hd, ht⟩ := h
  have same : ∀ (t : Nat) (p : PC T) (q : St T A), q.pc = set s.pc t p → q.lock = s.lock → writing p = writing (s.pc t) →
      phase q = phase s := by
    intro t p q hq hl hw
    simp only [phase, hq, hl]
    split
    · rename_i u _
      by_cases k : u = t
      · subst k; rw [set_self, hw]
      · rw [set_ne _ _ k]
    · rfl
  have keep : ∀ (t : Nat) (p : PC T) (q : St T A) (w : Bool), q.pc = set s.pc t p → q.lock = s.lock →
      writing p = writing (s.pc t) → phase s = w → Data q w → Data q (phase q) := by
    intro t p q w h1 h2 h3 h4 h5
    rw [same t p q h1 h2 h3, h4]
    exact h5
  cases c with
  | call t rt =>
    simp only [step] at hs
    split at hs
    case h_2 => exact absurd hs (by simp)
    rename_i hp
    simp only [Option.some.injEq] at hs
    subst hs
    refine ⟨?_, ht.move (t := t) rfl rfl (by simp [hp, crit]) (fun u _ => ⟨ht.loaded u, ht.pub u, ht.unl u, ht.ent u, ht.fil u⟩)
      (by simp) ht.ret⟩
    exact keep t _ _ _ rfl rfl (by simp [hp, writing]) rfl <| hd.cast rfl rfl rfl rfl rfl rfl rfl
  | go t =>
    simp only [step] at hs
    split at hs
    · exact absurd hs (by simp)
    · -- load
      rename_i rt hp
      simp only [Option.some.injEq] at hs
      subst hs
      refine ⟨?_, ht.move (t := t) rfl rfl (by simp [hp, crit])
        (fun u _ => ⟨ht.loaded u, ht.pub u, ht.unl u, ht.ent u, ht.fil u⟩)
        ⟨by intro _ _ hm; cases hm; exact ⟨Nat.le_refl _, fun _ _ h => h⟩, by simp, by simp, by simp, by simp⟩ ht.ret⟩
      exact keep t _ _ _ rfl rfl (by simp [hp, writing]) rfl <| hd.cast rfl rfl rfl rfl rfl rfl rfl
    · -- index
      rename_i rt m hp
      split at hs <;> simp only [Option.some.injEq] at hs <;> subst hs
      · rename_i c hc
        refine ⟨?_, ht.move (t := t) rfl rfl (by simp [hp, crit])
          (fun u _ => ⟨ht.loaded u, ht.pub u, ht.unl u, ht.ent u, ht.fil u⟩) (by simp) ?_⟩
        · exact keep t _ _ _ rfl rfl (by simp [hp, writing]) rfl <| hd.cast rfl rfl rfl rfl rfl rfl rfl
        · intro rt' c' hm
          simp only [List.mem_cons, Prod.mk.injEq, Option.some.injEq] at hm
          rcases hm with ⟨rfl, rfl⟩ | hm
          · exact (ht.loaded t _ _ hp).2 _ _ hc
          · exact ht.ret _ _ hm
      · refine ⟨?_, ht.move (t := t) rfl rfl (by simp [hp, crit])
          (fun u _ => ⟨ht.loaded u, ht.pub u, ht.unl u, ht.ent u, ht.fil u⟩) (by simp) ht.ret⟩
        exact keep t _ _ _ rfl rfl (by simp [hp, writing]) rfl <| hd.cast rfl rfl rfl rfl rfl rfl rfl
    · -- lock
      rename_i rt hp
      split at hs
      case h_2 => exact absurd hs (by simp)
      rename_i hl
      simp only [Option.some.injEq] at hs
      subst hs
      have nc : ∀ u, crit (s.pc u) = false := by
        intro u
        cases k : crit (s.pc u) with
        | false => rfl
        | true => have := (ht.lk u).1 k; simp [hl] at this
      have hf : phase s = false := by simp [phase, hl]
      rw [hf] at hd
      constructor
      · simp only [phase, set_self, writing]
        exact hd.cast rfl rfl rfl rfl rfl rfl rfl
      · have pcs : ∀ u p, set s.pc t (.again rt) u = p → p = .again rt ∨ (s.pc u = p) := by
          intro u p hp
          by_cases k : u = t
          · subst k; rw [set_self] at hp; exact Or.inl hp.symm
          · rw [set_ne _ _ k] at hp; exact Or.inr hp
        constructor
        · intro u
          by_cases k : u = t
          · subst k; simp [crit]
          · simp only [set_ne _ _ k, nc u, Option.some.injEq]
            exact ⟨by simp, fun e => absurd e.symm k⟩
        · intro u rt' m hu
          rcases pcs u _ hu with k | k
          · cases k
          · exact ht.loaded u rt' m k
        all_goals first
          | exact ht.ret
          | (intro u
             intros
             rename_i hu
             rcases pcs u _ hu with k | k
             · cases k
             · have := nc u
               simp [k, crit] at this)
    · -- again
      rename_i rt hp
      have hc : crit (s.pc t) = true := by simp [hp, crit]
      split at hs <;> simp only [Option.some.injEq] at hs <;> subst hs
      · rename_i c hm
        refine ⟨?_, ht.move (t := t) rfl rfl (by simp [hp, crit])
          (fun u _ => ⟨ht.loaded u, ht.pub u, ht.unl u, ht.ent u, ht.fil u⟩)
          ⟨by simp, by simp, by intro _ _ h; cases h; exact hm, by simp, by simp⟩ ht.ret⟩
        exact keep t _ _ _ rfl rfl (by simp [hp, writing]) rfl <| hd.cast rfl rfl rfl rfl rfl rfl rfl
      · refine ⟨?_, ht.move (t := t) rfl rfl (by simp [hp, crit])
          (fun u _ => ⟨ht.loaded u, ht.pub u, ht.unl u, ht.ent u, ht.fil u⟩) (by simp) ht.ret⟩
        exact keep t _ _ _ rfl rfl (by simp [hp, writing]) rfl <| hd.cast rfl rfl rfl rfl rfl rfl rfl
    · -- copy
      rename_i rt hp
      have hc : crit (s.pc t) = true := by simp [hp, crit]
      have hph : phase s = false := by rw [ht.phase hc, hp]; rfl
      rw [hph] at hd
      simp only [Option.some.injEq] at hs
      subst hs
      have hw := hd.wslt
      have oth : ∀ u, u ≠ t → crit (s.pc u) = false := by
        intro u hu
        cases k : crit (s.pc u) with
        | false => rfl
        | true => exact absurd (ht.one k hc) hu
      constructor
      · have : phase { s with maps := set s.maps s.nmap (s.maps s.ws), wss := s.nmap, nmap := s.nmap + 1, pc := (set s.pc t (.enter rt)) } = true := by simp [phase, (ht.lk t).1 hc, writing]
        rw [this]
        exact hd.copy.cast rfl rfl rfl rfl rfl rfl rfl
      · refine ht.move (t := t) rfl rfl (by simp [hp, crit]) ?_ ⟨by simp, by simp, by simp, fun _ _ => hd.empty rfl, by simp⟩ ?_
        · intro u hu
          have := oth u hu
          refine ⟨?_, ?_, ?_, ?_, ?_⟩
          · intro rt' m hm
            obtain ⟨h1, h2⟩ := ht.loaded u rt' m hm
            refine ⟨h1, ?_⟩
            simp only
            rw [set_ne _ _ (by omega), set_ne _ _ (by omega)]
            exact h2
          all_goals (intros; rename_i k; simp [k, crit] at this)
        · intro rt' c' hm
          simp only
          rw [set_ne _ _ (by omega)]
          exact ht.ret _ _ hm
    · -- enter
      rename_i rt hp
      have hc : crit (s.pc t) = true := by simp [hp, crit]
      have hph : phase s = true := by rw [ht.phase hc, hp]; rfl
      have hd' := hd
      rw [hph] at hd
      have oth : ∀ u, u ≠ t → crit (s.pc u) = false := by
        intro u hu
        cases k : crit (s.pc u) with
        | false => rfl
        | true => exact absurd (ht.one k hc) hu
      have hlt := hd.lt rfl
      split at hs <;> simp only [Option.some.injEq] at hs <;> subst hs
      · rename_i c hm
        refine ⟨?_, ht.move (t := t) rfl rfl (by simp [hp, crit])
          (fun u _ => ⟨ht.loaded u, ht.pub u, ht.unl u, ht.ent u, ht.fil u⟩)
          ⟨by simp, by intro _ _ h; cases h; exact ⟨hm, ht.ent t rt hp⟩, by simp, by simp, by simp⟩ ht.ret⟩
        exact keep t _ _ _ rfl rfl (by simp [hp, writing]) rfl <| hd'.cast rfl rfl rfl rfl rfl rfl rfl
      · rename_i hm
        constructor
        · exact keep t _ _ _ rfl rfl (by simp [hp, writing]) hph <| (hd.create (e := e) rt hm).cast rfl rfl rfl rfl rfl rfl rfl
        · refine ht.move (t := t) rfl rfl (by simp [hp, crit]) ?_ ⟨by simp, by simp, by simp, by simp, ?_⟩ ?_
          · intro u hu
            have := oth u hu
            refine ⟨?_, ?_, ?_, ?_, ?_⟩
            · intro rt' m hm
              obtain ⟨h1, h2⟩ := ht.loaded u rt' m hm
              refine ⟨h1, ?_⟩
              simp only [St.create]
              rw [set_ne _ _ (by omega), set_ne _ _ (by omega)]
              exact h2
            all_goals (intros; rename_i k; simp [k, crit] at this)
          · intro rt' h
            cases h
            simp [St.create, ht.ent t rt hp]
          · intro rt' c' hm
            simp only [St.create]
            rw [set_ne _ _ (by omega)]
            exact ht.ret _ _ hm
    · -- fill
      rename_i rt hp
      have hc : crit (s.pc t) = true := by simp [hp, crit]
      have hph : phase s = true := by rw [ht.phase hc, hp]; rfl
      have hd' := hd
      rw [hph] at hd
      have oth : ∀ u, u ≠ t → crit (s.pc u) = false := by
        intro u hu
        cases k : crit (s.pc u) with
        | false => rfl
        | true => exact absurd (ht.one k hc) hu
      have hlt := hd.lt rfl
      obtain ⟨hne, hlast⟩ := ht.fil t rt hp
      simp only [fillStep] at hs
      split at hs
      · exact absurd hs (by simp)
      rename_i f rest hst
      -- what the others see
      have others : ∀ q : St T A, q.ws = s.ws → (∀ m, m ≤ s.ws → q.maps m = s.maps m) → ∀ u, u ≠ t →
          (∀ rt m, s.pc u = .index rt m → m ≤ q.ws ∧ Sub (q.maps m) (q.maps q.ws)) ∧
          (∀ rt c, s.pc u = .publish rt c → q.maps q.wss rt = some c ∧ q.stack = []) ∧
          (∀ rt c, s.pc u = .unlock rt c → q.maps q.ws rt = some c) ∧
          (∀ rt, s.pc u = .enter rt → q.stack = []) ∧
          (∀ rt, s.pc u = .fill rt → q.stack ≠ [] ∧ ∀ f, q.stack.getLast? = some f → f.ty = rt) := by
        intro q h1 h2 u hu
        have := oth u hu
        refine ⟨?_, ?_, ?_, ?_, ?_⟩
        · intro rt' m hm
          obtain ⟨h3, h4⟩ := ht.loaded u rt' m hm
          rw [h1, h2 m h3, h2 _ (Nat.le_refl _)]
          exact ⟨h3, h4⟩
        all_goals (intros; rename_i k; simp [k, crit] at this)
      have stay : s.pc = set s.pc t (.fill rt) := by
        funext u
        by_cases k : u = t
        · subst k; rw [set_self, hp]
        · rw [set_ne _ _ k]
      split at hs
      · rename_i m hfill
        split at hs <;> simp only [Option.some.injEq] at hs <;> subst hs
        · rename_i hm
          constructor
          · exact keep t (.fill rt) _ _ stay rfl (by simp [hp, writing]) hph <| hd.create (e := e) m hm
          · have mm : ∀ k, k ≤ s.ws → (s.create e m).maps k = s.maps k := by
              intro k hk
              simp only [St.create]
              rw [set_ne _ _ (by omega)]
            refine ht.move (t := t) stay rfl (by simp [hp, crit]) (others _ rfl mm) ⟨by simp, by simp, by simp, by simp, ?_⟩ ?_
            · intro rt' h
              cases h
              refine ⟨by simp [St.create], ?_⟩
              intro f' hf'
              simp only [St.create] at hf'
              rw [List.getLast?_cons, List.getLast?_eq_some_getLast hne] at hf'
              exact hlast f' (by rw [List.getLast?_eq_some_getLast hne]; simpa using hf')
            · intro rt' c' hm
              show (s.create e m).maps s.ws rt' = some c'
              rw [mm _ (Nat.le_refl _)]
              exact ht.ret _ _ hm
        · rename_i c hm
          constructor
          · refine keep t (.fill rt) _ _ stay rfl (by simp [hp, writing]) hph <| hd.edit hst _ _ ?_ (Or.inr ⟨⟨_, rfl, rfl, rfl⟩, ?_⟩)
            · intro x
              refine ⟨rfl, ?_⟩
              intro r hr
              simp only [List.mem_cons] at hr
              rcases hr with rfl | hr
              · exact Or.inr ⟨m, hm⟩
              · exact Or.inl hr
            · intro x; rfl
          · refine ht.move (t := t) stay rfl (by simp [hp, crit]) (others _ rfl (fun _ _ => rfl)) ⟨by simp, by simp, by simp, by simp, ?_⟩
              ht.ret
            intro rt' h
            cases h
            refine ⟨by simp, ?_⟩
            intro f' hf'
            cases rest with
            | nil =>
              simp only [List.getLast?_singleton, Option.some.injEq] at hf'
              subst hf'
              exact hlast f (by simp [hst])
            | cons g gs =>
              rw [List.getLast?_cons_cons] at hf'
              exact hlast f' (by rw [hst, List.getLast?_cons_cons]; exact hf')
      · simp only [Option.some.injEq] at hs
        subst hs
        constructor
        · have : phase { s with stack := [], pc := set s.pc t (.fail rt) } = false := by simp [phase, (ht.lk t).1 hc, writing]
          rw [this]
          exact hd.drop.cast rfl rfl rfl rfl rfl rfl rfl
        · exact ht.move (t := t) rfl rfl (by simp [hp, crit]) (others _ rfl (fun _ _ => rfl)) (by simp) ht.ret
      · rename_i a hfill
        have key := hd.edit hst (fun x => { x with att := a, done := true }) rest (fun x => ⟨rfl, fun r hr => Or.inl hr⟩)
          (Or.inl ⟨rfl, fun x => rfl⟩)
        have hfr := (hd.frames f (by simp [hst])).1
        split at hs <;> simp only [Option.some.injEq] at hs <;> subst hs
        · constructor
          · exact keep t _ _ _ rfl rfl (by simp [hp, writing]) hph <| key.cast rfl rfl rfl rfl rfl rfl rfl
          · refine ht.move (t := t) rfl rfl (by simp [hp, crit]) (others _ rfl (fun _ _ => rfl)) ⟨by simp, ?_, by simp, by simp, by simp⟩ ht.ret
            intro rt' c' h
            cases h
            have : f.ty = rt := hlast f (by simp [hst])
            exact ⟨this ▸ hfr, rfl⟩
        · rename_i hr
          constructor
          · exact keep t (.fill rt) _ _ stay rfl (by simp [hp, writing]) hph <| key
          · refine ht.move (t := t) stay rfl (by simp [hp, crit]) (others _ rfl (fun _ _ => rfl)) ⟨by simp, by simp, by simp, by simp, ?_⟩ ht.ret
            intro rt' h
            cases h
            refine ⟨fun k => hr k, ?_⟩
            intro f' hf'
            refine hlast f' ?_
            rw [hst]
            cases rest with
            | nil => simp at hf'
            | cons g gs => rw [List.getLast?_cons_cons]; exact hf'
    · -- publish
      rename_i rt c hp
      have hc : crit (s.pc t) = true := by simp [hp, crit]
      have hph : phase s = true := by rw [ht.phase hc, hp]; rfl
      rw [hph] at hd
      have oth : ∀ u, u ≠ t → crit (s.pc u) = false := by
        intro u hu
        cases k : crit (s.pc u) with
        | false => rfl
        | true => exact absurd (ht.one k hc) hu
      have hlt := hd.lt rfl
      simp only [Option.some.injEq] at hs
      subst hs
      obtain ⟨h1, h2⟩ := ht.pub t rt c hp
      constructor
      · have : phase { s with ws := s.wss, pc := set s.pc t (.unlock rt c) } = false := by simp [phase, (ht.lk t).1 hc, writing]
        rw [this]
        exact (hd.publish h2).cast rfl rfl rfl rfl rfl rfl rfl
      · refine ht.move (t := t) rfl rfl (by simp [hp, crit]) ?_
          ⟨by simp, by simp, by intro _ _ h; cases h; exact h1, by simp, by simp⟩ ?_
        · intro u hu
          have := oth u hu
          refine ⟨?_, ?_, ?_, ?_, ?_⟩
          · intro rt' m hm
            obtain ⟨h3, h4⟩ := ht.loaded u rt' m hm
            exact ⟨by simp only; omega, fun x d hx => hd.sub rfl x d (h4 x d hx)⟩
          all_goals (intros; rename_i k; simp [k, crit] at this)
        · intro rt' c' hm
          exact hd.sub rfl _ _ (ht.ret _ _ hm)
    · -- unlock
      rename_i rt c hp
      have hc : crit (s.pc t) = true := by simp [hp, crit]
      have hph : phase s = false := by rw [ht.phase hc, hp]; rfl
      rw [hph] at hd
      simp only [Option.some.injEq] at hs
      subst hs
      refine ⟨hd.cast rfl rfl rfl rfl rfl rfl rfl, ht.leave hc rfl rfl rfl rfl ?_⟩
      intro rt' c' hm
      simp only [List.mem_cons, Prod.mk.injEq, Option.some.injEq] at hm
      rcases hm with ⟨rfl, rfl⟩ | hm
      · exact ht.unl t _ _ hp
      · exact ht.ret _ _ hm
    · -- fail
      rename_i rt hp
      have hc : crit (s.pc t) = true := by simp [hp, crit]
      have hph : phase s = false := by rw [ht.phase hc, hp]; rfl
      rw [hph] at hd
      simp only [Option.some.injEq] at hs
      subst hs
      refine ⟨hd.cast rfl rfl rfl rfl rfl rfl rfl, ht.leave hc rfl rfl rfl rfl ?_⟩
      intro rt' c' hm
      simp only [List.mem_cons, Prod.mk.injEq, reduceCtorEq, and_false, false_or] at hm
      exact ht.ret _ _ hm

theorem run_inv {s s' : St T A} (cs : List (Choice T)) (h : Inv s) (hs : run e s cs = some s') : Inv s' := by
  induction cs generalizing s with
  | nil => simp only [run, Option.some.injEq] at hs; exact hs ▸ h
  | cons c cs ih =>
    simp only [run] at hs
    split at hs
    · exact absurd hs (by simp)
    · rename_i q hq
      exact ih (step_inv h c hq) hs

end Verif.CodecCache
