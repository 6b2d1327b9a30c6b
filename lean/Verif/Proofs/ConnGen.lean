import Verif.Proofs.ConnInv
/-!
What holds of the client connection whatever the peer does.
-/
namespace Verif.Conn


/-- What `getNext` relies on. -/
structure Gen (s : St) : Prop where
  lt : s.h.curId < M
  big : s.h.big = s.h.curId / 256
  free : ∀ j, (s.h.heap s.h.cur).fake j ≠ 0 → j ≤ s.h.curId % 256
  fake : ∀ o j, (s.h.heap o).fake j ≠ pingId
  idOf : ∀ r i, s.idOf r = some i → i ≠ pingId
  wp : ∀ i r f, s.wp = .write i r f → i ≠ pingId
  wire : ∀ i r f, (i, r, f) ∈ s.wire → i ≠ pingId

structure HGen (h : Holder) : Prop where
  lt : h.curId < M
  big : h.big = h.curId / 256
  free : ∀ j, (h.heap h.cur).fake j ≠ 0 → j ≤ h.curId % 256
  fake : ∀ o j, (h.heap o).fake j ≠ pingId

theorem turn_gen {h : Holder} (g : HGen h) (k : Holder) (hk : k = Holder.turn { h with curId := (h.curId + 1) % M }) :
    k.curId = (h.curId + 1) % M ∧ k.big = k.curId / 256 ∧ (∀ j, (k.heap k.cur).fake j ≠ 0 → j < k.curId % 256) ∧
      ∀ o j, (k.heap o).fake j ≠ pingId := by
  obtain ⟨g1, g2, g3, g4⟩ := g
  have hcase : (h.curId + 1) % M = h.curId + 1 ∨ (h.curId + 1) % M = 0 ∧ h.curId + 1 = M := by
    unfold M at *
    omega
  generalize hc : (h.curId + 1) % M = c at *
  unfold Holder.turn at hk
  dsimp only at hk
  split at hk <;> subst hk
  · refine ⟨rfl, rfl, ?_, ?_⟩
    · intro j hj
      simp [set, Row.new] at hj
    · intro o j
      simp only [set]
      split
      · simp [Row.new, pingId]
      · exact g4 o j
  · rename_i ht
    have hcc : c = h.curId + 1 := by
      rcases hcase with e | e
      · exact e
      · unfold M at *; omega
    refine ⟨rfl, by dsimp only; omega, ?_, g4⟩
    intro j hj
    have := g3 j hj
    dsimp only
    omega

theorem hgen_round {h : Holder} (g : HGen h) : HGen h.round.1 ∧
    (h.round.2 = none → h.round.1.curId = 0 ∨ h.round.1.curId = pingId) ∧ h.round.1.curId = (h.curId + 1) % M := by
  unfold Holder.round
  dsimp only
  obtain ⟨k1, k2, k3, k4⟩ := turn_gen g _ rfl
  generalize Holder.turn { h with curId := (h.curId + 1) % M } = k at *
  have hM : k.curId < M := by rw [k1]; exact Nat.mod_lt _ (by unfold M; omega)
  split
  · rename_i hid
    have hfree : (k.heap k.cur).fake (k.curId % 256) = 0 := by
      apply Classical.byContradiction
      intro hne
      have := k3 _ hne
      omega
    rw [if_neg (by simp [hfree])]
    refine ⟨⟨hM, k2, ?_, ?_⟩, fun e => by (cases e), k1⟩
    · intro j hj
      dsimp only at hj ⊢
      rw [set, if_pos rfl] at hj
      dsimp only at hj
      rw [set] at hj
      split at hj
      · omega
      · have := k3 j hj; omega
    · intro o j
      dsimp only
      rw [set]
      split
      · dsimp only
        rw [set]
        split
        · exact hid.2
        · exact k4 _ _
      · exact k4 o j
  · rename_i hid
    refine ⟨⟨hM, k2, ?_, k4⟩, fun _ => ?_, k1⟩
    · intro j hj
      have := k3 j hj
      dsimp only
      omega
    · dsimp only
      omega

theorem hgen_rounds {n : Nat} {h h' : Holder} {o j : Nat} (g : HGen h) (e : Holder.rounds n h = some (h', o, j)) : HGen h' := by
  induction n generalizing h with
  | zero => cases e
  | succ n ih =>
    have hg := hgen_round g
    unfold Holder.rounds at e
    split at e
    · rename_i e1
      rw [e1] at hg
      cases e
      exact hg.1
    · rename_i e1
      rw [e1] at hg
      exact ih hg.1 e

theorem rounds_three {h : Holder} (g : HGen h) : Holder.rounds 3 h ≠ none := by
  have r1 := hgen_round g
  unfold Holder.rounds
  split
  · simp
  · rename_i h1 e1
    rw [e1] at r1
    have r2 := hgen_round r1.1
    unfold Holder.rounds
    split
    · simp
    · rename_i h2 e2
      rw [e2] at r2
      have r3 := hgen_round r2.1
      unfold Holder.rounds
      split
      · simp
      · rename_i h3 e3
        rw [e3] at r3
        have a1 := r1.2.1 rfl
        have a2 := r2.2.1 rfl
        have a3 := r3.2.1 rfl
        have b2 := r2.2.2
        have b3 := r3.2.2
        simp only at a1 a2 a3 b2 b3
        unfold pingId M at *
        omega

theorem Gen.h {s : St} (g : Gen s) : HGen s.h := ⟨g.lt, g.big, g.free, g.fake⟩

theorem Gen.put {s : St} (g : Gen s) {h : Holder} (gh : HGen h) : Gen { s with h } :=
  { g with lt := gh.lt, big := gh.big, free := gh.free, fake := gh.fake }

theorem hgen_req {h : Holder} (g : HGen h) (o : Nat) (f : Nat → Option Nat) :
    HGen { h with heap := set h.heap o { h.heap o with req := f } } := by
  have e1 : ∀ o' j, (set h.heap o { h.heap o with req := f } o').fake j = (h.heap o').fake j := by
    intro o' j
    unfold set
    split
    · subst_vars; rfl
    · rfl
  refine ⟨g.lt, g.big, ?_, ?_⟩
  · intro j hj
    rw [e1] at hj
    exact g.free j hj
  · intro o' j
    rw [e1]
    exact g.fake o' j

theorem gen_answer {s : St} (g : Gen s) (r : Nat) (a : Ans) : Gen (answer s r a) := by
  have : HGen (unchain s.h (s.slot r)) := by
    unfold unchain
    split
    · exact g.h
    · exact hgen_req g.h _ _
  exact { g with lt := this.lt, big := this.big, free := this.free, fake := this.fake }

theorem gen_respond {s : St} (g : Gen s) (r : Nat) (a : Ans) : Gen (respond s r a) := by
  unfold respond
  split
  · exact gen_answer g r a
  · exact g

theorem gen_respondFail {s : St} (g : Gen s) (r : Nat) (a : Ans) : Gen (respondFail s r a) := by
  unfold respondFail
  split
  · exact g
  · exact gen_answer g r a

theorem gen_offer {s : St} (g : Gen s) (r o j : Nat) : Gen (offer s r o j) := by
  unfold offer
  split
  · have := hgen_req g.h o (set (s.h.heap o).req j (some r))
    exact { g with lt := this.lt, big := this.big, free := this.free, fake := this.fake, wp := fun _ _ _ e => by cases e }
  · exact { g with }

theorem hgen_remove {h h' : Holder} {id : Nat} {q : Option Nat} (g : HGen h) (e : h.remove id = some (h', q)) : HGen h' := by
  unfold Holder.remove at e
  cases hf : h.fetch (id / 256) with
  | none => rw [hf] at e; cases e
  | some k =>
    rw [hf] at e
    have gk : HGen k := by
      unfold Holder.fetch at hf
      (repeat' split at hf) <;> cases hf
      · exact { g with }
      · exact g
    cases e
    have e1 : ∀ o j, (set k.heap k.last { k.heap k.last with
        freed := (k.heap k.last).freed + 1, fake := set (k.heap k.last).fake (id % 256) 0 } o).fake j =
        (k.heap o).fake j ∨ (set k.heap k.last { k.heap k.last with
        freed := (k.heap k.last).freed + 1, fake := set (k.heap k.last).fake (id % 256) 0 } o).fake j = 0 := by
      intro o j
      by_cases ho : o = k.last
      · subst ho
        simp only [set, if_true]
        split
        · exact .inr rfl
        · exact .inl rfl
      · simp [set, ho]
    refine ⟨gk.lt, gk.big, ?_, ?_⟩
    · intro j hj
      rcases e1 k.cur j with e | e
      · simp only at hj
        rw [e] at hj
        exact gk.free j hj
      · exact absurd e hj
    · intro o j
      rcases e1 o j with e | e
      · simp only
        rw [e]
        exact gk.fake o j
      · simp only
        rw [e]
        simp [pingId]

theorem gen_init : Gen init := by
  constructor <;> simp [init, Holder.init, Row.new, M, pingId]

theorem gen_step {s s' : St} {c : Choice} (g : Gen s) (hs : step s c = some s') : Gen s' := by
  cases c <;> simp only [step] at hs
  case take r =>
    (repeat' split at hs) <;> cases hs
    · exact gen_offer g _ _ _
    · rename_i e
      refine gen_offer (g.put ?_) _ _ _
      exact hgen_rounds (n := 3) (h := { s.h with got := s.h.got + 1 }) ⟨g.lt, g.big, g.free, g.fake⟩ e
  case header =>
    (repeat' split at hs) <;> cases hs
    refine { g with idOf := ?_, wp := ?_ }
    · intro q i e
      simp only [set] at e
      split at e
      · cases e; exact g.fake _ _
      · exact g.idOf q i e
    · intro i q f e
      cases e
      exact g.fake _ _
  case wrote =>
    split at hs
    · rename_i id r full hw
      split at hs <;> cases hs
      · refine { g with wire := ?_, wp := fun _ _ _ e => by cases e }
        intro i q f hm
        rcases List.mem_append.1 hm with hm | hm
        · exact g.wire i q f hm
        · simp only [List.mem_singleton, Prod.mk.injEq] at hm
          rw [hm.1]
          exact g.wp _ _ _ hw
      · exact { g with wp := fun _ _ _ e => by cases e }
    · cases hs
  case endWrite =>
    (repeat' split at hs) <;> cases hs
    exact { g with wp := fun _ _ _ e => by cases e }
  case resp =>
    (repeat' split at hs) <;> cases hs
    · have := hgen_remove g.h ‹_›
      exact { g with lt := this.lt, big := this.big, free := this.free, fake := this.fake }
    · exact { g with }
  case reply =>
    (repeat' split at hs) <;> cases hs
    · exact { g with }
    · exact { gen_respond g _ _ with }
  case endRead => (repeat' split at hs) <;> cases hs; exact { g with }
  case fail => cases hs; exact gen_respondFail g _ _
  case flush => (repeat' split at hs) <;> cases hs <;> exact { g with }
  case flushOne =>
    (repeat' split at hs) <;> cases hs <;> first | exact { g with } | exact { gen_respondFail g _ _ with }

theorem gen_run {cs : List Choice} {s s' : St} (g : Gen s) (hs : run s cs = some s') : Gen s' := by
  induction cs generalizing s with
  | nil => cases hs; exact g
  | cons c cs ih =>
    simp only [run] at hs
    cases e : step s c with
    | none => rw [e] at hs; cases hs
    | some s1 =>
      rw [e] at hs
      exact ih (gen_step g e) hs

/-- A request that has left the pending state does not come back to it. -/
theorem left_step {s s' : St} {c : Choice} {r : Nat} (hs : step s c = some s') (hr : s.rs r ≠ .pending) : s'.rs r ≠ .pending := by
  have ha : ∀ (s : St) q a, s.rs r ≠ .pending → (answer s q a).rs r ≠ .pending := by
    intro s q a h
    simp only [answer, set]
    split
    · simp
    · exact h
  have h1 : ∀ (s : St) q a, s.rs r ≠ .pending → (respond s q a).rs r ≠ .pending := by
    intro s q a h
    unfold respond
    split
    · exact ha _ _ _ h
    · exact h
  have h2 : ∀ (s : St) q a, s.rs r ≠ .pending → (respondFail s q a).rs r ≠ .pending := by
    intro s q a h
    unfold respondFail
    split
    · exact h
    · exact ha _ _ _ h
  have h3 : ∀ (s : St) q o j, s.rs r ≠ .pending → (offer s q o j).rs r ≠ .pending := by
    intro s q o j h
    unfold offer claim
    split
    · simp only [set]
      split
      · simp
      · exact h
    · exact h
  cases c <;> simp only [step] at hs <;> (repeat' split at hs) <;> cases hs <;>
    first | exact hr | exact h1 _ _ _ hr | exact h2 _ _ _ hr | exact h3 _ _ _ _ hr

/-- What the write loop has in hand or has written is taken, and once. -/
structure Once (s : St) : Prop where
  wire : ∀ i r f, (i, r, f) ∈ s.wire → s.rs r ≠ .pending
  hdr : ∀ r o j, s.wp = .header r o j → s.rs r ≠ .pending ∧ ∀ i f, (i, r, f) ∉ s.wire
  wr : ∀ i r f, s.wp = .write i r f → s.rs r ≠ .pending ∧ ∀ i f, (i, r, f) ∉ s.wire
  nodup : (s.wire.map (·.2.1)).Nodup

theorem same {s s' : St} {c : Choice} (hs : step s c = some s') :
    (s'.wire = s.wire ∨ ∃ i r f, s.wp = .write i r f ∧ s'.wp = .loop ∧ s'.wire = s.wire ++ [(i, r, f)]) ∧
    (∀ r o j, s'.wp = .header r o j → s.wp = .header r o j ∨ s.rs r = .pending ∧ s'.rs r = .inFly ∧ s'.wire = s.wire) ∧
    (∀ i r f, s'.wp = .write i r f → s.wp = .write i r f ∨ ∃ o j, s.wp = .header r o j) := by
  have ha : ∀ (s : St) q a, (answer s q a).wire = s.wire ∧ (answer s q a).wp = s.wp := fun _ _ _ => ⟨rfl, rfl⟩
  have h1 : ∀ (s : St) q a, (respond s q a).wire = s.wire ∧ (respond s q a).wp = s.wp := by
    intro s q a
    unfold respond
    split
    · exact ha _ _ _
    · exact ⟨rfl, rfl⟩
  have h2 : ∀ (s : St) q a, (respondFail s q a).wire = s.wire ∧ (respondFail s q a).wp = s.wp := by
    intro s q a
    unfold respondFail
    split
    · exact ⟨rfl, rfl⟩
    · exact ha _ _ _
  have h3 : ∀ (s : St) q o j, s.wp = .loop → (offer s q o j).wire = s.wire ∧ (∀ r o' j', (offer s q o j).wp = .header r o' j' →
      s.rs r = .pending ∧ (offer s q o j).rs r = .inFly) ∧ ∀ i r f, (offer s q o j).wp ≠ .write i r f := by
    intro s q o j hw
    unfold offer claim
    split
    · refine ⟨rfl, ?_, ?_⟩
      · intro r o j e
        cases e
        exact ⟨‹_›, by simp [set]⟩
      · intro i r f e
        cases e
    · refine ⟨rfl, ?_, ?_⟩ <;> simp [hw]
  cases c <;> simp only [step] at hs
  case take =>
    (repeat' split at hs) <;> cases hs
    · obtain ⟨a, b, c⟩ := h3 s _ _ _ ‹_›
      exact ⟨.inl a, fun r o j e => .inr ⟨(b _ _ _ e).1, (b _ _ _ e).2, a⟩, fun i r f e => absurd e (c i r f)⟩
    · rename_i hw _ _ _ h o j _
      obtain ⟨a, b, c⟩ := h3 { s with h := h } _ _ _ hw
      exact ⟨.inl a, fun r o j e => .inr ⟨(b _ _ _ e).1, (b _ _ _ e).2, a⟩, fun i r f e => absurd e (c i r f)⟩
  case header =>
    (repeat' split at hs) <;> cases hs
    rename_i hw
    refine ⟨.inl rfl, fun _ _ _ e => by (cases e), fun i r f e => ?_⟩
    cases e
    exact .inr ⟨_, _, hw⟩
  case wrote =>
    (repeat' split at hs) <;> cases hs
    · rename_i hw _
      exact ⟨.inr ⟨_, _, _, hw, rfl, rfl⟩, fun _ _ _ e => by (cases e), fun _ _ _ e => by (cases e)⟩
    · exact ⟨.inl rfl, fun _ _ _ e => by (cases e), fun _ _ _ e => by (cases e)⟩
  case endWrite =>
    (repeat' split at hs) <;> cases hs
    exact ⟨.inl rfl, fun _ _ _ e => by (cases e), fun _ _ _ e => by (cases e)⟩
  case fail =>
    cases hs
    rw [(h2 s _ _).1, (h2 s _ _).2]
    exact ⟨.inl rfl, fun _ _ _ e => .inl e, fun _ _ _ e => .inl e⟩
  case reply =>
    (repeat' split at hs) <;> cases hs
    · exact ⟨.inl rfl, fun _ _ _ e => .inl e, fun _ _ _ e => .inl e⟩
    · dsimp only
      rw [(h1 s _ _).1, (h1 s _ _).2]
      exact ⟨.inl rfl, fun _ _ _ e => .inl e, fun _ _ _ e => .inl e⟩
  case flushOne =>
    (repeat' split at hs) <;> cases hs
    all_goals first
      | exact ⟨.inl rfl, fun _ _ _ e => .inl e, fun _ _ _ e => .inl e⟩
      | (dsimp only
         rw [(h2 s _ _).1, (h2 s _ _).2]
         exact ⟨.inl rfl, fun _ _ _ e => .inl e, fun _ _ _ e => .inl e⟩)
  all_goals
    (repeat' split at hs) <;> cases hs <;> exact ⟨.inl rfl, fun _ _ _ e => .inl e, fun _ _ _ e => .inl e⟩

theorem once_init : Once init := by constructor <;> simp [init]

theorem once_step {s s' : St} {c : Choice} (g : Once s) (hs : step s c = some s') : Once s' := by
  obtain ⟨a, b, c'⟩ := same hs
  have hl : ∀ r, s.rs r ≠ .pending → s'.rs r ≠ .pending := fun r => left_step hs
  refine ⟨?_, ?_, ?_, ?_⟩
  · intro i r f hm
    rcases a with a | ⟨i', r', f', hw, _, a⟩
    · rw [a] at hm
      exact hl r (g.wire i r f hm)
    · rw [a, List.mem_append] at hm
      rcases hm with hm | hm
      · exact hl r (g.wire i r f hm)
      · simp only [List.mem_singleton, Prod.mk.injEq] at hm
        rw [hm.2.1]
        exact hl r' (g.wr _ _ _ hw).1
  · intro r o j e
    rcases b r o j e with e1 | ⟨e1, e2, e3⟩
    · obtain ⟨h1, h2⟩ := g.hdr r o j e1
      refine ⟨hl r h1, ?_⟩
      rcases a with a | ⟨i', r', f', hw, hw', _⟩
      · rw [a]; exact h2
      · rw [e] at hw'; cases hw'
    · refine ⟨by rw [e2]; simp, ?_⟩
      rw [e3]
      exact fun i f hm => g.wire i r f hm e1
  · intro i r f e
    have hq : s.rs r ≠ .pending ∧ ∀ i f, (i, r, f) ∉ s.wire := by
      rcases c' i r f e with e1 | ⟨o, j, e1⟩
      · exact g.wr _ _ _ e1
      · exact g.hdr _ _ _ e1
    refine ⟨hl r hq.1, ?_⟩
    rcases a with a | ⟨i', r', f', hw, hw', _⟩
    · rw [a]; exact hq.2
    · rw [e] at hw'; cases hw'
  · rcases a with a | ⟨i', r', f', hw, _, a⟩
    · rw [a]; exact g.nodup
    · rw [a, List.map_append, List.nodup_append]
      refine ⟨g.nodup, by simp, ?_⟩
      intro x hx y hy
      simp only [List.map_cons, List.map_nil, List.mem_singleton] at hy
      rintro rfl
      obtain ⟨⟨i, q, f⟩, hm, e⟩ := List.mem_map.1 hx
      simp only at e
      rw [hy] at e
      subst e
      exact (g.wr _ _ _ hw).2 i f hm

theorem once_run {cs : List Choice} {s s' : St} (g : Once s) (hs : run s cs = some s') : Once s' := by
  induction cs generalizing s with
  | nil => cases hs; exact g
  | cons c cs ih =>
    simp only [run] at hs
    cases e : step s c with
    | none => rw [e] at hs; cases hs
    | some s1 =>
      rw [e] at hs
      exact ih (once_step g e) hs

theorem unwritten_step {s s' : St} {c : Choice} {r : Nat} (h : Unwritten s r) (hr : s.rs r ≠ .pending) (hs : step s c = some s') :
    Unwritten s' r := by
  obtain ⟨a, b, c'⟩ := same hs
  obtain ⟨h1, h2, h3⟩ := h
  refine ⟨?_, ?_, ?_⟩
  · intro i f hm
    rcases a with a | ⟨i', r', f', hw, _, a⟩
    · rw [a] at hm
      exact h1 i f hm
    · rw [a, List.mem_append] at hm
      rcases hm with hm | hm
      · exact h1 i f hm
      · simp only [List.mem_singleton, Prod.mk.injEq] at hm
        rw [← hm.2.1] at hw
        exact h3 _ _ hw
  · intro o j e
    rcases b r o j e with e1 | e1
    · exact h2 o j e1
    · exact hr e1.1
  · intro i f e
    rcases c' i r f e with e1 | ⟨o, j, e1⟩
    · exact h3 i f e1
    · exact h2 o j e1

theorem unwritten_run {cs : List Choice} {s s' : St} {r : Nat} (h : Unwritten s r) (hr : s.rs r ≠ .pending)
    (hs : run s cs = some s') : Unwritten s' r := by
  induction cs generalizing s with
  | nil => cases hs; exact h
  | cons c cs ih =>
    simp only [run] at hs
    cases e : step s c with
    | none => rw [e] at hs; cases hs
    | some s1 =>
      rw [e] at hs
      exact ih (unwritten_step h hr e) (left_step e hr) hs

end Verif.Conn
