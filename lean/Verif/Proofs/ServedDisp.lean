import Verif.Proofs.ServedMore
/-!
A dispatcher that waits for the lock of a request whose connection is stuck.
-/
namespace Verif.Served

structure Halt (s : St) (r : Nat) : Prop extends Halted s r where
  lt : r < s.m

theorem halt_par {p p' : Parallel.St} {ch : Parallel.Choice} {r : Nat} (hd : p.d = .claim r) (hc : ch ≠ .disp)
    (h : Parallel.step p ch = some p') : p'.d = .claim r ∧ ∀ q, p.h q = .idle → p'.h q = .idle := by
  have hf : ∀ src x code, (Parallel.respondFail p src x code).d = p.d ∧ (Parallel.respondFail p src x code).h = p.h := by
    intro src x code
    unfold Parallel.respondFail Parallel.chainResponse
    (repeat' split) <;> exact ⟨rfl, rfl⟩
  have hr : ∀ src x code, (Parallel.respond p src x code).d = p.d ∧ (Parallel.respond p src x code).h = p.h := by
    intro src x code
    unfold Parallel.respond Parallel.chainResponse
    (repeat' split) <;> exact ⟨rfl, rfl⟩
  cases ch with
  | disp => exact absurd rfl hc
  | dispExit => simp [Parallel.step, Parallel.stepDispExit, hd] at h
  | send x => simp only [Parallel.step] at h; split at h <;> cases h <;> exact ⟨hd, fun _ e => e⟩
  | stop => simp only [Parallel.step] at h; split at h <;> cases h; exact ⟨hd, fun _ e => e⟩
  | fail x code =>
    simp only [Parallel.step] at h
    cases h
    exact ⟨(hf _ _ _).1.trans hd, fun q e => by rw [(hf _ _ _).2]; exact e⟩
  | answer x code =>
    simp only [Parallel.step] at h
    cases h
    exact ⟨(hr _ _ _).1.trans hd, fun q e => by rw [(hr _ _ _).2]; exact e⟩
  | result x o =>
    simp only [Parallel.step] at h
    (repeat' split at h) <;> cases h <;> refine ⟨hd, fun q e => ?_⟩ <;> grind [Parallel.set]
  | hand x =>
    simp only [Parallel.step, Parallel.stepHand] at h
    (repeat' split at h) <;> cases h <;> refine ⟨?_, fun q e => ?_⟩ <;> grind [Parallel.set]

/-- It is enough that the dispatcher stays where it is. -/
theorem halt_keep {s s' : St} {r : Nat} (w : Halt s r) (h1 : s'.p.d = .claim r) (h2 : s.m ≤ s'.m) (h3 : s'.conn r = s.conn r)
    (h4 : s'.key r = s.key r) (h5 : ∀ i, s'.c i = s.c i ∨ ∃ ch, Serv.step (s.c i) ch = some (s'.c i)) : Halt s' r := by
  obtain ⟨k, c⟩ := w.stuck
  suffices h : InRespond s' r ∧ Stuck s' r from ⟨⟨h1, h.1, h.2⟩, Nat.lt_of_lt_of_le w.lt h2⟩
  unfold InRespond Stuck
  rw [h3, h4]
  rcases h5 (s.conn r) with e | ⟨ch, e⟩
  · rw [e]; exact ⟨w.resp, k, c⟩
  · obtain ⟨d1, d2⟩ := Serv.stuck_step c e
    exact ⟨d2 _ w.resp, k, d1⟩

theorem net_m {s s' : St} {i : Nat} {ch : Serv.Choice} (h : s.net i ch = some s') : s'.m = s.m := by
  unfold St.net at h
  simp only [Option.map_eq_some_iff] at h
  obtain ⟨x, hx, rfl⟩ := h
  rfl

theorem halt_net {s s' : St} {i r : Nat} {ch : Serv.Choice} (w : Halt s r) (h : s.net i ch = some s') :
    Halt s' r ∧ s'.p.h = s.p.h := by
  obtain ⟨a, b, c, d, e⟩ := net_c h
  exact ⟨halt_keep w (by rw [b]; exact w.disp) (Nat.le_of_eq (net_m h).symm) (by rw [c]) (by rw [d]) a, by rw [b]⟩

theorem halt_step {s s' : St} {r : Nat} {ch : Choice} (w : Halt s r) (h : step s ch = some s') :
    Halt s' r ∧ ∀ q, s.p.h q = .idle → s'.p.h q = .idle := by
  have net : ∀ {i : Nat} {ch : Serv.Choice}, s.net i ch = some s' → Halt s' r ∧ ∀ q, s.p.h q = .idle → s'.p.h q = .idle := by
    intro i ch h
    obtain ⟨a, b⟩ := halt_net w h
    exact ⟨a, fun q e => by rw [b]; exact e⟩
  unfold step at h
  split at h
  · cases h
  split at h
  · split at h
    · unfold St.reg at h
      simp only [Option.map_eq_some_iff] at h
      obtain ⟨s1, h1, rfl⟩ := h
      obtain ⟨a, b, c, d, e⟩ := net_c h1
      have hne : r ≠ s.m := by have := w.lt; omega
      exact ⟨halt_keep w (by simp only [b]; exact w.disp) (Nat.le_succ _) (by simp [set, hne]) (by simp [set, hne]) a,
        fun q e => by simp only [b]; exact e⟩
    · exact net h
  · split at h
    · exact net h
    · cases h
  · split at h
    · exact net h
    · cases h
  · split at h
    · exact net h
    · cases h
  · split at h
    · unfold St.cancel at h
      split at h
      · simp only [Option.bind_eq_some_iff] at h
        obtain ⟨p, h1, h2⟩ := h
        obtain ⟨q1, q2⟩ := halt_par w.disp (by simp) h1
        have w1 : Halt { s with p } r := halt_keep w q1 (Nat.le_refl _) rfl rfl (fun _ => .inl rfl)
        obtain ⟨w2, e⟩ := halt_net w1 h2
        exact ⟨w2, fun q hq => by rw [e]; exact q2 q hq⟩
      · exact net h
    · exact net h
  · cases h
  · exact net h
  · split at h
    · simp only [Option.map_eq_some_iff] at h
      obtain ⟨p, h1, rfl⟩ := h
      obtain ⟨q1, q2⟩ := halt_par w.disp (by simp) h1
      exact ⟨halt_keep w q1 (Nat.le_refl _) rfl rfl (fun _ => .inl rfl), q2⟩
    · cases h
  · rename_i ch
    unfold St.svc at h
    split at h
    · by_cases hc : ch = .disp
      · subst hc
        have hl : locks s.p .disp = some r := by simp [locks, w.disp]
        have hk : s.locked r = true := by
          have := w.resp
          unfold InRespond at this
          unfold St.locked St.resp
          rcases this with b | b <;> simp [b]
        simp only [hl, hk, if_true] at h
        cases h
      · have key : ∀ p, Parallel.step s.p ch = some p → Halt { s with p } r ∧ ∀ q, s.p.h q = .idle → p.h q = .idle := by
          intro p h1
          obtain ⟨q1, q2⟩ := halt_par w.disp hc h1
          exact ⟨halt_keep w q1 (Nat.le_refl _) rfl rfl (fun _ => .inl rfl), q2⟩
        split at h
        · simp only [Option.map_eq_some_iff] at h
          obtain ⟨p, h1, rfl⟩ := h
          exact key p h1
        · split at h
          · cases h
          · simp only [Option.bind_eq_some_iff] at h
            obtain ⟨p, h1, h2⟩ := h
            obtain ⟨w1, e1⟩ := key p h1
            split at h2
            · simp only [Option.map_eq_some_iff] at h2
              obtain ⟨s1, h2, rfl⟩ := h2
              obtain ⟨w2, e2⟩ := halt_net w1 h2
              have e3 : ∀ q, s.p.h q = .idle → s1.p.h q = .idle := fun q hq => by rw [e2]; exact e1 q hq
              cases ch <;> simp only [St.enter] <;>
                exact ⟨halt_keep w2 w2.disp (Nat.le_refl _) rfl rfl (fun _ => .inl rfl), e3⟩
            · cases h2
              exact ⟨w1, e1⟩
    · cases h

theorem halt_run {s s' : St} {r : Nat} {ds : List Choice} (w : Halt s r) (h : run s ds = some s') :
    Halt s' r ∧ ∀ q, s.p.h q = .idle → s'.p.h q = .idle := by
  induction ds generalizing s with
  | nil => cases h; exact ⟨w, fun _ e => e⟩
  | cons c ds ih =>
    simp only [run, Option.bind_eq_some_iff] at h
    obtain ⟨s1, hs, hr⟩ := h
    obtain ⟨w1, e1⟩ := halt_step w hs
    obtain ⟨w2, e2⟩ := ih w1 hr
    exact ⟨w2, fun q e => e2 q (e1 q e)⟩

end Verif.Served
