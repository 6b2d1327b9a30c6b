import Verif.Proofs.MultiReqInv
import Verif.Props.Multi
/-! A run of the multi-request with its requests is a run of the multi-request. -/
namespace Verif.MultiReq
open Verif.Request (Data Pc Ev Op setPc)

/-- The calls of everybody but the owner and the cancelers are in the schedule. -/
def Called (s : St) (cs : List Choice) : Prop :=
  ∀ i t op, ¬ Ours t → opOf ((s.r i).pc t) = some op → .req i (.call t op) ∈ cs

/-- Some call of the schedule answers request `i` with this code. -/
def Answers (cs : List Choice) (i : Nat) (x : UInt32) : Prop := ∃ t op, code op = some x ∧ .req i (.call t op) ∈ cs

theorem called_req {s : St} {cs : List Choice} {c : Request.Choice} {i : Nat} {r' : Request.St} (I : Inv s) (hC : Called s cs) (h : Request.step (s.r i) c = some r')
    (d : Choice) (hc : ∀ t op, c = .call t op → ¬ Ours t → d = .req i (.call t op)) (m : Multi.St) :
    Called { m, r := upd s.r i r' } (cs ++ [d]) := by
  intro j u op hu hp
  by_cases e : j = i
  · subst e
    simp only [upd_same] at hp
    have key : ∀ t p, r'.pc = setPc (s.r j).pc t p → (t = u → opOf p = some op → opOf ((s.r j).pc u) = some op ∨ c = .call u op) → .req j (.call u op) ∈ cs ++ [d] := by
      intro t p h1 h2
      rw [h1] at hp
      simp only [setPc] at hp
      split at hp
      · rename_i e
        rcases h2 e.symm hp with h3 | h3
        · exact List.mem_append_left _ (hC j u op hu h3)
        · rw [hc u op h3 hu]; simp
      · exact List.mem_append_left _ (hC j u op hu hp)
    cases did (I.req j) h with
    | call t op' h1 h2 h3 => exact key t _ h2 (by rintro rfl h; cases h; exact .inr rfl)
    | cas t op' h1 h2 h3 h4 h5 => exact key t _ h3 (by rintro rfl h; cases h)
    | go t p h1 h2 => exact key t p h1 (by rintro rfl h; exact .inl (h2 ▸ h))
    | leave t op' h1 h2 => exact key t _ h2 (by rintro rfl h; cases h)
    | bookmark t op' acts h1 h2 => exact key t _ h2 (by rintro rfl h; rw [h1]; exact .inl h)
    | responder t op' x acts h1 h2 h3 => exact key t _ h3 (by rintro rfl h; rw [h1]; exact .inl h)
  · simp only [upd_other e] at hp
    exact List.mem_append_left _ (hC j u op hu hp)

theorem leave_run {m m' : Multi.St} {t : Nat} (h : leave m t = some m') : ∃ ds, Multi.run m ds = some m' ∧ ∀ i x, .answer i x ∉ ds := by
  unfold leave at h
  have one : ∀ c, Multi.step m c = some m' → Multi.run m [c] = some m' := by
    intro c h; simp [Multi.run, h]
  split at h
  · split at h
    · exact ⟨_, h, by simp⟩
    · exact ⟨_, h, by simp⟩
    · exact ⟨_, one _ h, by simp⟩
  · split at h
    · split at h
      · exact ⟨_, h, by simp⟩
      · exact ⟨_, one _ h, by simp⟩
    · cases h; exact ⟨[], rfl, by simp⟩

theorem proj_step {s s' : St} {cs : List Choice} {c : Choice} (I : Inv s) (hC : Called s cs) (h : step s c = some s') :
    Called s' (cs ++ [c]) ∧ ∃ ds, Multi.run s.m ds = some s'.m ∧ ∀ i x, .answer i x ∈ ds → Answers cs i x := by
  have one : ∀ {m m' : Multi.St} c, Multi.step m c = some m' → Multi.run m [c] = some m' := by
    intro m m' c h; simp [Multi.run, h]
  cases c with
  | multi c =>
    have out : ∀ {c d}, (∀ i x, c ≠ .answer i x) → s.withM (Multi.step s.m c) = some s' →
        Called s' (cs ++ [d]) ∧ ∃ ds, Multi.run s.m ds = some s'.m ∧ ∀ i x, .answer i x ∈ ds → Answers cs i x := by
      intro c d hc h
      obtain ⟨m, h1, rfl⟩ := withM_some h
      refine ⟨fun i t op ht hp => List.mem_append_left _ (hC i t op ht hp), [c], one _ h1, ?_⟩
      intro i x hx
      rw [List.mem_singleton] at hx
      exact absurd hx.symm (hc i x)
    have fl : ∀ {i t x d}, Ours t → s.fail i t x = some s' →
        Called s' (cs ++ [d]) ∧ ∃ ds, Multi.run s.m ds = some s'.m ∧ ∀ i x, .answer i x ∈ ds → Answers cs i x := by
      intro i t x d ht h
      obtain ⟨r', h1, rfl⟩ := withReq_some h
      refine ⟨called_req I hC h1 d ?_ _, [], rfl, by simp⟩
      intro u op e hu
      cases e
      exact absurd ht hu
    simp only [step] at h
    cases c
    case answer j x => cases h
    case owner =>
      simp only [multiStep] at h
      split at h
      · exact fl (.inl rfl) h
      · exact fl (.inl rfl) h
      · cases h
      · cases h
      · exact out (by simp) h
    case canc k =>
      simp only [multiStep] at h
      split at h
      · exact fl (ours_odd k) h
      · cases h
      · exact out (by simp) h
    all_goals exact out (by simp) h
  | req i c =>
    simp only [step] at h
    have alone : ∀ {c d}, (∀ t op, c = .call t op → ¬ Ours t → d = .req i (.call t op)) → s.withReq i (Request.step (s.r i) c) = some s' →
        Called s' (cs ++ [d]) ∧ ∃ ds, Multi.run s.m ds = some s'.m ∧ ∀ i x, .answer i x ∈ ds → Answers cs i x := by
      intro c d hc h
      obtain ⟨r', h1, rfl⟩ := withReq_some h
      exact ⟨called_req I hC h1 d hc _, [], rfl, by simp⟩
    cases c with
    | call t op =>
      simp only [reqStep] at h
      split at h
      · exact alone (by intro u op' e _; cases e; rfl) h
      · cases h
    | bookmark t acts =>
      simp only [reqStep] at h
      split at h
      · exact alone (by simp) h
      · cases h
    | responder t acts =>
      simp only [reqStep] at h
      split at h
      · cases h
      · rename_i x hx
        split at h
        · rename_i ha
          subst ha
          cases h0 : s.withReq i (Request.step (s.r i) (.responder t [])) with
          | none => rw [h0] at h; cases h
          | some s1 =>
            rw [h0] at h
            obtain ⟨r', h1, rfl⟩ := withReq_some h0
            obtain ⟨m, h2, rfl⟩ := withM_some h
            refine ⟨called_req I hC h1 _ (by simp) _, [_], one _ h2, ?_⟩
            intro j y hy
            rw [List.mem_singleton] at hy
            unfold enter at hy
            split at hy
            · cases hy
            · split at hy
              · cases hy
              · cases hy
                cases did (I.req i) h1 with
                | responder _ op y _ hw hy hp hd hr =>
                  rw [hx] at hy
                  cases hy
                  have hH := ((I.req i).owner t ((I.req i).mutex t (by rw [hw]; rfl))).2
                  rw [hw] at hH
                  obtain ⟨_, z, h5, h6⟩ := hH
                  rw [hx] at h5
                  cases h5
                  refine ⟨t, op, h6, hC i t op ?_ (by rw [hw]; rfl)⟩
                  rintro (h | h) <;> contradiction
        · cases h
    | go t =>
      simp only [reqStep] at h
      split at h
      · split at h
        · exact alone (by simp) h
        · cases h
      · cases h0 : s.withReq i (Request.step (s.r i) (.go t)) with
        | none => rw [h0] at h; cases h
        | some s1 =>
          rw [h0] at h
          obtain ⟨r', h1, rfl⟩ := withReq_some h0
          obtain ⟨m, h2, rfl⟩ := withM_some h
          obtain ⟨ds, h3, h4⟩ := leave_run h2
          exact ⟨called_req I hC h1 _ (by simp) _, ds, h3, fun i x hx => absurd hx (h4 i x)⟩
      · exact alone (by simp) h

theorem proj_run {s s' : St} {cs : List Choice} {es : List Multi.Choice} (I : Inv s) (h : run s cs = some s') {bs : List Choice} (hC : Called s bs) (he : Multi.run Multi.init es = some s.m)
    (ha : ∀ i x, .answer i x ∈ es → Answers bs i x) :
    ∃ ds, Multi.run Multi.init ds = some s'.m ∧ ∀ i x, .answer i x ∈ ds → Answers (bs ++ cs) i x := by
  induction cs generalizing s bs es with
  | nil => cases h; exact ⟨es, he, by rwa [List.append_nil]⟩
  | cons c cs ih =>
    simp only [run] at h
    cases e : step s c with
    | none => rw [e] at h; cases h
    | some t =>
      rw [e] at h
      obtain ⟨h1, ds, h2, h3⟩ := proj_step I hC e
      have h4 : Multi.run Multi.init (es ++ ds) = some t.m := by rw [Multi.run_append he]; exact h2
      obtain ⟨fs, h5, h6⟩ := ih (inv_step I e) h h1 h4 (by
        intro i x hx
        have : Answers bs i x := (List.mem_append.1 hx).elim (ha i x) (h3 i x)
        obtain ⟨t, op, k1, k2⟩ := this
        exact ⟨t, op, k1, List.mem_append_left _ k2⟩)
      refine ⟨fs, h5, ?_⟩
      rwa [List.append_assoc] at h6

/-- The multi-request in a run with its requests runs as in Model/Multi.lean, with answers that somebody called for. -/
theorem proj {msg : Nat → UInt32} {cs : List Choice} {s : St} (h : run (init msg) cs = some s) :
    ∃ ds, Multi.run Multi.init ds = some s.m ∧ ∀ i x, .answer i x ∈ ds → Answers cs i x := by
  have := proj_run (bs := []) (es := []) (inv_init msg) h (by intro i t op _ hp; cases hp) rfl (by simp)
  rwa [List.nil_append] at this

end Verif.MultiReq
