import Verif.Proofs.Send
/-!
`Send` without resets, and a single `Send` while the others only answer and cancel.
-/
namespace Verif.Send
open Verif.Request (Ev RS)

theorem req_true {id msg : UInt32} {resp : Option Request.Resp} {cs : List Choice} {s : St}
    (h : run (init id msg resp) cs = some s) : Request.DA s.r.d := by
  obtain ⟨ds, h1, -⟩ := project_run h
  exact Request.inv_DA (Request.inv_reach Request.rulesA (by simp [Request.init, Request.DA]) (by simp) h1)

theorem req_plain {id msg : UInt32} {resp : Option Request.Resp} {cs : List Choice} {s : St} (hp : ∀ c ∈ cs, c.plain = true)
    (h : run (init id msg resp) cs = some s) : Request.Inv (fun c => c.plain = true) Request.CP Request.HP s.r := by
  obtain ⟨ds, h1, h2⟩ := project_run h
  exact Request.inv_reach Request.rulesP (by simp [Request.init, Request.CP, sends]) (h2 hp) h1

theorem run_snoc {cs : List Choice} {c : Choice} : ∀ {s s' : St}, run s (cs ++ [c]) = some s' →
    ∃ s1, run s cs = some s1 ∧ step s1 c = some s' := by
  induction cs with
  | nil =>
    intro s s' h
    simp only [List.nil_append, run] at h
    cases hs : step s c with
    | none => rw [hs] at h; cases h
    | some s1 => rw [hs] at h; cases h; exact ⟨s, rfl, hs⟩
  | cons d cs ih =>
    intro s s' h
    simp only [List.cons_append, run] at h
    cases hs : step s d with
    | none => rw [hs] at h; cases h
    | some s1 =>
      rw [hs] at h
      obtain ⟨s2, h1, h2⟩ := ih h
      exact ⟨s2, by simp only [run, hs]; exact h1, h2⟩

/-- Induction over executions from the start, with reachability at hand. -/
theorem run_induction {P : List Choice → St → Prop} {i : St} (h0 : P [] i)
    (hs : ∀ cs c s s', run i cs = some s → P cs s → step s c = some s' → P (cs ++ [c]) s') :
    ∀ cs s, run i cs = some s → P cs s := by
  intro cs
  induction h : cs.length generalizing cs with
  | zero =>
    intro s hr
    have : cs = [] := List.length_eq_zero_iff.1 h
    subst this
    cases hr; exact h0
  | succ n ih =>
    intro s hr
    obtain ⟨ds, c, rfl⟩ : ∃ ds c, cs = ds ++ [c] :=
      ⟨cs.dropLast, cs.getLast (by rintro rfl; simp at h), (List.dropLast_concat_getLast _).symm⟩
    obtain ⟨s1, h1, h2⟩ := run_snoc hr
    exact hs ds c s1 s h1 (ih ds (by simpa using h) s1 h1) h2

theorem not_new_run {r r' : Request.St} {ds : List Request.Choice} (hi : Request.Inv (fun c => c.plain = true) Request.CP Request.HP r)
    (hp : ∀ d ∈ ds, d.plain = true) (h : Request.run r ds = some r') (hn : r.d.rs ≠ .new) : r'.d.rs ≠ .new := by
  induction ds generalizing r with
  | nil => cases h; exact hn
  | cons d ds ih =>
    simp only [Request.run] at h
    cases hd : Request.step r d with
    | none => rw [hd] at h; cases h
    | some r1 =>
      rw [hd] at h
      exact ih (Request.inv_step Request.rulesP hi (hp d (by simp)) hd) (fun x hx => hp x (by simp [hx])) h
        (Request.not_new_step hi hd hn)

structure Plain (s : St) : Prop where
  failed : ∀ t, s.pc t = .failed → s.r.d.rs ≠ .new
  panicked : ∀ t, Out.panicked t ∈ s.hist → 1 ≤ sends s.r.d.log

theorem plain_run {id msg : UInt32} {resp : Option Request.Resp} :
    ∀ cs s, run (init id msg resp) cs = some s → (∀ c ∈ cs, c.plain = true) → Plain s := by
  refine run_induction (P := fun cs s => (∀ c ∈ cs, c.plain = true) → Plain s) ?_ ?_
  · intro _; constructor <;> simp [init]
  · intro cs c s s' hr ih hs hp
    have hp1 : ∀ c ∈ cs, c.plain = true := fun x hx => hp x (by simp [hx])
    have hI := ih hp1
    have hq := req_plain hp1 hr
    have hd := req_true hr
    obtain ⟨ds, h1, h2⟩ := project hs
    have hdp := h2 (hp c (by simp))
    have hl := log_run h1
    have hsm := Request.sends_mono hl
    have hnn : s.r.d.rs ≠ .new → s'.r.d.rs ≠ .new := not_new_run hq hdp h1
    clear hq h1 h2 hdp hr ih hp hp1 hl
    obtain ⟨hf, hpan⟩ := hI
    cases c with
    | env c =>
      simp only [step] at hs
      split at hs
      · cases hr : Request.step s.r c with
        | none => rw [hr] at hs; cases hs
        | some r => rw [hr] at hs; cases hs; exact ⟨fun t ht => hnn (hf t ht), fun t ht => Nat.le_trans (hpan t ht) hsm⟩
      · cases hs
    | send t ws k =>
      simp only [step] at hs
      split at hs
      · cases hs
        refine ⟨fun u hu => ?_, fun u hu => Nat.le_trans (hpan u hu) hsm⟩
        simp only [setPc] at hu
        split at hu
        · cases hu
        · exact hnn (hf u hu)
      · cases hs
    | go t =>
      have move : ∀ {r p n}, s' = { s with r, pc := setPc s.pc t p, taken := n } → (p = .failed → s'.r.d.rs ≠ .new) → Plain s' := by
        rintro r p n rfl hpf
        refine ⟨fun u hu => ?_, fun u hu => Nat.le_trans (hpan u hu) hsm⟩
        simp only [setPc] at hu
        split at hu
        · exact hpf hu
        · exact hnn (hf u hu)
      have over : ∀ {r o}, s' = { s with r }.over t o → (∀ u, o = .panicked u → 1 ≤ sends s'.r.d.log) → Plain s' := by
        rintro r o rfl ho
        refine ⟨fun u hu => ?_, fun u hu => ?_⟩
        · simp only [St.over, setPc] at hu
          split at hu
          · cases hu
          · exact hnn (hf u hu)
        · simp only [St.over, List.mem_cons] at hu
          rcases hu with hu | hu
          · exact ho u hu.symm
          · exact Nat.le_trans (hpan u hu) hsm
      simp only [step, Send.go] at hs
      cases hpc : s.pc t <;> rw [hpc] at hs
      case out => cases hs
      case «at» ps ws k =>
        cases ws with
        | nil =>
          simp only at hs
          split at hs
          · cases hs
          · next r hr =>
            split at hs
            · split at hs <;> cases hs <;> exact move rfl (by simp)
            · next hn =>
              split at hs <;> cases hs
              · exact move rfl fun _ => hnn hn
              · exact over rfl (by simp)
        | cons w ws =>
          cases w with
          | route =>
            simp only at hs
            split at hs <;> cases hs
            · exact move (r := s.r) rfl (by simp)
            · exact over (r := s.r) rfl (by simp)
          | stat b =>
            simp only at hs
            split at hs
            · cases hs
            · cases hs; exact move rfl (by simp)
      case chain b ps ws k res =>
        simp only at hs
        split at hs
        · split at hs <;> cases hs
          · exact move (r := s.r) rfl (by simp)
          · exact over (r := s.r) rfl (by simp)
        · split at hs
          · cases hs
          · split at hs <;> cases hs <;> exact move rfl (by simp)
      case failed =>
        simp only at hs
        split at hs <;> cases hs
        · exact over (r := s.r) rfl (by simp)
        · next hperf =>
          refine over (r := s.r) rfl fun u _ => ?_
          have := hf t hpc
          refine hd.1 ?_
          cases hrs : s.r.d.rs <;> simp_all [performed]
      case armed n ps =>
        simp only at hs
        split at hs <;> cases hs <;> exact over (r := s.r) rfl (by simp)
      case claim n ps =>
        simp only at hs
        split at hs
        · cases hs
        · split at hs <;> cases hs <;> exact over rfl (by simp)

/-! ### A single Send -/

/-- Nobody is about to send or claim the request or to change it from a bookmark. -/
def Quiet (p : Request.Pc) : Prop :=
  match p with
  | .wait .setPending | .wait .claim | .wait (.claimWith _) | .locked (.claimWith _) | .claimW _ | .claimC _ => False
  | .react _ acts | .fin _ acts => acts = []
  | _ => True

/-- The same for a step. -/
def quiet : Request.Choice → Bool
  | .call _ .setPending | .call _ .claim | .call _ (.claimWith _) => false
  | .bookmark _ acts | .responder _ acts => acts.isEmpty
  | _ => true

theorem quiet_step {r r' : Request.St} {c : Request.Choice} (hq : ∀ u, Quiet (r.pc u)) (hc : quiet c = true)
    (h : Request.step r c = some r') :
    (∀ u, Quiet (r'.pc u)) ∧ (r'.d.rs = r.d.rs ∨ r'.d.rs = .prepared ∨ r'.d.rs = .performed) := by
  cases c with
  | call t op =>
    simp only [Request.step] at h
    split at h <;> cases h
    refine ⟨fun u => ?_, .inl rfl⟩
    simp only [Request.setPc]
    split
    · cases op <;> simp [quiet] at hc <;> trivial
    · exact hq u
  | go t =>
    have ht := hq t
    simp only [Request.step] at h
    split at h
    · next op hp =>
      rw [hp] at ht
      cases op <;> simp only [Quiet] at ht <;> simp only [Request.St.begin, Request.St.lockStep] at h <;> split at h <;> cases h <;>
        exact ⟨fun u => by simp only [Request.setPc]; split <;> first | trivial | exact hq u, .inl rfl⟩
    · next p hp =>
      cases ho : Request.own r.d t (r.pc t) with
      | none => rw [ho] at h; cases h
      | some x =>
        obtain ⟨d', p'⟩ := x; rw [ho] at h; cases h
        have hkey : Quiet p' ∧ (d'.rs = r.d.rs ∨ d'.rs = .prepared ∨ d'.rs = .performed) := by
          clear hp hq
          generalize r.pc t = p at ho ht
          unfold Request.own at ho
          split at ho
          case h_3 op =>
            simp only [Option.some.injEq] at ho
            cases op <;> simp only [Request.lockedStep] at ho <;> grind [Quiet, Request.Data.note]
          all_goals grind [Quiet, Request.Data.note]
        refine ⟨fun u => ?_, hkey.2⟩
        simp only [Request.setPc]
        split
        · exact hkey.1
        · exact hq u
  | bookmark t acts =>
    simp only [Request.step] at h
    cases ho : Request.enterBookmark r.d acts (r.pc t) with
    | none => rw [ho] at h; cases h
    | some x =>
      obtain ⟨d', p'⟩ := x; rw [ho] at h; cases h
      unfold Request.enterBookmark at ho
      split at ho <;> (try split at ho) <;> cases ho
      refine ⟨fun u => ?_, .inl rfl⟩
      simp only [Request.setPc]
      split
      · simpa [Quiet, quiet] using hc
      · exact hq u
  | responder t acts =>
    simp only [Request.step] at h
    cases ho : Request.enterResponder r.d acts (r.pc t) with
    | none => rw [ho] at h; cases h
    | some x =>
      obtain ⟨d', p'⟩ := x; rw [ho] at h; cases h
      unfold Request.enterResponder at ho
      split at ho <;> (try split at ho) <;> cases ho
      refine ⟨fun u => ?_, .inl rfl⟩
      simp only [Request.setPc]
      split
      · simpa [Quiet, quiet] using hc
      · exact hq u

/-- What a place in `Send` tells about the request. -/
def Lone (r : Request.St) (t : Nat) : Pc → Prop
  | .out => True
  | .at _ _ _ => r.d.rs ≠ .pending ∧ r.d.rs ≠ .inFly
  | .chain b _ _ _ res => (r.d.rs ≠ .pending ∧ r.d.rs ≠ .inFly) ∧
      match res with
      | none => r.pc t = .wait (.chain b) ∨ r.pc t = .locked (.chain b)
      | some true => True
      | some false => r.d.rs = .prepared ∨ r.d.rs = .performed
  | .failed => r.d.rs = .prepared ∨ r.d.rs = .performed
  | .armed _ _ => True
  | .claim _ _ => r.d.rs ≠ .new ∧ r.d.rs ≠ .inFly

structure Single (s : St) : Prop where
  quiet : ∀ u, Quiet (s.r.pc u)
  one : ∀ t u, s.pc t ≠ .out → s.pc u ≠ .out → t = u
  calm : (∀ t, s.pc t = .out) → s.hist = [] → s.r.d.rs ≠ .pending ∧ s.r.d.rs ≠ .inFly
  busy : ∀ t, s.pc t ≠ .out → s.hist = []
  place : ∀ t, Lone s.r t (s.pc t)
  short : s.hist.length ≤ 1
  good : ∀ o ∈ s.hist, (∃ n t ps k, o = .handed n t ps k) ∨ ((∃ t, o = .dropped t) ∧ Answered s.r.d.log)

theorem step_other {r r' : Request.St} {c : Request.Choice} (h : Request.step r c = some r') {u : Nat} (hu : u ≠ who c) :
    r'.pc u = r.pc u := by
  have own : ∀ {t x}, u ≠ t → r.ownStep t x = some r' → r'.pc u = r.pc u := by
    intro t x hut ho
    cases x with
    | none => cases ho
    | some x => cases ho; simp [Request.setPc, hut]
  cases c with
  | call t op => simp only [Request.step] at h; split at h <;> cases h; simp only [who] at hu; simp [Request.setPc, hu]
  | go t =>
    simp only [who] at hu
    simp only [Request.step] at h
    split at h
    · next op hp =>
      cases op <;> simp only [Request.St.begin, Request.St.lockStep] at h <;> (try split at h) <;> cases h <;> simp [Request.setPc, hu]
    · exact own hu h
  | bookmark t acts => exact own hu h
  | responder t acts => exact own hu h

theorem lone_env {r r' : Request.St} {t : Nat} {p : Pc} (hr : r'.d.rs = r.d.rs ∨ r'.d.rs = .prepared ∨ r'.d.rs = .performed)
    (hp : r'.pc t = r.pc t) (h : Lone r t p) : Lone r' t p := by
  cases p <;> simp only [Lone] at h ⊢
  case «at» => grind
  case chain b ps ws k res => rcases res with _ | _ | _ <;> grind
  case failed => grind
  case claim => grind

theorem single_init (id msg : UInt32) (resp : Option Request.Resp) : Single (init id msg resp) := by
  constructor <;> simp [init, Request.init, Quiet, Lone]

/-- The only goroutine in `Send` moves. -/
theorem single_move {s s' : St} {t : Nat} {p : Pc} (h : Single s) (hq : ∀ u, Quiet (s'.r.pc u)) (hpc : s'.pc = setPc s.pc t p)
    (hh : s'.hist = s.hist) (hone : ∀ u, s.pc u ≠ .out → u = t) (hnil : s.hist = []) (hp : p ≠ .out) (hl : Lone s'.r t p) : Single s' := by
  have hout : ∀ u, u ≠ t → s.pc u = .out := fun u hu => by
    by_cases hx : s.pc u = .out
    · exact hx
    · exact absurd (hone u hx) hu
  have hpu : ∀ u, s'.pc u ≠ .out → u = t := by
    intro u hu
    rw [hpc] at hu
    simp only [setPc] at hu
    split at hu
    · assumption
    · exact hone u hu
  refine ⟨hq, fun a b ha hb => by rw [hpu a ha, hpu b hb], ?_, ?_, ?_, by rw [hh]; exact h.short, by rw [hh, hnil]; simp⟩
  · intro hall
    have := hall t
    rw [hpc] at this
    simp [setPc] at this
    exact absurd this hp
  · intro u _; rw [hh]; exact hnil
  · intro u
    rw [hpc]
    simp only [setPc]
    split
    · next e => subst e; exact hl
    · next e => rw [hout u e]; trivial

/-- ... and leaves it. -/
theorem single_over {s s' : St} {t : Nat} {o : Out} (hq : ∀ u, Quiet (s'.r.pc u)) (hpc : s'.pc = setPc s.pc t .out)
    (hh : s'.hist = [o]) (hone : ∀ u, s.pc u ≠ .out → u = t)
    (ho : (∃ n t ps k, o = .handed n t ps k) ∨ ((∃ t, o = .dropped t) ∧ Answered s'.r.d.log)) : Single s' := by
  have hout : ∀ u, s'.pc u = .out := by
    intro u
    rw [hpc]
    simp only [setPc]
    split
    · rfl
    · next e =>
      by_cases hx : s.pc u = .out
      · exact hx
      · exact absurd (hone u hx) e
  refine ⟨hq, fun a b ha => absurd (hout a) ha, ?_, fun u hu => absurd (hout u) hu, fun u => ?_, by rw [hh]; simp, ?_⟩
  · intro _ hx; rw [hh] at hx; cases hx
  · rw [hout u]; trivial
  · rw [hh]; intro o' ho'; simp at ho'; subst ho'; exact ho

theorem quiet_idle {r : Request.St} {t : Nat} {q : Request.Pc} (hq : ∀ u, Quiet (r.pc u)) :
    ∀ u, Quiet (Request.setPc (Request.setPc r.pc t q) t .idle u) := by
  intro u
  simp only [Request.setPc]
  split
  · trivial
  · exact hq u

theorem single_step {s s' : St} {c : Choice} (h : Single s) (hc : c.bystander = true)
    (hsend : c.isSend = true → (∀ t, s.pc t = .out) ∧ s.hist = []) (hd : Request.DA s.r.d) (hs : step s c = some s') : Single s' := by
  cases c with
  | env c =>
    simp only [step] at hs
    split at hs
    · next hout =>
      cases hr : Request.step s.r c with
      | none => rw [hr] at hs; cases hs
      | some r =>
        rw [hr] at hs; cases hs
        have hqc : quiet c = true := by cases c <;> simp [quiet, Choice.bystander] at hc ⊢ <;> (try split at hc) <;> simp_all
        obtain ⟨h1, h2⟩ := quiet_step h.quiet hqc hr
        refine ⟨h1, h.one, ?_, h.busy, fun t => ?_, h.short, fun o ho => ?_⟩
        · intro ha hb
          have := h.calm ha hb
          grind
        · by_cases e : t = who c
          · have : s.pc t = .out := by rw [e]; exact hout
            show Lone r t (s.pc t)
            rw [this]; trivial
          · exact lone_env h2 (step_other hr e) (h.place t)
        · rcases h.good o ho with h3 | ⟨h3, h4⟩
          · exact .inl h3
          · refine .inr ⟨h3, ?_⟩
            obtain ⟨k, hk⟩ := Request.log_step hr
            unfold Answered at h4 ⊢
            have : ∀ l m : List Ev, answers (l ++ m) = answers l + answers m := by
              intro l m
              induction l with
              | nil => simp [answers]
              | cons e l ih => cases e <;> simp only [List.cons_append, answers, ih] <;> omega
            show 0 < answers r.d.log
            rw [← hk, this]; omega
    · cases hs
  | send t ws k =>
    obtain ⟨ha, hb⟩ := hsend rfl
    simp only [step] at hs
    split at hs
    · cases hs
      exact single_move h h.quiet rfl rfl (fun u hu => absurd (ha u) hu) hb (by simp) (h.calm ha hb)
    · cases hs
  | go t =>
    simp only [step, Send.go] at hs
    have hpl := h.place t
    by_cases hne : s.pc t = .out
    · rw [hne] at hs; cases hs
    have hone : ∀ u, s.pc u ≠ .out → u = t := fun u hu => h.one u t hu hne
    have hnil := h.busy t hne
    cases hpc : s.pc t <;> rw [hpc] at hs hpl
    case out => cases hs
    case «at» ps ws k =>
      cases ws with
      | nil =>
        simp only at hs
        split at hs
        · cases hs
        · next r hr =>
          obtain ⟨hi, hr2⟩ := call_pending hr
          have hq : ∀ u, Quiet (r.pc u) := by rw [hr2]; exact quiet_idle h.quiet
          split at hs
          · next hn =>
            split at hs <;> cases hs
            · exact single_move h hq rfl rfl hone hnil (by simp) trivial
            · refine single_move h hq rfl rfl hone hnil (by simp) ?_
              rw [hr2]; simp [Lone, Request.casPending, hn, Request.Data.note]
          · next hn =>
            have hpp : s.r.d.rs = .prepared ∨ s.r.d.rs = .performed := by
              have h1 : s.r.d.rs ≠ .pending ∧ s.r.d.rs ≠ .inFly := hpl
              cases hx : s.r.d.rs <;> simp_all
            have hrd : r.d.rs = s.r.d.rs ∧ r.d.log = .returned t .setPending :: s.r.d.log := by
              rw [hr2]; simp [Request.casPending, hn, Request.Data.note]
            split at hs <;> cases hs
            · refine single_move h hq rfl rfl hone hnil (by simp) ?_
              show r.d.rs = _ ∨ r.d.rs = _
              rw [hrd.1]; exact hpp
            · refine single_over (s := s) hq rfl (by simp [St.over, hnil]) hone (.inr ⟨⟨t, rfl⟩, ?_⟩)
              show Answered r.d.log
              rw [hrd.2]
              exact hd.2 hpp
      | cons w ws =>
        cases w with
        | route =>
          simp only at hs
          split at hs <;> cases hs
          · exact single_move h h.quiet rfl rfl hone hnil (by simp) hpl
          · next hn =>
            refine single_over (s := s) h.quiet rfl (by simp [St.over, hnil]) hone (.inr ⟨⟨t, rfl⟩, hd.2 ?_⟩)
            have h1 : s.r.d.rs ≠ .pending ∧ s.r.d.rs ≠ .inFly := hpl
            cases hx : s.r.d.rs <;> simp_all
        | stat b =>
          simp only at hs
          split at hs
          · cases hs
          · next r hr =>
            cases hs
            obtain ⟨h1, -⟩ := quiet_step h.quiet (c := .call t (.chain b)) rfl hr
            refine single_move h h1 rfl rfl hone hnil (by simp) ?_
            simp only [Request.step] at hr
            split at hr <;> cases hr
            exact ⟨hpl, .inl (by simp [Request.setPc])⟩
    case chain b ps ws k res =>
      simp only at hs
      split at hs
      · next hid =>
        split at hs <;> cases hs
        · exact single_move h h.quiet rfl rfl hone hnil (by simp) hpl.1
        · next hres =>
          refine single_over (s := s) h.quiet rfl (by simp [St.over, hnil]) hone (.inr ⟨⟨t, rfl⟩, hd.2 ?_⟩)
          rcases res with _ | _ | _
          · rcases hpl.2 with h1 | h1 <;> rw [hid] at h1 <;> cases h1
          · exact hpl.2
          · exact absurd rfl hres
      · next hid =>
        split at hs
        · cases hs
        · next r hr =>
          obtain ⟨h1, h2⟩ := quiet_step h.quiet (c := .go t) rfl hr
          split at hs <;> cases hs
          · next hlk =>
            refine single_move h h1 rfl rfl hone hnil (by simp) ?_
            have hrs := hpl.1
            refine ⟨?_, ?_⟩
            · show r.d.rs ≠ _ ∧ r.d.rs ≠ _
              grind
            · show match (some (chains s.r.d)) with
                | none => r.pc t = .wait (.chain b) ∨ r.pc t = .locked (.chain b)
                | some true => True
                | some false => r.d.rs = .prepared ∨ r.d.rs = .performed
              cases hch : chains s.r.d with
              | true => trivial
              | false =>
                have h3 : ¬ (s.r.d.rs = .new ∨ s.r.d.rs = .pending) := by simpa [chains] using hch
                show r.d.rs = _ ∨ r.d.rs = _
                have h4 : s.r.d.rs = .prepared ∨ s.r.d.rs = .performed := by
                  have := hpl.1
                  cases hx : s.r.d.rs <;> simp_all
                grind
          · next hlk =>
            refine single_move h h1 rfl rfl hone hnil (by simp) ?_
            refine ⟨?_, ?_⟩
            · show r.d.rs ≠ _ ∧ r.d.rs ≠ _
              have hrs := hpl.1
              grind
            · rcases res with _ | _ | _
              · rcases hpl.2 with h3 | h3
                · simp only [Request.step, h3, Request.St.begin, Request.St.lockStep] at hr
                  split at hr <;> cases hr
                  exact .inr (by simp [Request.setPc])
                · exact absurd h3 hlk
              · show r.d.rs = _ ∨ r.d.rs = _
                have h3 : s.r.d.rs = .prepared ∨ s.r.d.rs = .performed := hpl.2
                grind
              · trivial
    case failed =>
      have hpf : performed s = true := by simpa [performed, Lone] using hpl
      simp only [hpf, if_true, Option.some.injEq] at hs
      subst hs
      exact single_over (s := s) h.quiet rfl (by simp [St.over, hnil]) hone (.inr ⟨⟨t, rfl⟩, hd.2 hpl⟩)
    case armed n ps =>
      simp only at hs
      split at hs <;> cases hs
      · next hpf =>
        exact single_over (s := s) h.quiet rfl (by simp [St.over, hnil]) hone (.inr ⟨⟨t, rfl⟩, hd.2 (by simpa [performed] using hpf)⟩)
      · exact single_over (s := s) h.quiet rfl (by simp only [St.over, hnil]) hone (.inl ⟨n, t, ps, .point, rfl⟩)
    case claim n ps =>
      simp only at hs
      split at hs
      · cases hs
      · next r hr =>
        obtain ⟨hi, hr2⟩ := call_claim hr
        have hq : ∀ u, Quiet (r.pc u) := by rw [hr2]; exact quiet_idle h.quiet
        split at hs <;> cases hs
        · exact single_over (s := s) hq rfl (by simp only [St.over, hnil]) hone (.inl ⟨n, t, ps, .sf, rfl⟩)
        · next hn =>
          refine single_over (s := s) hq rfl (by simp [St.over, hnil]) hone (.inr ⟨⟨t, rfl⟩, ?_⟩)
          show Answered r.d.log
          rw [hr2]
          have h1 : s.r.d.rs ≠ .new ∧ s.r.d.rs ≠ .inFly := hpl
          have h2 := hd.2 (by cases hx : s.r.d.rs <;> simp_all)
          simpa [Request.casInFly, hn, Request.Data.note, Answered, answers] using h2

/-- `Send` was called. -/
def Used (s : St) : Prop := (∃ t, s.pc t ≠ .out) ∨ s.hist ≠ []

theorem single_run {id msg : UInt32} {resp : Option Request.Resp} :
    ∀ cs s, run (init id msg resp) cs = some s → (∀ c ∈ cs, c.bystander = true) → (cs.filter Choice.isSend).length ≤ 1 →
      Single s ∧ (Used s → (cs.filter Choice.isSend).length = 1) := by
  refine run_induction (P := fun cs s => (∀ c ∈ cs, c.bystander = true) → (cs.filter Choice.isSend).length ≤ 1 →
      Single s ∧ (Used s → (cs.filter Choice.isSend).length = 1)) ?_ ?_
  · intro _ _
    refine ⟨single_init _ _ _, ?_⟩
    rintro (⟨t, h⟩ | h)
    · exact absurd rfl h
    · exact absurd rfl h
  · intro cs c s s' hr ih hs hb hn
    rw [List.filter_append, List.length_append] at hn ⊢
    obtain ⟨h1, h2⟩ := ih (fun x hx => hb x (by simp [hx])) (by omega)
    have hsend : c.isSend = true → (∀ t, s.pc t = .out) ∧ s.hist = [] := by
      intro hc
      have hz : (cs.filter Choice.isSend).length = 0 := by
        simp [hc] at hn; simpa using hn
      have hu : ¬ Used s := fun hu => by have := h2 hu; omega
      refine ⟨fun t => ?_, ?_⟩
      · by_cases hx : s.pc t = .out
        · exact hx
        · exact absurd (.inl ⟨t, hx⟩) hu
      · by_cases hx : s.hist = []
        · exact hx
        · exact absurd (.inr hx) hu
    refine ⟨single_step h1 (hb c (by simp)) hsend (req_true hr) hs, fun hu => ?_⟩
    cases hc : c.isSend with
    | true =>
      have : ([c].filter Choice.isSend).length = 1 := by simp [hc]
      omega
    | false =>
      have hz : ([c].filter Choice.isSend).length = 0 := by simp [hc]
      have : Used s := by
        by_cases hx : Used s
        · exact hx
        · exfalso
          have ha : ∀ t, s.pc t = .out := fun t => by
            by_cases hy : s.pc t = .out
            · exact hy
            · exact absurd (.inl ⟨t, hy⟩) hx
          have hb2 : s.hist = [] := by
            by_cases hy : s.hist = []
            · exact hy
            · exact absurd (.inr hy) hx
          cases c with
          | env c =>
            simp only [step] at hs
            split at hs
            · cases hq : Request.step s.r c with
              | none => rw [hq] at hs; cases hs
              | some r =>
                rw [hq] at hs; cases hs
                rcases hu with ⟨t, hu⟩ | hu
                · exact hu (ha t)
                · exact hu hb2
            · cases hs
          | send t ws k => simp [Choice.isSend] at hc
          | go t =>
            simp only [step, Send.go] at hs
            rw [ha t] at hs
            cases hs
      have := h2 this
      omega

end Verif.Send
