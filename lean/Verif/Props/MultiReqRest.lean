import Verif.Props.MultiReq
import Verif.Proofs.MultiReqRest
/-! C134: a multi-request and its requests come to rest. -/
namespace Verif.Props
open Verif.MultiReq

/-- C134: left alone, a multi-request and its requests come to rest: from every state there is a number of steps that the goroutines inside the methods of the multi-request
and of its requests cannot exceed, in whatever order they run. -/
theorem C134_rest {msg : Nat → UInt32} {cs : List Choice} {s : St} (h : run (init msg) cs = some s) :
    ∃ b, ∀ ds s', (∀ c ∈ ds, Inner c) → run s ds = some s' → ds.length ≤ b := by
  have p := prog_run (prog_init msg) h
  obtain ⟨B, b⟩ := bnd_run (inv_init msg) (bnd_init msg) h
  refine ⟨work B s, fun ds s' hc hr => ?_⟩
  have := work_run p.inv b hc hr
  omega

/-- C134: and when they have come to rest, in whatever order they ran, all calls have returned, or somebody has panicked (C42, C67): all goroutines that answer, cancel or expire
a request are back, so are those in `Cancel` and `Expire` of the multi-request and its owner in `Request` and `Each`. Only `Results` may be waiting, and only
while a request has no response. -/
theorem C134_all {msg : Nat → UInt32} {cs : List Choice} {s : St} (h : run (init msg) cs = some s) (hq : ∀ c, Inner c → step s c = none) (hn : ¬ Multi.Panicked s.m) :
    (∀ i t, (s.r i).pc t = .idle) ∧ (∀ k, s.m.cp k = .idle ∨ ∃ b, s.m.cp k = .done b) ∧
      (s.m.own = .idle ∨ s.m.own = .fin .each ∨ s.m.own = .fin .results ∨ (s.m.own = .rWait false ∧ ∃ i, i < s.m.ret ∧ ∀ x, ¬ Got s i x)) := by
  have p := prog_run (prog_init msg) h
  refine ⟨fun i t => ?_, fun k => ?_, ?_⟩
  · by_cases e : (s.r i).pc t = .idle
    · exact e
    · obtain ⟨ds, s', h1, h2, h3⟩ := C120_call_ends h e
      exact (Can.rest (P := fun s => (s.r i).pc t = .idle) ⟨ds, s', h1, h2, h3⟩ hq).resolve_right hn
  · by_cases e : s.m.cp k = .idle
    · exact .inl e
    · exact .inr ((canc_ends p e).rest hq |>.resolve_right hn)
  · have hw : Collecting s.m.own → s.m.own = .fin .results ∨ (s.m.own = .rWait false ∧ ∃ i, i < s.m.ret ∧ ∀ x, ¬ Got s i x) := by
      intro hc
      rcases (results_waits p hc).rest hq |>.resolve_right hn with h1 | h1
      · exact .inl h1
      · refine .inr ⟨h1, ?_⟩
        refine Classical.byContradiction fun hne => ?_
        have hg : ∀ i, i < s.m.ret → ∃ x, Got s i x := fun i hi => Classical.byContradiction fun hx => hne ⟨i, hi, fun x hg => hx ⟨x, hg⟩⟩
        obtain ⟨ds, s', a1, a2, a3⟩ := C120_results_end h hc hg
        have := (Can.rest (P := fun s => s.m.own = .fin .results) ⟨ds, s', a1, a2, a3⟩ hq).resolve_right hn
        rw [h1] at this
        cases this
    have hcr : Creating s.m.own → s.m.own = .idle := fun hc => (request_ends p hc).rest hq |>.resolve_right hn
    have hra : Ranging s.m.own → s.m.own = .fin .each := fun hc => (each_ends p hc).rest hq |>.resolve_right hn
    have done : Creating s.m.own ∨ Ranging s.m.own ∨ Collecting s.m.own ∨ s.m.own = .idle ∨ s.m.own = .fin .each ∨ s.m.own = .fin .results ∨ Multi.Panicked s.m := by
      cases e : s.m.own
      case fin m => cases m <;> simp
      case nilPanic => simp [Multi.Panicked, e]
      case chanPanic => simp [Multi.Panicked, e]
      case enter m | fail m _ _ | fail2 m _ _ | failK m _ _ | failA m _ _ _ | failX m _ _ | lock m => cases m <;> simp [Creating, Ranging, Collecting]
      all_goals simp [Creating, Ranging, Collecting]
    rcases done with h1 | h1 | h1 | h1 | h1 | h1 | h1
    · exact .inl (hcr h1)
    · exact .inr (.inl (hra h1))
    · exact .inr (.inr (hw h1))
    · exact .inl h1
    · exact .inr (.inl h1)
    · exact .inr (.inr (.inl h1))
    · exact absurd h1 hn

/-- C134: in particular, however the goroutines were scheduled so far, they come to such a state by just going on. -/
theorem C134_ends {msg : Nat → UInt32} {cs : List Choice} {s : St} (h : run (init msg) cs = some s) :
    ∃ ds s', (∀ c ∈ ds, Inner c) ∧ run s ds = some s' ∧ ∀ c, Inner c → step s' c = none := by
  have p := prog_run (prog_init msg) h
  obtain ⟨B, b⟩ := bnd_run (inv_init msg) (bnd_init msg) h
  suffices ∀ n (s : St), Prog s → Bnd B s → work B s ≤ n → ∃ ds s', (∀ c ∈ ds, Inner c) ∧ run s ds = some s' ∧ ∀ c, Inner c → step s' c = none from
    this _ s p b (Nat.le_refl _)
  intro n
  induction n with
  | zero =>
    intro s p b hw
    refine ⟨[], s, by simp, rfl, fun c hc => ?_⟩
    cases e : step s c with
    | none => rfl
    | some t => have := (work_less p.inv b hc e).1; omega
  | succ n ih =>
    intro s p b hw
    by_cases hx : ∃ c t, Inner c ∧ step s c = some t
    · obtain ⟨c, t, hc, e⟩ := hx
      obtain ⟨w, b'⟩ := work_less p.inv b hc e
      obtain ⟨ds, s', h1, h2, h3⟩ := ih t (prog_step p e) b' (by omega)
      exact ⟨c :: ds, s', by simpa [hc] using h1, by simp [run, e, h2], h3⟩
    · refine ⟨[], s, by simp, rfl, fun c hc => ?_⟩
      cases e : step s c with
      | none => rfl
      | some t => exact absurd ⟨c, t, hc, e⟩ hx

/-- `Results` waits for the one request, which nobody answers: the multi-request is at rest. -/
example : ∃ s, run (init fun _ => 5) (MultiReq.mk ++ [.multi .results] ++ reps 3 (.multi .owner)) = some s ∧ s.m.own = .rWait false ∧ s.m.ret = 1 ∧
    ∀ c, Inner c → step s c = none := by
  refine ⟨_, rfl, rfl, rfl, fun c hc => ?_⟩
  cases c with
  | multi c => cases c <;> first | rfl | cases hc
  | req i c =>
    cases c with
    | call => cases hc
    | go t => rfl
    | bookmark t acts => cases acts <;> rfl
    | responder t acts => cases acts <;> rfl

/-- Two requests, one canceled, one served: `Results` returns both; that this is so in every order is the theorem. -/
example : (run (init fun _ => 5) (cancelRun ++ [.multi (.canc 0)] ++ reps 3 (.req 1 (.go 4)) ++ reps 2 (.multi .owner))).any (fun s => s.m.own = .fin .results ∧
    s.m.cp 0 = .done true ∧ (s.r 1).pc 4 = .idle ∧ (s.r 1).pc 1 = .idle) = true := by decide +kernel

end Verif.Props
