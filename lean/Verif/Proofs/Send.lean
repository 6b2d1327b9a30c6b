import Verif.Spec.Send
import Verif.Proofs.RequestInv
/-!
Invariants of `Send`.
-/
namespace Verif.Request
open Verif.Send (sends answers Answered)

/-! ### The request -/

def DA (d : Data) : Prop :=
  (d.rs = .pending ∨ d.rs = .inFly → 1 ≤ sends d.log) ∧ (d.rs = .prepared ∨ d.rs = .performed → Answered d.log)

/-- States tell what has happened. -/
def HA (d : Data) : Pc → Prop
  | .claimW _ => DA d ∧ 1 ≤ sends d.log
  | .mark _ | .walk _ | .react _ _ | .check _ | .fin _ _ | .finish _ => DA d ∧ Answered d.log
  | _ => DA d

theorem rulesA : Rules (fun _ => True) DA HA where
  acquire := by intro d t op _ h; exact h
  casPendingQ := by intro d t h; grind [DA, casPending, Data.note, sends, Answered, answers]
  casPendingH := by
    intro d t p hp h
    cases p <;> simp only [HA] at h ⊢ <;> grind [DA, casPending, Data.note, sends, Answered, answers]
  casInFlyQ := by intro d t u _ h; grind [DA, casInFly, Data.note, sends, Answered, answers]
  casInFlyH := by
    intro d t u p _ hp h
    cases p <;> simp only [HA] at h ⊢ <;> grind [DA, casInFly, Data.note, sends, Answered, answers]
  own := by
    intro d t p d' p' hc hh h hi
    unfold Request.own at h
    split at h
    case h_3 op =>
      simp only [Option.some.injEq] at h
      cases op <;> simp only [lockedStep] at h <;> grind [HA, DA, sends, Data.note, Answered, answers]
    case h_10 a acts =>
      cases a <;> simp only [doAct, casPending, casInFly] at h <;> grind [HA, DA, sends, Answered, answers]
    case h_13 a acts =>
      cases a <;> simp only [doAct, casPending, casInFly] at h <;> grind [HA, DA, sends, Answered, answers]
    all_goals grind [HA, DA, sends, Answered, answers]
  release := by
    intro d t op h
    simp only [HA] at h
    grind [DA, Data.note, sends, Answered, answers]
  bookmark := by
    intro d op d' p' t acts hk hh h
    simp only [enterBookmark] at h
    split at h <;> grind [HA, DA, Data.note, sends, Answered, answers]
  responder := by
    intro d op d' p' t acts hk hh h
    simp only [enterResponder] at h
    split at h <;> grind [HA, DA, Data.note, sends, Answered, answers]

theorem inv_DA {s : St} (hi : Inv (fun _ => True) DA HA s) : DA s.d := by
  refine inv_any hi (P := DA) (fun h => h) fun p hp => ?_
  cases p <;> simp only [HA] at hp <;> first | exact hp | exact hp.1

def CP (d : Data) : Prop := sends d.log ≤ 1 ∧ (d.rs = .new → sends d.log = 0)

theorem noReset_plain {acts : List Act} (h : acts.all (fun a => !a.isReset && a != .stuck) = true) : noReset acts := by
  intro a ha
  have := List.all_eq_true.1 h a ha
  cases a <;> simp_all [Act.isReset]

/-- Without resets the request becomes pending at most once. -/
def HP (d : Data) : Pc → Prop
  | .react _ acts | .fin _ acts => CP d ∧ noReset acts
  | _ => CP d

theorem rulesP : Rules (fun c => c.plain = true) CP HP where
  acquire := by intro d t op _ h; exact h
  casPendingQ := by intro d t h; grind [CP, casPending, Data.note, sends]
  casPendingH := by
    intro d t p hp h
    cases p <;> simp only [HP] at h ⊢ <;> grind [CP, casPending, Data.note, sends]
  casInFlyQ := by intro d t u _ h; grind [CP, casInFly, Data.note, sends]
  casInFlyH := by
    intro d t u p _ hp h
    cases p <;> simp only [HP] at h ⊢ <;> grind [CP, casInFly, Data.note, sends]
  own := by
    intro d t p d' p' hc hh h hi
    unfold Request.own at h
    split at h
    case h_3 op =>
      simp only [Option.some.injEq] at h
      cases op <;> simp only [lockedStep] at h <;> grind [HP, CP, sends, Data.note]
    case h_10 a acts =>
      have ha := hh.2 a (by simp)
      have has : noReset acts := fun a h => hh.2 a (by simp [h])
      cases a <;> simp only [doAct, casPending, casInFly] at h <;> grind [HP, CP, sends]
    case h_13 a acts =>
      have ha := hh.2 a (by simp)
      have has : noReset acts := fun a h => hh.2 a (by simp [h])
      cases a <;> simp only [doAct, casPending, casInFly] at h <;> grind [HP, CP, sends]
    all_goals grind [HP, CP, sends]
  release := by
    intro d t op h
    simp only [HP] at h
    grind [CP, Data.note, sends]
  bookmark := by
    intro d op d' p' t acts hk hh h
    have := noReset_plain hk
    simp only [enterBookmark] at h
    split at h <;> grind [HP, CP, Data.note, sends]
  responder := by
    intro d op d' p' t acts hk hh h
    have := noReset_plain hk
    simp only [enterResponder] at h
    split at h <;> grind [HP, CP, Data.note, sends]

theorem inv_CP {s : St} (hi : Inv (fun c => c.plain = true) CP HP s) : CP s.d := by
  refine inv_any hi (P := CP) (fun h => h) fun p hp => ?_
  cases p <;> simp only [HP] at hp <;> first | exact hp | exact hp.1

/-- Without resets a request does not become new again. -/
theorem not_new_step {s s' : St} {c : Choice} (hi : Inv (fun c => c.plain = true) CP HP s) (h : step s c = some s')
    (hn : s.d.rs ≠ .new) : s'.d.rs ≠ .new := by
  have own_case : ∀ t d' p', own s.d t (s.pc t) = some (d', p') → d'.rs ≠ .new := by
    intro t d' p' ho
    have hl := hi.mutex t (own_crit ho)
    have hp := (hi.owner t hl).2
    generalize s.pc t = p at ho hp
    unfold own at ho
    split at ho
    case h_3 op =>
      simp only [Option.some.injEq] at ho
      cases op <;> simp only [lockedStep] at ho <;> grind [Data.note]
    case h_10 a acts =>
      have ha := hp.2 a (by simp)
      cases a <;> simp only [doAct, casPending, casInFly] at ho <;> grind
    case h_13 a acts =>
      have ha := hp.2 a (by simp)
      cases a <;> simp only [doAct, casPending, casInFly] at ho <;> grind
    all_goals grind [Data.note]
  cases c with
  | call t op => simp only [step] at h; split at h <;> cases h; exact hn
  | go t =>
    simp only [step] at h
    split at h
    · next op hp => cases op <;> simp only [St.begin, St.lockStep] at h <;> grind [casPending, casInFly, Data.note]
    · next p hp =>
      cases ho : own s.d t (s.pc t) with
      | none => rw [ho] at h; cases h
      | some x => obtain ⟨d', p'⟩ := x; rw [ho] at h; cases h; exact own_case t d' p' ho
  | bookmark t acts =>
    simp only [step] at h
    cases ho : enterBookmark s.d acts (s.pc t) with
    | none => rw [ho] at h; cases h
    | some x =>
      obtain ⟨d', p'⟩ := x; rw [ho] at h; cases h
      unfold enterBookmark at ho; split at ho <;> (try split at ho) <;> cases ho; exact hn
  | responder t acts =>
    simp only [step] at h
    cases ho : enterResponder s.d acts (s.pc t) with
    | none => rw [ho] at h; cases h
    | some x =>
      obtain ⟨d', p'⟩ := x; rw [ho] at h; cases h
      unfold enterResponder at ho; split at ho <;> (try split at ho) <;> cases ho; exact hn

end Verif.Request

namespace Verif.Request
open Verif.Send (sends answers Answered)

/-! ### The history only grows -/

theorem doAct_log {d d' : Data} {t : Nat} {a : Act} (h : doAct d t a = some d') : d.log <:+ d'.log := by
  have h1 : ∀ (e : Ev) (l : List Ev), l <:+ e :: l := fun e l => List.suffix_cons _ _
  have h2 : ∀ (e f : Ev) (l : List Ev), l <:+ e :: f :: l := fun e f l => (h1 f l).trans (h1 e _)
  cases a <;> simp only [doAct, casPending, casInFly] at h <;> grind

theorem own_log {d d' : Data} {t : Nat} {p p' : Pc} (h : own d t p = some (d', p')) : d.log <:+ d'.log := by
  have h1 : ∀ (e : Ev) (l : List Ev), l <:+ e :: l := fun e l => List.suffix_cons _ _
  unfold own at h
  split at h
  case h_3 op =>
    simp only [Option.some.injEq] at h
    cases op <;> simp only [lockedStep] at h <;> grind [Data.note]
  case h_10 a acts =>
    cases hd : doAct d t a with
    | none => rw [hd] at h; cases h; exact List.suffix_refl _
    | some x => rw [hd] at h; cases h; exact doAct_log hd
  case h_13 a acts =>
    cases hd : doAct d t a with
    | none => rw [hd] at h; cases h; exact List.suffix_refl _
    | some x => rw [hd] at h; cases h; exact doAct_log hd
  all_goals grind [Data.note]

theorem log_step {s s' : St} {c : Choice} (h : step s c = some s') : s.d.log <:+ s'.d.log := by
  have h1 : ∀ (e : Ev) (l : List Ev), l <:+ e :: l := fun e l => List.suffix_cons _ _
  have h2 : ∀ (e f : Ev) (l : List Ev), l <:+ e :: f :: l := fun e f l => (h1 f l).trans (h1 e _)
  cases c with
  | call t op => simp only [step] at h; split at h <;> cases h; exact List.suffix_refl _
  | go t =>
    simp only [step] at h
    split at h
    · next op hp => cases op <;> simp only [St.begin, St.lockStep] at h <;> grind [casPending, casInFly, Data.note]
    · next p hp =>
      cases ho : own s.d t (s.pc t) with
      | none => rw [ho] at h; cases h
      | some x => obtain ⟨d', p'⟩ := x; rw [ho] at h; cases h; exact own_log ho
  | bookmark t acts =>
    simp only [step] at h
    cases ho : enterBookmark s.d acts (s.pc t) with
    | none => rw [ho] at h; cases h
    | some x =>
      obtain ⟨d', p'⟩ := x; rw [ho] at h; cases h
      unfold enterBookmark at ho; split at ho <;> (try split at ho) <;> cases ho; exact h1 _ _
  | responder t acts =>
    simp only [step] at h
    cases ho : enterResponder s.d acts (s.pc t) with
    | none => rw [ho] at h; cases h
    | some x =>
      obtain ⟨d', p'⟩ := x; rw [ho] at h; cases h
      unfold enterResponder at ho; split at ho <;> (try split at ho) <;> cases ho; exact h1 _ _

theorem sends_append (l m : List Ev) : sends (l ++ m) = sends l + sends m := by
  induction l with
  | nil => simp [sends]
  | cons e l ih => cases e <;> simp only [List.cons_append, sends, ih] <;> omega

theorem allChained_append (l m : List Ev) : allChained (l ++ m) = allChained l ++ allChained m := by
  induction l with
  | nil => simp [allChained]
  | cons e l ih => cases e <;> simp [allChained, ih]

theorem sends_mono {l m : List Ev} (h : l <:+ m) : sends l ≤ sends m := by
  obtain ⟨k, rfl⟩ := h; rw [sends_append]; omega

theorem chained_mono {l m : List Ev} (h : l <:+ m) {b : Nat} (hb : b ∈ allChained l) : b ∈ allChained m := by
  obtain ⟨k, rfl⟩ := h; rw [allChained_append]; simp [hb]

theorem run_two {s s' : St} {c e : Choice} (h : run s [c, e] = some s') : ∃ s1, step s c = some s1 ∧ step s1 e = some s' := by
  simp only [run] at h
  cases h1 : step s c with
  | none => rw [h1] at h; cases h
  | some s1 =>
    rw [h1] at h
    cases h2 : step s1 e with
    | none => simp [h2] at h
    | some s2 => simp [h2] at h; exact ⟨s1, rfl, by rw [h2, h]⟩

end Verif.Request

namespace Verif.Send
open Verif.Request (Ev RS allChained)

theorem call_pending {s : St} {t : Nat} {r : Request.St} (h : s.call t .setPending = some r) :
    s.r.pc t = .idle ∧ r = { s.r with d := (Request.casPending s.r.d).note (.returned t .setPending),
                                      pc := Request.setPc (Request.setPc s.r.pc t (.wait .setPending)) t .idle } := by
  obtain ⟨s1, h1, h2⟩ := Request.run_two h
  simp only [Request.step] at h1
  split at h1
  · next hp => cases h1; simp [Request.step, Request.setPc, Request.St.begin] at h2; exact ⟨hp, by rw [← h2]⟩
  · cases h1

theorem call_claim {s : St} {t : Nat} {r : Request.St} (h : s.call t .claim = some r) :
    s.r.pc t = .idle ∧ r = { s.r with d := (Request.casInFly s.r.d t).note (.returned t .claim),
                                      pc := Request.setPc (Request.setPc s.r.pc t (.wait .claim)) t .idle } := by
  obtain ⟨s1, h1, h2⟩ := Request.run_two h
  simp only [Request.step] at h1
  split at h1
  · next hp => cases h1; simp [Request.step, Request.setPc, Request.St.begin] at h2; exact ⟨hp, by rw [← h2]⟩
  · cases h1

theorem chain_step {r r' : Request.St} {t b : Nat} (hp : r.pc t = .locked (.chain b)) (h : Request.step r (.go t) = some r')
    (hc : chains r.d = true) : b ∈ allChained r'.d.log := by
  simp only [Request.step, hp, Request.own, Request.lockedStep] at h
  have : r.d.rs = .new ∨ r.d.rs = .pending := by simpa [chains] using hc
  simp only [this, if_true, Request.St.ownStep, Option.some.injEq] at h
  subst h
  simp [allChained]

/-- A step of the whole system is zero, one or two steps of the request's machine. -/
theorem project {s s' : St} {c : Choice} (h : step s c = some s') :
    ∃ ds, Request.run s.r ds = some s'.r ∧ (c.plain = true → ∀ d ∈ ds, d.plain = true) := by
  have one : ∀ {d r}, Request.step s.r d = some r → Request.run s.r [d] = some r := by
    intro d r hd; simp [Request.run, hd]
  cases c with
  | env c =>
    simp only [step] at h
    split at h
    · cases hr : Request.step s.r c with
      | none => rw [hr] at h; cases h
      | some r => rw [hr] at h; cases h; exact ⟨[c], one hr, by simp [Choice.plain]⟩
    · cases h
  | send t ws k =>
    simp only [step] at h
    split at h
    · cases h; exact ⟨[], rfl, by simp⟩
    · cases h
  | go t =>
    simp only [step, Send.go] at h
    split at h
    · cases h
    · split at h <;> cases h <;> exact ⟨[], rfl, by simp⟩
    · split at h
      · cases h
      · next r hr => cases h; exact ⟨[_], one hr, by simp [Request.Choice.plain]⟩
    · split at h
      · split at h <;> cases h <;> exact ⟨[], rfl, by simp⟩
      · split at h
        · cases h
        · next r hr => split at h <;> cases h <;> exact ⟨[_], one hr, by simp [Request.Choice.plain]⟩
    · split at h
      · cases h
      · next r hr =>
        split at h <;> split at h <;> cases h <;> exact ⟨_, hr, by simp [Request.Choice.plain]⟩
    · split at h <;> cases h <;> exact ⟨[], rfl, by simp⟩
    · split at h <;> cases h <;> exact ⟨[], rfl, by simp⟩
    · split at h
      · cases h
      · next r hr => split at h <;> cases h <;> exact ⟨_, hr, by simp [Request.Choice.plain]⟩

theorem run_append {s s' s'' : Request.St} {ds es : List Request.Choice} (h1 : Request.run s ds = some s')
    (h2 : Request.run s' es = some s'') : Request.run s (ds ++ es) = some s'' := by
  induction ds generalizing s with
  | nil => cases h1; exact h2
  | cons d ds ih =>
    simp only [Request.run] at h1
    cases hd : Request.step s d with
    | none => rw [hd] at h1; cases h1
    | some s1 =>
      rw [hd] at h1
      simp only [List.cons_append, Request.run, hd]
      exact ih h1

/-- Whatever theorem holds for all executions of the request's machine holds here. -/
theorem project_run {cs : List Choice} : ∀ {s s' : St}, run s cs = some s' →
    ∃ ds, Request.run s.r ds = some s'.r ∧ ((∀ c ∈ cs, c.plain = true) → ∀ d ∈ ds, d.plain = true) := by
  induction cs with
  | nil => intro s s' h; cases h; exact ⟨[], rfl, by simp⟩
  | cons c cs ih =>
    intro s s' h
    unfold run at h
    split at h
    · cases h
    · next s1 h1 =>
      obtain ⟨ds, h2, h3⟩ := project h1
      obtain ⟨es, h4, h5⟩ := ih h
      refine ⟨ds ++ es, run_append h2 h4, fun hp d hd => ?_⟩
      rcases List.mem_append.1 hd with hd | hd
      · exact h3 (hp c (by simp)) d hd
      · exact h5 (fun x hx => hp x (by simp [hx])) d hd

theorem log_run {r r' : Request.St} {ds : List Request.Choice} (h : Request.run r ds = some r') : r.d.log <:+ r'.d.log := by
  induction ds generalizing r with
  | nil => cases h; exact List.suffix_refl _
  | cons d ds ih =>
    simp only [Request.run] at h
    cases hd : Request.step r d with
    | none => rw [hd] at h; cases h
    | some r1 => rw [hd] at h; exact (Request.log_step hd).trans (ih h)

/-! ### Who may hand the request over -/

/-- The successful `SetPending` which a goroutine in `Send` owns. -/
def token : Pc → Option Nat
  | .armed n _ => some n
  | .claim n _ => some n
  | _ => none

def handedNs : List Out → List Nat
  | [] => []
  | .handed n _ _ _ :: l => n :: handedNs l
  | _ :: l => handedNs l

/-- Bookmarks of statistics among the wrappers are chained. -/
def Passed (s : St) (ps : List Wrap) : Prop := ∀ b, Wrap.stat b ∈ ps → b ∈ allChained s.r.d.log

/-- The wrappers a goroutine has passed, and the `Send` it is in. -/
def Way (ok : Choice → Prop) (s : St) (t : Nat) : Pc → Prop
  | .at ps ws k => Passed s ps ∧ ok (.send t (ps ++ ws) k)
  | .chain b ps ws k res => Passed s ps ∧ ok (.send t (ps ++ .stat b :: ws) k) ∧ (res = some true → b ∈ allChained s.r.d.log)
  | .armed _ ps => Passed s ps ∧ ok (.send t ps .point)
  | .claim _ ps => Passed s ps ∧ ok (.send t ps .sf)
  | _ => True

structure Inv (ok : Choice → Prop) (s : St) : Prop where
  taken : s.taken ≤ sends s.r.d.log
  fresh : ∀ n ∈ handedNs s.hist, n < s.taken
  nodup : (handedNs s.hist).Nodup
  hold : ∀ t n, token (s.pc t) = some n → n < s.taken ∧ n ∉ handedNs s.hist
  dist : ∀ t u n, token (s.pc t) = some n → token (s.pc u) = some n → t = u
  way : ∀ t, Way ok s t (s.pc t)
  given : ∀ n t ps k, Out.handed n t ps k ∈ s.hist → Passed s ps ∧ ok (.send t ps k)

theorem way_mono {ok : Choice → Prop} {s s' : St} (h : s.r.d.log <:+ s'.r.d.log) {t : Nat} {p : Pc} (hw : Way ok s t p) : Way ok s' t p := by
  have hp : ∀ ps, Passed s ps → Passed s' ps := fun ps h1 b hb => Request.chained_mono h (h1 b hb)
  cases p <;> simp only [Way] at hw ⊢
  case «at» ps ws k => exact ⟨hp _ hw.1, hw.2⟩
  case chain b ps ws k res => exact ⟨hp _ hw.1, hw.2.1, fun h1 => Request.chained_mono h (hw.2.2 h1)⟩
  case armed n ps => exact ⟨hp _ hw.1, hw.2⟩
  case claim n ps => exact ⟨hp _ hw.1, hw.2⟩

/-- A goroutine in `Send` goes on; the request may change too. -/
theorem inv_move {ok : Choice → Prop} {s s' : St} {t : Nat} {p : Pc} (h : Inv ok s) (hr : s.r.d.log <:+ s'.r.d.log)
    (hpc : s'.pc = setPc s.pc t p) (hh : s'.hist = s.hist) (htk : s'.taken = s.taken) (ht : token p = none) (hw : Way ok s' t p) :
    Inv ok s' := by
  refine ⟨?_, ?_, ?_, ?_, ?_, ?_, ?_⟩
  · rw [htk]; exact Nat.le_trans h.taken (Request.sends_mono hr)
  · rw [hh, htk]; exact h.fresh
  · rw [hh]; exact h.nodup
  · intro u n hu
    rw [hh, htk]
    rw [hpc] at hu
    unfold setPc at hu
    split at hu
    · rw [ht] at hu; cases hu
    · exact h.hold u n hu
  · intro u v n hu hv
    rw [hpc] at hu hv
    unfold setPc at hu hv
    split at hu
    · rw [ht] at hu; cases hu
    · split at hv
      · rw [ht] at hv; cases hv
      · exact h.dist u v n hu hv
  · intro u
    rw [hpc]
    unfold setPc
    split
    · next e => subst e; exact hw
    · exact way_mono hr (h.way u)
  · intro n u ps k hm
    rw [hh] at hm
    obtain ⟨h1, h2⟩ := h.given n u ps k hm
    exact ⟨fun b hb => Request.chained_mono hr (h1 b hb), h2⟩

/-- `SetPending` has returned true. -/
theorem inv_take {ok : Choice → Prop} {s s' : St} {t : Nat} {p : Pc} (h : Inv ok s) (hr : s.r.d.log <:+ s'.r.d.log)
    (hs : sends s'.r.d.log = sends s.r.d.log + 1)
    (hpc : s'.pc = setPc s.pc t p) (hh : s'.hist = s.hist) (htk : s'.taken = s.taken + 1) (ht : token p = some s.taken) (hw : Way ok s' t p) :
    Inv ok s' := by
  have hf : s.taken ∉ handedNs s.hist := fun hm => Nat.lt_irrefl _ (h.fresh _ hm)
  refine ⟨?_, ?_, ?_, ?_, ?_, ?_, ?_⟩
  · rw [htk, hs]; exact Nat.succ_le_succ h.taken
  · rw [hh, htk]; exact fun n hn => Nat.lt_succ_of_lt (h.fresh n hn)
  · rw [hh]; exact h.nodup
  · intro u n hu
    rw [hh, htk]
    rw [hpc] at hu
    unfold setPc at hu
    split at hu
    · rw [ht] at hu; cases hu; exact ⟨Nat.lt_succ_self _, hf⟩
    · have := h.hold u n hu; exact ⟨Nat.lt_succ_of_lt this.1, this.2⟩
  · intro u v n hu hv
    rw [hpc] at hu hv
    unfold setPc at hu hv
    split at hu <;> split at hv
    · next e f => rw [e, f]
    · rw [ht] at hu; cases hu; exact absurd (h.hold v _ hv).1 (Nat.lt_irrefl _)
    · rw [ht] at hv; cases hv; exact absurd (h.hold u _ hu).1 (Nat.lt_irrefl _)
    · exact h.dist u v n hu hv
  · intro u
    rw [hpc]
    unfold setPc
    split
    · next e => subst e; exact hw
    · exact way_mono hr (h.way u)
  · intro n u ps k hm
    rw [hh] at hm
    obtain ⟨h1, h2⟩ := h.given n u ps k hm
    exact ⟨fun b hb => Request.chained_mono hr (h1 b hb), h2⟩

/-- `Send` is over. -/
theorem inv_over {ok : Choice → Prop} {s s' : St} {t : Nat} {o : Out} (h : Inv ok s) (hr : s.r.d.log <:+ s'.r.d.log)
    (hpc : s'.pc = setPc s.pc t .out) (hh : s'.hist = o :: s.hist) (htk : s'.taken = s.taken)
    (ho : ∀ n u ps k, o = .handed n u ps k → token (s.pc t) = some n ∧ Passed s ps ∧ ok (.send u ps k)) : Inv ok s' := by
  have hns : ∀ n, n ∈ handedNs s'.hist → n ∈ handedNs s.hist ∨ token (s.pc t) = some n := by
    intro n hn
    rw [hh] at hn
    cases o <;> simp only [handedNs, List.mem_cons] at hn
    case handed m u ps k =>
      rcases hn with hn | hn
      · subst hn; exact .inr (ho _ _ _ _ rfl).1
      · exact .inl hn
    all_goals exact .inl hn
  refine ⟨?_, ?_, ?_, ?_, ?_, ?_, ?_⟩
  · rw [htk]; exact Nat.le_trans h.taken (Request.sends_mono hr)
  · intro n hn
    rw [htk]
    rcases hns n hn with h1 | h1
    · exact h.fresh n h1
    · exact (h.hold t n h1).1
  · rw [hh]
    cases o <;> simp only [handedNs]
    case handed m u ps k => exact List.nodup_cons.2 ⟨(h.hold t m (ho _ _ _ _ rfl).1).2, h.nodup⟩
    all_goals exact h.nodup
  · intro u n hu
    rw [hpc] at hu
    unfold setPc at hu
    split at hu
    · cases hu
    · next e =>
      rw [htk]
      refine ⟨(h.hold u n hu).1, fun hn => ?_⟩
      rcases hns n hn with h1 | h1
      · exact (h.hold u n hu).2 h1
      · exact e (h.dist u t n hu h1)
  · intro u v n hu hv
    rw [hpc] at hu hv
    unfold setPc at hu hv
    split at hu
    · cases hu
    · split at hv
      · cases hv
      · exact h.dist u v n hu hv
  · intro u
    rw [hpc]
    unfold setPc
    split
    · trivial
    · exact way_mono hr (h.way u)
  · intro n u ps k hm
    rw [hh] at hm
    rcases List.mem_cons.1 hm with hm | hm
    · obtain ⟨-, h1, h2⟩ := ho n u ps k hm.symm
      exact ⟨fun b hb => Request.chained_mono hr (h1 b hb), h2⟩
    · obtain ⟨h1, h2⟩ := h.given n u ps k hm
      exact ⟨fun b hb => Request.chained_mono hr (h1 b hb), h2⟩

theorem inv_env {ok : Choice → Prop} {s : St} {r : Request.St} (h : Inv ok s) (hr : s.r.d.log <:+ r.d.log) : Inv ok { s with r } :=
  ⟨Nat.le_trans h.taken (Request.sends_mono hr), h.fresh, h.nodup, h.hold, h.dist,
    fun t => way_mono (s := s) (s' := { s with r }) hr (h.way t),
    fun n t ps k hm => ⟨fun b hb => Request.chained_mono hr ((h.given n t ps k hm).1 b hb), (h.given n t ps k hm).2⟩⟩

theorem inv_step {ok : Choice → Prop} {s s' : St} {c : Choice} (h : Inv ok s) (hc : ok c) (hs : step s c = some s') : Inv ok s' := by
  obtain ⟨ds, hp, -⟩ := project hs
  have hl := log_run hp
  cases c with
  | env c =>
    simp only [step] at hs
    split at hs
    · cases hr : Request.step s.r c with
      | none => rw [hr] at hs; cases hs
      | some r => rw [hr] at hs; cases hs; exact inv_env h hl
    · cases hs
  | send t ws k =>
    simp only [step] at hs
    split at hs
    · cases hs; exact inv_move h hl rfl rfl rfl rfl ⟨by simp [Passed], by simpa using hc⟩
    · cases hs
  | go t =>
    have hw := h.way t
    simp only [step, Send.go] at hs
    cases hpc : s.pc t <;> rw [hpc] at hs hw
    case out => cases hs
    case «at» ps ws k =>
      cases ws with
      | nil =>
        simp only at hs
        split at hs
        · cases hs
        · next r hr =>
          obtain ⟨-, hr2⟩ := call_pending hr
          split at hs
          · next hn =>
            have hsend : sends r.d.log = sends s.r.d.log + 1 := by
              rw [hr2]; simp [Request.casPending, hn, Request.Data.note, sends]
            split at hs <;> cases hs
            · exact inv_take h hl hsend rfl rfl rfl rfl (way_mono (s := s) hl (p := .armed s.taken ps) ⟨hw.1, by simpa using hw.2⟩)
            · exact inv_take h hl hsend rfl rfl rfl rfl (way_mono (s := s) hl (p := .claim s.taken ps) ⟨hw.1, by simpa using hw.2⟩)
          · split at hs <;> cases hs
            · exact inv_move h hl rfl rfl rfl rfl trivial
            · exact inv_over h hl rfl rfl rfl (by simp)
      | cons w ws =>
        cases w with
        | route =>
          simp only at hs
          split at hs <;> cases hs
          · refine inv_move h hl rfl rfl rfl rfl ⟨?_, by simpa using hw.2⟩
            intro b hb
            exact hw.1 b (by simpa using hb)
          · exact inv_over h hl rfl rfl rfl (by simp)
        | stat b =>
          simp only at hs
          split at hs
          · cases hs
          · cases hs
            exact inv_move h hl rfl rfl rfl rfl (way_mono (s := s) hl (p := .chain b ps ws k none) ⟨hw.1, hw.2, by simp⟩)
    case chain b ps ws k res =>
      simp only at hs
      split at hs
      · split at hs <;> cases hs
        · next hres =>
          refine inv_move h hl rfl rfl rfl rfl ⟨?_, by simpa using hw.2.1⟩
          intro c hcm
          rcases List.mem_append.1 hcm with hcm | hcm
          · exact hw.1 c hcm
          · simp at hcm; subst hcm; exact hw.2.2 hres
        · exact inv_over h hl rfl rfl rfl (by simp)
      · split at hs
        · cases hs
        · next r hr =>
          split at hs <;> cases hs
          · next hlk =>
            have h1 := way_mono (s := s) hl (t := t) (p := .chain b ps ws k res) hw
            exact inv_move h hl rfl rfl rfl rfl ⟨h1.1, h1.2.1, fun hx => chain_step hlk hr (Option.some.inj hx)⟩
          · exact inv_move h hl rfl rfl rfl rfl (way_mono (s := s) hl (p := .chain b ps ws k res) hw)
    case failed =>
      simp only at hs
      split at hs <;> cases hs <;> exact inv_over h hl rfl rfl rfl (by simp)
    case armed n ps =>
      simp only at hs
      split at hs <;> cases hs
      · exact inv_over h hl rfl rfl rfl (by simp)
      · refine inv_over h hl rfl rfl rfl ?_
        rintro _ _ _ _ ⟨⟩
        exact ⟨by rw [hpc]; rfl, hw.1, hw.2⟩
    case claim n ps =>
      simp only at hs
      split at hs
      · cases hs
      · split at hs <;> cases hs
        · refine inv_over h hl rfl rfl rfl ?_
          rintro _ _ _ _ ⟨⟩
          exact ⟨by rw [hpc]; rfl, hw.1, hw.2⟩
        · exact inv_over h hl rfl rfl rfl (by simp)

theorem inv_run {ok : Choice → Prop} {cs : List Choice} : ∀ {s s' : St}, Inv ok s → (∀ c ∈ cs, ok c) → run s cs = some s' → Inv ok s' := by
  induction cs with
  | nil => intro s s' h _ hr; cases hr; exact h
  | cons c cs ih =>
    intro s s' h hk hr
    unfold run at hr
    split at hr
    · cases hr
    · next s1 h1 => exact ih (inv_step h (hk c (by simp)) h1) (fun x hx => hk x (by simp [hx])) hr

theorem inv_init {ok : Choice → Prop} (id msg : UInt32) (resp : Option Request.Resp) : Inv ok (init id msg resp) := by
  constructor <;> simp [init, Request.init, handedNs, token, Way]

end Verif.Send
