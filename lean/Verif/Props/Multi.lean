import Verif.Proofs.MultiMisc
/-!
Theorems about multi-requests (C41, C42, C43, C47, C67).
-/
namespace Verif.Multi

theorem run_append {s t : St} {cs ds : List Choice} (h : run s cs = some t) : run s (cs ++ ds) = run t ds := by
  induction cs generalizing s with
  | nil => cases h; rfl
  | cons c cs ih =>
    simp only [run] at h
    simp only [List.cons_append, run]
    cases e : step s c with
    | none => rw [e] at h; cases h
    | some u => rw [e] at h; exact ih h

/-- All requests are settled: the counter is complete and nobody but the owner holds the lock. -/
theorem Inv.settled {s : St} (h : Inv s) (hd : Settled s) : s.c = s.r ∧ (s.lock = none ∨ s.lock = some .owner) := by
  constructor
  · have h1 : s.r ≤ s.log.length := by
      have := nodup_length (l := List.range s.r) (l' := s.log) List.nodup_range
        fun i hi => (h.logMem i).2 (by rw [hd i (List.mem_range.1 hi)]; rfl)
      rwa [List.length_range] at this
    have := h.all.1
    have := h.logLen
    omega
  · match hl : s.lock with
    | none => exact .inl rfl
    | some .owner => exact .inr rfl
    | some (.resp i) =>
      have h1 := (h.lockR i).1 hl
      have h2 := hd i (h.lt i (by rintro e; rw [e] at h1; cases h1))
      rw [h2] at h1
      cases h1

/-- How far `Results` is from its end. -/
def OPc.left : OPc → Nat
  | .enter .results => 4 | .lock .results => 3 | .rCmp => 2 | .rWait _ => 2 | .rTake => 1 | _ => 0

theorem results_step {s : St} (h : Inv s) (hd : Settled s) (hl : 0 < s.own.left) :
    ∃ s', stepOwner s = some s' ∧ Settled s' ∧ s'.own.left < s.own.left ∧
      (s'.own.left = 0 → s'.own = .fin .results) := by
  obtain ⟨h1, h2⟩ := h.settled hd
  have h3 := h.lockO
  unfold stepOwner
  match hp : s.own with
  | .enter .results =>
    simp only
    rw [if_neg (fun x => x.2 h1)]
    exact ⟨_, rfl, hd, by simp [OPc.left], by simp [OPc.left]⟩
  | .lock .results =>
    have : s.lock = none := by
      rcases h2 with h2 | h2
      · exact h2
      · have := h3.1 h2; rw [hp] at this; cases this
    simp only
    rw [if_pos this]
    exact ⟨_, rfl, hd, by simp [OPc.left], by simp [OPc.left]⟩
  | .rCmp =>
    simp only
    rw [if_neg (by omega)]
    exact ⟨_, rfl, hd, by simp [OPc.left], by simp [OPc.left]⟩
  | .rWait false => have := h.sleep hp; omega
  | .rWait true =>
    have : s.lock = none := by
      rcases h2 with h2 | h2
      · exact h2
      · have := h3.1 h2; rw [hp] at this; cases this
    simp only
    rw [if_pos ⟨trivial, this⟩]
    exact ⟨_, rfl, hd, by simp [OPc.left], by simp [OPc.left]⟩
  | .rTake =>
    exact ⟨_, rfl, hd, by simp [OPc.left], by simp [OPc.left]⟩
  | .enter .each | .lock .each | .idle | .store _ | .chk _ | .chkK _ | .chkA .. | .failW _ | .fail .. | .fail2 .. | .failK .. | .failA .. | .failX .. | .eChan
  | .eSend _ | .eCmp | .eClose | .eUnlock | .fin _ | .nilPanic | .chanPanic => rw [hp] at hl; cases hl

/-- Where the code of an answer comes from. -/
def Origin (s : St) (cs : List Choice) : Prop :=
  ∀ i x, s.code i = some x →
    .answer i x ∈ cs ∨ (s.cancel = true ∧ x = rcCanceled) ∨ (s.expire = true ∧ x = rcTimeout)

theorem origin_answer {s : St} {cs : List Choice} {i : Nat} {x : UInt32} (h : Origin s cs)
    (hx : .answer i x ∈ cs ∨ (s.cancel = true ∧ x = rcCanceled) ∨ (s.expire = true ∧ x = rcTimeout)) :
    Origin (answer s i x) cs := by
  unfold answer
  split
  · exact h
  · intro j y hj
    simp only [Multi.set] at hj
    split at hj
    · cases hj
      subst_vars
      exact hx
    · exact h j y hj

theorem origin_step {s s' : St} {cs : List Choice} {c : Choice} (h : Origin s cs) (hI : Inv s) (hs : step s c = some s') :
    Origin s' (cs ++ [c]) := by
  have h : Origin s (cs ++ [c]) := fun i x hi => (h i x hi).imp_left fun hm => List.mem_append_left _ hm
  cases c
  case resp i =>
    simp only [step, stepResp] at hs
    (repeat' split at hs) <;> cases hs <;> (try split) <;> exact h
  case owner =>
    simp only [step, stepOwner] at hs
    (repeat' split at hs) <;> cases hs <;> first | exact h | exact origin_answer h (.inr (hI.oK _ (by rw [‹s.own = _›]; rfl)))
  case canc k =>
    simp only [step, stepCancel] at hs
    (repeat' split at hs) <;> cases hs <;> first | exact h | exact origin_answer h (.inr (hI.cK _ _ _ _ _ ‹_›))
  case answer i x =>
    simp only [step] at hs
    split at hs <;> cases hs
    exact origin_answer h (.inl (List.mem_append_right _ (List.mem_cons_self ..)))
  case cancel k e f =>
    simp only [step] at hs
    split at hs <;> cases hs
    intro i x hi
    rcases h i x (by cases e <;> exact hi) with h1 | h1 | h1
    · exact .inl h1
    · exact .inr (.inl (by cases e <;> simp [h1]))
    · exact .inr (.inr (by cases e <;> simp [h1]))
  all_goals
    simp only [step] at hs
    (repeat' split at hs) <;> cases hs <;> exact h

theorem origin_run {s s' : St} {cs ds : List Choice} (h : Origin s cs) (hI : Inv s) (hs : run s ds = some s') :
    Origin s' (cs ++ ds) := by
  induction ds generalizing s cs with
  | nil => cases hs; rwa [List.append_nil]
  | cons c ds ih =>
    simp only [run] at hs
    cases e : step s c with
    | none => rw [e] at hs; cases hs
    | some t =>
      rw [e] at hs
      have := ih (origin_step h hI e) (inv_step hI e) hs
      rwa [List.append_assoc] at this

/-- Once the multi-request is cancelled, nobody fails a request with another code. -/
structure First (s : St) (cs : List Choice) : Prop where
  can : s.cancel = true
  own : ∀ x, s.own.code = some x → x = rcCanceled
  oth : ∀ k a i n x, s.cp k = .failA a i n x → x = rcCanceled
  code : ∀ i x, s.code i = some x → .answer i x ∈ cs ∨ x = rcCanceled

theorem first_answer {s : St} {cs : List Choice} {i : Nat} {x : UInt32} (h : First s cs)
    (hx : .answer i x ∈ cs ∨ x = rcCanceled) : First (answer s i x) cs := by
  unfold answer
  split
  · exact h
  · refine { h with code := fun j y hj => ?_ }
    simp only [Multi.set] at hj
    split at hj
    · cases hj; subst j; exact hx
    · exact h.code j y hj

theorem first_fail {s : St} {cs : List Choice} (h : First s cs) {x : UInt32} (hx : failCode s = some x) : x = rcCanceled := by
  simp only [failCode, h.can, if_true] at hx
  exact (Option.some.inj hx).symm

theorem first_step {s s' : St} {cs : List Choice} {c : Choice} (h : First s cs) (hs : step s c = some s') :
    First s' (cs ++ [c]) := by
  have h : First s (cs ++ [c]) := { h with code := fun i x hi => (h.code i x hi).imp_left fun hm => List.mem_append_left _ hm }
  cases c
  case resp i =>
    simp only [step, stepResp] at hs
    (repeat' split at hs) <;> cases hs <;> (try split) <;>
      first | exact ⟨h.can, h.own, h.oth, h.code⟩ | exact ⟨h.can, fun x e => (by cases e), h.oth, h.code⟩
  case owner =>
    have ho := h.own
    simp only [step, stepOwner] at hs
    (repeat' split at hs) <;> cases hs
    all_goals first
      | (refine ⟨h.can, fun x e => ?_, h.oth, h.code⟩; cases e; done)
      | (refine ⟨h.can, fun x e => ?_, h.oth, h.code⟩; cases e; exact first_fail h ‹_›)
      | (refine { first_answer h (.inr (ho _ (by rw [‹s.own = _›]; rfl))) with own := fun x e => ?_ }
         cases e)
  case canc k =>
    have ho := h.oth
    have hcp : ∀ i x, (answer s i x).cp = s.cp := fun i x => by unfold answer; split <;> rfl
    have frame : ∀ (t : St) p, t.cp = s.cp → First t (cs ++ [.canc k]) → (∀ a i n x, p = .failA a i n x → x = rcCanceled) →
        First { t with cp := Multi.set s.cp k p } (cs ++ [.canc k]) := by
      intro t p hcp ht hp
      refine { ht with oth := fun j a i n x e => ?_ }
      simp only [Multi.set] at e
      split at e
      · exact hp a i n x e
      · exact ht.oth j a i n x (by rw [hcp]; exact e)
    simp only [step, stepCancel] at hs
    (repeat' split at hs) <;> cases hs
    all_goals first
      | (refine frame _ _ rfl h fun a i n x e => ?_; cases e; done)
      | (refine frame _ _ rfl h fun a i n x e => ?_; cases e; exact first_fail h ‹_›)
      | (refine frame _ _ (hcp _ _) (first_answer h (.inr (ho _ _ _ _ _ ‹_›))) fun a i n x e => ?_; cases e; done)
  case answer i x =>
    simp only [step] at hs
    split at hs <;> cases hs
    exact first_answer h (.inl (List.mem_append_right _ (List.mem_cons_self ..)))
  case cancel k e f =>
    simp only [step] at hs
    split at hs <;> cases hs
    refine ⟨by cases e <;> simp [h.can], by cases e <;> exact h.own, fun j a i n x hj => ?_, by cases e <;> exact h.code⟩
    have hj : Multi.set s.cp k (if f then .readC e else .readR' e) j = .failA a i n x := by cases e <;> exact hj
    simp only [Multi.set] at hj
    split at hj
    · split at hj <;> cases hj
    · exact h.oth j a i n x hj
  all_goals
    simp only [step] at hs
    (repeat' split at hs) <;> cases hs <;> exact ⟨h.can, fun x e => (by cases e), h.oth, h.code⟩

theorem first_run {s s' : St} {cs ds : List Choice} (h : First s cs) (hs : run s ds = some s') : First s' (cs ++ ds) := by
  induction ds generalizing s cs with
  | nil => cases hs; rwa [List.append_nil]
  | cons c ds ih =>
    simp only [run] at hs
    cases e : step s c with
    | none => rw [e] at hs; cases hs
    | some t =>
      rw [e] at hs
      have := ih (first_step h e) hs
      rwa [List.append_assoc] at this

/-- Deciding `Calm` and `Apart` for given runs. -/
def calmB (s : St) : Bool :=
  match s.own with
  | .eSend _ | .eCmp => (List.range s.r).all fun i => s.rp i ≠ .close
  | _ => true

def apartB (K : Nat) (s : St) : Bool :=
  ((List.range s.r).all fun i => s.rp i ≠ .add) && (match s.own with | .eSend (_ :: _) => false | _ => true) ||
    ((List.range K).all fun k => match s.cp k with | .fail2 .. => false | _ => true) &&
      match s.own with | .fail2 .. => false | _ => true

def alongB (P : St → Bool) : St → List Choice → Bool
  | s, [] => P s
  | s, c :: cs => P s && match step s c with | some s' => alongB P s' cs | none => true

theorem calm_of {s : St} (h : Inv s) (hb : calmB s = true) : Calm s := by
  intro ho i hi
  have := h.lt i (by rw [hi]; simp)
  unfold calmB at hb
  rcases ho with ⟨l, ho⟩ | ho <;> rw [ho] at hb <;> simp only [List.all_eq_true, List.mem_range] at hb
  all_goals exact of_decide_eq_true (hb i this) hi

theorem along_calm {s : St} {cs : List Choice} (h : Inv s) (hb : alongB calmB s cs = true) : Along Calm s cs := by
  induction cs generalizing s with
  | nil => exact calm_of h hb
  | cons c cs ih =>
    simp only [alongB, Bool.and_eq_true] at hb
    refine ⟨calm_of h hb.1, fun s' hs => ?_⟩
    rw [hs] at hb
    exact ih (inv_step h hs) hb.2

theorem apart_of {K : Nat} {s : St} (h : Inv s) (hk : ∀ k, K ≤ k → s.cp k = .idle) (hb : apartB K s = true) :
    Apart s := by
  intro i hi
  unfold apartB at hb
  simp only [Bool.or_eq_true, Bool.and_eq_true, List.all_eq_true, List.mem_range] at hb
  rcases hb with ⟨hb, ho⟩ | ⟨hb, ho⟩
  · refine ⟨fun e => of_decide_eq_true (hb i (h.lt i (by rw [e]; simp))) e, fun l e => ?_⟩
    rw [e] at ho
    cases ho
  · rcases hi with ⟨k, a, n, hi⟩ | ⟨m, n, hi⟩
    · have := hb k (by
        rcases Nat.lt_or_ge k K with h1 | h1
        · exact h1
        · rw [hk k h1] at hi; cases hi)
      rw [hi] at this
      cases this
    · rw [hi] at ho
      cases ho

theorem idle_step {K : Nat} {s s' : St} {c : Choice} (hk : ∀ k, K ≤ k → s.cp k = .idle)
    (hc : ∀ k e f, c = .cancel k e f → k < K) (hs : step s c = some s') : ∀ k, K ≤ k → s'.cp k = .idle := by
  intro k hK
  have h0 := hk k hK
  cases c
  case resp i =>
    simp only [step, stepResp] at hs
    (repeat' split at hs) <;> cases hs <;> (try split) <;> exact h0
  case owner =>
    simp only [step, stepOwner] at hs
    (repeat' split at hs) <;> cases hs <;> first | exact h0 | exact (answer_cp s _ k _).trans h0
  case canc j =>
    simp only [step, stepCancel] at hs
    by_cases e : k = j
    · subst e
      rw [h0] at hs
      cases hs
    · (repeat' split at hs) <;> cases hs <;> simp [set, e, h0]
  case answer i x =>
    simp only [step, answer] at hs
    (repeat' split at hs) <;> cases hs <;> exact h0
  case cancel j e f =>
    have := hc j e f rfl
    simp only [step] at hs
    split at hs <;> cases hs
    have : k ≠ j := by omega
    cases e <;> simp [set, this, h0]
  all_goals
    simp only [step] at hs
    (repeat' split at hs) <;> cases hs <;> exact h0

theorem along_apart {K : Nat} {s : St} {cs : List Choice} (h : Inv s) (hk : ∀ k, K ≤ k → s.cp k = .idle)
    (hc : ∀ c ∈ cs, ∀ k e f, c = .cancel k e f → k < K) (hb : alongB (apartB K) s cs = true) : Along Apart s cs := by
  induction cs generalizing s with
  | nil => exact apart_of h hk hb
  | cons c cs ih =>
    simp only [alongB, Bool.and_eq_true] at hb
    refine ⟨apart_of h hk hb.1, fun s' hs => ?_⟩
    rw [hs] at hb
    exact ih (inv_step h hs) (idle_step hk (hc c (List.mem_cons_self ..)) hs)
      (fun c hm => hc c (List.mem_cons_of_mem _ hm)) hb.2

theorem any_some {α : Type} {o : Option α} {p : α → Prop} [DecidablePred p] (h : (o.any fun s => p s) = true) :
    ∃ s, o = some s ∧ p s := by
  cases o with
  | none => cases h
  | some s => exact ⟨s, rfl, of_decide_eq_true h⟩

end Verif.Multi

namespace Verif.Props
open Verif.Multi

/-- C41: whatever the schedule, `Results` returns one response for each request of the multi-request. -/
theorem C41_one_each {cs : List Choice} {s : St} {l : List Nat} (h : run init cs = some s) (hg : s.got = some l) :
    l.Nodup ∧ l.length = s.ret ∧ ∀ i, i ∈ l ↔ i < s.ret := by
  have hi := inv_run inv_init h
  obtain ⟨h1, h2, h3⟩ := hi.got l hg
  have hq := (hi.quiet (by rw [h1]; rfl)).2
  rw [hq]
  refine ⟨h2, ?_, h3⟩
  have h4 := (nodup_bound h2 fun i hi => (h3 i).1 hi).1
  have h5 := nodup_length (l := List.range s.r) (l' := l) List.nodup_range fun i hi => (h3 i).2 (List.mem_range.1 hi)
  rw [List.length_range] at h5
  omega

/-- C41: `Results` is not left waiting: if all requests are answered and their `Respond`s are through, the owner alone
brings `Results` to its end. -/
theorem C41_results_ends {cs : List Choice} {s : St} (h : run init cs = some s) (hd : Settled s)
    (ho : s.own = .enter .results ∨ s.own = .lock .results ∨ s.own = .rCmp ∨ (∃ b, s.own = .rWait b) ∨ s.own = .rTake) :
    ∃ n s', run s (times n .owner) = some s' ∧ s'.own = .fin .results ∧ s'.got ≠ none := by
  have hi := inv_run inv_init h
  have hl : 0 < s.own.left := by
    rcases ho with h | h | h | ⟨b, h⟩ | h <;> rw [h] <;> simp [OPc.left]
  clear ho h
  generalize hk : s.own.left = k at hl
  induction k using Nat.strongRecOn generalizing s with
  | _ k ih =>
    obtain ⟨t, h1, h2, h3, h4⟩ := results_step hi hd (by omega)
    have ht : Inv t := step_owner hi h1
    rcases Nat.eq_zero_or_pos t.own.left with h0 | h0
    · refine ⟨1, t, ?_, h4 h0, (ht.fin (h4 h0)).2.2⟩
      show (step s .owner).bind _ = _
      rw [show step s .owner = some t from h1]
      rfl
    · obtain ⟨n, u, h5, h6⟩ := ih _ (by omega) h2 ht rfl h0
      refine ⟨n + 1, u, ?_, h6⟩
      show (step s .owner).bind _ = _
      rw [show step s .owner = some t from h1]
      exact h5

/-- `Request` without a cancellation. -/
def mk : List Choice := [.request false, .owner, .owner]

/-- `Respond` through the lock. -/
def slow (i : Nat) : List Choice := .answer i 0 :: times 6 (.resp i)

/-- Three requests; one is answered before `Results` is called, one before it waits, one while it waits. -/
def resultsRun : List Choice :=
  mk ++ mk ++ mk ++ slow 2 ++ [.results] ++ slow 0 ++ times 3 .owner ++ slow 1 ++ times 2 .owner

example : (run init resultsRun).any (fun s => s.got = some [2, 0, 1]) = true := by decide +kernel

/-- C42 does not hold: if the last response comes while `Each` moves the earlier ones, the channel is closed twice, or
`Each` sends to the closed channel. -/
theorem C42_double_close_violated :
    (∃ s, run init (mk ++ [.each] ++ times 3 .owner ++ [.answer 0 0] ++ times 4 (.resp 0) ++ times 3 .owner) = some s ∧
      s.own = .chanPanic) ∧
    (∃ s, run init (mk ++ mk ++ slow 0 ++ [.each] ++ times 3 .owner ++ [.answer 1 0] ++ times 4 (.resp 1) ++ [.owner]) =
      some s ∧ s.own = .chanPanic) := by
  constructor
  all_goals
    apply any_some (p := fun s : St => s.own = .chanPanic)
    decide +kernel

/-- C42, in part: if the last response does not come while `Each` moves the earlier ones, then nobody sends to a closed
channel or closes it twice; a closed channel has got one response for each request; and it is closed when `Each` has
returned and all `Respond`s are through. -/
theorem C42_channel_partial {cs : List Choice} {s : St} (h : run init cs = some s) (hc : Along Calm init cs) :
    (∀ i, s.rp i ≠ .sendPanic ∧ s.rp i ≠ .closePanic) ∧ s.own ≠ .chanPanic ∧ s.closed ≤ 1 ∧
      (s.closed = 1 → ∃ d, s.ch = some d ∧ d.Nodup ∧ ∀ i, i ∈ d ↔ i < s.ret) ∧
      (s.own = .fin .each → Settled s → s.closed = 1) := by
  have hi := inv_run inv_init h
  have he := einv_run inv_init einv_init hc h
  refine ⟨he.ok, he.okO, he.shut, fun h1 => ?_, fun h1 h2 => ?_⟩
  · have h2 : s.own.opened = true := by
      cases e : s.own.opened
      · have := he.open1 e; omega
      · rfl
    obtain ⟨d, h3, h4, h5⟩ := he.sent h2
    have h6 : s.own.rest = [] := by
      cases e : s.own <;> try rfl
      have := he.open2 (.inl ⟨_, e⟩)
      omega
    rw [h6, List.append_nil] at h4 h5
    have h7 : s.own.calling = false := by cases e : s.own <;> rw [e] at h2 <;> first | rfl | cases h2
    refine ⟨d, h3, h4, fun i => ?_⟩
    rw [(hi.quiet h7).2, h5]
    constructor
    · rintro (h8 | h8)
      · exact hi.lt i (fun e => by have := (hi.logMem i).1 h8; rw [e] at this; cases this)
      · exact hi.lt i (fun e => by rw [e] at h8; cases h8)
    · intro h8
      exact .inl (hi.all.2 (he.full h1) i h8)
  · rcases he.due (.inr h1) (hi.settled h2).1 with h3 | ⟨i, h3⟩
    · exact h3
    · have := h2 i (hi.lt i (by rw [h3]; simp))
      rw [h3] at this
      cases this

/-- C42: the condition of `C42_channel_partial` is needed: where it fails, a panic can follow. -/
theorem C42_condition_needed {cs : List Choice} {s : St} (h : run init cs = some s) (hc : ¬ Calm s) :
    ∃ ds s', run s ds = some s' ∧ Panicked s' := by
  have hl := last_run h
  unfold Calm at hc
  rw [Classical.not_imp] at hc
  obtain ⟨h1, h2⟩ := hc
  obtain ⟨i, h2⟩ := Classical.not_forall.1 h2
  have h2 := Classical.not_not.1 h2
  have h3 := hl i h2
  by_cases h4 : 0 < s.closed
  · refine ⟨[.resp i], { s with rp := Multi.set s.rp i .closePanic }, ?_, .inr (.inr (.inl ⟨i, .inr (by simp [Multi.set])⟩))⟩
    simp [run, step, stepResp, h2, h4]
  · rcases h1 with ⟨l, h1⟩ | h1
    · cases l with
      | nil =>
        refine ⟨[.resp i, .owner, .owner, .owner], ?_⟩
        simp [run, step, stepResp, stepOwner, h1, h2, h3, h4, Panicked]
      | cons j l =>
        refine ⟨[.resp i, .owner], ?_⟩
        simp [run, step, stepResp, stepOwner, h1, h2, h4, Panicked]
    · refine ⟨[.resp i, .owner, .owner], ?_⟩
      simp [run, step, stepResp, stepOwner, h1, h2, h3, h4, Panicked]

/-- Three requests: one answered before `Each`, one while it moves the first, one afterwards. -/
def eachRun : List Choice :=
  mk ++ mk ++ mk ++ slow 1 ++ [.each] ++ times 3 .owner ++ [.answer 2 0] ++ times 3 (.resp 2) ++ times 4 .owner ++
    [.answer 0 0] ++ times 5 (.resp 0)

example : (run init eachRun).any (fun s => s.ch = some [2, 1, 0] ∧ s.closed = 1 ∧ s.own = .fin .each) = true := by
  decide +kernel

example : Along Calm init eachRun := along_calm inv_init (by decide +kernel)

/-- C43 does not hold: the operands of `w.c == w.r` may be read in either order. If `w.r` is read first, a request
created in between (and cancelled on creation) makes the two equal, and `Cancel` returns without having cancelled
request 0. -/
theorem C43_missed_violated :
    ∃ s, run init (mk ++ [.cancel 0 false false, .canc 0, .request false] ++ times 4 .owner ++ times 6 (.resp 1) ++
        [.owner, .canc 0]) = some s ∧
      (s.cp 0 = .done false ∧ s.ret = 2 ∧ s.code 0 = none ∧ s.code 1 = some rcCanceled) := by
  apply any_some
    (p := fun s : St => s.cp 0 = .done false ∧ s.ret = 2 ∧ s.code 0 = none ∧ s.code 1 = some rcCanceled)
  decide +kernel

/-- C43, in part (`w.c` is read before `w.r`): once a `Cancel` or `Expire` has returned, every request is answered,
whether created before or after. -/
theorem C43_all_answered_partial {cs : List Choice} {s : St} {k i : Nat} (h : run init cs = some s)
    (hk : s.cp k = .done true) (hi : i < s.ret) : s.code i ≠ none := by
  have h' := inv_run inv_init h
  have hr : i < s.r ∧ s.own.todo ≠ some i := by
    cases e : s.own
    case store j => have := h'.store _ e; exact ⟨by omega, by simp [OPc.todo]⟩
    case chk j | chkK j | chkA j _ | failW j =>
      have := h'.chk j (by rw [e]; rfl)
      exact ⟨by omega, by simp only [OPc.todo, ne_eq, Option.some.injEq, reduceCtorEq, not_false_eq_true] <;> omega⟩
    all_goals
      have := h'.quiet (by rw [e]; rfl)
      exact ⟨by omega, by simp [OPc.todo]⟩
  rcases h'.cDone k hk i hr.1 with h2 | h2
  · exact fun e => h2 ((h'.code i).1 e)
  · exact absurd h2 hr.2

/-- C43: a request has the code with which somebody answered it, or that of the cancellation. -/
theorem C43_codes {cs : List Choice} {s : St} {i : Nat} {x : UInt32} (h : run init cs = some s) (hx : s.code i = some x) :
    .answer i x ∈ cs ∨ (s.cancel = true ∧ x = rcCanceled) ∨ (s.expire = true ∧ x = rcTimeout) := by
  have := origin_run (cs := []) (fun i x hx => by simp [init] at hx) inv_init h i x hx
  rwa [List.nil_append] at this

/-- C43: if `Cancel` comes first, a later `Expire` changes nothing: every request has the code with which somebody answered it, or
that of `Cancel`. -/
theorem C43_cancel_first {cs ds : List Choice} {s t : St} {i : Nat} {x : UInt32} (h : run init cs = some s)
    (hc : s.cancel = true) (he : s.expire = false) (ht : run s ds = some t) (hx : t.code i = some x) :
    .answer i x ∈ cs ++ ds ∨ x = rcCanceled := by
  have hI := inv_run inv_init h
  have ho := origin_run (cs := []) (fun i x hx => by simp [init] at hx) inv_init h
  rw [List.nil_append] at ho
  have f : First s cs := by
    refine ⟨hc, fun y e => ?_, fun k a i n y e => ?_, fun i y e => ?_⟩
    · rcases hI.oK y e with h1 | h1
      · exact h1.2
      · rw [he] at h1; cases h1.1
    · rcases hI.cK k a i n y e with h1 | h1
      · exact h1.2
      · rw [he] at h1; cases h1.1
    · rcases ho i y e with h1 | h1 | h1
      · exact .inl h1
      · exact .inr h1.2
      · rw [he] at h1; cases h1.1
  exact (first_run f ht).code i x hx

/-- C43_cancel_first: `Cancel` has said so and done nothing yet when `Expire` fails the requests. -/
example : (run init (mk ++ mk ++ [.cancel 3 false true])).any (fun s => s.cancel ∧ s.expire = false) = true ∧
    (run init (mk ++ mk ++ [.cancel 3 false true, .cancel 4 true true] ++ times 7 (.canc 4))).any (fun s =>
      s.expire ∧ s.code 0 = some rcCanceled) = true := by decide +kernel

/-- Two requests, `Expire` in the middle of the creation of the third. -/
def expireRun : List Choice :=
  mk ++ mk ++ slow 0 ++ [.request true, .cancel 3 true true, .canc 3, .owner, .canc 3] ++ times 6 (.canc 3) ++
    times 6 (.resp 1) ++ [.canc 3] ++ times 3 .owner ++ times 6 (.resp 2) ++ times 2 (.canc 3) ++ [.owner]

example : (run init expireRun).any (fun s => s.cp 3 = .done true ∧ s.ret = 3 ∧ s.code 0 = some 0 ∧
    s.code 1 = some rcTimeout ∧ s.code 2 = some rcTimeout) = true := by decide +kernel

/-- `Cancel` goes on reading the old array when `w.requests` has grown: the entry of request 1, answered in the meantime, is still there. -/
def staleRun : List Choice :=
  mk ++ mk ++ [.cancel 0 false true] ++ times 3 (.canc 0) ++ [.request true] ++ slow 1 ++ times 4 (.canc 0) ++ times 6 (.resp 0) ++
    times 6 (.canc 0)

example : (run init staleRun).any (fun s => s.cp 0 = .fail 0 2 2 ∧ s.gone 0 1 = false ∧ s.gone 1 1 = true ∧ s.code 1 = some 0 ∧
    s.code 0 = some rcCanceled) = true := by decide +kernel

/-- C47 does not hold: if all responses were there before, `Each` closes the channel without unregistering the
multi-request. -/
theorem C47_each_violated :
    ∃ s, run init (mk ++ slow 0 ++ [.each] ++ times 8 .owner) = some s ∧
      (s.own = .fin .each ∧ s.closed = 1 ∧ s.rp 0 = .done ∧ s.r = 1 ∧ s.removed = false) := by
  apply any_some
    (p := fun s : St => s.own = .fin .each ∧ s.closed = 1 ∧ s.rp 0 = .done ∧ s.r = 1 ∧ s.removed = false)
  decide +kernel

/-- C47, in part: after `Results` the multi-request is unregistered; after `Each` it is when the channel was closed by
the last response and not by `Each` itself. -/
theorem C47_unregistered_partial {cs : List Choice} {s : St} (h : run init cs = some s) :
    (s.got ≠ none → s.removed = true) ∧
      (Along (fun s => s.own ≠ .eClose) init cs → s.closed ≠ 0 → Settled s → s.removed = true) := by
  have hi := inv_run inv_init h
  constructor
  · intro h1
    cases e : s.got with
    | none => exact absurd e h1
    | some l => exact (hi.fin (hi.got l e).1).2.1
  · intro h1 h2 h3
    rcases gone_run h1 h h2 with h4 | ⟨i, h4⟩
    · exact h4
    · have := h3 i (hi.lt i (by rw [h4]; simp))
      rw [h4] at this
      cases this

example : (run init eachRun).any (fun s => s.removed = true) = true := by decide +kernel
example : (run init resultsRun).any (fun s => s.removed = true) = true := by decide +kernel

/-- C67 does not hold: `performFailAll` reads the entry of a request twice; a response between the two makes the second
nil, and `Cancel` dereferences it. -/
theorem C67_nil_violated :
    ∃ s, run init (mk ++ [.cancel 0 false true] ++ times 4 (.canc 0) ++ slow 0 ++ [.canc 0]) = some s ∧
      s.cp 0 = .dead := by
  apply any_some (p := fun s : St => s.cp 0 = .dead)
  decide +kernel

/-- C67, in part: nothing panics if no response is stored between the two looks at its request, and the last response
does not come while `Each` moves the earlier ones. -/
theorem C67_no_panic_partial {cs : List Choice} {s : St} (h : run init cs = some s) (hc : Along Calm init cs)
    (ha : Along Apart init cs) : ¬ Panicked s := by
  have he := einv_run inv_init einv_init hc h
  have ht := there_run ha h
  rintro (h1 | h1 | ⟨i, h1 | h1⟩ | ⟨k, h1⟩)
  · exact ht.okO h1
  · exact he.okO h1
  · exact (he.ok i).1 h1
  · exact (he.ok i).2 h1
  · exact ht.okC k h1

example : Along Calm init expireRun ∧ Along Apart init expireRun :=
  ⟨along_calm inv_init (by decide +kernel),
    along_apart (K := 4) inv_init (fun _ _ => rfl) (by
      intro c hc k e f hk
      subst hk
      have : (expireRun.all fun c => match c with | .cancel k _ _ => decide (k < 4) | _ => true) = true := by
        decide +kernel
      exact of_decide_eq_true (List.all_eq_true.1 this _ hc)) (by decide +kernel)⟩

end Verif.Props
