import Verif.Spec.Endpoint
import Verif.Props.Buffer
import Verif.Props.Conn
/-!
A client endpoint: the projections to the queue and to the connections, and the invariant that ties them together.
-/
namespace Verif.Endpoint

theorem run_append {R cap : Nat} {s : St} {cs ds : List Choice} :
    run R cap s (cs ++ ds) = (run R cap s cs).bind fun s => run R cap s ds := by
  induction cs generalizing s with
  | nil => rfl
  | cons c cs ih =>
    simp only [List.cons_append, run]
    cases step R cap s c with
    | none => rfl
    | some s1 => simp [ih]

theorem buffer_run_append {R cap : Nat} {s : Buffer.St} {cs ds : List Buffer.Choice} :
    Buffer.run R cap s (cs ++ ds) = (Buffer.run R cap s cs).bind fun s => Buffer.run R cap s ds := by
  induction cs generalizing s with
  | nil => rfl
  | cons c cs ih =>
    simp only [List.cons_append, Buffer.run]
    cases Buffer.step R cap s c with
    | none => rfl
    | some s1 => simp [ih]

/-! ### The queue -/

theorem begin_run {R cap : Nat} (b : Buffer.St) (r : Nat) : ∃ l, Buffer.run R cap b l = some (begin b r) := by
  unfold begin
  split
  · rename_i h
    exact ⟨[.answer r], by simp [Buffer.run, Buffer.step, Buffer.stepAnswer, h]⟩
  · exact ⟨[], rfl⟩

theorem recv_run {R cap : Nat} {b : Buffer.St} {r : Nat} {rest : List Nat} (h : b.chan = r :: rest) :
    Buffer.run R cap b [.recv] = some { b with chan := rest } := by
  simp [Buffer.run, Buffer.step, h]

/-- What the queue does in a step. -/
theorem queue_step {R cap : Nat} {s s' : St} {c : Choice} (h : step R cap s c = some s') :
    ∃ l, Buffer.run R cap s.b l = some s'.b := by
  have one : ∀ x, (Buffer.step R cap s.b x).map (fun b => { s with b }) = some s' → ∃ l, Buffer.run R cap s.b l = some s'.b := by
    intro x hx
    obtain ⟨b, hb, rfl⟩ := Option.map_eq_some_iff.1 hx
    exact ⟨[x], by simp [Buffer.run, hb]⟩
  have cn : ∀ i x, (Conn.step (s.c i) x).map (fun k =>
      ({ s with c := Conn.set s.c i k, b := match answers (s.c i) x with
        | some r => begin s.b r
        | none => s.b } : St)) = some s' → ∃ l, Buffer.run R cap s.b l = some s'.b := by
    intro i x hx
    obtain ⟨k, _, rfl⟩ := Option.map_eq_some_iff.1 hx
    simp only
    split
    · exact begin_run ..
    · exact ⟨[], rfl⟩
  cases c with
  | queue x =>
    cases x with
    | recv => cases h
    | answer r =>
      simp only [step] at h
      split at h
      · cases h
      · exact one _ h
    | push r => exact one _ h
    | headFirst r => exact one _ h
    | loop => exact one _ h
    | close => exact one _ h
  | fail r => cases h; exact begin_run ..
  | take i =>
    simp only [step] at h
    split at h
    · cases h
    · rename_i r rest hc
      obtain ⟨k, _, rfl⟩ := Option.map_eq_some_iff.1 h
      exact ⟨[.recv], recv_run hc⟩
  | conn i x =>
    cases x with
    | take r => cases h
    | fail r => cases h
    | header => exact cn _ _ h
    | wrote _ => exact cn _ _ h
    | endWrite _ => exact cn _ _ h
    | resp _ _ => exact cn _ _ h
    | reply => exact cn _ _ h
    | endRead => exact cn _ _ h
    | flush => exact cn _ _ h
    | flushOne => exact cn _ _ h
  | drain =>
    simp only [step] at h
    split at h
    · rename_i hc _
      cases h
      exact ⟨[.recv], recv_run hc⟩
    · cases h
  | ioError =>
    simp only [step] at h
    split at h
    · cases h; exact begin_run ..
    · cases h

theorem queue_run {R cap : Nat} {s s' : St} {cs : List Choice} (h : run R cap s cs = some s') :
    ∃ l, Buffer.run R cap s.b l = some s'.b := by
  induction cs generalizing s with
  | nil => cases h; exact ⟨[], rfl⟩
  | cons c cs ih =>
    simp only [run] at h
    obtain ⟨s1, h1, h2⟩ := Option.bind_eq_some_iff.1 h
    obtain ⟨l1, e1⟩ := queue_step h1
    obtain ⟨l2, e2⟩ := ih h2
    exact ⟨l1 ++ l2, by rw [buffer_run_append, e1]; exact e2⟩

/-! ### The connections -/

/-- What connection `i` does in a step. -/
theorem conn_step {R cap : Nat} {s s' : St} {c : Choice} (h : step R cap s c = some s') (i : Nat) :
    s'.c i = s.c i ∨ ∃ x, Conn.step (s.c i) x = some (s'.c i) ∧ ∀ id y, x = .resp id y → c = .conn i (.resp id y) := by
  have cn : ∀ j x, (Conn.step (s.c j) x).map (fun k =>
      ({ s with c := Conn.set s.c j k, b := match answers (s.c j) x with
        | some r => begin s.b r
        | none => s.b } : St)) = some s' → (∀ id y, x = .resp id y → c = .conn j (.resp id y)) →
      s'.c i = s.c i ∨ ∃ x, Conn.step (s.c i) x = some (s'.c i) ∧ ∀ id y, x = .resp id y → c = .conn i (.resp id y) := by
    intro j x hx hy
    obtain ⟨k, hk, rfl⟩ := Option.map_eq_some_iff.1 hx
    by_cases e : i = j
    · subst e
      exact .inr ⟨x, by simp only [Conn.set, if_true]; exact hk, hy⟩
    · exact .inl (by simp only [Conn.set, if_neg e])
  have one : ∀ x, (Buffer.step R cap s.b x).map (fun b => { s with b }) = some s' → s'.c i = s.c i := by
    intro x hx
    obtain ⟨b, hb, rfl⟩ := Option.map_eq_some_iff.1 hx
    rfl
  cases c with
  | queue x =>
    cases x with
    | recv => cases h
    | answer r =>
      simp only [step] at h
      split at h
      · cases h
      · exact .inl (one _ h)
    | push r => exact .inl (one _ h)
    | headFirst r => exact .inl (one _ h)
    | loop => exact .inl (one _ h)
    | close => exact .inl (one _ h)
  | fail r => cases h; exact .inr ⟨.fail r, rfl, by simp⟩
  | take j =>
    simp only [step] at h
    split at h
    · cases h
    · rename_i r rest hc
      obtain ⟨k, hk, rfl⟩ := Option.map_eq_some_iff.1 h
      by_cases e : i = j
      · subst e
        exact .inr ⟨.take r, by simp only [Conn.set, if_true]; exact hk, by simp⟩
      · exact .inl (by simp only [Conn.set, if_neg e])
  | conn j x =>
    cases x with
    | take r => cases h
    | fail r => cases h
    | header => exact cn _ _ h (by simp)
    | wrote _ => exact cn _ _ h (by simp)
    | endWrite _ => exact cn _ _ h (by simp)
    | resp _ _ => exact cn _ _ h (by rintro _ _ ⟨⟩; rfl)
    | reply => exact cn _ _ h (by simp)
    | endRead => exact cn _ _ h (by simp)
    | flush => exact cn _ _ h (by simp)
    | flushOne => exact cn _ _ h (by simp)
  | drain =>
    simp only [step] at h
    split at h
    · cases h; exact .inl rfl
    · cases h
  | ioError =>
    simp only [step] at h
    split at h
    · rename_i r _; cases h; exact .inr ⟨.fail r, rfl, by simp⟩
    · cases h

theorem conn_run {R cap : Nat} {s s' : St} {cs : List Choice} (h : run R cap s cs = some s') (i : Nat) :
    ∃ ds, Conn.run (s.c i) ds = some (s'.c i) ∧ (Polite R cap s cs → Conn.Polite (s.c i) ds) := by
  induction cs generalizing s with
  | nil => cases h; exact ⟨[], rfl, fun _ => trivial⟩
  | cons c cs ih =>
    simp only [run] at h
    obtain ⟨s1, h1, h2⟩ := Option.bind_eq_some_iff.1 h
    obtain ⟨ds, e2, p2⟩ := ih h2
    rcases conn_step h1 i with e | ⟨x, e, hx⟩
    · exact ⟨ds, by rw [← e]; exact e2, fun p => by rw [← e]; exact p2 (p.2 _ h1)⟩
    · refine ⟨x :: ds, by simp [Conn.run, e, e2], fun p => ⟨?_, ?_⟩⟩
      · intro id y hxy
        exact p.1 i id y (hx id y hxy)
      · intro k hk
        rw [e] at hk
        cases hk
        exact p2 (p.2 _ h1)

/-! ### One connection -/

theorem mem_req_turn {h : Conn.Holder} {o j r : Nat} (e : ((Conn.Holder.turn h).heap o).req j = some r) :
    (h.heap o).req j = some r := by
  unfold Conn.Holder.turn at e
  simp only at e
  split at e
  · simp only [Conn.set] at e
    split at e
    · cases e
    · exact e
  · exact e

theorem mem_req_round {h : Conn.Holder} {o j r : Nat} (e : (h.round.1.heap o).req j = some r) : (h.heap o).req j = some r := by
  unfold Conn.Holder.round at e
  simp only at e
  apply mem_req_turn (h := { h with curId := (h.curId + 1) % Conn.M })
  (repeat' split at e) <;> try exact e
  simp only [Conn.set] at e
  split at e
  · rename_i ho; rw [ho]; exact e
  · exact e

theorem mem_req_rounds {n : Nat} {h h' : Conn.Holder} {o' j' o j r : Nat} (he : Conn.Holder.rounds n h = some (h', o', j'))
    (e : (h'.heap o).req j = some r) : (h.heap o).req j = some r := by
  induction n generalizing h with
  | zero => cases he
  | succ n ih =>
    unfold Conn.Holder.rounds at he
    split at he
    · rename_i k _ _ hr
      cases he
      exact mem_req_round (by rw [hr]; exact e)
    · rename_i k hr
      exact mem_req_round (by rw [hr]; exact ih he)

theorem mem_req_remove {h h' : Conn.Holder} {id : Nat} {q : Option Nat} {o j r : Nat} (he : h.remove id = some (h', q))
    (e : (h'.heap o).req j = some r) : (h.heap o).req j = some r := by
  unfold Conn.Holder.remove at he
  obtain ⟨k, hk, he⟩ := Option.map_eq_some_iff.1 he
  have hh : k.heap = h.heap := by
    unfold Conn.Holder.fetch at hk
    (repeat' split at hk) <;> cases hk <;> rfl
  cases he
  simp only [Conn.set] at e
  split at e
  · rename_i ho; rw [ho, ← hh]; exact e
  · rw [← hh]; exact e

/-- A request noted in a slot was taken; a request is answered if its state says so. -/
structure Held (s : Conn.St) : Prop where
  row : ∀ o j r, (s.h.heap o).req j = some r → s.rs r ≠ .pending
  ans : ∀ r, s.rs r = .performed ↔ s.ans r ≠ none

theorem held_answer {s : Conn.St} (h : Held s) (q : Nat) (a : Conn.Ans) : Held (Conn.answer s q a) := by
  have hm : ∀ o j r, ((Conn.answer s q a).h.heap o).req j = some r → (s.h.heap o).req j = some r := by
    intro o j r e
    simp only [Conn.answer, Conn.unchain] at e
    split at e
    · exact e
    · simp only [Conn.set] at e
      split at e
      · rename_i ho
        subst ho
        simp only [Conn.set] at e
        split at e
        · cases e
        · exact e
      · exact e
  refine ⟨fun o j r e => ?_, fun r => ?_⟩
  · have := h.row o j r (hm o j r e)
    simp only [Conn.answer, Conn.set]
    split
    · simp
    · exact this
  · simp only [Conn.answer, Conn.set]
    split
    · simp
    · exact h.ans r

theorem held_offer {s : Conn.St} (h : Held s) (q o j : Nat) : Held (Conn.offer s q o j) := by
  unfold Conn.offer Conn.claim
  split
  · rename_i hp
    refine ⟨fun o' j' r e => ?_, fun r => ?_⟩
    · simp only [Conn.set] at e ⊢
      split
      · simp
      · rename_i hrq
        split at e
        · simp only [Conn.set] at e
          split at e
          · cases e; exact absurd rfl hrq
          · exact h.row _ _ _ e
        · exact h.row _ _ _ e
    · simp only [Conn.set]
      split
      · rename_i e
        subst e
        have := h.ans r
        rw [hp] at this
        simp_all
      · exact h.ans r
  · exact ⟨h.row, h.ans⟩

theorem held_put {s : Conn.St} (h : Held s) {k : Conn.Holder}
    (hk : ∀ o j r, (k.heap o).req j = some r → (s.h.heap o).req j = some r) : Held { s with h := k } :=
  ⟨fun o j r e => h.row o j r (hk o j r e), h.ans⟩

theorem held_respond {s : Conn.St} (h : Held s) (q : Nat) (a : Conn.Ans) : Held (Conn.respond s q a) := by
  unfold Conn.respond
  split
  · exact held_answer h q a
  · exact h

theorem held_respondFail {s : Conn.St} (h : Held s) (q : Nat) (a : Conn.Ans) : Held (Conn.respondFail s q a) := by
  unfold Conn.respondFail
  split
  · exact h
  · exact held_answer h q a

theorem held_step {s s' : Conn.St} {c : Conn.Choice} (h : Held s) (hs : Conn.step s c = some s') : Held s' := by
  cases c <;> simp only [Conn.step] at hs <;> (repeat' split at hs) <;> cases hs
  all_goals first
    | exact ⟨h.row, h.ans⟩
    | exact held_offer h _ _ _
    | exact held_respondFail h _ _
    | exact ⟨(held_respond h _ _).row, (held_respond h _ _).ans⟩
    | exact ⟨(held_respondFail h _ _).row, (held_respondFail h _ _).ans⟩
    | skip
  · rename_i e
    exact held_offer (held_put h fun _ _ _ => mem_req_rounds (h := { s.h with got := s.h.got + 1 }) e) _ _ _
  · rename_i e
    exact ⟨(held_put h fun _ _ _ => mem_req_remove e).row, h.ans⟩

theorem held_run {s s' : Conn.St} {cs : List Conn.Choice} (h : Held s) (hs : Conn.run s cs = some s') : Held s' := by
  induction cs generalizing s with
  | nil => cases hs; exact h
  | cons c cs ih =>
    simp only [Conn.run] at hs
    obtain ⟨s1, h1, h2⟩ := Option.bind_eq_some_iff.1 hs
    exact ih (held_step h h1) h2

theorem held_init : Held Conn.init := by constructor <;> simp [Conn.init, Conn.Holder.init, Conn.Row.new]

/-- What a step of a connection does to the states of requests. -/
theorem conn_rs {s s' : Conn.St} {x : Conn.Choice} (h : Held s) (hs : Conn.step s x = some s') (h1 : ∀ r, x ≠ .take r) (h2 : ∀ r, x ≠ .fail r) :
    (∀ r, answers s x = some r → s.rs r = .inFly ∧ s'.rs = Conn.set s.rs r .performed) ∧ (answers s x = none → s'.rs = s.rs) := by
  cases x with
  | take r => exact absurd rfl (h1 r)
  | fail r => exact absurd rfl (h2 r)
  | reply =>
    simp only [Conn.step] at hs
    simp only [answers]
    split at hs
    · rename_i e
      cases hs
      rw [e]
      simp
    · rename_i q id y e
      cases hs
      rw [e]
      simp only [Conn.respond]
      by_cases hq : s.rs q = .inFly
      · simp only [if_pos hq]
        refine ⟨?_, by simp⟩
        rintro r ⟨⟩
        exact ⟨hq, rfl⟩
      · simp [if_neg hq]
    · cases hs
  | flushOne =>
    simp only [Conn.step] at hs
    simp only [answers]
    split at hs
    · rename_i e
      cases hs
      rw [e]
      simp
    · rename_i o j l e
      rw [e]
      simp only
      split at hs
      · rename_i q hq
        cases hs
        rw [hq]
        simp only [Conn.respondFail]
        have := h.row _ _ _ hq
        by_cases hp : s.rs q = .performed
        · simp [if_pos hp]
        · simp only [if_neg hp]
          refine ⟨?_, by simp⟩
          rintro r ⟨⟩
          refine ⟨?_, rfl⟩
          cases e : s.rs q <;> simp_all
      · rename_i hq
        cases hs
        rw [hq]
        simp
    · cases hs
  | _ =>
    simp only [Conn.step] at hs
    (repeat' split at hs) <;> cases hs <;> simp [answers]

/-- What taking does. -/
theorem take_rs {s s' : Conn.St} {q : Nat} (hs : Conn.step s (.take q) = some s') :
    s'.rs = if s.rs q = .pending then Conn.set s.rs q .inFly else s.rs := by
  simp only [Conn.step] at hs
  (repeat' split at hs) <;> cases hs <;> simp only [Conn.offer] <;> split <;> simp_all [Conn.claim]

/-! ### The queue again -/

/-- What a step of the queue other than receiving does. -/
theorem buf_step {R cap : Nat} {b b' : Buffer.St} {x : Buffer.Choice} (h : Buffer.step R cap b x = some b') (hx : x ≠ .recv)
    (ha : ∀ r, x = .answer r → b.life r ≠ .live) :
    (∃ l, Buffer.sent b'.log = Buffer.sent b.log ++ l ∧ b'.chan = b.chan ++ l) ∧
      (∀ r, .answered r ∈ b'.log ↔ .answered r ∈ b.log) ∧ ∀ r, b'.life r = .live ↔ b.life r = .live := by
  have h0 : (∃ l, Buffer.sent b.log = Buffer.sent b.log ++ l ∧ b.chan = b.chan ++ l) ∧
      (∀ r, Buffer.Ev.answered r ∈ b.log ↔ .answered r ∈ b.log) ∧ ∀ r, b.life r = .live ↔ b.life r = .live :=
    ⟨⟨[], by simp, by simp⟩, by simp, by simp⟩
  cases x with
  | recv => exact absurd rfl hx
  | push r =>
    simp only [Buffer.step, Buffer.stepPush] at h
    (repeat' split at h) <;> cases h <;> first | exact h0 | skip
    all_goals refine ⟨?_, by simp, by simp⟩
    · exact ⟨[], by simp [Buffer.sent], by simp⟩
    · exact ⟨[r], by simp [Buffer.sent], by simp⟩
    · exact ⟨[], by simp [Buffer.sent], by simp⟩
    · exact ⟨[], by simp [Buffer.sent], by simp⟩
  | headFirst r =>
    simp only [Buffer.step] at h
    split at h <;> cases h
    exact h0
  | loop =>
    simp only [Buffer.step, Buffer.stepLoop] at h
    (repeat' split at h) <;> cases h <;> first | exact h0 | skip
    refine ⟨?_, by simp, by simp⟩
    exact ⟨[_], by simp [Buffer.sent]; rfl, by simp⟩
  | close =>
    simp only [Buffer.step, Buffer.stepClose] at h
    split at h <;> cases h <;> exact h0
  | answer q =>
    have := ha q rfl
    simp only [Buffer.step, Buffer.stepAnswer] at h
    split at h
    · rename_i e; exact absurd e this
    all_goals
      (repeat' split at h) <;> cases h <;> refine ⟨⟨[], by simp, by simp⟩, by simp, ?_⟩ <;> intro r <;> simp only [Buffer.set] <;>
        split <;> simp_all

/-! ### The invariant -/

structure Inv (R cap : Nat) (s : St) : Prop where
  reach : ∃ l, Buffer.run R cap Buffer.init l = some s.b
  held : ∀ i, Held (s.c i)
  chan : Buffer.sent s.b.log = (s.got.map (·.1)).reverse ++ s.b.chan
  life : ∀ r, .answered r ∈ s.b.log ↔ s.b.life r ≠ .live
  taken : ∀ i r, (r, some i) ∈ s.got → (s.c i).rs r ≠ .pending
  other : ∀ i r, (r, some i) ∉ s.got → (s.c i).rs r ≠ .inFly
  same : ∀ i r, (∀ j, j ≠ i → (r, some j) ∉ s.got) → ((s.c i).rs r = .performed ↔ s.b.life r ≠ .live)
  past : ∀ i r, (s.c i).rs r = .performed → s.b.life r ≠ .live
  hand : ∀ r, s.hand = some r → (r, none) ∈ s.got
  drained : ∀ r, (r, none) ∈ s.got → s.hand = some r ∨ s.b.life r ≠ .live

theorem inv_init {R cap : Nat} : Inv R cap init := by
  constructor <;> simp [init, Buffer.init, Conn.init, Buffer.sent]
  · exact ⟨[], rfl⟩
  · exact held_init

theorem Inv.nodup {R cap : Nat} (hR : 0 < R) {s : St} (h : Inv R cap s) : ((s.got.map (·.1)).reverse ++ s.b.chan).Nodup := by
  obtain ⟨l, hl⟩ := h.reach
  rw [← h.chan]
  exact Props.C39_at_most_once hR hl

theorem nodup_unique {l : List (Nat × Option Nat)} (h : (l.map (·.1)).Nodup) {r : Nat} {x y : Option Nat} (hx : (r, x) ∈ l)
    (hy : (r, y) ∈ l) : x = y := by
  induction l with
  | nil => cases hx
  | cons p l ih =>
    rw [List.map_cons, List.nodup_cons] at h
    rcases List.mem_cons.1 hx with e1 | e1 <;> rcases List.mem_cons.1 hy with e2 | e2
    · rw [← e1] at e2; cases e2; rfl
    · exact absurd (List.mem_map.2 ⟨_, e2, by rw [← e1]⟩) h.1
    · exact absurd (List.mem_map.2 ⟨_, e1, by rw [← e2]⟩) h.1
    · exact ih h.2 e1 e2

/-- A request has at most one receiver. -/
theorem Inv.unique {R cap : Nat} (hR : 0 < R) {s : St} (h : Inv R cap s) {r : Nat} {x y : Option Nat} (hx : (r, x) ∈ s.got)
    (hy : (r, y) ∈ s.got) : x = y := by
  have := (List.nodup_append.1 (h.nodup hR)).1
  exact nodup_unique ((List.reverse_perm _).nodup_iff.1 this) hx hy

theorem Inv.head_new {R cap : Nat} (hR : 0 < R) {s : St} (h : Inv R cap s) {r : Nat} {rest : List Nat} (hc : s.b.chan = r :: rest)
    (x : Option Nat) : (r, x) ∉ s.got := by
  intro hm
  have := (List.nodup_append.1 (h.nodup hR)).2.2 r (List.mem_reverse.2 (List.mem_map.2 ⟨_, hm, rfl⟩)) r (by rw [hc]; simp)
  exact this rfl

theorem begin_live (b : Buffer.St) (q r : Nat) : (begin b q).life r = .live ↔ b.life r = .live ∧ r ≠ q := by
  unfold begin
  split
  · simp only [Buffer.set]
    split <;> simp_all
  · rename_i h
    constructor
    · intro e
      exact ⟨e, by rintro rfl; exact h e⟩
    · exact fun e => e.1

theorem begin_log (b : Buffer.St) (q r : Nat) : .answered r ∈ (begin b q).log ↔ .answered r ∈ b.log ∨ b.life r = .live ∧ r = q := by
  unfold begin
  split
  · rename_i h
    simp only [List.mem_append, List.mem_singleton, Buffer.Ev.answered.injEq]
    constructor
    · rintro (e | rfl)
      · exact .inl e
      · exact .inr ⟨h, rfl⟩
    · rintro (e | e)
      · exact .inl e
      · exact .inr e.2
  · rename_i h
    constructor
    · exact .inl
    · rintro (e | ⟨e, rfl⟩)
      · exact e
      · exact absurd e h

theorem begin_sent (b : Buffer.St) (q : Nat) : Buffer.sent (begin b q).log = Buffer.sent b.log ∧ (begin b q).chan = b.chan := by
  unfold begin
  split
  · exact ⟨by simp [Buffer.sent], rfl⟩
  · exact ⟨rfl, rfl⟩

theorem fail_rs (s : Conn.St) (q r : Nat) (a : Conn.Ans) : (Conn.respondFail s q a).rs r = if r = q then .performed else s.rs r := by
  unfold Conn.respondFail
  split
  · split <;> simp_all
  · simp only [Conn.answer, Conn.set]

theorem inv_fail {R cap : Nat} {s : St} (h : Inv R cap s) (q : Nat) : Inv R cap (failAll s q) := by
  have hb := begin_live s.b q
  have hl := begin_log s.b q
  have hc := begin_sent s.b q
  have hr := fun i => fail_rs (s.c i) q
  refine ⟨?_, ?_, ?_, ?_, ?_, ?_, ?_, ?_, h.hand, ?_⟩
  · obtain ⟨l, e⟩ := h.reach
    obtain ⟨l2, e2⟩ := begin_run (R := R) (cap := cap) s.b q
    exact ⟨l ++ l2, by rw [buffer_run_append, e]; exact e2⟩
  · exact fun i => held_respondFail (h.held i) _ _
  · simp only [failAll]
    rw [hc.1, hc.2]; exact h.chan
  · intro r
    simp only [failAll]
    rw [hl, Ne, hb, h.life]
    by_cases e : s.b.life r = .live <;> simp [e]
  · intro i r hm
    have := h.taken i r hm
    simp only [failAll, hr]
    split
    · simp
    · exact this
  · intro i r hm
    have := h.other i r hm
    simp only [failAll, hr]
    split
    · simp
    · exact this
  · intro i r hm
    have := h.same i r hm
    simp only [failAll, hr, Ne, hb]
    split
    · simp_all
    · simp_all
  · intro i r
    have := h.past i r
    simp only [failAll, hr, Ne, hb]
    split
    · simp_all
    · simp_all
  · intro r hm
    simp only [failAll, Ne, hb]
    rcases h.drained r hm with e | e
    · exact .inl e
    · exact .inr fun e' => e e'.1

theorem inv_conn {R cap : Nat} {s s' : St} {j : Nat} {x : Conn.Choice} (h : Inv R cap s)
    (hs : (Conn.step (s.c j) x).map (fun k =>
      ({ s with c := Conn.set s.c j k, b := match answers (s.c j) x with
        | some r => begin s.b r
        | none => s.b } : St)) = some s') (h1 : ∀ r, x ≠ .take r) (h2 : ∀ r, x ≠ .fail r) : Inv R cap s' := by
  obtain ⟨k, hk, rfl⟩ := Option.map_eq_some_iff.1 hs
  obtain ⟨e1, e2⟩ := conn_rs (h.held j) hk h1 h2
  have hheld : ∀ i, Held (Conn.set s.c j k i) := by
    intro i
    simp only [Conn.set]
    split
    · exact held_step (h.held j) hk
    · exact h.held i
  obtain ⟨q, hq⟩ : ∃ q, answers (s.c j) x = q := ⟨_, rfl⟩
  cases q with
  | none =>
    have hrs : ∀ i, (Conn.set s.c j k i).rs = (s.c i).rs := by
      intro i
      simp only [Conn.set]
      split
      · rename_i e; rw [e]; exact e2 hq
      · rfl
    simp only [hq]
    exact ⟨h.reach, hheld, h.chan, h.life, by simp only [hrs]; exact h.taken, by simp only [hrs]; exact h.other,
      by simp only [hrs]; exact h.same, by simp only [hrs]; exact h.past, h.hand, h.drained⟩
  | some q =>
    obtain ⟨e3, e4⟩ := e1 q hq
    have hgot : (q, some j) ∈ s.got := Classical.byContradiction fun hn => h.other j q hn e3
    have hrs : ∀ i r, (Conn.set s.c j k i).rs r = if i = j ∧ r = q then .performed else (s.c i).rs r := by
      intro i r
      simp only [Conn.set]
      by_cases e : i = j
      · subst e
        simp only [if_true, e4, Conn.set, true_and]
      · simp [e]
    have hb := begin_live s.b q
    have hl := begin_log s.b q
    have hc := begin_sent s.b q
    simp only [hq]
    refine ⟨?_, hheld, ?_, ?_, ?_, ?_, ?_, ?_, h.hand, ?_⟩
    · obtain ⟨l, e⟩ := h.reach
      obtain ⟨l2, e2⟩ := begin_run (R := R) (cap := cap) s.b q
      exact ⟨l ++ l2, by rw [buffer_run_append, e]; exact e2⟩
    · simp only
      rw [hc.1, hc.2]; exact h.chan
    · intro r
      simp only
      rw [hl, Ne, hb, h.life]
      by_cases e : s.b.life r = .live <;> simp [e]
    · intro i r hm
      have := h.taken i r hm
      simp only [hrs]
      split
      · simp
      · exact this
    · intro i r hm
      have := h.other i r hm
      simp only [hrs]
      split
      · simp
      · exact this
    · intro i r hm
      have := h.same i r hm
      simp only [hrs, Ne, hb]
      by_cases e : r = q
      · subst e
        by_cases e' : i = j
        · subst e'; simp
        · exact absurd hgot (hm j (Ne.symm e'))
      · simp_all
    · intro i r
      have := h.past i r
      simp only [hrs, Ne, hb]
      split
      · simp_all
      · intro e e'; exact this e e'.1
    · intro r hm
      simp only [Ne, hb]
      rcases h.drained r hm with e | e
      · exact .inl e
      · exact .inr fun e' => e e'.1

theorem inv_queue {R cap : Nat} {s s' : St} {x : Buffer.Choice} (h : Inv R cap s) (hx : x ≠ .recv)
    (ha : ∀ r, x = .answer r → s.b.life r ≠ .live) (hs : (Buffer.step R cap s.b x).map (fun b => { s with b }) = some s') :
    Inv R cap s' := by
  obtain ⟨b, hb, rfl⟩ := Option.map_eq_some_iff.1 hs
  obtain ⟨⟨l, e1, e2⟩, e3, e4⟩ := buf_step hb hx ha
  refine ⟨?_, h.held, ?_, ?_, h.taken, h.other, ?_, ?_, h.hand, ?_⟩
  · obtain ⟨l, e⟩ := h.reach
    exact ⟨l ++ [x], by rw [buffer_run_append, e]; simp [Buffer.run, hb]⟩
  · simp only
    rw [e1, e2, h.chan, List.append_assoc]
  · intro r
    simp only
    rw [e3, Ne, e4]; exact h.life r
  · intro i r hm
    simp only [Ne, e4]
    exact h.same i r hm
  · intro i r
    simp only [Ne, e4]
    exact h.past i r
  · intro r
    simp only [Ne, e4]
    exact h.drained r

theorem inv_step {R cap : Nat} (hR : 0 < R) {s s' : St} {c : Choice} (h : Inv R cap s) (hs : step R cap s c = some s') : Inv R cap s' := by
  cases c with
  | queue x =>
    cases x with
    | recv => cases hs
    | answer r =>
      simp only [step] at hs
      split at hs
      · cases hs
      · exact inv_queue h (by simp) (by rintro _ ⟨⟩; assumption) hs
    | push r => exact inv_queue h (by simp) (by simp) hs
    | headFirst r => exact inv_queue h (by simp) (by simp) hs
    | loop => exact inv_queue h (by simp) (by simp) hs
    | close => exact inv_queue h (by simp) (by simp) hs
  | fail r => cases hs; exact inv_fail h r
  | take j =>
    simp only [step] at hs
    split at hs
    · cases hs
    · rename_i q rest hc
      obtain ⟨k, hk, rfl⟩ := Option.map_eq_some_iff.1 hs
      have hnew := h.head_new hR hc
      have ht := take_rs hk
      have hfr := h.same j q (fun i _ => hnew _)
      have hno := h.other j q (hnew _)
      have hrs : ∀ i r, (Conn.set s.c j k i).rs r = if i = j ∧ r = q ∧ (s.c j).rs q = .pending then .inFly else (s.c i).rs r := by
        intro i r
        simp only [Conn.set]
        by_cases e : i = j
        · subst e
          simp only [if_true, ht, true_and]
          by_cases e' : (s.c i).rs q = .pending
          · simp [e', Conn.set]
          · simp [e']
        · simp [e]
      refine ⟨?_, ?_, ?_, h.life, ?_, ?_, ?_, ?_, ?_, ?_⟩
      · obtain ⟨l, e⟩ := h.reach
        exact ⟨l ++ [.recv], by rw [buffer_run_append, e]; exact recv_run hc⟩
      · intro i
        simp only [Conn.set]
        split
        · exact held_step (h.held j) hk
        · exact h.held i
      · simp only [List.map_cons, List.reverse_cons, List.append_assoc]
        rw [h.chan, hc]
        rfl
      · intro i r hm
        simp only [hrs]
        rcases List.mem_cons.1 hm with e | e
        · cases e
          split
          · simp
          · intro e; simp_all
        · split
          · simp
          · exact h.taken i r e
      · intro i r hm
        simp only [hrs]
        rw [List.mem_cons, not_or] at hm
        split
        · rename_i e
          exact absurd (by rw [e.1, e.2.1]) hm.1
        · exact h.other i r hm.2
      · intro i r hm
        simp only [hrs]
        have := h.same i r fun j hj hg => hm j hj (List.mem_cons_of_mem _ hg)
        split
        · rename_i e
          obtain ⟨rfl, rfl, e⟩ := e
          simp_all
        · exact this
      · intro i r
        simp only [hrs]
        split
        · simp
        · exact h.past i r
      · intro r hr
        exact List.mem_cons_of_mem _ (h.hand r hr)
      · intro r hm
        rcases List.mem_cons.1 hm with e | e
        · cases e
        · exact h.drained r e
  | conn j x =>
    cases x with
    | take r => cases hs
    | fail r => cases hs
    | header => exact inv_conn h hs (by simp) (by simp)
    | wrote _ => exact inv_conn h hs (by simp) (by simp)
    | endWrite _ => exact inv_conn h hs (by simp) (by simp)
    | resp _ _ => exact inv_conn h hs (by simp) (by simp)
    | reply => exact inv_conn h hs (by simp) (by simp)
    | endRead => exact inv_conn h hs (by simp) (by simp)
    | flush => exact inv_conn h hs (by simp) (by simp)
    | flushOne => exact inv_conn h hs (by simp) (by simp)
  | drain =>
    simp only [step] at hs
    split at hs
    · rename_i q rest hc hh
      cases hs
      have hnew := h.head_new hR hc
      refine ⟨?_, h.held, ?_, h.life, ?_, ?_, ?_, h.past, ?_, ?_⟩
      · obtain ⟨l, e⟩ := h.reach
        exact ⟨l ++ [.recv], by rw [buffer_run_append, e]; exact recv_run hc⟩
      · simp only [List.map_cons, List.reverse_cons, List.append_assoc]
        rw [h.chan, hc]
        rfl
      · intro i r hm
        rcases List.mem_cons.1 hm with e | e
        · cases e
        · exact h.taken i r e
      · intro i r hm
        exact h.other i r fun e => hm (List.mem_cons_of_mem _ e)
      · intro i r hm
        exact h.same i r fun j hj hg => hm j hj (List.mem_cons_of_mem _ hg)
      · rintro r ⟨⟩
        exact List.mem_cons_self ..
      · intro r hm
        rcases List.mem_cons.1 hm with e | e
        · cases e; exact .inl rfl
        · rcases h.drained r e with e | e
          · rw [hh] at e; cases e
          · exact .inr e
    · cases hs
  | ioError =>
    simp only [step] at hs
    split at hs
    · rename_i q hh
      cases hs
      have := inv_fail h q
      refine ⟨this.reach, this.held, this.chan, this.life, this.taken, this.other, this.same, this.past, by rintro _ ⟨⟩, ?_⟩
      intro r hm
      refine .inr ?_
      rcases h.drained r hm with e | e
      · rw [hh] at e
        cases e
        simp only [failAll, Ne, begin_live]
        simp
      · simp only [failAll, Ne, begin_live]
        exact fun e' => e e'.1
    · cases hs

theorem inv_run {R cap : Nat} (hR : 0 < R) {s s' : St} {cs : List Choice} (h : Inv R cap s) (hs : run R cap s cs = some s') : Inv R cap s' := by
  induction cs generalizing s with
  | nil => cases hs; exact h
  | cons c cs ih =>
    simp only [run] at hs
    obtain ⟨s1, h1, h2⟩ := Option.bind_eq_some_iff.1 hs
    exact ih (inv_step hR h h1) h2

/-! ### What a connection writes it has received -/

structure Wired (s : St) : Prop where
  wire : ∀ i id r f, (id, r, f) ∈ (s.c i).wire → (r, some i) ∈ s.got
  header : ∀ i r o j, (s.c i).wp = .header r o j → (r, some i) ∈ s.got
  write : ∀ i id r f, (s.c i).wp = .write id r f → (r, some i) ∈ s.got
  idOf : ∀ i r, (s.c i).idOf r ≠ none → (r, some i) ∈ s.got

theorem idOf_step {s s' : Conn.St} {x : Conn.Choice} (h : Conn.step s x = some s') {r : Nat} (hr : s'.idOf r ≠ none) :
    s.idOf r ≠ none ∨ ∃ o j, s.wp = .header r o j := by
  have ha : ∀ (s : Conn.St) q a, (Conn.answer s q a).idOf = s.idOf := fun _ _ _ => rfl
  have h1 : ∀ (s : Conn.St) q a, (Conn.respond s q a).idOf = s.idOf := by
    intro s q a; unfold Conn.respond; split <;> rfl
  have h2 : ∀ (s : Conn.St) q a, (Conn.respondFail s q a).idOf = s.idOf := by
    intro s q a; unfold Conn.respondFail; split <;> rfl
  have h3 : ∀ (s : Conn.St) q o j, (Conn.offer s q o j).idOf = s.idOf := by
    intro s q o j; unfold Conn.offer; split <;> rfl
  cases x with
  | header =>
    simp only [Conn.step] at h
    split at h <;> cases h
    rename_i hw
    simp only [Conn.set] at hr
    split at hr
    · rename_i e; subst e; exact .inr ⟨_, _, hw⟩
    · exact .inl hr
  | _ =>
    simp only [Conn.step] at h
    (repeat' split at h) <;> cases h <;> simp only [h1, h2, h3] at hr <;> exact .inl hr

theorem got_mono {R cap : Nat} {s s' : St} {c : Choice} (h : step R cap s c = some s') {p : Nat × Option Nat} (hp : p ∈ s.got) : p ∈ s'.got := by
  cases c with
  | queue x =>
    cases x <;> simp only [step] at h <;> (try (split at h)) <;> first
      | (cases h; done)
      | (obtain ⟨b, hb, rfl⟩ := Option.map_eq_some_iff.1 h; exact hp)
  | fail r => cases h; exact hp
  | take i =>
    simp only [step] at h
    split at h
    · cases h
    · obtain ⟨b, hb, rfl⟩ := Option.map_eq_some_iff.1 h
      exact List.mem_cons_of_mem _ hp
  | conn i x =>
    cases x <;> simp only [step] at h <;> first
      | (cases h; done)
      | (obtain ⟨b, hb, rfl⟩ := Option.map_eq_some_iff.1 h; exact hp)
  | drain =>
    simp only [step] at h
    split at h <;> cases h
    exact List.mem_cons_of_mem _ hp
  | ioError =>
    simp only [step] at h
    split at h <;> cases h
    exact hp

theorem wired_step {R cap : Nat} {s s' : St} {c : Choice} (h : Wired s) (hi : Inv R cap s') (hs : step R cap s c = some s') : Wired s' := by
  have key : ∀ i, (∀ id r f, (id, r, f) ∈ (s'.c i).wire → (r, some i) ∈ s'.got) ∧
      (∀ r o j, (s'.c i).wp = .header r o j → (r, some i) ∈ s'.got) ∧
      (∀ id r f, (s'.c i).wp = .write id r f → (r, some i) ∈ s'.got) ∧
      (∀ r, (s'.c i).idOf r ≠ none → (r, some i) ∈ s'.got) := by
    intro i
    rcases conn_step hs i with e | ⟨x, e, _⟩
    · rw [e]
      exact ⟨fun id r f hm => got_mono hs (h.wire i id r f hm), fun r o j hm => got_mono hs (h.header i r o j hm),
        fun id r f hm => got_mono hs (h.write i id r f hm), fun r hm => got_mono hs (h.idOf i r hm)⟩
    · obtain ⟨a, b, d⟩ := Conn.same e
      refine ⟨fun id r f hm => ?_, fun r o j hm => ?_, fun id r f hm => ?_, fun r hm => ?_⟩
      · rcases a with a | ⟨id', r', f', hw, _, a⟩
        · rw [a] at hm
          exact got_mono hs (h.wire i id r f hm)
        · rw [a, List.mem_append] at hm
          rcases hm with hm | hm
          · exact got_mono hs (h.wire i id r f hm)
          · simp only [List.mem_singleton, Prod.mk.injEq] at hm
            rw [hm.2.1]
            exact got_mono hs (h.write i _ _ _ hw)
      · rcases b r o j hm with e1 | ⟨_, e2, _⟩
        · exact got_mono hs (h.header i r o j e1)
        · exact Classical.byContradiction fun hn => hi.other i r hn e2
      · rcases d id r f hm with e1 | ⟨o, j, e1⟩
        · exact got_mono hs (h.write i _ _ _ e1)
        · exact got_mono hs (h.header i _ _ _ e1)
      · rcases idOf_step e hm with e1 | ⟨o, j, e1⟩
        · exact got_mono hs (h.idOf i r e1)
        · exact got_mono hs (h.header i _ _ _ e1)
  exact ⟨fun i => (key i).1, fun i => (key i).2.1, fun i => (key i).2.2.1, fun i => (key i).2.2.2⟩

theorem wired_init : Wired init := by constructor <;> simp [init, Conn.init]

theorem both_run {R cap : Nat} (hR : 0 < R) {s s' : St} {cs : List Choice} (h : Inv R cap s) (hw : Wired s) (hs : run R cap s cs = some s') :
    Inv R cap s' ∧ Wired s' := by
  induction cs generalizing s with
  | nil => cases hs; exact ⟨h, hw⟩
  | cons c cs ih =>
    simp only [run] at hs
    obtain ⟨s1, h1, h2⟩ := Option.bind_eq_some_iff.1 hs
    have := inv_step hR h h1
    exact ih this (wired_step hw this h1) h2

theorem reach {R cap : Nat} (hR : 0 < R) {s : St} {cs : List Choice} (hs : run R cap init cs = some s) : Inv R cap s ∧ Wired s :=
  both_run hR inv_init wired_init hs

/-! ### A connection that goes on receiving -/

/-- Receiving one request and writing it. -/
theorem receive {R cap : Nat} {s : St} {cs : List Choice} (h : run R cap init cs = some s) {i r : Nat} {rest : List Nat}
    (hw : (s.c i).wp = .loop) (hc : s.b.chan = r :: rest) :
    ∃ ds s', (∀ c ∈ ds, Forwards i c) ∧ run R cap s ds = some s' ∧ s'.b = { s.b with chan := rest } ∧ (s'.c i).wp = .loop := by
  obtain ⟨ds, hd, _⟩ := conn_run h i
  obtain ⟨k, hk⟩ := Props.C51_three_rounds (hd : Conn.run Conn.init ds = some (s.c i)) hw r
  have e1 : step R cap s (.take i) = some { s with b := { s.b with chan := rest }, c := Conn.set s.c i k, got := (r, some i) :: s.got } := by
    simp only [step, hc, hk, Option.map_some]
  have hwp : k.wp = .loop ∨ ∃ o j, k.wp = .header r o j := by
    simp only [Conn.step] at hk
    (repeat' split at hk) <;> cases hk <;> simp only [Conn.offer, Conn.claim] <;> split <;> simp_all
  rcases hwp with hl | ⟨o, j, hh⟩
  · exact ⟨[.take i], { s with b := { s.b with chan := rest }, c := Conn.set s.c i k, got := (r, some i) :: s.got }, by simp [Forwards],
      by simp [run, e1], rfl, by simp [Conn.set, hl]⟩
  · refine ⟨[.take i, .conn i .header, .conn i (.wrote true)], ?_⟩
    have e2 : ∃ k2, Conn.step k .header = some k2 ∧ ∃ id f, k2.wp = .write id r f := by
      simp only [Conn.step, hh]
      exact ⟨_, rfl, _, _, rfl⟩
    obtain ⟨k2, e2, id, f, h2⟩ := e2
    have e3 : ∃ k3, Conn.step k2 (.wrote true) = some k3 ∧ k3.wp = .loop := by
      simp only [Conn.step, h2, if_true]
      exact ⟨_, rfl, rfl⟩
    obtain ⟨k3, e3, h3⟩ := e3
    refine ⟨{ s with b := { s.b with chan := rest }, c := Conn.set (Conn.set (Conn.set s.c i k) i k2) i k3, got := (r, some i) :: s.got },
      by simp [Forwards], ?_, rfl, by simp [Conn.set, h3]⟩
    simp only [run, e1, Option.bind_some]
    simp [step, Conn.set, e2, e3, answers]

/-- What the queue can do by itself and by being received from, the endpoint can do. -/
theorem simulate {R cap : Nat} {i : Nat} (l : List Buffer.Choice) :
    ∀ {s : St} {cs : List Choice} {b : Buffer.St}, run R cap init cs = some s → (s.c i).wp = .loop → (∀ c ∈ l, c = .loop ∨ c = .recv) →
      Buffer.run R cap s.b l = some b →
      ∃ ds s', (∀ c ∈ ds, Forwards i c) ∧ run R cap s ds = some s' ∧ s'.b = b ∧ (s'.c i).wp = .loop := by
  induction l with
  | nil =>
    intro s cs b h hw _ hb
    cases hb
    exact ⟨[], s, by simp, rfl, rfl, hw⟩
  | cons x l ih =>
    intro s cs b h hw hl hb
    simp only [Buffer.run] at hb
    obtain ⟨b1, h1, h2⟩ := Option.bind_eq_some_iff.1 hb
    have : ∃ ds s1, (∀ c ∈ ds, Forwards i c) ∧ run R cap s ds = some s1 ∧ s1.b = b1 ∧ (s1.c i).wp = .loop := by
      rcases hl x (List.mem_cons_self ..) with rfl | rfl
      · exact ⟨[.queue .loop], { s with b := b1 }, by simp [Forwards], by simp [run, step, h1], rfl, hw⟩
      · simp only [Buffer.step] at h1
        split at h1
        · cases h1
        · rename_i hc
          cases h1
          exact receive h hw hc
    obtain ⟨ds, s1, f1, r1, e1, w1⟩ := this
    obtain ⟨es, s2, f2, r2, e2, w2⟩ := ih (s := s1) (cs := cs ++ ds) (by rw [run_append, h]; exact r1) w1
      (fun c hc => hl c (List.mem_cons_of_mem _ hc)) (by rw [e1]; exact h2)
    refine ⟨ds ++ es, s2, ?_, by rw [run_append, r1]; exact r2, e2, w2⟩
    intro c hc
    rcases List.mem_append.1 hc with hc | hc
    · exact f1 c hc
    · exact f2 c hc

theorem drain_run {R cap : Nat} (b : Buffer.St) : ∃ b', Buffer.run R cap b (List.replicate b.chan.length .recv) = some b' ∧
    b'.chan = [] ∧ b'.loop = b.loop ∧ b'.sig = b.sig := by
  obtain ⟨ch, hc⟩ : ∃ ch, b.chan = ch := ⟨_, rfl⟩
  rw [hc]
  induction ch generalizing b with
  | nil => exact ⟨b, rfl, hc, rfl, rfl⟩
  | cons r rest ih =>
    obtain ⟨b', e, h⟩ := ih { b with chan := rest } rfl
    refine ⟨b', ?_, h⟩
    rw [List.length_cons, List.replicate_succ]
    simp only [Buffer.run, Buffer.step, hc, Option.bind_some]
    exact e

end Verif.Endpoint
