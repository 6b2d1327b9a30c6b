import Verif.Proofs.WholeCall
import Verif.Props.Endpoint
import Verif.Props.Whole
/-!
Both ends go on, the queue included: what every step keeps, and what holds at rest.
-/
namespace Verif.Conn

theorem take_cp {k k' : St} {r : Nat} (h : step k (.take r) = some k') : k'.cp = k.cp := by
  simp only [step] at h
  (repeat' split at h) <;> cases h <;> unfold offer <;> split <;> rfl

theorem ended_step {k k' : St} {c : Choice} (hs : step k c = some k') (h : k.wp = .ended) : k'.wp = .ended := by
  cases c <;> simp only [step, h, reduceCtorEq, if_false] at hs
  case fail r => cases hs; unfold respondFail; split <;> exact h
  all_goals
    (repeat' split at hs) <;> cases hs <;>
      first | exact h | rfl | (unfold respond; split <;> first | exact h | rfl) | (unfold respondFail; split <;> exact h)

/-- An answer stays. -/
theorem ans_step {s s' : St} {c : Choice} (h : Endpoint.Held s) (hs : step s c = some s') {r : Nat} {a : Ans} (ha : s.ans r = some a) :
    s'.ans r = some a := by
  have hp : s.rs r = .performed := (h.ans r).2 (by rw [ha]; simp)
  have off : ∀ (t : St) q o j, t.ans = s.ans → (offer t q o j).ans r = some a := by
    intro t q o j ht
    unfold offer
    split
    · show t.ans r = _; rw [ht]; exact ha
    · show t.ans r = _; rw [ht]; exact ha
  have rsp : ∀ q b, (respond s q b).ans r = some a := by
    intro q b
    unfold respond
    split
    · rename_i e
      have : r ≠ q := by rintro rfl; rw [hp] at e; cases e
      simp [answer, set, this, ha]
    · exact ha
  have rsf : ∀ q b, (respondFail s q b).ans r = some a := by
    intro q b
    unfold respondFail
    split
    · exact ha
    · rename_i e
      have : r ≠ q := by rintro rfl; exact e hp
      simp [answer, set, this, ha]
  cases c <;> simp only [step] at hs <;> (repeat' split at hs) <;> cases hs <;>
    first
    | exact ha
    | exact off _ _ _ _ rfl
    | exact rsp _ _
    | exact rsf _ _

end Verif.Conn

namespace Verif.Buffer

theorem call_step {R cap : Nat} {s s' : St} {c : Choice} (hc : ∀ q, c = .push q → s.push q ≠ .idle) (hs : step R cap s c = some s') (r : Nat) :
    .call r ∈ s'.log ↔ .call r ∈ s.log := by
  cases c with
  | push q =>
    have hi := hc q rfl
    simp only [step, stepPush] at hs
    (repeat' split at hs) <;> first | (exact absurd (by assumption) hi) | (cases hs <;> simp)
  | headFirst q => simp only [step] at hs; split at hs <;> cases hs; rfl
  | loop => simp only [step, stepLoop] at hs; (repeat' split at hs) <;> cases hs <;> simp
  | close => simp only [step, stepClose] at hs; split at hs <;> cases hs <;> rfl
  | answer q => simp only [step, stepAnswer] at hs; (repeat' split at hs) <;> cases hs <;> simp
  | recv => simp only [step] at hs; split at hs <;> cases hs; rfl

theorem closing_step {R cap : Nat} {s s' : St} {c : Choice} (hc : c ≠ .close) (hs : step R cap s c = some s') : s'.closing = s.closing := by
  cases c with
  | push q => simp only [step, stepPush] at hs; (repeat' split at hs) <;> cases hs <;> rfl
  | headFirst q => simp only [step] at hs; split at hs <;> cases hs; rfl
  | loop => simp only [step, stepLoop] at hs; (repeat' split at hs) <;> cases hs <;> rfl
  | close => exact absurd rfl hc
  | answer q => simp only [step, stepAnswer] at hs; (repeat' split at hs) <;> cases hs <;> rfl
  | recv => simp only [step] at hs; split at hs <;> cases hs; rfl

/-- At rest nothing is left in the queue. -/
theorem rest {R cap : Nat} (hcap : 0 < cap) {b : St} {S : List Nat} (i : Inv R b S) (hch : b.chan = []) (hl : step R cap b .loop = none) :
    (b.loop = .wait ∨ b.loop = .exited) ∧ b.sig = false := by
  apply Classical.byContradiction
  intro h
  have h' : ¬ (b.loop.idle ∧ b.sig = false) := by
    rintro ⟨h1, h2⟩
    apply h
    refine ⟨?_, h2⟩
    cases e : b.loop <;> rw [e] at h1 <;> simp [LPc.idle] at h1 <;> simp
  obtain ⟨c, s', hc, hs, -⟩ := loop_progress i hcap h'
  rcases hc with rfl | rfl
  · rw [hl] at hs; cases hs
  · simp [step, hch] at hs

/-- And every `push` has returned. -/
theorem rest_push {R cap : Nat} {b : St} {q : Nat} (hp : b.push q ≠ .panicked)
    (ha : b.life q = .live ∨ b.life q = .gone) (hs : step R cap b (.push q) = none) : b.push q = .done := by
  simp only [step, stepPush] at hs
  (repeat' split at hs) <;> first | (cases hs; done) | (rename_i e; exact absurd e hp) | assumption | skip
  rename_i h1 h2
  rcases ha with h | h
  · exact absurd h h1
  · exact absurd h h2

end Verif.Buffer

namespace Verif.Whole
open Served (all all_le all_grow)

variable {R cap n : Nat} {own : Nat → Bool}

/-- What a step of both ends does to the client besides. -/
theorem onward_e {l : List Nat} {w w' : St} {c : Choice} {ret : Nat → Parallel.Outcome} (hR : 0 < R) (g : Go R cap n own l w)
    (hc : Onward ret l c) (hs : step R cap own w c = some w') :
    (w'.e.got = w.e.got ∧ w'.e.hand = w.e.hand ∧ ∀ i, i ∉ l → w'.e.c i = w.e.c i) ∧ (∀ i, (w'.e.c i).h.got = (w.e.c i).h.got) ∧
      (∀ i, (w.e.c i).wp ≠ .ended → (w'.e.c i).wp ≠ .ended) ∧
      (w'.e.b = w.e.b ∨ ∃ i r id k, i ∈ l ∧ w'.e.b = Endpoint.begin w.e.b r ∧ (w'.e.c i).ans r = some (.response id k)) := by
  have held : ∀ i, Endpoint.Held (w.e.c i) := by
    obtain ⟨ds, h, _⟩ := g.parts.e
    exact (Endpoint.reach hR h).1.held
  have same : ∀ s : St, s.e = w.e → (s.e.got = w.e.got ∧ s.e.hand = w.e.hand ∧ ∀ i, i ∉ l → s.e.c i = w.e.c i) ∧ (∀ i, (s.e.c i).h.got = (w.e.c i).h.got) ∧
      (∀ i, (w.e.c i).wp ≠ .ended → (s.e.c i).wp ≠ .ended) ∧
      (s.e.b = w.e.b ∨ ∃ i r id k, i ∈ l ∧ s.e.b = Endpoint.begin w.e.b r ∧ (s.e.c i).ans r = some (.response id k)) := by
    intro s h
    rw [h]
    exact ⟨⟨rfl, rfl, fun _ _ => rfl⟩, fun _ => rfl, fun _ h => h, .inl rfl⟩
  have one : ∀ (e : Endpoint.St) (i : Nat) (k : Conn.St), i ∈ l → e.got = w.e.got ∧ e.hand = w.e.hand → e.c = Conn.set w.e.c i k → k.h.got = (w.e.c i).h.got →
      ((w.e.c i).wp ≠ .ended → k.wp ≠ .ended) → 
      (e.b = w.e.b ∨ ∃ r id y, i ∈ l ∧ e.b = Endpoint.begin w.e.b r ∧ k.ans r = some (.response id y)) →
      (e.got = w.e.got ∧ e.hand = w.e.hand ∧ ∀ i, i ∉ l → e.c i = w.e.c i) ∧ (∀ i, (e.c i).h.got = (w.e.c i).h.got) ∧
      (∀ i, (w.e.c i).wp ≠ .ended → (e.c i).wp ≠ .ended) ∧
      (e.b = w.e.b ∨ ∃ i r id k, i ∈ l ∧ e.b = Endpoint.begin w.e.b r ∧ (e.c i).ans r = some (.response id k)) := by
    intro e i k hil h1 h2 h3 h4 h5
    have hsame : e.c i = k := by rw [h2]; simp [Conn.set]
    have hoth : ∀ j, j ≠ i → e.c j = w.e.c j := by intro j hj; rw [h2]; simp [Conn.set, hj]
    refine ⟨⟨h1.1, h1.2, fun j hj => hoth j (by rintro rfl; exact hj hil)⟩, fun j => ?_, fun j => ?_, ?_⟩
    · by_cases hj : j = i
      · subst hj; rw [hsame]; exact h3
      · rw [hoth j hj]
    · by_cases hj : j = i
      · subst hj; rw [hsame]; exact h4
      · rw [hoth j hj]; exact fun h => h
    · rcases h5 with h5 | ⟨r, id, y, hi, hb, ha⟩
      · exact .inl h5
      · exact .inr ⟨i, r, id, y, hi, hb, by rw [hsame]; exact ha⟩
  rcases hc with ⟨x, rfl, hf⟩ | ⟨i, hi, rfl | rfl | rfl | rfl | rfl | rfl⟩
  · have : step R cap own w (.server x) = (Served.step w.s x).map fun s => { w with s } := by
      rcases hf with ⟨i, rfl⟩ | ⟨ch, rfl, _⟩ | ⟨i, k, rfl | rfl⟩ | ⟨i, _, rfl⟩ <;> rfl
    rw [this, Option.map_eq_some_iff] at hs
    obtain ⟨s, h1, rfl⟩ := hs
    exact same _ rfl
  · simp only [step, Option.map_eq_some_iff] at hs
    obtain ⟨s, h1, rfl⟩ := hs
    exact same _ rfl
  · simp only [step, g.mine i hi, if_true] at hs
    split at hs
    · cases hs
    · rw [Option.map_eq_some_iff] at hs
      obtain ⟨s, h1, rfl⟩ := hs
      exact same _ rfl
  · simp only [step, g.mine i hi, if_true] at hs
    split at hs
    · cases hs
    · split at hs <;> cases hs
      exact same _ rfl
    · rw [Option.map_eq_some_iff] at hs
      obtain ⟨e, h1, rfl⟩ := hs
      simp only [Endpoint.step, Option.map_eq_some_iff] at h1
      obtain ⟨y, h2, rfl⟩ := h1
      obtain ⟨_, _, _, _, hwp, hg⟩ := Conn.eff_resp h2
      exact one _ i y hi ⟨rfl, rfl⟩ rfl hg (by rw [hwp]; exact fun h => h) (.inl rfl)
  · simp only [step, Endpoint.step, Option.map_eq_some_iff] at hs
    obtain ⟨e, ⟨y, h2, rfl⟩, rfl⟩ := hs
    obtain ⟨⟨r, o, j, id, f, a, b⟩, c, d, h⟩ := Conn.eff_header h2
    exact one _ i y hi ⟨rfl, rfl⟩ rfl h (by rw [b]; simp) (.inl rfl)
  · simp only [step, Endpoint.step, Option.map_eq_some_iff] at hs
    obtain ⟨e, ⟨y, h2, rfl⟩, rfl⟩ := hs
    obtain ⟨⟨r, id, f, a, b⟩, c, d, h⟩ := Conn.eff_wrote h2
    exact one _ i y hi ⟨rfl, rfl⟩ rfl h (by rw [c]; simp) (.inl rfl)
  · simp only [step, Endpoint.step, Option.map_eq_some_iff] at hs
    obtain ⟨e, ⟨y, h2, rfl⟩, rfl⟩ := hs
    obtain ⟨a, b, c, d, h⟩ := Conn.eff_reply h2
    refine one _ i y hi ⟨rfl, rfl⟩ rfl h (by rw [d]; exact fun h => h) ?_
    dsimp only
    split
    · rename_i r hr
      have hfly := ((Endpoint.conn_rs (held i) h2 (by intro r h; cases h) (by intro r h; cases h)).1 r hr).1
      simp only [Endpoint.answers] at hr
      split at hr
      · rename_i q id c hq
        split at hr <;> cases hr
        refine .inr ⟨r, id, c, hi, rfl, ?_⟩
        simp only [Conn.step, hq, Conn.respond, if_pos hfly] at h2
        cases h2
        simp [Conn.answer, Conn.set]
      · cases hr
    · exact .inl rfl

/-- What is kept up. -/
structure Goes (R cap n : Nat) (own : Nat → Bool) (l d rs : List Nat) (w : St) : Prop where
  go : Go R cap n own l w
  start : ∃ cs, run R cap own (init n) cs = some w
  calls : Calls w rs
  closing : w.e.b.closing = 0
  room : ∀ i, i ∈ l → (w.e.c i).wire.length + Conn.pend (w.e.c i).wp + (w.s.c i).pings.length + waiting w rs ≤ 128
  young : ∀ i, i ∈ l → (w.e.c i).h.got + waiting w rs ≤ Conn.M - 2
  writes : ∀ i, i ∈ l → (w.e.c i).wp ≠ .ended
  down : ∀ i, i ∈ d → Down w rs i
  apart : ∀ i, i ∈ d → i ∉ l

theorem Goes.disj {l d rs : List Nat} {w : St} (g : Goes R cap n own l d rs w) {i : Nat} (hi : i ∈ d) : i ∉ l := g.apart i hi

/-- What is left to do for a control loop. -/
def cw (s : Conn.St) : Nat :=
  match s.cp with
  | .loop => s.h.got + 2
  | .flush l => l.length + 1
  | _ => 0

/-- What is left to do for the write loop of a broken connection. -/
def dw (s : Conn.St) : Nat :=
  match s.wp with
  | .ended => 0
  | .loop => 1
  | .write _ _ _ => 2
  | .header _ _ _ => 3

def hw (e : Endpoint.St) : Nat := if e.hand = none then 0 else 1

def work (l d rs : List Nat) (w : St) : Nat := todo l w + Buffer.bw rs w.e.b + all (fun i => cw (w.e.c i)) d + all (fun i => dw (w.e.c i)) d + hw w.e

theorem Goes.inv {l d rs : List Nat} {w : St} (hR : 0 < R) (g : Goes R cap n own l d rs w) :
    Endpoint.Inv R cap w.e ∧ Endpoint.Wired w.e ∧ ∃ S, Buffer.Inv R w.e.b S := by
  obtain ⟨ds, h, _⟩ := g.go.parts.e
  have hi := Endpoint.reach hR h
  obtain ⟨bs, hb⟩ := hi.1.reach
  exact ⟨hi.1, hi.2, Buffer.inv_run hR Buffer.inv_init hb⟩

theorem Goes.called {l d rs : List Nat} {w : St} (hR : 0 < R) (g : Goes R cap n own l d rs w) (r : Nat) : r ∈ rs ↔ w.e.b.push r ≠ .idle := by
  obtain ⟨hi, -, S, hS⟩ := g.inv hR
  obtain ⟨bs, hb⟩ := hi.reach
  rw [g.calls r]
  exact ⟨Buffer.calls_run (by intro r h; simp [Buffer.init] at h) hb r, hS.called r⟩

theorem run_snoc {w w1 w2 : St} {cs : List Choice} {c : Choice} (h : run R cap own w cs = some w1) (hs : step R cap own w1 c = some w2) :
    run R cap own w (cs ++ [c]) = some w2 := by
  induction cs generalizing w with
  | nil => cases h; simp [run, hs]
  | cons x cs ih =>
    simp only [run, Option.bind_eq_some_iff] at h
    obtain ⟨a, h1, h2⟩ := h
    simp only [List.cons_append, run, h1, Option.bind_some]
    exact ih h2

/-- A step which changes nothing but the queue. -/
theorem goes_queue {l d rs : List Nat} {w w' : St} {b : Buffer.St} {x : Buffer.Choice} (hR : 0 < R) (g : Goes R cap n own l d rs w)
    (hw : w' = { w with e := { w.e with b } }) (hstep : step R cap own w (.client (.queue x)) = some w') (hb : Buffer.step R cap w.e.b x = some b)
    (hx : x = .loop ∨ ∃ r, r ∈ rs ∧ (x = .push r ∨ x = .headFirst r ∨ x = .answer r)) : Goes R cap n own l d rs w' ∧ work l d rs w' < work l d rs w := by
  subst hw
  obtain ⟨-, -, S, hS⟩ := g.inv hR
  obtain ⟨cs, hcs⟩ := g.start
  refine ⟨⟨⟨parts_step g.go.parts hstep, g.go.young, g.go.live, g.go.few, g.go.room, g.go.mine⟩, ⟨_, run_snoc hcs hstep⟩, fun r => ?_, ?_,
    g.room, g.young, g.writes, fun i hi => ⟨(g.down i hi).read, (g.down i hi).ids⟩, g.apart⟩, ?_⟩
  · rw [g.calls r]
    refine (Buffer.call_step ?_ hb r).symm
    intro q hq
    subst hq
    rcases hx with h | ⟨r, hr, h | h | h⟩ <;> cases h
    exact (g.called hR _).1 hr
  · show b.closing = 0
    rw [Buffer.closing_step ?_ hb]
    · exact g.closing
    · rintro rfl
      rcases hx with h | ⟨r, hr, h | h | h⟩ <;> cases h
  · have : Buffer.bw rs b < Buffer.bw rs w.e.b := by
      rcases hx with rfl | ⟨r, hr, rfl | rfl | rfl⟩
      · exact Buffer.bw_loop hS hb
      · exact Buffer.bw_push hS hr ((g.called hR r).1 hr) hb
      · exact Buffer.bw_head hr hb
      · exact Buffer.bw_answer hr hb
    show todo l w + Buffer.bw rs b + all (fun i => cw (w.e.c i)) d + all (fun i => dw (w.e.c i)) d + hw w.e <
      todo l w + Buffer.bw rs w.e.b + all (fun i => cw (w.e.c i)) d + all (fun i => dw (w.e.c i)) d + hw w.e
    omega

theorem waiting_take {rs : List Nat} {w w' : St} {r : Nat} {x : Option Nat} (hr : r ∈ rs) (hn : ∀ x, (r, x) ∉ w.e.got)
    (hg : w'.e.got = (r, x) :: w.e.got) : waiting w' rs + 1 ≤ waiting w rs := by
  unfold waiting
  rw [hg]
  induction rs with
  | nil => cases hr
  | cons a rs ih =>
    have mono : ∀ rs : List Nat, (rs.filter fun q => !(((r, x) :: w.e.got).map (·.1)).contains q).length ≤
        (rs.filter fun q => !(w.e.got.map (·.1)).contains q).length := by
      intro rs
      induction rs with
      | nil => exact Nat.le_refl _
      | cons a rs ih =>
        simp only [List.filter_cons]
        split
        · rename_i h
          have : (!(w.e.got.map (·.1)).contains a) = true := by
            simp only [List.map_cons, List.contains_cons, Bool.not_eq_true', Bool.or_eq_false_iff] at h ⊢
            exact h.2
          rw [if_pos this]
          simp only [List.length_cons]
          omega
        · split
          · simp only [List.length_cons]; omega
          · exact ih
    have hfresh : (!(w.e.got.map (·.1)).contains r) = true := by
      simp only [Bool.not_eq_true', List.contains_eq_mem, List.mem_map, decide_eq_false_iff_not]
      rintro ⟨⟨a, y⟩, h1, rfl⟩
      exact hn y h1
    by_cases e : a = r
    · subst e
      have h1 : ¬ (!(((a, x) :: w.e.got).map (·.1)).contains a) = true := by simp
      rw [List.filter_cons, List.filter_cons, if_neg h1, if_pos hfresh, List.length_cons]
      have := mono rs
      omega
    · have hr' : r ∈ rs := by rcases List.mem_cons.1 hr with h | h; exact absurd h.symm e; exact h
      have h2 : (!(((r, x) :: w.e.got).map (·.1)).contains a) = (!(w.e.got.map (·.1)).contains a) := by
        simp [List.contains_cons, e]
      have := ih hr'
      simp only [List.filter_cons, h2]
      split
      · simp only [List.length_cons]; omega
      · exact this

/-- A connection takes a request from the queue. -/
theorem goes_take {l d rs : List Nat} {w w' : St} {i : Nat} (hR : 0 < R) (hn : l.Nodup) (hi : i ∈ l) (g : Goes R cap n own l d rs w)
    (hs : step R cap own w (.client (.take i)) = some w') :
    Goes R cap n own l d rs w' ∧ work l d rs w' < work l d rs w ∧ (∃ r, w'.e.got = (r, some i) :: w.e.got) ∧ (∀ j, Open w j → Open w' j) ∧
      (∀ r, Endpoint.Answered w'.e r ↔ Endpoint.Answered w.e r) := by
  have hstep := hs
  obtain ⟨hI, hW, S, hS⟩ := g.inv hR
  simp only [step, g.go.mine i hi, if_true, Endpoint.step] at hs
  split at hs
  · cases hs
  rename_i r rest hch
  simp only [Option.map_map, Option.map_eq_some_iff] at hs
  obtain ⟨k, hk, rfl⟩ := hs
  simp only [Function.comp]
  obtain ⟨hl, hwp, hwire, hrp, hans⟩ := Conn.eff_take hk
  have hgot := Conn.got_le hk
  obtain ⟨cs, hcs⟩ := g.start
  have hsame : Conn.set w.e.c i k i = k := by simp [Conn.set]
  have hoth : ∀ j, j ≠ i → Conn.set w.e.c i k j = w.e.c j := by intro j hj; simp [Conn.set, hj]
  have hr : r ∈ rs := by
    rw [g.called hR r]
    have hsent : r ∈ Buffer.sent w.e.b.log := by rw [hI.chan, hch]; simp
    rcases hS.sent_cases hsent with ⟨h, -⟩ | ⟨m, -, h⟩
    · rw [h]; simp
    · intro e
      exact hS.unslotted r (by rw [e]; trivial) (hS.mem_iff.2 ⟨m, h⟩)
  have hwait : waiting { w with e := { w.e with b := { w.e.b with chan := rest }, c := Conn.set w.e.c i k, got := (r, some i) :: w.e.got } } rs + 1 ≤
      waiting w rs := waiting_take hr (hI.head_new hR hch) rfl
  have hpend : Conn.pend k.wp ≤ Conn.pend (w.e.c i).wp + 1 := by
    rw [hl]
    rcases hwp with e | ⟨o, j, e⟩ <;> rw [e] <;> simp [Conn.pend]
  have hroom : ∀ j, j ∈ l → (Conn.set w.e.c i k j).wire.length + Conn.pend (Conn.set w.e.c i k j).wp + (w.s.c j).pings.length + 
      waiting { w with e := { w.e with b := { w.e.b with chan := rest }, c := Conn.set w.e.c i k, got := (r, some i) :: w.e.got } } rs ≤ 128 := by
    intro j hj
    have := g.room j hj
    by_cases e : j = i
    · subst e; rw [hsame, hwire]; omega
    · rw [hoth j e]; omega
  have hyoung : ∀ j, j ∈ l → (Conn.set w.e.c i k j).h.got + 
      waiting { w with e := { w.e with b := { w.e.b with chan := rest }, c := Conn.set w.e.c i k, got := (r, some i) :: w.e.got } } rs ≤ Conn.M - 2 := by
    intro j hj
    have := g.young j hj
    by_cases e : j = i
    · subst e; rw [hsame]; omega
    · rw [hoth j e]; omega
  refine ⟨⟨⟨parts_step g.go.parts hstep, fun j => ?_, g.go.live, g.go.few, fun j hj => ?_, g.go.mine⟩, ⟨_, run_snoc hcs hstep⟩, g.calls,
    g.closing, hroom, hyoung, fun j hj => ?_, fun j hj => ?_, g.apart⟩, ?_, ⟨r, rfl⟩, fun j hj => ?_, fun r => Iff.rfl⟩
  · show (Conn.set w.e.c i k j).h.got ≤ _
    by_cases e : j ∈ l
    · have := hyoung j e; omega
    · rw [hoth j (by rintro rfl; exact e hi)]; exact g.go.young j
  · have := hroom j hj
    show (Conn.set w.e.c i k j).wire.length + Conn.pend (Conn.set w.e.c i k j).wp + (w.s.c j).pings.length ≤ 128
    omega
  · show (Conn.set w.e.c i k j).wp ≠ _
    by_cases e : j = i
    · subst e; rw [hsame]; rcases hwp with e | ⟨o, j, e⟩ <;> rw [e] <;> simp
    · rw [hoth j e]; exact g.writes j hj
  · have e : Conn.set w.e.c i k j = w.e.c j := hoth j (by rintro rfl; exact g.disj hj hi)
    have := (g.down j hj).ids
    refine ⟨?_, ?_⟩
    · show (Conn.set w.e.c i k j).rp = _
      rw [e]; exact (g.down j hj).read
    · show (Conn.set w.e.c i k j).h.got + _ ≤ _
      rw [e]
      exact Nat.le_trans (Nat.add_le_add_left (Nat.le_of_succ_le hwait) _) this
  · unfold work todo
    have h9 : all (fun j => dw (Conn.set w.e.c i k j)) d = all (fun j => dw (w.e.c j)) d := by
      apply Served.all_congr
      intro j hj
      rw [hoth j (by rintro rfl; exact g.disj hj hi)]
    have h0 : all (fun j => cw (Conn.set w.e.c i k j)) d = all (fun j => cw (w.e.c j)) d := by
      apply Served.all_congr
      intro j hj
      rw [hoth j (by rintro rfl; exact g.disj hj hi)]
    have h1 : all (sm { w with e := { w.e with b := { w.e.b with chan := rest }, c := Conn.set w.e.c i k, got := (r, some i) :: w.e.got } }) l ≤
        all (sm w) l + 31 := by
      apply all_grow (x := i) hn
      · intro j hj
        simp only [sm]
        rw [hoth j hj]
        exact Nat.le_refl _
      · simp only [sm]
        rw [hsame, hwire, hrp, hl]
        rcases hwp with e | ⟨o, j, e⟩ <;> rw [e] <;> simp only [Conn.we] <;> omega
    have h2 : Buffer.bw rs { w.e.b with chan := rest } + 33 = Buffer.bw rs w.e.b := by
      unfold Buffer.bw
      dsimp only
      rw [hch, List.length_cons]
      omega
    unfold hw
    dsimp only at h0 h1 h2 h9 ⊢
    omega
  · refine ⟨?_, hj.server, hj.out⟩
    show (Conn.set w.e.c i k j).rp ≠ _
    by_cases e : j = i
    · subst e; rw [hsame, hrp]; exact hj.client
    · rw [hoth j e]; exact hj.client

/-- A broken connection takes a request from the queue. -/
theorem goes_lose {l d rs : List Nat} {w w' : St} {i : Nat} (hR : 0 < R) (hn : d.Nodup) (hi : i ∈ d) (g : Goes R cap n own l d rs w)
    (hs : step R cap own w (.client (.take i)) = some w') :
    Goes R cap n own l d rs w' ∧ work l d rs w' < work l d rs w ∧ (∃ r, w'.e.got = (r, some i) :: w.e.got) ∧ (∀ j, Open w j → Open w' j) ∧
      (∀ r, Endpoint.Answered w'.e r ↔ Endpoint.Answered w.e r) ∧ (w.e.c i).wp = .loop := by
  have hstep := hs
  obtain ⟨hI, hW, S, hS⟩ := g.inv hR
  simp only [step, Endpoint.step] at hs
  split at hs
  case isFalse => cases hs
  split at hs
  · cases hs
  rename_i r rest hch
  simp only [Option.map_map, Option.map_eq_some_iff] at hs
  obtain ⟨k, hk, rfl⟩ := hs
  simp only [Function.comp]
  obtain ⟨hl, hwp, hwire, hrp, hans⟩ := Conn.eff_take hk
  have hcp := Conn.take_cp hk
  have hgot := Conn.got_le hk
  obtain ⟨cs, hcs⟩ := g.start
  have hsame : Conn.set w.e.c i k i = k := by simp [Conn.set]
  have hoth : ∀ j, j ≠ i → Conn.set w.e.c i k j = w.e.c j := by intro j hj; simp [Conn.set, hj]
  have hothl : ∀ j, j ∈ l → Conn.set w.e.c i k j = w.e.c j := fun j hj => hoth j (by rintro rfl; exact g.disj hi hj)
  have hr : r ∈ rs := by
    rw [g.called hR r]
    have hsent : r ∈ Buffer.sent w.e.b.log := by rw [hI.chan, hch]; simp
    rcases hS.sent_cases hsent with ⟨h, -⟩ | ⟨m, -, h⟩
    · rw [h]; simp
    · intro e
      exact hS.unslotted r (by rw [e]; trivial) (hS.mem_iff.2 ⟨m, h⟩)
  have hwait : waiting { w with e := { w.e with b := { w.e.b with chan := rest }, c := Conn.set w.e.c i k, got := (r, some i) :: w.e.got } } rs + 1 ≤
      waiting w rs := waiting_take hr (hI.head_new hR hch) rfl
  have hids : ∀ j, j ∈ d → (Conn.set w.e.c i k j).h.got +
      waiting { w with e := { w.e with b := { w.e.b with chan := rest }, c := Conn.set w.e.c i k, got := (r, some i) :: w.e.got } } rs ≤ Conn.M - 2 := by
    intro j hj
    have := (g.down j hj).ids
    by_cases e : j = i
    · subst e; rw [hsame]; omega
    · rw [hoth j e]; omega
  refine ⟨⟨⟨parts_step g.go.parts hstep, fun j => ?_, g.go.live, g.go.few, fun j hj => ?_, g.go.mine⟩, ⟨_, run_snoc hcs hstep⟩, g.calls,
    g.closing, fun j hj => ?_, fun j hj => ?_, fun j hj => ?_, fun j hj => ?_, g.apart⟩, ?_, ⟨r, rfl⟩, fun j hj => ?_, fun r => Iff.rfl, hl⟩
  · show (Conn.set w.e.c i k j).h.got ≤ _
    by_cases e : j = i
    · subst e; have := hids _ hi; exact Nat.le_trans (Nat.le_trans (Nat.le_add_right _ _) this) (by decide)
    · rw [hoth j e]; exact g.go.young j
  · show (Conn.set w.e.c i k j).wire.length + Conn.pend (Conn.set w.e.c i k j).wp + (w.s.c j).pings.length ≤ 128
    rw [hothl j hj]; exact g.go.room j hj
  · show (Conn.set w.e.c i k j).wire.length + Conn.pend (Conn.set w.e.c i k j).wp + (w.s.c j).pings.length + _ ≤ 128
    rw [hothl j hj]
    exact Nat.le_trans (Nat.add_le_add_left (Nat.le_of_succ_le hwait) _) (g.room j hj)
  · show (Conn.set w.e.c i k j).h.got + _ ≤ _
    rw [hothl j hj]
    exact Nat.le_trans (Nat.add_le_add_left (Nat.le_of_succ_le hwait) _) (g.young j hj)
  · show (Conn.set w.e.c i k j).wp ≠ _
    rw [hothl j hj]; exact g.writes j hj
  · refine ⟨?_, hids j hj⟩
    show (Conn.set w.e.c i k j).rp = _
    by_cases e : j = i
    · rw [e, hsame, hrp]; exact (g.down i hi).read
    · rw [hoth j e]; exact (g.down j hj).read
  · unfold work todo
    have h1 : all (sm { w with e := { w.e with b := { w.e.b with chan := rest }, c := Conn.set w.e.c i k, got := (r, some i) :: w.e.got } }) l =
        all (sm w) l := by
      apply Served.all_congr
      intro j hj
      simp only [sm]
      rw [hothl j hj]
    have h3 : all (fun j => cw (Conn.set w.e.c i k j)) d ≤ all (fun j => cw (w.e.c j)) d + 1 := by
      apply all_grow (x := i) hn
      · intro j hj; rw [hoth j hj]; exact Nat.le_refl _
      · rw [hsame]
        unfold cw
        rw [hcp]
        split <;> omega
    have h4 : all (fun j => dw (Conn.set w.e.c i k j)) d ≤ all (fun j => dw (w.e.c j)) d + 2 := by
      apply all_grow (x := i) hn
      · intro j hj; rw [hoth j hj]; exact Nat.le_refl _
      · rw [hsame]
        unfold dw
        rw [hl]
        rcases hwp with e | ⟨o, j, e⟩ <;> rw [e] <;> simp
    have h2 : Buffer.bw rs { w.e.b with chan := rest } + 33 = Buffer.bw rs w.e.b := by
      unfold Buffer.bw
      dsimp only
      rw [hch, List.length_cons]
      omega
    unfold hw
    dsimp only at h1 h2 h3 h4 ⊢
    omega
  · refine ⟨?_, hj.server, hj.out⟩
    show (Conn.set w.e.c i k j).rp ≠ _
    by_cases e : j = i
    · subst e; rw [hsame, hrp]; exact hj.client
    · rw [hoth j e]; exact hj.client

/-- The write loop of a broken connection goes on, or ends. -/
theorem goes_fall {l d rs : List Nat} {w w' : St} {i : Nat} {x : Conn.Choice} (hi : i ∈ d) (g : Goes R cap n own l d rs w)
    (hx : x = .header ∨ ∃ b, x = .wrote b ∨ x = .endWrite b) (hs : step R cap own w (.client (.conn i x)) = some w') :
    Goes R cap n own l d rs w' ∧ work l d rs w' < work l d rs w ∧ w'.e.got = w.e.got ∧ (∀ j, Open w j → Open w' j) ∧
      (∀ r, Endpoint.Answered w'.e r ↔ Endpoint.Answered w.e r) := by
  have hstep := hs
  have : ∃ k, Conn.step (w.e.c i) x = some k ∧ w' = { w with e := { w.e with c := Conn.set w.e.c i k } } := by
    rcases hx with rfl | ⟨b, rfl | rfl⟩ <;> simp only [step, Endpoint.step, Option.map_eq_some_iff] at hs <;> obtain ⟨e, ⟨k, hk, rfl⟩, rfl⟩ := hs <;>
      exact ⟨k, hk, rfl⟩
  obtain ⟨k, hk, rfl⟩ := this
  have hk' : k.rp = (w.e.c i).rp ∧ k.h = (w.e.c i).h ∧ k.cp = (w.e.c i).cp ∧ dw k + 1 ≤ dw (w.e.c i) := by
    rcases hx with rfl | ⟨b, rfl | rfl⟩ <;> simp only [Conn.step] at hk <;> (repeat' split at hk) <;> cases hk <;> simp_all [dw]
  obtain ⟨h1, h2, h3, h4⟩ := hk'
  obtain ⟨cs, hcs⟩ := g.start
  have hsame : Conn.set w.e.c i k i = k := by simp [Conn.set]
  have hoth : ∀ j, j ≠ i → Conn.set w.e.c i k j = w.e.c j := by intro j hj; simp [Conn.set, hj]
  have hothl : ∀ j, j ∈ l → Conn.set w.e.c i k j = w.e.c j := fun j hj => hoth j (by rintro rfl; exact g.disj hi hj)
  have hh : ∀ j, (Conn.set w.e.c i k j).h = (w.e.c j).h ∧ (Conn.set w.e.c i k j).rp = (w.e.c j).rp ∧ (Conn.set w.e.c i k j).cp = (w.e.c j).cp := by
    intro j
    by_cases e : j = i
    · rw [e, hsame]; exact ⟨h2, h1, h3⟩
    · rw [hoth j e]; exact ⟨rfl, rfl, rfl⟩
  refine ⟨⟨⟨parts_step g.go.parts hstep, fun j => ?_, g.go.live, g.go.few, fun j hj => ?_, g.go.mine⟩, ⟨_, run_snoc hcs hstep⟩, g.calls,
    g.closing, fun j hj => ?_, fun j hj => ?_, fun j hj => ?_, fun j hj => ⟨?_, ?_⟩, g.apart⟩, ?_, rfl, fun j hj => ⟨?_, hj.server, hj.out⟩, fun r => Iff.rfl⟩
  · show (Conn.set w.e.c i k j).h.got ≤ _
    rw [(hh j).1]; exact g.go.young j
  · show (Conn.set w.e.c i k j).wire.length + Conn.pend (Conn.set w.e.c i k j).wp + (w.s.c j).pings.length ≤ 128
    rw [hothl j hj]; exact g.go.room j hj
  · show (Conn.set w.e.c i k j).wire.length + Conn.pend (Conn.set w.e.c i k j).wp + (w.s.c j).pings.length + waiting w rs ≤ 128
    rw [hothl j hj]; exact g.room j hj
  · show (Conn.set w.e.c i k j).h.got + waiting w rs ≤ _
    rw [(hh j).1]; exact g.young j hj
  · show (Conn.set w.e.c i k j).wp ≠ _
    rw [hothl j hj]; exact g.writes j hj
  · show (Conn.set w.e.c i k j).rp = _
    rw [(hh j).2.1]; exact (g.down j hj).read
  · show (Conn.set w.e.c i k j).h.got + waiting w rs ≤ _
    rw [(hh j).1]; exact (g.down j hj).ids
  · unfold work todo
    have h5 : all (sm { w with e := { w.e with c := Conn.set w.e.c i k } }) l = all (sm w) l := by
      apply Served.all_congr
      intro j hj
      simp only [sm]
      rw [hothl j hj]
    have h6 : all (fun j => cw (Conn.set w.e.c i k j)) d = all (fun j => cw (w.e.c j)) d := by
      apply Served.all_congr
      intro j _
      simp only [cw]
      rw [(hh j).2.2, (hh j).1]
    have h7 : all (fun j => dw (Conn.set w.e.c i k j)) d + 1 ≤ all (fun j => dw (w.e.c j)) d := by
      refine Served.all_drop (x := i) (fun j _ => ?_) hi ?_
      · by_cases e : j = i
        · rw [e, hsame]; omega
        · rw [hoth j e]; exact Nat.le_refl _
      · rw [hsame]; exact h4
    unfold hw
    dsimp only at h5 h6 h7 ⊢
    omega
  · show (Conn.set w.e.c i k j).rp ≠ _
    rw [(hh j).2.1]; exact hj.client

theorem goes_onward {l d rs : List Nat} {w w' : St} {c : Choice} {ret : Nat → Parallel.Outcome} (hR : 0 < R) (hn : l.Nodup) (g : Goes R cap n own l d rs w)
    (hc : Onward ret l c) (hs : step R cap own w c = some w') :
    Goes R cap n own l d rs w' ∧ work l d rs w' < work l d rs w ∧ w'.e.got = w.e.got ∧ (∀ j, Open w j → Open w' j) ∧
      ∀ r, Endpoint.Answered w'.e r → Endpoint.Answered w.e r ∨ ∃ i id k, i ∈ l ∧ (w'.e.c i).ans r = some (.response id k) := by
  have f := whole_step hn g.go hc hs
  obtain ⟨⟨h1, hh, hc0⟩, h2, h3, h4⟩ := onward_e hR g.go hc hs
  obtain ⟨cs, hcs⟩ := g.start
  have hwait : waiting w' rs = waiting w rs := by unfold waiting; rw [h1]
  have hb : (∀ r, .call r ∈ w'.e.b.log ↔ .call r ∈ w.e.b.log) ∧ w'.e.b.closing = w.e.b.closing ∧ Buffer.bw rs w'.e.b ≤ Buffer.bw rs w.e.b := by
    rcases h4 with h4 | ⟨_, r, _, _, _, h4, _⟩
    · rw [h4]; exact ⟨fun _ => Iff.rfl, rfl, Nat.le_refl _⟩
    · rw [h4]
      refine ⟨fun q => ?_, ?_, Buffer.bw_begin rs _ r⟩
      · unfold Endpoint.begin
        split
        · simp
        · rfl
      · unfold Endpoint.begin
        split <;> rfl
  refine ⟨⟨go_step hn g.go hc hs, ⟨_, run_snoc hcs hs⟩, fun r => (g.calls r).trans (hb.1 r).symm, hb.2.1.trans g.closing, fun i hi => ?_, fun i hi => ?_,
    fun i hi => h3 i (g.writes i hi), fun i hi => ?_, g.apart⟩, ?_, h1, f.opn, fun r hr => ?_⟩
  · rw [f.room i, f.pings i, hwait]; exact g.room i hi
  · rw [h2 i, hwait]; exact g.young i hi
  · have e := hc0 i (g.disj hi)
    exact ⟨by rw [e]; exact (g.down i hi).read, by rw [e, hwait]; exact (g.down i hi).ids⟩
  · have := f.low
    have h0 : all (fun j => cw (w'.e.c j)) d = all (fun j => cw (w.e.c j)) d := by
      apply Served.all_congr
      intro j hj
      rw [hc0 j (g.disj hj)]
    have h9 : all (fun j => dw (w'.e.c j)) d = all (fun j => dw (w.e.c j)) d := by
      apply Served.all_congr
      intro j hj
      rw [hc0 j (g.disj hj)]
    unfold work hw
    rw [h0, h9, hh]
    omega
  · rcases h4 with h4 | ⟨i, q, id, k, hi, h4, h5⟩
    · unfold Endpoint.Answered at hr ⊢; rw [h4] at hr; exact .inl hr
    · unfold Endpoint.Answered at hr ⊢
      rw [h4, Endpoint.begin_log] at hr
      rcases hr with hr | ⟨-, rfl⟩
      · exact .inl hr
      · exact .inr ⟨i, id, k, hi, h5⟩

/-- What neither a control loop nor `AllDisconnected` touches. -/
structure Alike (k k' : Conn.St) : Prop where
  wire : k'.wire = k.wire
  wp : k'.wp = k.wp
  rp : k'.rp = k.rp
  got : k'.h.got = k.h.got

theorem alike_fail (k : Conn.St) (r : Nat) (a : Conn.Ans) : Alike k (Conn.respondFail k r a) ∧ (Conn.respondFail k r a).cp = k.cp := by
  unfold Conn.respondFail
  split
  · exact ⟨⟨rfl, rfl, rfl, rfl⟩, rfl⟩
  · refine ⟨⟨rfl, rfl, rfl, ?_⟩, rfl⟩
    show (Conn.unchain k.h (k.slot r)).got = _
    unfold Conn.unchain
    split <;> rfl

/-- A control loop goes on, or `AllDisconnected`. -/
theorem goes_alike {l d rs : List Nat} {w : St} {e : Endpoint.St} {c : Choice} (g : Goes R cap n own l d rs w)
    (hstep : step R cap own w c = some { w with e }) (ha : ∀ i, Alike (w.e.c i) (e.c i)) (hg : e.got = w.e.got)
    (hb : e.b = w.e.b ∨ ∃ r, e.b = Endpoint.begin w.e.b r)
    (hlow : all (fun i => cw (e.c i)) d + hw e < all (fun i => cw (w.e.c i)) d + hw w.e) :
    Goes R cap n own l d rs { w with e } ∧ work l d rs { w with e } < work l d rs w ∧ ∀ j, Open w j → Open { w with e } j := by
  obtain ⟨cs, hcs⟩ := g.start
  have hwait : waiting { w with e } rs = waiting w rs := by unfold waiting; rw [hg]
  have hb' : (∀ r, .call r ∈ e.b.log ↔ .call r ∈ w.e.b.log) ∧ e.b.closing = w.e.b.closing ∧ Buffer.bw rs e.b ≤ Buffer.bw rs w.e.b := by
    rcases hb with h4 | ⟨r, h4⟩
    · rw [h4]; exact ⟨fun _ => Iff.rfl, rfl, Nat.le_refl _⟩
    · rw [h4]
      refine ⟨fun q => ?_, ?_, Buffer.bw_begin rs _ r⟩
      · unfold Endpoint.begin
        split
        · simp
        · rfl
      · unfold Endpoint.begin
        split <;> rfl
  refine ⟨⟨⟨parts_step g.go.parts hstep, fun i => ?_, g.go.live, g.go.few, fun i hi => ?_, g.go.mine⟩, ⟨_, run_snoc hcs hstep⟩,
    fun r => (g.calls r).trans (hb'.1 r).symm, hb'.2.1.trans g.closing, fun i hi => ?_, fun i hi => ?_, fun i hi => ?_, fun i hi => ?_, g.apart⟩, ?_, fun j h => ?_⟩
  · show (e.c i).h.got ≤ _
    rw [(ha i).got]; exact g.go.young i
  · show (e.c i).wire.length + Conn.pend (e.c i).wp + _ ≤ _
    rw [(ha i).wire, (ha i).wp]; exact g.go.room i hi
  · rw [hwait]
    show (e.c i).wire.length + Conn.pend (e.c i).wp + _ + _ ≤ _
    rw [(ha i).wire, (ha i).wp]; exact g.room i hi
  · rw [hwait]
    show (e.c i).h.got + _ ≤ _
    rw [(ha i).got]; exact g.young i hi
  · show (e.c i).wp ≠ _
    rw [(ha i).wp]; exact g.writes i hi
  · refine ⟨?_, ?_⟩
    · show (e.c i).rp = _
      rw [(ha i).rp]; exact (g.down i hi).read
    · rw [hwait]
      show (e.c i).h.got + _ ≤ _
      rw [(ha i).got]; exact (g.down i hi).ids
  · have h0 : all (sm { w with e }) l = all (sm w) l := by
      apply Served.all_congr
      intro i _
      simp only [sm]
      rw [(ha i).wire, (ha i).wp, (ha i).rp]
    have h9 : all (fun i => dw (e.c i)) d = all (fun i => dw (w.e.c i)) d := by
      apply Served.all_congr
      intro i _
      simp only [dw]
      rw [(ha i).wp]
    have := hb'.2.2
    unfold work todo
    rw [h0]
    dsimp only
    omega
  · refine ⟨?_, h.server, h.out⟩
    show (e.c j).rp ≠ _
    rw [(ha j).rp]; exact h.client

theorem goes_flush {l d rs : List Nat} {w w' : St} {i : Nat} {x : Conn.Choice} (hR : 0 < R) (g : Goes R cap n own l d rs w) (hi : i ∈ d)
    (hx : x = .flush ∨ x = .flushOne) (hs : step R cap own w (.client (.conn i x)) = some w') :
    Goes R cap n own l d rs w' ∧ work l d rs w' < work l d rs w ∧ (∀ j, Open w j → Open w' j) ∧ w'.e.got = w.e.got ∧
      ∀ r, OnlyBy w l r → Endpoint.Answered w'.e r → Endpoint.Answered w.e r := by
  obtain ⟨hI, -, -⟩ := g.inv hR
  have hstep := hs
  have : ∃ k, Conn.step (w.e.c i) x = some k ∧ w' = { w with e := { w.e with c := Conn.set w.e.c i k, b := match Endpoint.answers (w.e.c i) x with
      | some r => Endpoint.begin w.e.b r
      | none => w.e.b } } := by
    rcases hx with rfl | rfl <;> simp only [step, Endpoint.step, Option.map_eq_some_iff] at hs <;> obtain ⟨e, ⟨k, hk, rfl⟩, rfl⟩ := hs <;>
      exact ⟨k, hk, rfl⟩
  obtain ⟨k, hk, rfl⟩ := this
  have hsame : Conn.set w.e.c i k i = k := by simp [Conn.set]
  have hoth : ∀ j, j ≠ i → Conn.set w.e.c i k j = w.e.c j := by intro j hj; simp [Conn.set, hj]
  have hal : Alike (w.e.c i) k ∧ cw k + 1 ≤ cw (w.e.c i) := by
    rcases hx with rfl | rfl
    · simp only [Conn.step] at hk
      split at hk
      · rename_i hc
        split at hk <;> cases hk
        · rename_i l hl
          refine ⟨⟨rfl, rfl, rfl, rfl⟩, ?_⟩
          unfold Conn.Holder.getAll at hl
          split at hl <;> cases hl
          rename_i h
          simp only [cw, hc.1]
          omega
        · refine ⟨⟨rfl, rfl, rfl, rfl⟩, ?_⟩
          simp only [cw, hc.1]
          omega
      · cases hk
    · simp only [Conn.step] at hk
      split at hk
      · rename_i hc
        cases hk
        exact ⟨⟨rfl, rfl, rfl, rfl⟩, by simp [cw, hc]⟩
      · rename_i o j L hc
        split at hk <;> cases hk
        · have := (alike_fail (w.e.c i) (by assumption) (.flushed (if (w.e.c i).shutdown then Conn.rcShutdown else Conn.rcIOError))).1
          exact ⟨⟨this.wire, this.wp, this.rp, this.got⟩, by simp [cw, hc]⟩
        · exact ⟨⟨rfl, rfl, rfl, rfl⟩, by simp [cw, hc]⟩
      · cases hk
  obtain ⟨h1, h2, h3⟩ := goes_alike g hstep (fun j => by
      by_cases e : j = i
      · subst e; show Alike _ (Conn.set w.e.c j k j); rw [hsame]; exact hal.1
      · show Alike _ (Conn.set w.e.c i k j); rw [hoth j e]; exact ⟨rfl, rfl, rfl, rfl⟩) rfl (by
      dsimp only
      split
      · exact .inr ⟨_, rfl⟩
      · exact .inl rfl) (by
      have : all (fun j => cw (Conn.set w.e.c i k j)) d + 1 ≤ all (fun j => cw (w.e.c j)) d := by
        refine Served.all_drop (x := i) (fun j _ => ?_) hi ?_
        · by_cases e : j = i
          · subst e; rw [hsame]; omega
          · rw [hoth j e]; exact Nat.le_refl _
        · rw [hsame]; exact hal.2
      unfold hw
      dsimp only
      omega)
  refine ⟨h1, h2, h3, rfl, fun r hr ha => ?_⟩
  unfold Endpoint.Answered at ha ⊢
  dsimp only at ha
  split at ha
  · rename_i q hq
    rw [Endpoint.begin_log] at ha
    rcases ha with ha | ⟨-, rfl⟩
    · exact ha
    · have hf := ((Endpoint.conn_rs (hI.held i) hk (by rcases hx with rfl | rfl <;> (intro r h; cases h)) (by rcases hx with rfl | rfl <;> (intro r h; cases h))).1 r hq).1
      have ht : (r, some i) ∈ w.e.got := by
        apply Classical.byContradiction
        intro hn
        exact hI.other i r hn hf
      obtain ⟨j, hj, e⟩ := hr _ ht
      cases e
      exact absurd hj (g.disj hi)
  · exact ha

theorem goes_io {l d rs : List Nat} {w w' : St} (hR : 0 < R) (g : Goes R cap n own l d rs w)
    (hs : step R cap own w (.client .ioError) = some w') :
    Goes R cap n own l d rs w' ∧ work l d rs w' < work l d rs w ∧ (∀ j, Open w j → Open w' j) ∧ w'.e.got = w.e.got ∧
      ∀ r, OnlyBy w l r → Endpoint.Answered w'.e r → Endpoint.Answered w.e r := by
  obtain ⟨hI, -, -⟩ := g.inv hR
  have hstep := hs
  simp only [step, Endpoint.step, Option.map_eq_some_iff] at hs
  obtain ⟨e, he, rfl⟩ := hs
  split at he
  · rename_i q hq
    cases he
    obtain ⟨h1, h2, h3⟩ := goes_alike g hstep (fun j => (alike_fail _ _ _).1) rfl (.inr ⟨q, rfl⟩) (by
      have : all (fun j => cw (Conn.respondFail (w.e.c j) q .other)) d = all (fun j => cw (w.e.c j)) d := by
        apply Served.all_congr
        intro j _
        obtain ⟨a, b⟩ := alike_fail (w.e.c j) q .other
        unfold cw
        rw [b, a.got]
      simp only [hw, hq, Endpoint.failAll, this]
      simp)
    refine ⟨h1, h2, h3, rfl, fun r hr ha => ?_⟩
    have ha' : .answered r ∈ (Endpoint.begin w.e.b q).log := ha
    rw [Endpoint.begin_log] at ha'
    rcases ha' with ha | ⟨-, rfl⟩
    · exact ha
    · obtain ⟨j, -, e⟩ := hr _ (hI.hand _ hq)
      cases e
  · cases he

/-- A request was not answered, or by a response. -/
def Good (l : List Nat) (w : St) (r : Nat) : Prop :=
  ¬ Endpoint.Answered w.e r ∨ ∃ i id k, i ∈ l ∧ (w.e.c i).ans r = some (.response id k)

theorem ans_whole {w w' : St} {c : Choice} (hR : 0 < R) (h : Parts R cap n own w) (hs : step R cap own w c = some w') {i r : Nat} {a : Conn.Ans}
    (ha : (w.e.c i).ans r = some a) : (w'.e.c i).ans r = some a := by
  have held : ∀ i, Endpoint.Held (w.e.c i) := by
    obtain ⟨ds, h, _⟩ := h.e
    exact (Endpoint.reach hR h).1.held
  have cl : ∀ {x e}, Endpoint.step R cap w.e x = some e → (e.c i).ans r = some a := by
    intro x e he
    rcases Endpoint.conn_step he i with h1 | ⟨y, h1, -⟩
    · rw [h1]; exact ha
    · exact Conn.ans_step (held i) h1 ha
  unfold step at hs
  (repeat' split at hs) <;>
    first
    | (cases hs; done)
    | (cases hs; exact ha)
    | (obtain ⟨e, he, rfl⟩ := Option.map_eq_some_iff.1 hs
       first | exact cl he | exact ha)

/-- The write loops of the connections in `d` have ended. -/
def Shut (w : St) (d : List Nat) : Prop := ∀ i, i ∈ d → (w.e.c i).wp = .ended

theorem shut_whole {w w' : St} {c : Choice} {d : List Nat} (hs : step R cap own w c = some w') (h : Shut w d) : Shut w' d := by
  intro i hi
  have cl : ∀ {x e}, Endpoint.step R cap w.e x = some e → (e.c i).wp = .ended := by
    intro x e he
    rcases Endpoint.conn_step he i with h1 | ⟨y, h1, -⟩
    · rw [h1]; exact h i hi
    · exact Conn.ended_step h1 (h i hi)
  unfold step at hs
  (repeat' split at hs) <;>
    first
    | (cases hs; done)
    | (cases hs; exact h i hi)
    | (obtain ⟨e, he, rfl⟩ := Option.map_eq_some_iff.1 hs
       first | exact cl he | exact h i hi)

theorem goes_step {l d rs : List Nat} {w w' : St} {c : Choice} {ret : Nat → Parallel.Outcome} (hR : 0 < R) (hn : l.Nodup) (hdn : d.Nodup)
    (g : Goes R cap n own l d rs w)
    (hc : Moves ret l d rs c) (hs : step R cap own w c = some w') :
    Goes R cap n own l d rs w' ∧ work l d rs w' < work l d rs w ∧ (∀ j, Open w j → Open w' j) ∧
      (∀ r, (OnlyBy w' l r → OnlyBy w l r) ∧ (KeptBy w l d r → KeptBy w' l d r)) ∧ (∀ r, OnlyBy w' l r → Good l w r → Good l w' r) ∧
      (Shut w d → ∀ r, OnlyBy w l r → OnlyBy w' l r) := by
  have stay : ∀ r, (∃ i id k, i ∈ l ∧ (w.e.c i).ans r = some (.response id k)) → ∃ i id k, i ∈ l ∧ (w'.e.c i).ans r = some (.response id k) := by
    rintro r ⟨i, id, k, hi, h⟩
    exact ⟨i, id, k, hi, ans_whole hR g.go.parts hs h⟩
  have good : (∀ r, OnlyBy w l r → Endpoint.Answered w'.e r → Endpoint.Answered w.e r ∨ ∃ i id k, i ∈ l ∧ (w'.e.c i).ans r = some (.response id k)) →
      (∀ r, OnlyBy w' l r → OnlyBy w l r) → ∀ r, OnlyBy w' l r → Good l w r → Good l w' r := by
    intro h h' r hb hg
    replace hb := h' r hb
    rcases hg with hg | hg
    · by_cases e : Endpoint.Answered w'.e r
      · rcases h r hb e with h | h
        · exact absurd h hg
        · exact .inr h
      · exact .inl e
    · exact .inr (stay r hg)
  have kept : w'.e.got = w.e.got → ∀ r, (OnlyBy w' l r → OnlyBy w l r) ∧ (KeptBy w l d r → KeptBy w' l d r) := by
    intro c r
    unfold OnlyBy KeptBy
    rw [c]
    exact ⟨fun h => h, fun h => h⟩
  have only : w'.e.got = w.e.got → Shut w d → ∀ r, OnlyBy w l r → OnlyBy w' l r := by
    intro c _ r
    unfold OnlyBy
    rw [c]
    exact fun h => h
  rcases hc with hc | ⟨i, hi, rfl⟩ | rfl | ⟨r, hr, rfl | rfl | rfl⟩ | ⟨i, hi, hx⟩ | rfl | ⟨i, hi, hx⟩
  · obtain ⟨a, b, c, d, e⟩ := goes_onward hR hn g hc hs
    exact ⟨a, b, d, kept c, good (fun r _ => e r) fun r => (kept c r).1, only c⟩
  · obtain ⟨a, b, ⟨q, c⟩, d, e⟩ := goes_take hR hn hi g hs
    have ho : ∀ r, OnlyBy w' l r → OnlyBy w l r := fun r h x hx => h x (by rw [c]; exact List.mem_cons_of_mem _ hx)
    refine ⟨a, b, d, fun r => ⟨ho r, fun h j hx => ?_⟩, good (fun r _ h => .inl ((e r).1 h)) ho, fun _ r h x hx => ?_⟩
    · rw [c] at hx
      rcases List.mem_cons.1 hx with hx | hx
      · cases hx; exact .inl hi
      · exact h j hx
    · rw [c] at hx
      rcases List.mem_cons.1 hx with hx | hx
      · cases hx; exact ⟨i, hi, rfl⟩
      · exact h x hx
  · have hstep := hs
    simp only [step, Endpoint.step] at hs
    rw [Option.map_map, Option.map_eq_some_iff] at hs
    obtain ⟨b, hb, hw⟩ := hs
    obtain ⟨h1, h2⟩ := goes_queue hR g hw.symm hstep hb (.inl rfl)
    have := Endpoint.buf_step hb (by simp) (by simp)
    subst hw
    exact ⟨h1, h2, fun j h => ⟨h.client, h.server, h.out⟩, kept rfl, good (fun r _ h => .inl ((this.2.1 r).1 h)) fun _ h => h, only rfl⟩
  · have hstep := hs
    simp only [step, Endpoint.step] at hs
    rw [Option.map_map, Option.map_eq_some_iff] at hs
    obtain ⟨b, hb, hw⟩ := hs
    obtain ⟨h1, h2⟩ := goes_queue hR g hw.symm hstep hb (.inr ⟨r, hr, .inl rfl⟩)
    have := Endpoint.buf_step hb (by simp) (by simp)
    subst hw
    exact ⟨h1, h2, fun j h => ⟨h.client, h.server, h.out⟩, kept rfl, good (fun r _ h => .inl ((this.2.1 r).1 h)) fun _ h => h, only rfl⟩
  · have hstep := hs
    simp only [step, Endpoint.step] at hs
    rw [Option.map_map, Option.map_eq_some_iff] at hs
    obtain ⟨b, hb, hw⟩ := hs
    obtain ⟨h1, h2⟩ := goes_queue hR g hw.symm hstep hb (.inr ⟨r, hr, .inr (.inl rfl)⟩)
    have := Endpoint.buf_step hb (by simp) (by simp)
    subst hw
    exact ⟨h1, h2, fun j h => ⟨h.client, h.server, h.out⟩, kept rfl, good (fun r _ h => .inl ((this.2.1 r).1 h)) fun _ h => h, only rfl⟩
  · have hstep := hs
    have hlive : w.e.b.life r ≠ .live := by intro e; simp [step, Endpoint.step, e] at hs
    simp only [step, Endpoint.step, if_neg hlive] at hs
    rw [Option.map_map, Option.map_eq_some_iff] at hs
    obtain ⟨b, hb, hw⟩ := hs
    obtain ⟨h1, h2⟩ := goes_queue hR g hw.symm hstep hb (.inr ⟨r, hr, .inr (.inr rfl)⟩)
    have := Endpoint.buf_step hb (by simp) (by intro q hq; cases hq; exact hlive)
    subst hw
    exact ⟨h1, h2, fun j h => ⟨h.client, h.server, h.out⟩, kept rfl, good (fun r _ h => .inl ((this.2.1 r).1 h)) fun _ h => h, only rfl⟩
  · have : ∃ x, (x = .flush ∨ x = .flushOne) ∧ c = .client (.conn i x) := by
      rcases hx with rfl | rfl
      · exact ⟨_, .inl rfl, rfl⟩
      · exact ⟨_, .inr rfl, rfl⟩
    obtain ⟨x, hx', rfl⟩ := this
    obtain ⟨a, b, c, d, e⟩ := goes_flush hR g hi hx' hs
    exact ⟨a, b, c, kept d, good (fun r h1 h2 => .inl (e r h1 h2)) fun r => (kept d r).1, only d⟩
  · obtain ⟨a, b, c, d, e⟩ := goes_io hR g hs
    exact ⟨a, b, c, kept d, good (fun r h1 h2 => .inl (e r h1 h2)) fun r => (kept d r).1, only d⟩
  · have fall : (∃ x, (x = .header ∨ ∃ b, x = .wrote b ∨ x = .endWrite b) ∧ c = .client (.conn i x)) ∨ c = .client (.take i) := by
      rcases hx with rfl | rfl | ⟨b, rfl | rfl⟩
      · exact .inr rfl
      · exact .inl ⟨_, .inl rfl, rfl⟩
      · exact .inl ⟨_, .inr ⟨_, .inl rfl⟩, rfl⟩
      · exact .inl ⟨_, .inr ⟨_, .inr rfl⟩, rfl⟩
    rcases fall with ⟨x, hx', rfl⟩ | rfl
    · obtain ⟨a, b, c, d, e⟩ := goes_fall hi g hx' hs
      exact ⟨a, b, d, kept c, good (fun r _ h => .inl ((e r).1 h)) fun r => (kept c r).1, only c⟩
    · obtain ⟨a, b, ⟨q, c⟩, d, e, f⟩ := goes_lose hR hdn hi g hs
      have ho : ∀ r, OnlyBy w' l r → OnlyBy w l r := fun r h x hx => h x (by rw [c]; exact List.mem_cons_of_mem _ hx)
      refine ⟨a, b, d, fun r => ⟨ho r, fun h j hx => ?_⟩, good (fun r _ h => .inl ((e r).1 h)) ho, fun hsh => ?_⟩
      · rw [c] at hx
        rcases List.mem_cons.1 hx with hx | hx
        · cases hx; exact .inr hi
        · exact h j hx
      · have := hsh i hi
        rw [f] at this
        cases this

theorem goes_stop {l d rs : List Nat} {w w' : St} {c : Choice} {ret : Nat → Parallel.Outcome} (hn : l.Nodup) (g : Goes R cap n own l d rs w)
    (hc : Moves ret l d rs c) (hs : step R cap own w c = some w') : w'.s.p.stop = .idle ↔ w.s.p.stop = .idle := by
  have cl : ∀ {x e}, Option.map (fun e => ({ w with e } : St)) x = some e → (e.s.p.stop = .idle ↔ w.s.p.stop = .idle) := by
    intro x e h
    rw [Option.map_eq_some_iff] at h
    obtain ⟨_, -, rfl⟩ := h
    exact Iff.rfl
  rcases hc with hc | ⟨i, _, rfl⟩ | rfl | ⟨r, _, rfl | rfl | rfl⟩ | ⟨i, _, rfl | rfl⟩ | rfl | ⟨i, _, rfl | rfl | ⟨b, rfl | rfl⟩⟩
  · exact (whole_step hn g.go hc hs).stop
  · simp only [step] at hs
    split at hs
    · exact cl hs
    · cases hs
  all_goals first | exact cl hs | (simp only [step] at hs; split at hs; exact cl hs; cases hs)

theorem goes_run {l d rs : List Nat} {w w' : St} {ds : List Choice} {ret : Nat → Parallel.Outcome} (hR : 0 < R) (hn : l.Nodup) (hdn : d.Nodup)
    (g : Goes R cap n own l d rs w) (hc : ∀ c ∈ ds, Moves ret l d rs c) (hs : run R cap own w ds = some w') :
    ds.length + work l d rs w' ≤ work l d rs w ∧ Goes R cap n own l d rs w' ∧ (∀ j, Open w j → Open w' j) ∧
      (∀ r, KeptBy w l d r → KeptBy w' l d r) ∧ (∀ r, OnlyBy w' l r → OnlyBy w l r ∧ (Good l w r → Good l w' r)) ∧
      (w'.s.p.stop = .idle ↔ w.s.p.stop = .idle) ∧ (Shut w d → ∀ r, OnlyBy w l r → OnlyBy w' l r) := by
  induction ds generalizing w with
  | nil => cases hs; exact ⟨by simp, g, fun _ h => h, fun _ h => h, fun _ h => ⟨h, fun h => h⟩, Iff.rfl, fun _ _ h => h⟩
  | cons c ds ih =>
    simp only [run, Option.bind_eq_some_iff] at hs
    obtain ⟨w1, h1, h2⟩ := hs
    obtain ⟨g1, f1, f2, f3, f4, f5⟩ := goes_step hR hn hdn g (hc c (List.mem_cons_self ..)) h1
    obtain ⟨a, b, d, e, f, st, sh⟩ := ih g1 (fun c hm => hc c (List.mem_cons_of_mem _ hm)) h2
    refine ⟨?_, b, fun i h => d i (f2 i h), fun i h => e i ((f3 i).2 h),
      fun i h0 => ⟨(f3 i).1 (f i h0).1, fun h => (f i h0).2 (f4 i (f i h0).1 h)⟩,
      st.trans (goes_stop hn g (hc c (List.mem_cons_self ..)) h1), fun h i hi => sh (shut_whole h1 h) i (f5 h i hi)⟩
    rw [List.length_cons]
    omega

/-- At rest every request for which `Send` was called is answered, or was received by the dispatcher outside of its loop. -/
theorem rest_answered {l d rs : List Nat} {w : St} {ret : Nat → Parallel.Outcome} (hR : 0 < R) (hcap : 0 < cap) (g : Goes R cap n own l d rs w)
    (hq : ∀ c, Moves ret l d rs c → step R cap own w c = none) (hne : l ≠ []) (ho : ∀ i, i ∈ l → Open w i) {r : Nat} (hr : r ∈ rs)
    (hb : KeptBy w l d r) : Endpoint.Answered w.e r ∨ Dropped own w r := by
  obtain ⟨hI, hW, S, hS⟩ := g.inv hR
  obtain ⟨ds, hds, hpol⟩ := g.go.parts.e
  have hqo : ∀ c, Onward ret l c → step R cap own w c = none := fun c hc => hq c (.inl hc)
  have hcn : ∀ i, ∃ cs, Conn.run Conn.init cs = some (w.e.c i) ∧ Conn.Polite Conn.init cs := by
    intro i
    obtain ⟨cs, h1, h2⟩ := Endpoint.conn_run hds i
    exact ⟨cs, h1, h2 (hpol g.go.young)⟩
  have hwp : ∀ i, i ∈ l → (w.e.c i).wp = .loop := by
    intro i hi
    cases e : (w.e.c i).wp with
    | loop => rfl
    | header r o j =>
      have := hqo (.client (.conn i .header)) (.inr ⟨i, hi, .inr (.inr (.inr (.inl rfl)))⟩)
      simp [step, Endpoint.step, Conn.step, e] at this
    | write id r f =>
      have := hqo (.client (.conn i (.wrote true))) (.inr ⟨i, hi, .inr (.inr (.inr (.inr (.inl rfl))))⟩)
      simp [step, Endpoint.step, Conn.step, e] at this
    | ended => exact absurd e (g.writes i hi)
  have hch : w.e.b.chan = [] := by
    cases e : w.e.b.chan with
    | nil => rfl
    | cons q rest =>
      obtain ⟨i, hi⟩ := List.exists_mem_of_ne_nil l hne
      obtain ⟨cs, h1, -⟩ := hcn i
      obtain ⟨k, hk⟩ := Props.C51_three_rounds h1 (hwp i hi) q
      have := hq (.client (.take i)) (.inr (.inl ⟨i, hi, rfl⟩))
      simp [step, Endpoint.step, e, hk, g.go.mine i hi] at this
  have hloop : Buffer.step R cap w.e.b .loop = none := by
    have := hq (.client (.queue .loop)) (.inr (.inr (.inl rfl)))
    simpa [step, Endpoint.step] using this
  have hquiet := Buffer.rest hcap hS hch hloop
  obtain ⟨bs, hbs⟩ := hI.reach
  have hdone : ∀ q, q ∈ rs → .ret q ∈ w.e.b.log := by
    intro q hqr
    refine Buffer.done_run (by intro r h; simp [Buffer.init] at h) hbs q (Buffer.rest_push ?_ ?_ (R := R) (cap := cap) ?_)
    · exact Props.C65_no_panic_before_close_partial hbs (by rw [g.closing]; simp) q
    · have := hq (.client (.queue (.answer q))) (.inr (.inr (.inr (.inl ⟨q, hqr, .inr (.inr rfl)⟩))))
      cases e : w.e.b.life q <;> simp [step, Endpoint.step, Buffer.step, Buffer.stepAnswer, e] at this ⊢ <;> split at this <;> cases this
    · have := hq (.client (.queue (.push q))) (.inr (.inr (.inr (.inl ⟨q, hqr, .inl rfl⟩))))
      simpa [step, Endpoint.step] using this
  rcases Props.C121_place hR hds hquiet (hdone r hr) with h | h | h | ⟨i, ht, hf, -⟩ | ⟨_, _, q, -, -, -, h1, h2⟩
  · rw [hch] at h; cases h
  · exact .inl h
  · have := hq (.client .ioError) (.inr (.inr (.inr (.inr (.inr (.inl rfl))))))
    simp [step, Endpoint.step, h] at this
  · obtain ⟨cs, h1, h2⟩ := hcn i
    have hci := Conn.reach h1 h2 (g.go.young i)
    rcases (hb i ht).symm with hi | hi
    · exfalso
      have hov : Over w i := by
        refine ⟨?_, (g.down i hi).read⟩
        have hd : ∀ x, (x = .client (.take i) ∨ x = .client (.conn i .header) ∨ (∃ b, x = .client (.conn i (.wrote b)) ∨ x = .client (.conn i (.endWrite b)))) →
            step R cap own w x = none := fun x hx => hq x (.inr (.inr (.inr (.inr (.inr (.inr ⟨i, hi, hx⟩))))))
        cases e : (w.e.c i).wp with
        | loop =>
          have := hd (.client (.conn i (.endWrite false))) (.inr (.inr ⟨_, .inr rfl⟩))
          simp [step, Endpoint.step, Conn.step, e] at this
        | header r o j =>
          have := hd (.client (.conn i .header)) (.inr (.inl rfl))
          simp [step, Endpoint.step, Conn.step, e] at this
        | write id r f =>
          have := hd (.client (.conn i (.wrote false))) (.inr (.inr ⟨_, .inl rfl⟩))
          simp [step, Endpoint.step, Conn.step, e] at this
        | ended => rfl
      refine hci.cpEnd ?_ r hf
      cases e : (w.e.c i).cp with
      | ended => rfl
      | panicked => exact absurd e hci.noPanic.2
      | loop =>
        have := hq (.client (.conn i .flush)) (.inr (.inr (.inr (.inr (.inl ⟨i, hi, .inl rfl⟩)))))
        simp only [step, Endpoint.step, Conn.step, e, hov.1, hov.2, and_self, if_true] at this
        cases e' : (w.e.c i).h.getAll <;> simp [e'] at this
      | flush L =>
        have := hq (.client (.conn i .flushOne)) (.inr (.inr (.inr (.inr (.inl ⟨i, hi, .inr rfl⟩)))))
        simp only [step, Endpoint.step, Conn.step, e] at this
        cases L with
        | nil => simp at this
        | cons x L =>
          simp only [Option.map_eq_none_iff] at this
          split at this <;> cases this
    have hcarry : Carries w i r := by
      cases e : (w.e.c i).slot r with
      | none => exact absurd e (hci.flySlot r hf)
      | some p =>
        obtain ⟨o, j⟩ := p
        rcases (hci.slotId r o j e).2 with h | h
        · rcases Conn.went_run Conn.went_init h1 r _ h with ⟨f, hm⟩ | ⟨f, hm⟩ | hm
          · exact .inl ⟨_, f, hm⟩
          · exact .inr (.inr ⟨_, f, hm⟩)
          · exact absurd hm (g.writes i hi)
        · exact .inr (.inl ⟨o, j, h⟩)
    obtain ⟨q, hq1, -, h⟩ := rest_done g.go hqo hi (ho i hi) hcarry
    rcases h with h | ⟨-, h⟩
    · exact .inr ⟨q, hq1, h⟩
    exfalso
    have hp : (w.e.c i).rs r = .performed := ((hI.held i).ans r).2 (by rcases h with ⟨_, h⟩ | h <;> rw [h] <;> simp)
    unfold Conn.Outstanding at hf
    rw [hp] at hf
    cases hf
  · exact absurd (hdone q ((g.calls q).2 h1)) h2

end Verif.Whole
