import Verif.Spec.Lost
/-!
C145: the loss of a connection is noticed.
-/
namespace Verif.Lost

theorem any_some {o : Option St} {p : St → Prop} [DecidablePred p] (h : (o.any fun s => p s) = true) : ∃ s, o = some s ∧ p s := by
  cases o with
  | none => cases h
  | some s => exact ⟨s, rfl, of_decide_eq_true h⟩

structure Inv (s : St) : Prop where
  cnt : ∀ r, s.taken.count r = s.fly.count r + (s.ans.map Prod.fst).count r
  clean : s.wp = .wait → s.dirty = false
  toldW : s.wp = .ended → s.stW = true ∨ .writeClosed ∈ s.note
  notYet : s.wp ≠ .ended → s.stW = false ∧ .writeClosed ∉ s.note
  toldR : s.rp = .ended → s.stR = true ∨ .readClosed ∈ s.note
  notYetR : s.rp ≠ .ended → s.stR = false ∧ .readClosed ∉ s.note
  both : s.stW = true → s.stR = true → s.cp = .ended ∨ s.cp = .flush ∨ s.cp = .eval
  fin : s.cp = .ended ∨ s.cp = .flush → s.stW = true ∧ s.stR = true
  fly : s.cp = .ended → s.fly = []
  closed : s.stR = true → s.shut = true ∨ s.stW = true

theorem inv_init (p : Bool) : Inv (init p) := by
  constructor <;> simp [init]

theorem inv_step {s s' : St} {c : Choice} (h : Inv s) (hs : step s c = some s') : Inv s' := by
  obtain ⟨h1, h2, h3, h4, h5, h6, h7, h8, h9, h10⟩ := h
  cases c <;> simp only [step] at hs
  case recv =>
    split at hs
    · next a q hq =>
      split at hs <;> cases hs
      cases a <;> (constructor <;> simp only [act] <;> grind)
    · cases hs
  case eval =>
    split at hs
    · by_cases hq : s.stW = true ∧ s.called = false ∧ noneLeft s = true
      · simp only [hq, and_self, if_true] at hs
        split at hs <;> cases hs <;> (constructor <;> simp only <;> grind)
      · simp only [if_neg hq] at hs
        split at hs <;> cases hs <;> (constructor <;> simp only <;> grind)
    · cases hs
  case resp r =>
    split at hs
    · next hc =>
      cases hs
      refine ⟨fun x => ?_, h2, h3, h4, ?_, ?_, h7, h8, ?_, h10⟩
      · have := h1 x
        have hp := List.count_pos_iff.mpr hc.2
        simp only [List.map_append, List.map_cons, List.map_nil, List.count_append, List.count_erase, List.count_cons, List.count_nil]
        by_cases e : x = r
        · subst e; simp; omega
        · have e' : r ≠ x := fun e' => e e'.symm
          simp [e']; omega
      all_goals grind
    · cases hs
  case fail =>
    split at hs
    · next hc =>
      cases hs
      refine ⟨fun x => ?_, h2, h3, h4, h5, h6, ?_, ?_, ?_, h10⟩
      · have := h1 x
        simp only [List.map_append, List.map_map, List.count_append, List.count_nil]
        have e : (s.fly.map (Prod.fst ∘ fun r => (r, if s.shutdown = true then Ans.shutdown else Ans.ioError))) = s.fly := by
          rw [show (Prod.fst ∘ fun r : Nat => (r, if s.shutdown = true then Ans.shutdown else Ans.ioError)) = id from rfl, List.map_id]
        rw [e]; omega
      all_goals grind
    · cases hs
  case take p =>
    (repeat' split at hs) <;> simp only [Option.some.injEq, reduceCtorEq] at hs <;> subst hs
    · refine ⟨fun x => ?_, ?_, ?_, ?_, h5, h6, h7, h8, ?_, h10⟩
      · have := h1 x
        simp only [List.count_append]; omega
      all_goals grind
    · constructor <;> grind
  all_goals
    (repeat' split at hs) <;> simp only [Option.some.injEq, reduceCtorEq] at hs <;> subst hs <;>
      (constructor <;> simp only [ne_eq, List.mem_append, List.mem_singleton] <;> grind)

theorem inv_run {cs : List Choice} : ∀ {s s' : St}, Inv s → run s cs = some s' → Inv s' := by
  induction cs with
  | nil => intro s s' h hr; cases hr; exact h
  | cons c cs ih =>
    intro s s' h hr
    simp only [run, Option.bind_eq_some_iff] at hr
    obtain ⟨t, h1, h2⟩ := hr
    exact ih (inv_step h h1) h2

/-- `PingInterval` does not change. -/
theorem pings_run {cs : List Choice} : ∀ {s s' : St}, run s cs = some s' → s'.pings = s.pings := by
  induction cs with
  | nil => intro s s' hr; cases hr; rfl
  | cons c cs ih =>
    intro s s' hr
    simp only [run, Option.bind_eq_some_iff] at hr
    obtain ⟨t, h1, h2⟩ := hr
    rw [ih h2]
    cases c <;> simp only [step] at h1
    case recv =>
      split at h1
      · next a q hq => split at h1 <;> cases h1; cases a <;> rfl
      · cases h1
    case eval =>
      split at h1
      · split at h1 <;> split at h1 <;> cases h1 <;> rfl
      · cases h1
    all_goals (repeat' split at h1) <;> simp only [Option.some.injEq, reduceCtorEq] at h1 <;> subst h1 <;> rfl

/-- What the connection looks like when nothing happens before the next ping. -/
theorem shape {s : St} (hi : Inv s) (hg : s.gone = true) (hr : Rests s) :
    s.cp = .ended ∨ (s.wp = .wait ∧ s.q = [] ∧ s.stopped = false ∧ s.shut = true ∧ s.dirty = false ∧ s.rp = .ended ∧ s.stR = true ∧ s.stW = false) := by
  have n := fun c (h1 : Inner c = true) (h2 : c ≠ .tick) => hr c h1 h2
  by_cases hd : s.cp = .ended
  · exact .inl hd
  have he : s.cp = .recv := by
    cases h : s.cp
    · rfl
    · have := n .eval rfl (by simp)
      simp only [step, h, if_true] at this
      split at this <;> split at this <;> cases this
    · have := n .fail rfl (by simp)
      simp [step, h] at this
    · exact absurd h hd
  have hn : s.note = [] := by
    cases h : s.note with
    | nil => rfl
    | cons a q => have := n .recv rfl (by simp); simp [step, h, he] at this
  have hrp : s.rp = .ended := by
    cases h : s.rp
    · have := n .readErr rfl (by simp); simp [step, h, hg] at this
    · have := n .look rfl (by simp)
      simp only [step, h, if_true] at this
      split at this <;> cases this
    · have := n .tellE rfl (by simp); simp [step, h, hn] at this
    · have := n .tellR rfl (by simp); simp [step, h, hn] at this
    · rfl
  have hsr : s.stR = true := by have := hi.toldR hrp; simp_all
  have hsw : s.stW = false := by
    cases h : s.stW
    · rfl
    · have := hi.both h hsr; simp_all
  have hsh : s.shut = true := by have := hi.closed hsr; simp_all
  have hwp : s.wp = .wait := by
    cases h : s.wp
    · have := n .go rfl (by simp)
      simp only [step, h, if_true] at this
      split at this <;> cases this
    · have h1 := n (.take true) rfl (by simp)
      have h2 := n (.flush true) rfl (by simp)
      have h3 := n (.flush false) rfl (by simp)
      cases hq : s.q <;> cases hdd : s.dirty <;> simp [step, h, hq, hdd] at h1 h2 h3
    · rfl
    · have := n (.write .failed) rfl (by simp); simp [step, h] at this
    · have h2 := n (.last true) rfl (by simp)
      have h3 := n (.last false) rfl (by simp)
      cases hdd : s.dirty <;> simp [step, h, hdd] at h2 h3
    · have := n .tellW rfl (by simp); simp [step, h, hn] at this
    · have := hi.toldW h; simp_all
  have hq : s.q = [] := by
    cases hq : s.q
    · rfl
    · have h1 := n (.take true) rfl (by simp); simp [step, hwp, hq] at h1
  have hst : s.stopped = false := by
    cases h : s.stopped
    · rfl
    · have := n .exit rfl (by simp); simp [step, hwp, h] at this
  exact .inr ⟨hwp, hq, hst, hsh, hi.clean hwp, hrp, hsr, hsw⟩

theorem answered {s : St} (hi : Inv s) (hc : s.cp = .ended) : AllAnswered s := fun r => by
  have := hi.cnt r
  rw [hi.fly hc] at this
  simp at this
  exact this.symm

/-- How much is left to do, pings left out. -/
def left0 (s : St) : Nat :=
  (match s.wp with | .ended => 0 | .notify => 3 | .closing => 4 | .wait => 5 | .sel => 6 | .top => 7 | .write => 8) +
  (match s.rp with | .check => 8 | .empty => 7 | .read => 4 | .notify => 3 | .ended => 0) +
  (match s.cp with | .eval => 3 | .recv => 2 | .flush => 1 | .ended => 0) +
  2 * s.note.length + 5 * s.fly.length + 10 * s.q.length

/-- Once CloseWrite was called, there is one ping at most. -/
def left (s : St) : Nat := left0 s + if s.dirty then 0 else 3

theorem left_step {s s' : St} {c : Choice} (hc : Inner c = true) (hs : step s c = some s') :
    (c ≠ .tick → left0 s' < left0 s) ∧ (s.shut = true → s'.shut = true ∧ (s.dirty = true → s'.dirty = true)) ∧
      (s.shut = true → (s.wp = .wait → s.dirty = false) → left s' < left s) := by
  cases c <;> simp only [Inner, Bool.false_eq_true] at hc <;> simp only [step] at hs
  case recv =>
    split at hs
    · next a q hq =>
      split at hs
      · next hr => cases hs; cases a <;> simp [left, left0, act, hq, hr] <;> grind
      · cases hs
    · cases hs
  case eval =>
    split at hs
    · next hr => split at hs <;> split at hs <;> cases hs <;> simp [left, left0, hr]
    · cases hs
  case resp r =>
    split at hs
    · next hr =>
      cases hs
      have : 0 < s.fly.length := List.length_pos_of_mem hr.2
      simp [left, left0, hr.1, List.length_erase_of_mem hr.2]; omega
    · cases hs
  all_goals
    (repeat' split at hs) <;> simp only [Option.some.injEq, reduceCtorEq] at hs <;> subst hs <;> simp_all [left, left0] <;> grind

/-- A request was taken, or a ping written, after CloseWrite. -/
def Doomed (s : St) : Prop := s.shut = true ∧ (s.dirty = true ∨ s.wp = .write ∨ s.wp = .closing ∨ s.wp = .notify ∨ s.wp = .ended)

theorem shut_step {s s' : St} {c : Choice} (hs : step s c = some s') (h : s.shut = true) :
    s'.shut = true ∧ (s.wp = .wait → s.dirty = false → Doomed s → False) ∧ (Doomed s → Doomed s') ∧ (c = .tick → Doomed s') ∧ (c = .take true → Doomed s') := by
  cases c <;> simp only [step] at hs
  case recv =>
    split at hs
    · next a q hq =>
      split at hs
      · cases hs; cases a <;> simp_all [act, Doomed]
      · cases hs
    · cases hs
  case eval =>
    split at hs
    · split at hs <;> split at hs <;> cases hs <;> simp_all [Doomed]
    · cases hs
  all_goals
    (repeat' split at hs) <;> simp only [Option.some.injEq, reduceCtorEq] at hs <;> subst hs <;> simp_all [Doomed] <;> grind

theorem doomed_run {cs : List Choice} : ∀ {s s' : St}, Inv s → Doomed s → run s cs = some s' → Doomed s' ∧ cs.countP (· = .tick) = 0 := by
  induction cs with
  | nil => intro s s' _ h hr; cases hr; exact ⟨h, rfl⟩
  | cons c cs ih =>
    intro s s' hi h hr
    simp only [run, Option.bind_eq_some_iff] at hr
    obtain ⟨t, h1, h2⟩ := hr
    have k := shut_step h1 h.1
    obtain ⟨a, b⟩ := ih (inv_step hi h1) (k.2.2.1 h) h2
    refine ⟨a, ?_⟩
    have : c ≠ .tick := by
      rintro rfl
      simp only [step] at h1
      split at h1
      · next hw => exact k.2.1 hw.1 (hi.clean hw.1) h
      · cases h1
    simp [b, this]

theorem doomed_end {s : St} (hi : Inv s) (h : Doomed s) (hg : s.gone = true) (hr : Rests s) : s.cp = .ended := by
  rcases shape hi hg hr with a | ⟨a, -, -, -, b, -⟩
  · exact a
  · obtain ⟨-, h | h | h | h | h⟩ := h <;> simp_all

theorem end_rests {s : St} (h1 : s.cp = .ended) (h2 : s.wp = .ended) (h3 : s.rp = .ended) : Rest s := by
  intro c _
  cases c <;> simp_all [step, Inner] <;> split <;> rfl

end Verif.Lost

namespace Verif.Props
open Verif.Lost

variable {p : Bool} {cs : List Lost.Choice} {s : Lost.St}

/-- C145, in part: when the peer has closed the connection and pings are sent, or the connection is stopped, then it does not come to rest before all
requests that were taken are answered, each of them once, and its control loop has ended. -/
theorem C145_rest_partial (h : Lost.run (Lost.init p) cs = some s) (hg : s.gone = true) (hr : Lost.Rest s) (hp : p = true ∨ s.stopped = true) :
    AllAnswered s ∧ s.fly = [] ∧ s.cp = .ended := by
  have hi := inv_run (inv_init p) h
  have hs : s.cp = .ended := by
    rcases shape hi hg fun c h _ => hr c h with a | ⟨a, -, b, -⟩
    · exact a
    · rcases hp with hp | hp
      · have e : s.pings = true := by rw [pings_run h]; exact hp
        have := hr .tick rfl
        simp [Lost.step, a, e] at this
      · rw [hp] at b; cases b
  exact ⟨answered hi hs, hi.fly hs, hs⟩

/-- C145: between two pings only a bounded number of things happen (unless somebody outside does something); then, if the peer has closed the
connection, it is closed for writing too, or is done with. -/
theorem C145_soon (h : Lost.run (Lost.init p) cs = some s) : ∃ b, ∀ ds s', (∀ d ∈ ds, Inner d = true ∧ d ≠ .tick) → Lost.run s ds = some s' →
    ds.length ≤ b ∧ (s'.gone = true → Rests s' → s'.shut = true ∨ s'.cp = .ended) := by
  refine ⟨left0 s, fun ds s' hd hr => ⟨?_, fun hg hq => ?_⟩⟩
  · clear h
    induction ds generalizing s with
    | nil => simp
    | cons d ds ih =>
      simp only [Lost.run, Option.bind_eq_some_iff] at hr
      obtain ⟨t, h1, h2⟩ := hr
      have := ih (fun d h => hd d (by simp [h])) h2
      have := (left_step (hd d (by simp)).1 h1).1 (hd d (by simp)).2
      simp only [List.length_cons]; omega
  · rcases shape (inv_run (inv_run (inv_init p) h) hr) hg hq with a | ⟨-, -, -, a, -⟩
    · exact .inr a
    · exact .inl a

/-- C145: from then on only a bounded number of things happen, pings included. -/
theorem C145_bounded (h : Lost.run (Lost.init p) cs = some s) (hs : s.shut = true) :
    ∃ b, ∀ ds s', (∀ d ∈ ds, Inner d = true) → Lost.run s ds = some s' → ds.length ≤ b := by
  have hi := inv_run (inv_init p) h
  clear h
  refine ⟨left s, fun ds => ?_⟩
  induction ds generalizing s with
  | nil => simp
  | cons d ds ih =>
    intro s' hd hr
    simp only [Lost.run, Option.bind_eq_some_iff] at hr
    obtain ⟨t, h1, h2⟩ := hr
    have k := left_step (hd d (by simp)) h1
    have := ih (k.2.1 hs).1 (inv_step hi h1) s' (fun d h => hd d (by simp [h])) h2
    have := k.2.2 hs hi.clean
    simp only [List.length_cons]; omega

/-- C145: it takes one ping at most: after CloseWrite there is no second one, whatever anybody does. -/
theorem C145_one_ping (h : Lost.run (Lost.init p) cs = some s) (hs : s.shut = true) {ds : List Lost.Choice} {s' : Lost.St}
    (hr : Lost.run s ds = some s') : ds.countP (· = .tick) ≤ 1 := by
  have hi := inv_run (inv_init p) h
  clear h
  induction ds generalizing s with
  | nil => simp
  | cons d ds ih =>
    simp only [Lost.run, Option.bind_eq_some_iff] at hr
    obtain ⟨t, h1, h2⟩ := hr
    have k := shut_step h1 hs
    by_cases e : d = .tick
    · have := (doomed_run (inv_step hi h1) (k.2.2.2.1 e) h2).2
      simp only [List.countP_cons, this]
      split <;> omega
    · have := ih k.1 h2 (inv_step hi h1)
      simp [e, this]

/-- C145, in part: without pings, it takes a request that was not cancelled before the write loop received it. -/
theorem C145_request_partial (h : Lost.run (Lost.init p) cs = some s) (hs : s.shut = true) {ds : List Lost.Choice} {s' : Lost.St}
    (hr : Lost.run s ds = some s') (ht : .take true ∈ ds) (hg : s'.gone = true) (hq : Lost.Rest s') :
    AllAnswered s' ∧ s'.fly = [] ∧ s'.cp = .ended := by
  have hi := inv_run (inv_init p) h
  have hi' := inv_run hi hr
  have hd : Doomed s' := by
    clear h hi' hg hq
    induction ds generalizing s with
    | nil => cases ht
    | cons d ds ih =>
      simp only [Lost.run, Option.bind_eq_some_iff] at hr
      obtain ⟨t, h1, h2⟩ := hr
      have k := shut_step h1 hs
      rcases List.mem_cons.mp ht with e | e
      · exact (doomed_run (inv_step hi h1) (k.2.2.2.2 e.symm) h2).1
      · exact ih k.1 h2 e (inv_step hi h1)
  have hc := doomed_end hi' hd hg fun c h _ => hq c h
  exact ⟨answered hi' hc, hi'.fly hc, hc⟩

/-- C145 fails without pings: whenever the write loop waits and no request is there, then as long as nobody sends a request or stops the connection,
the connection is not given up and nothing is answered but by the peer, and nothing at all once the read loop has ended. -/
theorem C145_waits_violated (h : Lost.run (Lost.init false) cs = some s) (hw : s.wp = .wait) (hq : s.q = []) (hs : s.stopped = false)
    {ds : List Lost.Choice} {s' : Lost.St} (hd : ∀ d ∈ ds, d ≠ .stop ∧ ∀ r, d ≠ .send r) (hr : Lost.run s ds = some s') :
    s'.wp = .wait ∧ s'.cp ≠ .ended ∧ s'.stW = false ∧ ∀ r a, (r, a) ∈ s'.ans → (r, a) ∈ s.ans ∨ (a = .response ∧ s.rp ≠ .ended) := by
  have hp : s.pings = false := pings_run h
  have hi := inv_run (inv_init false) h
  clear h
  induction ds generalizing s with
  | nil =>
    cases hr
    have h1 := (hi.notYet (by simp [hw])).1
    exact ⟨hw, fun e => by have := hi.fin (.inl e); simp_all, h1, fun _ _ => .inl⟩
  | cons d ds ih =>
    simp only [Lost.run, Option.bind_eq_some_iff] at hr
    obtain ⟨t, h1, h2⟩ := hr
    have key : t.wp = .wait ∧ t.q = [] ∧ t.stopped = false ∧ t.pings = false ∧ (s.rp = .ended → t.rp = .ended) ∧
        ∀ r a, (r, a) ∈ t.ans → (r, a) ∈ s.ans ∨ (a = .response ∧ s.rp ≠ .ended) := by
      have hc : s.cp ≠ .flush := fun e => by
        have h1 := hi.fin (.inr e)
        have h2 := hi.notYet (by simp [hw])
        simp_all
      have hd' := hd d (by simp)
      cases d <;> simp only [Lost.step] at h1
      case recv =>
        split at h1
        · next a q hq => split at h1 <;> cases h1; cases a <;> exact ⟨hw, ‹_›, hs, hp, id, fun _ _ => .inl⟩
        · cases h1
      case eval =>
        split at h1
        · split at h1 <;> split at h1 <;> cases h1 <;> exact ⟨hw, hq, hs, hp, id, fun _ _ => .inl⟩
        · cases h1
      case send r => exact absurd rfl (hd'.2 r)
      case stop => exact absurd rfl hd'.1
      case resp r =>
        split at h1
        · next hr =>
          cases h1
          exact ⟨hw, hq, hs, hp, fun e => by simp [hr.1] at e, fun x a hx => by simp at hx; rcases hx with hx | hx <;> simp [hx, hr.1]⟩
        · cases h1
      all_goals
        (repeat' split at h1) <;> simp only [Option.some.injEq, reduceCtorEq] at h1 <;> subst h1 <;> simp_all
    obtain ⟨k1, k2, k3, k4, k6, k5⟩ := key
    obtain ⟨a, b, c, e⟩ := ih k1 k2 k3 (fun d h => hd d (by simp [h])) h2 k4 (inv_step hi h1)
    refine ⟨a, b, c, fun r x hx => ?_⟩
    rcases e r x hx with h | h
    · exact k5 r x h
    · exact .inr ⟨h.1, fun e => h.2 (k6 e)⟩

/-- A request is sent and written. -/
def sent (r : Nat) : List Lost.Choice := [.send r, .go, .take true, .write .kept, .go, .flush true]

/-- The peer closes the connection, and the control loop hears of it. -/
def hungUp : List Lost.Choice := [.hangUp, .readErr, .tellR, .recv, .eval]

/-- C145 fails: without pings, a request is in flight when the peer closes the connection; the read loop has ended, the control loop knows, but as long
as nobody sends a request or stops the connection, the request is not answered. -/
theorem C145_idle_violated : ∃ s, Lost.run (Lost.init false) (sent 1 ++ hungUp) = some s ∧ s.taken = [1] ∧ s.stR = true ∧ s.shut = true ∧
    ∀ ds s', (∀ d ∈ ds, d ≠ .stop ∧ ∀ r, d ≠ .send r) → Lost.run s ds = some s' → s'.ans = [] ∧ s'.cp ≠ .ended := by
  have h : (Lost.run (Lost.init false) (sent 1 ++ hungUp)).any (fun s => s.taken = [1] ∧ s.stR = true ∧ s.shut = true ∧ s.wp = .wait ∧
      s.q = [] ∧ s.stopped = false ∧ s.ans = [] ∧ s.rp = .ended) = true := by decide +kernel
  obtain ⟨s, h0, h1, h2, h3, h4, h5, h6, h7, h8⟩ := Lost.any_some h
  refine ⟨s, h0, h1, h2, h3, fun ds s' hd hr => ?_⟩
  obtain ⟨-, a, b, c⟩ := C145_waits_violated h0 h4 h5 h6 hd hr
  refine ⟨?_, a⟩
  refine List.eq_nil_iff_forall_not_mem.mpr fun x hx => ?_
  rcases c x.1 x.2 hx with e | e
  · rw [h7] at e; cases e
  · exact e.2 h8

/-- C145 fails, with pings or without: a request that is sent after the control loop has heard that the connection is closed is taken nonetheless, and
failed, although nothing was written. (Another connection of the pool could have
taken it.) -/
theorem C145_taken_violated (p : Bool) : ∃ s s', Lost.run (Lost.init p) ([.go, .flush true] ++ hungUp) = some s ∧ s.stR = true ∧ s.taken = [] ∧
    Lost.run s ([.send 7, .take true, .write .kept, .go, .flush false, .tellW, .recv, .eval, .fail]) = some s' ∧ s'.taken = [7] ∧ s'.ans = [(7, .ioError)] := by
  cases p <;> exact ⟨_, _, rfl, rfl, rfl, rfl, rfl, rfl⟩

/-- Two requests are in flight, of which one is answered, when the peer closes the connection; then there is a ping. Meets the hypotheses of `C145_rest_partial`. -/
example : ∃ s, Lost.run (Lost.init true) (sent 1 ++ [.send 2, .take true, .write .kept, .go, .flush true, .resp 2, .look] ++ hungUp ++
    [.tick, .go, .flush false, .tellW, .recv, .eval, .fail]) = some s ∧ s.gone = true ∧ s.taken = [1, 2] ∧
    s.ans = [(2, .response), (1, .ioError)] ∧ Lost.Rest s :=
  ⟨_, rfl, rfl, rfl, rfl, end_rests rfl rfl rfl⟩

/-- Without pings, a second request is taken after CloseWrite. Meets the hypotheses of `C145_request_partial`. -/
example : ∃ s s', Lost.run (Lost.init false) (sent 1 ++ hungUp) = some s ∧ s.shut = true ∧
    Lost.run s [.send 2, .take true, .write .kept, .go, .flush false, .tellW, .recv, .eval, .fail] = some s' ∧ s'.gone = true ∧
    s'.ans = [(1, .ioError), (2, .ioError)] ∧ Lost.Rest s' :=
  ⟨_, _, rfl, rfl, rfl, rfl, rfl, end_rests rfl rfl rfl⟩

end Verif.Props
