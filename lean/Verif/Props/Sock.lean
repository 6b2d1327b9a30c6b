import Verif.Model.Sock
import Verif.Props.ConnClose

/-! C154: the other end learns that a connection has ended. -/
namespace Verif.Sock
open Verif.Serv (Choice)

theorem any_some {o : Option St} {p : St → Prop} [DecidablePred p] (h : (o.any fun s => p s) = true) :
    ∃ s, o = some s ∧ p s := by
  cases o with
  | none => cases h
  | some s => exact ⟨s, rfl, of_decide_eq_true h⟩

structure Inv (x : St) : Prop where
  told : x.s.wrClosed = true ∨ Serv.Act.writeClosed ∈ x.s.q → ∃ e, x.s.wp = .done e
  ended : x.s.cp = .closing ∨ x.s.cp = .done → x.s.wrClosed = true ∧ x.s.rdClosed = true
  good : x.s.wp = .done false → x.shut = true
  bad : x.s.wp = .done true ∨ x.s.wp = .fin true → x.failed = true ∧ x.shut = false
  late : x.shut = true → x.s.wp = .done false
  mid : (x.s.cp = .wlock ∨ x.s.cp = .report ∨ (∃ ks, x.s.cp = .cancel ks) ∨ ∃ k ks, x.s.cp = .cancelIn k ks) → x.s.wrClosed = true
  rd : x.shutR = true → x.s.wrClosed = true
  clean : x.failed = false → x.s.wp ≠ .done true

theorem inv_init : Inv init := by
  constructor <;> simp [init, Serv.init]

theorem inv_step {x y : St} {c : Choice} (h : Inv x) (hs : step x c = some y) : Inv y := by
  obtain ⟨h1, h2, h3, h4, h5, h6, h7, h8⟩ := h
  simp only [step] at hs
  split at hs
  · cases hs
  rename_i s' he
  cases hs
  simp only [Serv.step] at he
  split at he
  · cases he
  cases c <;> simp only [Serv.step1, Serv.stepR, Serv.stepW, Serv.stepC, Serv.beginRespond, Serv.closeOut] at he <;>
    (constructor <;> grind)

theorem inv_run {cs : List Choice} : ∀ {x y : St}, Inv x → run x cs = some y → Inv y := by
  induction cs with
  | nil => intro x y h hr; cases hr; exact h
  | cons c cs ih =>
    intro x y h hr
    simp only [run] at hr
    cases hs : step x c with
    | none => simp [hs] at hr
    | some z => rw [hs] at hr; exact ih (inv_step h hs) hr

theorem failed_run {cs : List Choice} : ∀ {x y : St}, run x cs = some y → (y.failed = true ↔ x.failed = true ∨ .wErr ∈ cs) := by
  induction cs with
  | nil => intro x y hr; cases hr; simp
  | cons c cs ih =>
    intro x y hr
    simp only [run] at hr
    cases hs : step x c with
    | none => simp [hs] at hr
    | some z =>
      rw [hs] at hr
      rw [ih hr]
      simp only [step] at hs
      split at hs
      · cases hs
      · cases hs
        simp only [Bool.or_eq_true, beq_iff_eq, List.mem_cons]
        grind

/-- C154 for the server (partial: if writing never failed, see `C154_server_violated`). When a connection has ended, `CloseWrite` was called: the
client reads the end. -/
theorem C154_server_partial {cs : List Choice} {x : St} (hr : run init cs = some x) (hw : .wErr ∉ cs) (hd : x.s.cp = .done) : x.shut = true := by
  have hi := inv_run inv_init hr
  have hf : x.failed = false := by
    cases hf : x.failed with
    | false => rfl
    | true =>
      rcases (failed_run hr).1 hf with h | h
      · cases h
      · exact absurd h hw
  obtain ⟨e, he⟩ := hi.told (Or.inl (hi.ended (Or.inr hd)).1)
  cases e with
  | false => exact hi.good he
  | true => exact absurd he (hi.clean hf)

theorem lost_step {x y : St} {c : Choice} (hd : x.s.wp = .done true) (hs : step x c = some y) : y.s.wp = .done true := by
  simp only [step] at hs
  split at hs
  · cases hs
  rename_i s' he
  cases hs
  simp only [Serv.step] at he
  split at he
  · cases he
  cases c <;> simp only [Serv.step1, Serv.stepR, Serv.stepW, Serv.stepC, Serv.beginRespond, Serv.closeOut] at he <;> grind

theorem lost_run {ds : List Choice} : ∀ {x y : St}, Inv x → x.s.wp = .done true → run x ds = some y → y.shut = false := by
  induction ds with
  | nil => intro x y hi hd hy; cases hy; exact (hi.bad (Or.inl hd)).2
  | cons c ds ih =>
    intro x y hi hd hy
    simp only [run] at hy
    cases hs : step x c with
    | none => simp [hs] at hy
    | some z => rw [hs] at hy; exact ih (inv_step hi hs) (lost_step hd hs) hy

/-- ... and the guard is exact: if the write loop ended because writing failed, nothing that happens later tells the client. -/
theorem C154_server_exact {cs : List Choice} {x : St} (hr : run init cs = some x) (hd : x.s.wp = .done true) {ds : List Choice} {y : St}
    (hy : run x ds = some y) : y.shut = false :=
  lost_run (inv_run inv_init hr) hd hy

/-- A request is received and answered, and then the client goes. -/
theorem C154_server_example : ∃ cs x, run init cs = some x ∧ .wErr ∉ cs ∧ x.s.cp = .done ∧ x.s.wire = [.resp 5 0] ∧ x.shut = true := by
  obtain ⟨x, h1, h2⟩ := any_some (o := run init [.recv 5, .rl, .call 0, .begin 0, .send 0, .wl, .wl, .rErr, .rl, .ctl, .ctl, .ctl,
      .wl, .wl, .ctl, .ctl, .ctl, .ctl, .ctl, .ctl])
    (p := fun x => x.s.cp = .done ∧ x.s.wire = [.resp 5 0] ∧ x.shut = true) (by decide +kernel)
  exact ⟨_, x, h1, by decide, h2⟩

/-- C154 is violated by the server: writing a response fails (say, with a timeout, because the client is slow). The requests in flight are
cancelled, reading is shut, all loops have ended and the server has forgotten the connection; but nobody has told the client, or ever will:
its requests wait for ever (or until the garbage collector finds the socket). -/
theorem C154_server_violated : ∃ cs x, run init cs = some x ∧ x.s.cp = .done ∧ (∃ e, x.s.wp = .done e) ∧ x.s.rp = .done ∧ x.s.wire = [] ∧
    x.s.n = 2 ∧ x.shutR = true ∧ ∀ ds y, run x ds = some y → y.shut = false := by
  obtain ⟨x, h1, h2⟩ := any_some (o := run init [.recv 5, .rl, .recv 6, .rl, .call 0, .begin 0, .send 0, .wl, .wErr, .wl, .ctl, .ctl, .ctl,
      .begin 1, .send 1, .ctl, .ctl, .ctl, .ctl, .rErr, .rl, .ctl, .ctl, .ctl, .ctl])
    (p := fun x => x.s.cp = .done ∧ x.s.wp = .done true ∧ x.s.rp = .done ∧ x.s.wire = [] ∧ x.s.n = 2 ∧ x.shutR = true) (by decide +kernel)
  obtain ⟨h3, h4, h5, h6, h7, h8⟩ := h2
  exact ⟨_, x, h1, h3, ⟨_, h4⟩, h5, h6, h7, h8, fun _ _ hy => C154_server_exact h1 h4 hy⟩

end Verif.Sock

namespace Verif.ConnClose

/-- Writing or flushing fails. -/
def Fails : Choice → Prop
  | .write false | .flush false | .flushErr => True
  | _ => False

theorem shut_step {s s' : St} {c : Choice} (h : s.wp = .notify ∨ s.wp = .ended → s.shut = true) (hc : ¬ Fails c) (hs : step s c = some s') :
    s'.wp = .notify ∨ s'.wp = .ended → s'.shut = true := by
  cases c with
  | write ok => cases ok <;> simp [Fails] at hc <;> simp only [step] at hs <;> grind
  | flush ok => cases ok <;> simp [Fails] at hc <;> simp only [step] at hs <;> grind
  | flushErr => simp [Fails] at hc
  | recv =>
    simp only [step] at hs
    split at hs
    · rename_i a q hq
      cases a <;> simp only [act] at hs <;> grind
    · cases hs
  | _ => simp only [step] at hs <;> grind

theorem shut_run {cs : List Choice} : ∀ {s s' : St}, (s.wp = .notify ∨ s.wp = .ended → s.shut = true) → (∀ c ∈ cs, ¬ Fails c) →
    run s cs = some s' → s'.wp = .notify ∨ s'.wp = .ended → s'.shut = true := by
  induction cs with
  | nil => intro s s' h _ hr; cases hr; exact h
  | cons c cs ih =>
    intro s s' h hc hr
    simp only [run] at hr
    cases hs : step s c with
    | none => simp [hs] at hr
    | some z => rw [hs] at hr; exact ih (shut_step h (hc c (by simp)) hs) (fun d hd => hc d (by simp [hd])) hr

/-- C154 for the client (partial: if writing never failed, see `C154_client_violated`). When a connection has ended, `CloseWrite` was called: the
server reads the end; and the client has shut reading, or the server has. -/
theorem C154_client_partial {cs : List Choice} {s : St} (hr : run init cs = some s) (hw : ∀ c ∈ cs, ¬ Fails c) (hd : s.cp = .ended) :
    s.shut = true ∧ (s.called = true ∨ s.broken = true) := by
  have hi := inv_reach ⟨cs, hr⟩
  have hw1 : s.wp = .ended := by
    by_cases h : s.wp = .ended
    · exact h
    · have := (hi.notYet h).1
      rw [(hi.fin hd).1] at this; cases this
  have hr1 : s.rp = .ended := by
    by_cases h : s.rp = .ended
    · exact h
    · have := (hi.notYetR h).1
      rw [(hi.fin hd).2] at this; cases this
  exact ⟨shut_run (by simp [init]) hw hr (Or.inr hw1), hi.cause (Or.inr hr1)⟩

theorem dead_step {s s' : St} {c : Choice} (hd : s.cp = .ended) (hw : s.wp = .ended) (hs : step s c = some s') :
    s'.cp = .ended ∧ s'.wp = .ended ∧ s'.shut = s.shut := by
  cases c with
  | recv =>
    simp only [step] at hs
    split at hs
    · rename_i a q hq
      cases a <;> simp only [act] at hs <;> grind
    · cases hs
  | _ => simp only [step] at hs <;> grind

theorem dead_run {ds : List Choice} : ∀ {s s' : St}, s.cp = .ended → s.wp = .ended → run s ds = some s' → s'.shut = s.shut := by
  induction ds with
  | nil => intro s s' _ _ hr; cases hr; rfl
  | cons c ds ih =>
    intro s s' hd hw hr
    simp only [run] at hr
    cases hs : step s c with
    | none => simp [hs] at hr
    | some z =>
      rw [hs] at hr
      obtain ⟨h1, h2, h3⟩ := dead_step hd hw hs
      rw [ih h1 h2 hr, h3]

/-- A request is answered, the connection is stopped, and ends. -/
theorem C154_client_example : ∃ cs s, run init cs = some s ∧ (∀ c ∈ cs, ¬ Fails c) ∧ s.cp = .ended ∧ s.put = 1 ∧ s.shut = true := by
  obtain ⟨x, h1, h2⟩ := any_some (o := run init [.take true, .write true, .respond, .read, .look, .stop, .flush true, .tellW, .recv, .eval,
      .readErr, .tellR, .recv, .eval])
    (p := fun s => s.cp = .ended ∧ s.put = 1 ∧ s.shut = true) (by decide +kernel)
  exact ⟨_, x, h1, by simp [Fails], h2⟩

/-- C154 is violated by the client, whatever kind of writing fails. If a ping or a flush fails, in the loop or at the end, the connection ends as soon
as nothing is outstanding; reading is shut, and all loops have ended, but `CloseWrite` was not called and never will be: the server's
connection keeps waiting for requests. If writing a request fails, nothing at all is shut until the server hangs up, and `CloseWrite` is not called
then either. -/
theorem C154_client_violated : ∀ f, Fails f → ∃ cs s, run init cs = some s ∧ f ∈ cs ∧ (∀ c ∈ cs, Fails c → c = f) ∧
    s.cp = .ended ∧ s.wp = .ended ∧ s.rp = .ended ∧ (s.broken = false ∧ s.called = true ∨ f = .write false) ∧
    ∀ ds s', run s ds = some s' → s'.shut = false := by
  intro f hf
  have key : ∀ cs, f ∈ cs → (∀ c ∈ cs, Fails c → c = f) → (∃ s, run init cs = some s ∧
      (s.cp = .ended ∧ s.wp = .ended ∧ s.rp = .ended ∧ (s.broken = false ∧ s.called = true ∨ f = .write false) ∧ s.shut = false)) →
      ∃ cs s, run init cs = some s ∧ f ∈ cs ∧ (∀ c ∈ cs, Fails c → c = f) ∧
        s.cp = .ended ∧ s.wp = .ended ∧ s.rp = .ended ∧ (s.broken = false ∧ s.called = true ∨ f = .write false) ∧
        ∀ ds s', run s ds = some s' → s'.shut = false := by
    rintro cs h1 h2 ⟨s, h3, h4, h5, h6, h7, h8⟩
    exact ⟨cs, s, h3, h1, h2, h4, h5, h6, h7, fun _ _ hr => by rw [dead_run h4 h5 hr, h8]⟩
  cases f with
  | flushErr =>
    exact key [.take true, .write true, .respond, .read, .look, .flushErr, .tellW, .recv, .eval, .readErr, .tellR, .recv, .eval]
      (by simp) (by simp [Fails]) (any_some (by decide +kernel))
  | flush ok =>
    cases ok with
    | true => exact absurd hf (by simp [Fails])
    | false =>
      exact key [.take true, .write true, .respond, .read, .look, .stop, .flush false, .tellW, .recv, .eval, .readErr, .tellR, .recv, .eval]
        (by simp) (by simp [Fails]) (any_some (by decide +kernel))
  | write ok =>
    cases ok with
    | true => exact absurd hf (by simp [Fails])
    | false =>
      exact key [.take true, .write true, .respond, .read, .look, .take true, .write false, .tellW, .recv, .eval, .hangUp, .readErr, .tellR, .recv, .eval]
        (by simp) (by simp [Fails]) (any_some (by decide +kernel))
  | _ => exact absurd hf (by simp [Fails])

end Verif.ConnClose
