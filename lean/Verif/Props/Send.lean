import Verif.Proofs.SendLone
import Verif.Props.Request
/-!
Theorems about `Send` of the services (C84, C85).
-/
namespace Verif.Send
open Verif.Request (Ev RS allChained allNotified)

theorem any_some {o : Option St} {p : St → Prop} [DecidablePred p] (h : (o.any fun s => p s) = true) :
    ∃ s, o = some s ∧ p s := by
  cases o with
  | none => cases h
  | some s => exact ⟨s, rfl, of_decide_eq_true h⟩

theorem handovers_length (l : List Out) : handovers l = (handedNs l).length := by
  induction l with
  | nil => rfl
  | cons o l ih => cases o <;> simp [handovers, handedNs, ih]

theorem below_length {l : List Nat} (hn : l.Nodup) {n : Nat} (h : ∀ x ∈ l, x < n) : l.length ≤ n := by
  induction n generalizing l with
  | zero =>
    cases l with
    | nil => simp
    | cons a l => exact absurd (h a (by simp)) (Nat.not_lt_zero _)
  | succ n ih =>
    have h1 := ih (l := l.erase n) (hn.erase n) fun x hx => by
      have := h x (List.mem_of_mem_erase hx)
      have hne : x ≠ n := fun e => by subst e; exact hn.not_mem_erase hx
      omega
    have := List.length_erase (a := n) (l := l)
    split at this <;> omega

/-! ### C84: Send hands the request over once or it is answered -/

/-- However many goroutines send the request through whatever services, it is queued, or given to a function, no more often than it
became pending. -/
theorem C84_at_most_sent (id msg : UInt32) (resp : Option Request.Resp) (cs : List Choice) (s : St)
    (h : run (init id msg resp) cs = some s) : handovers s.hist ≤ sends s.r.d.log := by
  have hi : Inv (fun _ => True) s := inv_run (inv_init id msg resp) (by simp) h
  rw [handovers_length]
  exact Nat.le_trans (below_length hi.nodup hi.fresh) hi.taken

/-- ... which, when no bookmark or Responder resets it, is at most once. -/
theorem C84_once (id msg : UInt32) (resp : Option Request.Resp) (cs : List Choice) (s : St) (hp : ∀ c ∈ cs, c.plain = true)
    (h : run (init id msg resp) cs = some s) : handovers s.hist ≤ 1 :=
  Nat.le_trans (C84_at_most_sent id msg resp cs s h) (Request.inv_CP (req_plain hp h)).1

/-- `Send` panics only when the request was sent before (when nobody resets it). -/
theorem C84_panics_only_sent_partial (id msg : UInt32) (resp : Option Request.Resp) (cs : List Choice) (s : St)
    (hp : ∀ c ∈ cs, c.plain = true) (h : run (init id msg resp) cs = some s) (t : Nat) (ho : Out.panicked t ∈ s.hist) :
    1 ≤ sends s.r.d.log :=
  (plain_run cs s h hp).panicked t ho

/-- A single `Send`, while others chain bookmarks and answer, cancel or expire the request as they like: the request is handed over, or
it has been answered; `Send` does not panic. -/
theorem C84_handed_or_answered (id msg : UInt32) (resp : Option Request.Resp) (cs : List Choice) (s : St)
    (hb : ∀ c ∈ cs, c.bystander = true) (h1 : (cs.filter Choice.isSend).length ≤ 1)
    (h : run (init id msg resp) cs = some s) : ∀ o ∈ s.hist,
    (∃ n t ps k, o = .handed n t ps k) ∨ ((∃ t, o = .dropped t) ∧ Answered s.r.d.log) :=
  (single_run cs s h hb h1).1.good

/-- Such a `Send` of an `SF`, unwrapped, of a `SimplePoint`, of a `StatWrap` and of a `Route`. -/
example : (run (init 1 2 none) [.send 0 [] .sf, .go 0, .go 0]).any
    (fun s => s.hist = [.handed 0 0 [] .sf] ∧ s.r.d.rs = .inFly) = true := by decide +kernel
example : (run (init 1 2 none) [.send 0 [.stat 7, .route] .point, .go 0, .go 0, .go 0, .go 0, .go 0, .go 0, .go 0, .go 0]).any
    (fun s => s.hist = [.handed 0 0 [.stat 7, .route] .point] ∧ s.r.d.rs = .pending ∧ s.r.d.chain = [7]) = true := by decide +kernel

/-- Cancelled between `SetPending` and the second look: not queued, but answered. -/
def cancelled : List Choice :=
  [.send 0 [] .point, .go 0, .env (.call 1 (.fail 0xfd03)), .env (.go 1), .env (.go 1), .env (.go 1), .env (.go 1), .go 0]

example : (run (init 1 2 none) cancelled).any (fun s => s.hist = [.dropped 0] ∧ answers s.r.d.log = 1) = true := by decide +kernel
example : (∀ c ∈ cancelled, c.bystander = true) ∧ (cancelled.filter Choice.isSend).length = 1 := by decide

/-- Two goroutines send the same request: one hands it over, the other panics. -/
def twice : List Choice := [.send 0 [] .point, .send 1 [] .point, .go 1, .go 0, .go 0, .go 1]

example : (∀ c ∈ twice, c.plain = true) ∧ (run (init 1 2 none) twice).any
    (fun s => s.hist = [.handed 0 1 [] .point, .panicked 0]) = true := by decide +kernel

/-- A bookmark that resets a cancelled request to new while it is being sent makes `Send` panic with "already sent", although
nobody has sent it. -/
theorem C84_reset_violated : ∃ cs s t, run (init 1 2 none) cs = some s ∧ Out.panicked t ∈ s.hist ∧ sends s.r.d.log = 0 := by
  have h : (run (init 1 2 none) ([.env (.call 1 (.chain 3)), .env (.go 1), .env (.go 1), .env (.go 1), .send 0 [] .point,
      .env (.call 1 (.fail 0xfd03)), .env (.go 1), .env (.go 1), .env (.go 1), .env (.go 1), .go 0,
      .env (.bookmark 1 [.resetNew]), .env (.go 1), .go 0])).any (fun s => Out.panicked 0 ∈ s.hist ∧ sends s.r.d.log = 0) = true := by
    decide +kernel
  obtain ⟨s, h1, h2⟩ := any_some h
  exact ⟨_, s, 0, h1, h2⟩

/-! ### C85: statistics -/

/-- Every request that reached an endpoint through `StatWrap` is reported to the statistics function: when the response has been
delivered, the function was called exactly as often as `StatWrap`'s `Send` let the request through, at least once, and not after the delivery. -/
theorem C85_counted (id msg : UInt32) (resp : Option Request.Resp) (cs : List Choice) (s : St) (hp : ∀ c ∈ cs, c.plain = true)
    (h : run (init id msg resp) cs = some s) {n t : Nat} {ps : List Wrap} {k : Term} {b : Nat}
    (ho : Out.handed n t ps k ∈ s.hist) (hb : Wrap.stat b ∈ ps) {r : Request.Resp} {newer older : List Ev}
    (hl : s.r.d.log = newer ++ .delivered r :: older) :
    Choice.send t ps k ∈ cs ∧ 1 ≤ (allNotified older).count b ∧ (allNotified older).count b = (allChained s.r.d.log).count b ∧
      allNotified newer = [] := by
  have hi : Inv (fun c => c ∈ cs) s := inv_run (inv_init id msg resp) (by simp) h
  obtain ⟨h1, h2⟩ := hi.given n t ps k ho
  obtain ⟨ds, h3, h4⟩ := project_run h
  obtain ⟨h5, h6, h7⟩ := Props.C30_all_bookmarks id msg resp ds s.r (h4 hp) h3 r newer older hl
  have h8 := h1 b hb
  have h9 : allChained s.r.d.log = allChained older := by
    rw [hl, Request.allChained_append, h6]
    rfl
  rw [h9] at h8 ⊢
  rw [h5]
  exact ⟨h2, List.count_pos_iff.2 h8, rfl, h7⟩

/-- Sent through `StatWrap` to a function which answers: the bookmark is notified once. -/
example : (run (init 1 2 none) ([.send 0 [.stat 7] .sf, .go 0, .go 0, .go 0, .go 0, .go 0, .go 0, .go 0] ++
    [.env (.call 0 (.respond 0 none)), .env (.go 0), .env (.go 0), .env (.go 0), .env (.go 0), .env (.bookmark 0 []), .env (.go 0),
     .env (.go 0), .env (.responder 0 [])])).any
    (fun s => s.hist = [.handed 0 0 [.stat 7] .sf] ∧ allNotified s.r.d.log = [7] ∧ Request.deliveries s.r.d.log = 1) = true := by
  decide +kernel

end Verif.Send
