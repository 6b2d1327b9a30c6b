import Verif.Props.Request
import Verif.Proofs.RequestRest
/-! C135: the calls on a request come back. -/
namespace Verif.Props
open Verif.Request

/-- C135: left alone, the goroutines inside the methods of a request come to rest, in whatever order they run: from every state there is a number of steps they cannot
exceed, if the bookmarks and the Responder do at most `a` things to the request each time they are called; they may reset it. -/
theorem C135_rest (id msg : UInt32) (resp : Option Resp) (cs : List Choice) (s : St) (h : run (init id msg resp) cs = some s) (a : Nat) :
    ∃ b, ∀ ds s', (∀ c ∈ ds, Goes a c) → run s ds = some s' → ds.length ≤ b := by
  obtain ⟨B, b⟩ := bndR_run (B := 0) (s := init id msg resp) (fun t ht => absurd rfl ht) h
  refine ⟨workA a B s, fun ds s' hc hr => ?_⟩
  have := less_run b hc hr
  omega

/-- C135: at rest all calls have returned, or a goroutine is stuck in user code with the lock of the request. -/
theorem C135_all (id msg : UInt32) (resp : Option Resp) (cs : List Choice) (s : St) (h : run (init id msg resp) cs = some s) (a : Nat)
    (hq : ∀ c, Goes a c → step s c = none) :
    (∃ t, s.pc t = .dead ∧ s.lock = some t) ∨ ∀ t, s.pc t = .idle ∧ ∀ op, .call t op ∈ cs → .returned t op ∈ s.d.log := by
  have i2 := inv_reach (rules2 (fun _ => True) id msg) ⟨rfl, rfl, trivial, by simp [init]⟩ (by simp) h
  have i9 := inv_reach rules9 trivial (by simp) h
  rcases rest_all i2 i9 (fun c hc => hq c (by cases c <;> simp_all [Goes])) with ⟨t, ht⟩ | h1
  · exact .inl ⟨t, ht, i9.mutex t (by rw [ht]; rfl)⟩
  · refine .inr fun t => ⟨h1 t, fun op hc => ?_⟩
    rcases kept_run h (.inl hc) with h2 | h2 | h2
    · exact h2
    · rw [h1 t] at h2; cases h2
    · rw [h1 t] at h2; cases h2

/-- C135: without resets and blocking user code nobody is stuck: at rest all calls have returned, and if one of them was a failure call (`Cancel`, `Expire`, `IOError`,
`ShutDown`) then the request has been answered. -/
theorem C135_plain (id msg : UInt32) (resp : Option Resp) (cs : List Choice) (s : St) (hp : ∀ c ∈ cs, c.plain = true) (h : run (init id msg resp) cs = some s)
    (a : Nat) (hq : ∀ c, Goes a c → step s c = none) :
    (∀ t, s.pc t = .idle ∧ ∀ op, .call t op ∈ cs → .returned t op ∈ s.d.log) ∧
      ∀ t code, .call t (.fail code) ∈ cs → ∃ r, Ev.delivered r ∈ s.d.log := by
  have all : ∀ t, s.pc t = .idle ∧ ∀ op, .call t op ∈ cs → .returned t op ∈ s.d.log := by
    rcases C135_all id msg resp cs s h a hq with ⟨t, h1, h2⟩ | h1
    · have i4 := inv_reach rules4 ⟨trivial, by simp [init, allChained, allNotified, Q1, deliveries]⟩ hp h
      have := (i4.owner t h2).2
      rw [h1] at this
      exact this.elim
    · exact h1
  refine ⟨all, fun t code hc => ?_⟩
  obtain ⟨newer, older, e⟩ := List.append_of_mem ((all t).2 _ hc)
  obtain ⟨r, hr⟩ := C31_fail_answers_partial id msg resp cs s hp h t code newer older e
  exact ⟨r, by rw [e]; simp [hr]⟩

/-- Cancel, an answer and a chaining at the same time, one bookmark: everybody is back and the request is at rest. -/
def threeCalls : List Choice :=
  [.call 0 (.chain 1), .call 1 (.fail 0xfe03), .call 2 (.respond 0 none), .go 0, .go 0, .go 0, .go 2, .go 2, .go 2, .go 1, .go 1, .go 1, .go 1,
    .bookmark 1 [.setPending], .go 1, .go 1, .go 1, .responder 1 [], .go 1, .go 1, .go 1]

theorem idle_rest {a : Nat} {s : St} (h : ∀ t, s.pc t = .idle) : ∀ c, Goes a c → step s c = none := by
  intro c hc
  cases c <;> first | cases hc; done | simp [Request.step, h, Request.own, enterBookmark, enterResponder, Request.St.ownStep]

example : ∃ s, run (init 7 1 none) threeCalls = some s ∧ s.d.rs = .performed ∧ (∀ c, Goes 1 c → step s c = none) ∧ ∀ c ∈ threeCalls, c.plain = true := by
  refine ⟨_, rfl, rfl, idle_rest fun t => ?_, by decide⟩
  match t with
  | 0 | 1 | 2 => rfl
  | n + 3 => rfl

/-- A Responder that calls a method which takes the lock again stays there, and so does the next caller. -/
example : (run (init 7 1 none) [.call 1 (.fail 0xfe03), .go 1, .go 1, .go 1, .go 1, .responder 1 [.stuck], .go 1, .call 2 (.fail 0xff01)]).map
    (fun s => (s.lock, s.pc 1, s.pc 2)) = some (some 1, .dead, .wait (.fail 0xff01)) := by decide +kernel

end Verif.Props
