import Verif.Proofs.BufferOrder
/-!
Theorems about the queue in front of an endpoint (C39, C40, C65).
-/
namespace Verif.Buffer

/-- Work left for the loop before it waits. -/
def LPc.rank : LPc → Nat
  | .wait => 0 | .exited => 0 | .cmp => 9 | .row => 8 | .look _ => 7 | .take _ => 6 | .free _ _ => 5 | .pend _ => 4
  | .send _ => 3 | .inc => 1

def St.work (s : St) : Nat := (s.tail - s.head) * 10 + s.loop.rank + if s.sig then 10 else 0

theorem loop_progress {R cap : Nat} {s : St} {S : List Nat} (h : Inv R s S) (hc : 0 < cap)
    (hb : ¬ (s.loop.idle ∧ s.sig = false)) :
    ∃ c s', (c = .loop ∨ c = .recv) ∧ step R cap s c = some s' ∧
      (s'.work < s.work ∨ s'.work = s.work ∧ s'.chan.length < s.chan.length) := by
  have key : ∀ s', stepLoop R cap s = some s' → s'.work < s.work →
      ∃ c s', (c = .loop ∨ c = .recv) ∧ step R cap s c = some s' ∧
      (s'.work < s.work ∨ s'.work = s.work ∧ s'.chan.length < s.chan.length) :=
    fun s' h1 h2 => ⟨.loop, s', .inl rfl, h1, .inl h2⟩
  have hlt := h.busy
  cases hl : s.loop with
  | wait =>
    have hs : s.sig = true := by
      cases e : s.sig
      · exact absurd ⟨by rw [hl]; trivial, e⟩ hb
      · rfl
    exact key _ (by unfold stepLoop; rw [hl]; simp only; rw [if_pos hs])
      (by unfold St.work; simp [hl, hs, LPc.rank])
  | cmp =>
    refine key _ (by unfold stepLoop; rw [hl]) ?_
    unfold St.work
    simp only [hl]
    split <;> simp [LPc.rank]
  | row =>
    by_cases e : s.idOf s.hRow = s.head / R
    · exact key { s with loop := .look s.hRow } (by unfold stepLoop; rw [hl]; simp only; rw [if_pos e])
        (by unfold St.work; simp [hl, LPc.rank])
    · cases ek : s.rows (s.head / R) with
      | none =>
        refine key { s with rows := set s.rows (s.head / R - 1) none, loop := .wait } ?_
          (by unfold St.work; simp [hl, LPc.rank])
        unfold stepLoop; rw [hl]; simp only; rw [if_neg e, ek]
      | some o =>
        refine key { s with rows := set s.rows (s.head / R - 1) none, hRow := o, loop := .look o } ?_
          (by unfold St.work; simp [hl, LPc.rank])
        unfold stepLoop; rw [hl]; simp only; rw [if_neg e, ek]
  | look o =>
    cases em : (s.cell o (s.head % R)).mark with
    | new =>
      exact key { s with loop := .wait } (by unfold stepLoop; rw [hl]; simp only; rw [em])
        (by unfold St.work; simp [hl, LPc.rank])
    | set =>
      exact key { s with loop := .take o } (by unfold stepLoop; rw [hl]; simp only; rw [em])
        (by unfold St.work; simp [hl, LPc.rank])
    | free =>
      exact key { s with loop := .inc } (by unfold stepLoop; rw [hl]; simp only; rw [em])
        (by unfold St.work; simp [hl, LPc.rank])
  | take o =>
    exact key _ (by unfold stepLoop; rw [hl]) (by unfold St.work; simp [hl, LPc.rank])
  | free o q =>
    exact key _ (by unfold stepLoop; rw [hl]) (by unfold St.work; simp [hl, LPc.rank])
  | pend q =>
    cases q with
    | none => exact key _ (by unfold stepLoop; rw [hl]) (by unfold St.work; simp [hl, LPc.rank])
    | some q =>
      refine key _ (by unfold stepLoop; rw [hl]) ?_
      unfold St.work
      simp only [hl]
      split <;> simp [LPc.rank]
  | send q =>
    by_cases e : s.chan.length < cap
    · exact key _ (by unfold stepLoop; rw [hl]; simp only; rw [if_pos e])
        (by unfold St.work; simp [hl, LPc.rank])
    · match ech : s.chan with
      | [] => rw [ech] at e; exact absurd hc e
      | a :: rest =>
        refine ⟨.recv, { s with chan := rest }, .inr rfl, ?_, .inr ⟨rfl, ?_⟩⟩
        · simp only [step, ech]
        · simp
  | inc =>
    rw [hl] at hlt
    have hlt := hlt trivial
    refine key _ (by unfold stepLoop; rw [hl]) ?_
    unfold St.work
    simp only [hl, LPc.rank]
    omega
  | exited =>
    have := (h.exited hl).2
    exact absurd ⟨by rw [hl]; trivial, this⟩ hb

end Verif.Buffer

namespace Verif.Props
open Verif.Buffer

/-- C39: a request is put into the endpoint's channel at most once. -/
theorem C39_at_most_once {R cap : Nat} (hR : 0 < R) {cs : List Choice} {s : St}
    (h : run R cap init cs = some s) : (sent s.log).Nodup := by
  obtain ⟨S, h⟩ := inv_run hR inv_init h
  exact h.sent

/-- C39: the queued requests are forwarded in the order of their slots (those answered in the queue are left out). -/
theorem C39_slot_order {R cap : Nat} (hR : 0 < R) {cs : List Choice} {s : St}
    (h : run R cap init cs = some s) : (forwarded s.log).Sublist (slots s.log) := by
  obtain ⟨S, h⟩ := inv_run hR inv_init h
  rw [h.slots]
  exact h.fwd.trans (List.take_sublist _ _)

/-- C39: if `push(r₁)` returned before `push(r₂)` was called, `r₂` does not overtake `r₁`, whether they went through
the queue or not. -/
theorem C39_no_overtaking {R cap : Nat} (hR : 0 < R) {cs : List Choice} {s : St} {r₁ r₂ : Nat}
    (h : run R cap init cs = some s) (hb : Before (· = .ret r₁) (· = .call r₂) s.log) :
    ¬ Before (Sends r₂) (Sends r₁) s.log := by
  obtain ⟨S, _, o⟩ := order_run hR order_init inv_init h
  exact o.order r₁ r₂ hb

/-- C40: when the forwarding goroutine waits and no signal is outstanding, and also when it has ended, a request whose
`push` has returned was forwarded, or was answered, or is queued behind a request whose `push` has not returned. -/
theorem C40_nothing_forgotten {R cap : Nat} (hR : 0 < R) {cs : List Choice} {s : St} {r : Nat}
    (h : run R cap init cs = some s) (hl : s.loop = .wait ∨ s.loop = .exited) (hs : s.sig = false)
    (hr : .ret r ∈ s.log) : r ∈ sent s.log ∨ .answered r ∈ s.log ∨ Behind s.log r := by
  obtain ⟨S, h⟩ := inv_run hR inv_init h
  have hidle : s.loop.idle := by rcases hl with h | h <;> rw [h] <;> trivial
  have hfin : s.fin = s.head := by unfold St.fin; rcases hl with h | h <;> rw [h] <;> simp
  have hd := h.ret r hr
  rcases h.done r hd with hm | hm
  · obtain ⟨n, hn⟩ := List.getElem?_of_mem hm
    by_cases e : n < s.head
    · rcases h.fin n r (by rw [hfin]; exact e) hn with h' | h'
      · exact .inl (mem_sent.2 ⟨_, h', .inr rfl⟩)
      · exact .inr (.inl (h.life r h'))
    · have hlt : n < S.length := (List.getElem?_eq_some_iff.1 hn).1
      obtain ⟨q, hq⟩ : ∃ q, S[s.head]? = some q := ⟨_, List.getElem?_eq_getElem (by omega)⟩
      have hnd := h.quiet q hidle hs hq
      by_cases e' : n = s.head
      · subst e'; rw [hn] at hq; cases hq; exact absurd hd hnd
      · refine .inr (.inr ⟨s.head, n, q, by omega, by rw [h.slots]; exact hq, by rw [h.slots]; exact hn, ?_, ?_⟩)
        · apply h.called
          intro e
          exact h.unslotted q (by rw [e]; trivial) (List.mem_of_getElem? hq)
        · intro hx; exact hnd (h.ret q hx)
  · exact .inl (mem_sent.2 ⟨_, hm, .inl rfl⟩)

/-- C40: the forwarding goroutine cannot get stuck half-way: from every reachable state, letting only it and receivers
of the endpoint's channel run leads to a state where it waits (or has ended) with no signal outstanding. -/
theorem C40_forwarding_completes {R cap : Nat} (hR : 0 < R) (hc : 0 < cap) {cs : List Choice} {s : St}
    (h : run R cap init cs = some s) :
    ∃ more s', (∀ c ∈ more, c = .loop ∨ c = .recv) ∧ run R cap s more = some s' ∧
      (s'.loop = .wait ∨ s'.loop = .exited) ∧ s'.sig = false := by
  obtain ⟨S, h⟩ := inv_run hR inv_init h
  have : ∀ w n, ∀ s S, Inv R s S → s.work = w → s.chan.length = n →
      ∃ more s', (∀ c ∈ more, c = .loop ∨ c = .recv) ∧ run R cap s more = some s' ∧
      (s'.loop = .wait ∨ s'.loop = .exited) ∧ s'.sig = false := by
    intro w
    induction w using Nat.strongRecOn with
    | _ w ihw =>
    intro n
    induction n using Nat.strongRecOn with
    | _ n ihn =>
    intro s S h hw hn
    by_cases hb : s.loop.idle ∧ s.sig = false
    · refine ⟨[], s, by simp, rfl, ?_, hb.2⟩
      have := hb.1
      revert this
      cases s.loop <;> simp [LPc.idle]
    · obtain ⟨c, s₁, hc', hs, hd⟩ := loop_progress h hc hb
      obtain ⟨S₁, h₁⟩ := inv_step hR h hs
      have : ∃ more s', (∀ c ∈ more, c = .loop ∨ c = .recv) ∧ run R cap s₁ more = some s' ∧
          (s'.loop = .wait ∨ s'.loop = .exited) ∧ s'.sig = false := by
        rcases hd with hd | ⟨hd, hd'⟩
        · exact ihw _ (hw ▸ hd) _ s₁ S₁ h₁ rfl rfl
        · exact ihn _ (hn ▸ hd') s₁ S₁ h₁ (hd.trans hw) rfl
      obtain ⟨more, s', h1, h2, h3⟩ := this
      refine ⟨c :: more, s', ?_, ?_, h3⟩
      · intro x hx
        rcases List.mem_cons.1 hx with rfl | hx
        · exact hc'
        · exact h1 x hx
      · simp only [run, hs, Option.bind_some]; exact h2
  exact this _ _ s S h rfl rfl

theorem of_any {α : Type} {o : Option α} {p : α → Bool} (h : o.any p = true) : ∃ a, o = some a ∧ p a = true := by
  cases o with
  | none => cases h
  | some a => exact ⟨a, rfl, h⟩

/-- The choice `n` times. -/
def rep (n : Nat) (c : Choice) : List Choice := List.replicate n c

-- Rows of two slots, a channel of one: request 0 goes directly, 1 and 2 are queued, 1 is answered in the queue,
-- then 0 is received and 2 delivered. The push of 3 has its slot but is not complete, 4 waits behind it.
example : (run 2 1 init (rep 4 (.push 0) ++ rep 9 (.push 1) ++ rep 8 (.push 2) ++ rep 3 (.answer 1) ++ [.recv] ++
    rep 14 .loop ++ rep 5 (.push 3) ++ rep 9 (.push 4) ++ rep 4 .loop)).map
    (fun s => (sent s.log, slots s.log, s.loop, s.sig)) = some ([0, 2], [1, 2, 3, 4], .wait, false) := by
  decide +kernel

/-- C65 is violated: a `Send` that overlaps or follows `Stop` panics while it holds a queue slot, and its request is
neither delivered nor answered, with the forwarding goroutine gone. -/
theorem C65_push_after_close_violated :
    ∃ cs s, run bufRow 1 init cs = some s ∧ s.push 1 = .panicked ∧ s.loop = .exited ∧
      1 ∉ sent s.log ∧ .answered 1 ∉ s.log := by
  have : (run bufRow 1 init (rep 4 (.push 0) ++ rep 5 (.push 1) ++ [.close, .close] ++ rep 5 .loop ++
      rep 4 (.push 1))).any
      (fun s => s.push 1 = .panicked ∧ s.loop = .exited ∧ 1 ∉ sent s.log ∧ .answered 1 ∉ s.log) = true := by
    decide +kernel
  obtain ⟨s, h, h'⟩ := of_any this
  exact ⟨_, s, h, of_decide_eq_true h'⟩

/-- C65, the part that holds: `push` panics only once `close` has been completed. -/
theorem C65_no_panic_before_close_partial {R cap : Nat} {cs : List Choice} {s : St}
    (h : run R cap init cs = some s) (hc : s.closing ≠ 2) (r : Nat) : s.push r ≠ .panicked := by
  intro hp
  have hinit : ∀ r, init.push r = .panicked → init.closing = 2 := by intro r h; cases h
  have : ∀ (cs : List Choice) (s₀ : St), (∀ r, s₀.push r = .panicked → s₀.closing = 2) → run R cap s₀ cs = some s →
      ∀ r, s.push r = .panicked → s.closing = 2 := by
    intro cs
    induction cs with
    | nil => intro s₀ h0 h; cases h; exact h0
    | cons c cs ih =>
      intro s₀ h0 h
      unfold run at h
      obtain ⟨s₁, h1, h2⟩ := Option.bind_eq_some_iff.1 h
      refine ih s₁ ?_ h2
      have moved : ∀ (x : PPc) r r', (x = .panicked → s₀.closing = 2) → set s₀.push r x r' = .panicked →
          s₀.closing = 2 := by
        intro x r r' hx h'
        rcases pushMoved h' with ⟨_, h'⟩ | h'
        · exact hx h'
        · exact h0 _ h'
      cases c with
      | push q =>
        simp only [step, stepPush] at h1
        split at h1
        all_goals first
          | cases h1; done
          | (cases h1; intro r' hr'; exact moved _ _ _ (by first | (intro h'; cases h'; done) | (split <;> (intro h'; cases h'))) hr')
          | skip
        all_goals
          split at h1
          all_goals first
            | cases h1; done
            | (cases h1; intro r' hr'; exact moved _ _ _ (by first | (intro h'; cases h'; done) | (intro _; assumption)) hr')
      | headFirst q =>
        simp only [step] at h1
        split at h1 <;> cases h1
        intro r' hr'
        exact moved _ _ _ (by intro h'; cases h') hr'
      | loop =>
        simp only [step, stepLoop] at h1
        (repeat' split at h1) <;> cases h1 <;> exact h0
      | close =>
        simp only [step, stepClose] at h1
        split at h1 <;> cases h1
        · rename_i hc; intro r' hr'
          have := h0 r' hr'; omega
        · intro _ _; rfl
      | answer q =>
        simp only [step, stepAnswer] at h1
        (repeat' split at h1) <;> cases h1 <;> exact h0
      | recv =>
        simp only [step] at h1
        split at h1 <;> cases h1
        exact h0
  exact hc (this cs init hinit h r hp)

end Verif.Props
