import Verif.Proofs.WholeQueue
/-! C129: every call of `Send` is answered. -/
namespace Verif.Whole

variable {R cap n : Nat} {own : Nat → Bool} {cs : List Choice} {w : St} {l d rs : List Nat}

theorem goes (h : run R cap own (init n) cs = some w) (hy : Endpoint.Young w.e) (hd : w.s.dead = false)
    (hcl : w.e.b.closing = 0) (hrs : Calls w rs) (hr : ∀ i, i ∈ l → Works own w rs i) (ho : ∀ i, i ∈ d → Down w rs i) (hf : ∀ i, i ∉ l → Served.Few w.s i) :
    Goes R cap n own l d rs w := by
  have room : ∀ i, i ∈ l → (w.e.c i).wire.length + Conn.pend (w.e.c i).wp + (w.s.c i).pings.length + waiting w rs ≤ 128 := by
    intro i hi
    have := (hr i hi).fits.1
    unfold Conn.pend
    split <;> omega
  exact ⟨⟨reach h, hy, hd, hf, fun i hi => by have := room i hi; omega, fun i hi => (hr i hi).mine⟩, ⟨cs, h⟩, hrs, hcl, room,
    fun i hi => (hr i hi).fits.2, fun i hi => (hr i hi).writes, ho, fun i hi hl => (hr i hl).opn.client (ho i hi).read⟩

end Verif.Whole

namespace Verif.Props
open Verif.Whole

variable {R cap n : Nat} {own : Nat → Bool} {cs : List Choice} {w : St} {l d rs : List Nat}

/-- C129 (partial, as all of C129: for open connections `l` with room for what is sent and connections `d` whose read loop has ended, their
write loop running on or not; other clients'
have at most 128 requests and pings, see C123; as long as the endpoint is not closed). Left alone, both ends and the queue come to rest, whether or
not the service is being stopped: from every state there is a number of steps that they cannot exceed, in whatever order their goroutines run. -/
theorem C129_rest_partial (hR : 0 < R) (hl : l.Nodup) (hdn : d.Nodup) (h : run R cap own (init n) cs = some w) (hy : Endpoint.Young w.e) (hd : w.s.dead = false)
    (hcl : w.e.b.closing = 0) (hrs : Calls w rs) (hr : ∀ i, i ∈ l → Works own w rs i)
    (ho : ∀ i, i ∈ d → Down w rs i) (hf : ∀ i, i ∉ l → Served.Few w.s i) :
    ∃ b, ∀ ret ds w', (∀ c ∈ ds, Moves ret l d rs c) → run R cap own w ds = some w' → ds.length ≤ b ∧ w'.s.dead = false :=
  ⟨work l d rs w, fun _ _ _ hc hr' => by
    have := goes_run hR hl hdn (goes h hy hd hcl hrs hr ho hf) hc hr'
    exact ⟨by omega, this.2.1.go.live⟩⟩

/-- C129. And when they have come to rest, then every request for which `Send` was called has been answered, unless a connection in neither list
has it, or the dispatcher received it after it had left its loop because of `Stop` (see C50, C142); and if it is answered, was not cancelled or failed
before, and neither a broken connection nor `AllDisconnected` had it, then by the response which the server has given to it. -/
theorem C129_stopped_partial (hR : 0 < R) (hcap : 0 < cap) (hl : l.Nodup) (hdn : d.Nodup) (hne : l ≠ []) (h : run R cap own (init n) cs = some w)
    (hy : Endpoint.Young w.e) (hd : w.s.dead = false) (hcl : w.e.b.closing = 0) (hrs : Calls w rs)
    (hr : ∀ i, i ∈ l → Works own w rs i) (ho : ∀ i, i ∈ d → Down w rs i) (hf : ∀ i, i ∉ l → Served.Few w.s i)
    {ret : Nat → Parallel.Outcome} {ds : List Choice} {w' : St}
    (hc : ∀ c ∈ ds, Moves ret l d rs c) (hw : run R cap own w ds = some w') (hq : ∀ c, Moves ret l d rs c → step R cap own w' c = none)
    {r : Nat} (hm : r ∈ rs) (hb : KeptBy w l d r) :
    (Endpoint.Answered w'.e r ∨ Dropped own w' r) ∧
      (Endpoint.Answered w'.e r → OnlyBy w' l r → ¬ Endpoint.Answered w.e r → ∃ i, i ∈ l ∧ GotAnswer own w' i r) := by
  obtain ⟨-, g, h1, h2, h3, -, -⟩ := goes_run hR hl hdn (goes h hy hd hcl hrs hr ho hf) hc hw
  refine ⟨rest_answered hR hcap g hq hne (fun i hi => h1 i (hr i hi).opn) hm (h2 r hb), fun ha hb' hn => ?_⟩
  rcases (h3 r hb').2 (.inl hn) with h | ⟨i, id, k, hi, h⟩
  · exact absurd ha h
  · obtain ⟨cs', hcs'⟩ := g.start
    obtain ⟨q, src, code, a, b, rfl, d, e, f⟩ := C125_answer hR hcs' g.go.young h
    exact ⟨i, hi, q, id, src, code, h, a, b, e, f⟩

/-- C129. As long as the service is not stopped, the exception for `Stop` is not needed. -/
theorem C129_all_partial (hR : 0 < R) (hcap : 0 < cap) (hl : l.Nodup) (hdn : d.Nodup) (hne : l ≠ []) (h : run R cap own (init n) cs = some w)
    (hy : Endpoint.Young w.e) (hd : w.s.dead = false) (hs : w.s.p.stop = .idle) (hcl : w.e.b.closing = 0) (hrs : Calls w rs)
    (hr : ∀ i, i ∈ l → Works own w rs i) (ho : ∀ i, i ∈ d → Down w rs i) (hf : ∀ i, i ∉ l → Served.Few w.s i)
    {ret : Nat → Parallel.Outcome} {ds : List Choice} {w' : St}
    (hc : ∀ c ∈ ds, Moves ret l d rs c) (hw : run R cap own w ds = some w') (hq : ∀ c, Moves ret l d rs c → step R cap own w' c = none)
    {r : Nat} (hm : r ∈ rs) (hb : KeptBy w l d r) :
    Endpoint.Answered w'.e r ∧ (OnlyBy w' l r → ¬ Endpoint.Answered w.e r → ∃ i, i ∈ l ∧ GotAnswer own w' i r) := by
  obtain ⟨-, g, -, -, -, e, -⟩ := goes_run hR hl hdn (goes h hy hd hcl hrs hr ho hf) hc hw
  obtain ⟨h1, h2⟩ := C129_stopped_partial hR hcap hl hdn hne h hy hd hcl hrs hr ho hf hc hw hq hm hb
  have ha : Endpoint.Answered w'.e r := by
    rcases h1 with h1 | ⟨q, -, h1⟩
    · exact h1
    · obtain ⟨cs', hp⟩ := g.go.going.inv.par
      rw [Parallel.drained_idle hp (e.2 hs)] at h1
      cases h1
  exact ⟨ha, h2 ha⟩

/-- C129. Once both loops of the broken connections have ended, no request is lost to them any more. -/
theorem C129_kept_partial (hR : 0 < R) (hl : l.Nodup) (hdn : d.Nodup) (h : run R cap own (init n) cs = some w) (hy : Endpoint.Young w.e)
    (hd : w.s.dead = false) (hcl : w.e.b.closing = 0) (hrs : Calls w rs) (hr : ∀ i, i ∈ l → Works own w rs i)
    (ho : ∀ i, i ∈ d → Down w rs i) (ho' : ∀ i, i ∈ d → Over w i) (hf : ∀ i, i ∉ l → Served.Few w.s i)
    {ret : Nat → Parallel.Outcome} {ds : List Choice} {w' : St}
    (hc : ∀ c ∈ ds, Moves ret l d rs c) (hw : run R cap own w ds = some w') {r : Nat} (hb : OnlyBy w l r) : OnlyBy w' l r :=
  (goes_run hR hl hdn (goes h hy hd hcl hrs hr ho hf) hc hw).2.2.2.2.2.2 (fun i hi => (ho' i hi).1) r hb

/-- C129. In particular, no schedule leads to a state in which a call of `Send` could not be answered any more. -/
theorem C129_answers_partial (hR : 0 < R) (hcap : 0 < cap) (hl : l.Nodup) (hdn : d.Nodup) (hne : l ≠ []) (h : run R cap own (init n) cs = some w)
    (hy : Endpoint.Young w.e) (hd : w.s.dead = false) (hs : w.s.p.stop = .idle) (hcl : w.e.b.closing = 0) (hrs : Calls w rs)
    (hr : ∀ i, i ∈ l → Works own w rs i) (ho : ∀ i, i ∈ d → Down w rs i) (hf : ∀ i, i ∉ l → Served.Few w.s i) (ret : Nat → Parallel.Outcome) :
    ∃ ds w', (∀ c ∈ ds, Moves ret l d rs c) ∧ run R cap own w ds = some w' ∧ (∀ c, Moves ret l d rs c → step R cap own w' c = none) ∧
      ∀ r, r ∈ rs → KeptBy w l d r → Endpoint.Answered w'.e r ∧ (OnlyBy w' l r → ¬ Endpoint.Answered w.e r → ∃ i, i ∈ l ∧ GotAnswer own w' i r) := by
  have key : ∀ k t ds, work l d rs t = k → (∀ c ∈ ds, Moves ret l d rs c) → run R cap own w ds = some t →
      ∃ ds w', (∀ c ∈ ds, Moves ret l d rs c) ∧ run R cap own w ds = some w' ∧ ∀ c, Moves ret l d rs c → step R cap own w' c = none := by
    intro k
    induction k using Nat.strongRecOn with
    | ind k ih =>
      intro t ds hk hc ht
      by_cases hq : ∀ c, Moves ret l d rs c → step R cap own t c = none
      · exact ⟨ds, t, hc, ht, hq⟩
      · simp only [Classical.not_forall] at hq
        obtain ⟨c, hc1, hne⟩ := hq
        cases e : step R cap own t c with
        | none => exact absurd e hne
        | some t' =>
          have g := (goes_run hR hl hdn (goes h hy hd hcl hrs hr ho hf) hc ht).2.1
          refine ih _ (hk ▸ (goes_step hR hl hdn g hc1 e).2.1) t' (ds ++ [c]) rfl ?_ (run_snoc ht e)
          intro x hx
          rcases List.mem_append.1 hx with hx | hx
          · exact hc x hx
          · rw [List.mem_singleton] at hx; exact hx ▸ hc1
  obtain ⟨ds, w', h1, h2, h3⟩ := key _ w [] rfl (by simp) rfl
  exact ⟨ds, w', h1, h2, h3, fun r hm hb => C129_all_partial hR hcap hl hdn hne h hy hd hs hcl hrs hr ho hf h1 h2 h3 hm hb⟩

/-- Request 0 is being handled at the server. Request 5 was written on connection 1, which broke off; connection 2 is broken as
well, but its write loop has not noticed; request 6 was taken by `AllDisconnected`,
and neither has been answered yet. Request 1 is in the channel; request 2 has a slot in the queue, the channel being full; `Send` of request 3
has been called; request 4 was cancelled before it got into the queue. -/
def queued : List Choice :=
  List.replicate 4 (.client (.queue (.push 0))) ++ carry 0 ++ List.replicate 5 (.server (.svc .disp)) ++ [.server (.svc (.hand 0))] ++
    List.replicate 4 (.client (.queue (.push 5))) ++
    [.client (.take 1), .client (.conn 1 .header), .client (.conn 1 (.wrote true)), .client (.conn 1 (.endWrite false)), .client (.conn 1 .endRead),
      .client (.conn 2 .endRead)] ++
    List.replicate 4 (.client (.queue (.push 6))) ++ [.client .drain] ++
    List.replicate 4 (.client (.queue (.push 1))) ++ List.replicate 6 (.client (.queue (.push 2))) ++
    [.client (.queue (.push 3)), .client (.queue (.push 4)), .client (.fail 4)]

def queuedLog : List Buffer.Ev := [.call 0, .direct 0, .ret 0, .call 5, .direct 5, .ret 5, .call 6, .direct 6, .ret 6, .call 1, .direct 1, .ret 1,
  .call 2, .slot 2, .call 3, .call 4, .answered 4]

/-- Meets the hypotheses of C129, with all seven requests, and those of the second part of C129_all_partial for the first four, if connection 2 takes none of
them. -/
example : ∃ w, run 4 1 two (init 1) queued = some w ∧ Endpoint.Young w.e ∧ w.s.dead = false ∧ w.s.p.stop = .idle ∧ w.e.b.closing = 0 ∧
    Calls w [0, 1, 2, 3, 4, 5, 6] ∧ (∀ i, i ∈ [0] → Works two w [0, 1, 2, 3, 4, 5, 6] i) ∧ (∀ i, i ∈ [1, 2] → Down w [0, 1, 2, 3, 4, 5, 6] i) ∧
    Over w 1 ∧ (w.e.c 2).wp = .loop ∧ (∀ i, i ∉ [0] → Served.Few w.s i) ∧ (∀ r, r ∈ [0, 1, 2, 3, 4, 5, 6] → KeptBy w [0] [1, 2] r) ∧
    (∀ r, r ∈ [0, 1, 2, 3] → OnlyBy w [0] r ∧ ¬ Endpoint.Answered w.e r) ∧ ¬ Endpoint.Answered w.e 5 ∧ ¬ Endpoint.Answered w.e 6 ∧
    w.s.p.h 0 = .running ∧ w.e.b.chan = [1] ∧ w.e.b.tail = 1 ∧ w.e.b.push 3 = .start ∧ Endpoint.Answered w.e 4 := by
  have hy : ∀ w, run 4 1 two (init 1) queued = some w → Endpoint.Young w.e := fun w h => young_of h (by decide +kernel)
  refine ⟨_, rfl, ?_, rfl, rfl, rfl, ?_, ?_, ?_, ⟨rfl, rfl⟩, rfl, ?_, ?_, ?_, ?_, ?_, rfl, rfl, rfl, rfl, ?_⟩
  · exact hy _ rfl
  · intro r
    show _ ↔ Buffer.Ev.call r ∈ queuedLog
    simp [queuedLog]
    omega
  · intro i hi
    match i with
    | 0 => refine ⟨rfl, ⟨?_, ⟨?_, ?_⟩, ?_, ?_⟩, ?_, ?_, ?_⟩ <;> first | (intro h; cases h; done) | exact Nat.le_of_ble_eq_true rfl
    | i + 1 => simp at hi
  · intro i hi
    match i with
    | 0 => simp at hi
    | 1 => exact ⟨rfl, Nat.le_of_ble_eq_true rfl⟩
    | 2 => exact ⟨rfl, Nat.le_of_ble_eq_true rfl⟩
    | i + 3 => simp at hi
  · intro i hi
    match i with
    | 0 => simp at hi
    | 1 => exact Nat.zero_le _
    | i + 2 => exact Nat.zero_le _
  · intro r _ i hx
    have hx' : (r, some i) ∈ [(6, none), (5, some 1), (0, some 0)] := hx
    simp at hx' ⊢
    omega
  · intro r hr
    constructor
    · intro x hx
      have hx' : (r, x) ∈ [(6, none), (5, some 1), (0, some 0)] := hx
      simp only [List.mem_cons, Prod.mk.injEq, List.not_mem_nil, or_false] at hx' hr
      refine ⟨0, by simp, ?_⟩
      rcases hx' with ⟨rfl, _⟩ | ⟨rfl, _⟩ | ⟨_, h⟩
      · simp at hr
      · simp at hr
      · exact h
    · show ¬ Buffer.Ev.answered r ∈ queuedLog
      simp [queuedLog] at hr ⊢
      omega
  · show ¬ Buffer.Ev.answered 5 ∈ queuedLog
    simp [queuedLog]
  · show ¬ Buffer.Ev.answered 6 ∈ queuedLog
    simp [queuedLog]
  · show Buffer.Ev.answered 4 ∈ queuedLog
    simp [queuedLog]

end Verif.Props
