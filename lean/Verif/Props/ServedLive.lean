import Verif.Proofs.ServedLive
import Verif.Props.Served
/-! C127: a server in front of a parallel service answers every request it has received. -/
namespace Verif.Served

variable {n : Nat} {cs : List Choice} {s : St}

theorem going (h : run (init n) cs = some s) (hd : s.dead = false) (hf : ∀ i, Few s i) : Going n s :=
  ⟨inv_run (inv_init n) h, fresh_run (inv_init n) ⟨by simp [init], by simp [init, Serv.init]⟩ h, hd, hf⟩

/-- C127 (partial, as all of C127: for connections that have received at most 128 requests and pings, see C123). Left alone, the server comes to
rest, whether or not its service is being stopped: from every state there is a number of steps that its goroutines cannot exceed, in whatever
order they run and whatever the handlers do when they end. -/
theorem C127_rest_partial {l : List Nat} (hl : l.Nodup) (h : run (init n) cs = some s) (hd : s.dead = false) (hf : ∀ i, Few s i) :
    ∃ b, ∀ ret ds s', (∀ c ∈ ds, Forth ret l c) → run s ds = some s' → ds.length ≤ b ∧ s'.dead = false :=
  ⟨load l (fun _ => 0) s, fun _ _ _ hc hr => by
    have := forth_run (dn := fun _ => 0) hl (going h hd hf) hc hr
    exact ⟨by omega, this.2.2.2.live⟩⟩

/-- C127. And when it has come to rest, every request received before, on whichever connection, is answered, `Respond` has returned for it, and,
if the write loop of its connection went on, its response is written, unless writing to the connection failed or the client used an id twice; but for
the requests which the dispatcher received after it had left its loop because of `Stop` (see C50, C142). -/
theorem C127_stopped_partial {l : List Nat} (hl : l.Nodup) (h : run (init n) cs = some s) (hd : s.dead = false) (hf : ∀ i, Few s i)
    {ret : Nat → Parallel.Outcome} {ds : List Choice} {s' : St} (hc : ∀ c ∈ ds, Forth ret l c) (hr : run s ds = some s')
    (hq : ∀ c, Forth ret l c → step s' c = none) {r : Nat} (hm : r < s.m) (hn : r ∉ s'.p.drained) :
    s'.p.ans r ≠ none ∧ ¬ InRespond s' r ∧ (s.conn r ∈ l → Serv.Polite (s.c (s.conn r)) → ¬ Failed s r → Written s' r) := by
  obtain ⟨-, k, -, g⟩ := forth_run (dn := fun _ => 0) hl (going h hd hf) hc hr
  have hm' : r < s'.m := by rw [k.m]; exact hm
  have h1 := rest_ans g hq hm' hn
  have h2 := rest_done g hq hm' h1
  have e := k.same (s.conn r)
  refine ⟨h1, ?_, fun hi hp hn => rest_written g hq hm' h1 (by rw [k.conn]; exact hi) ?_ ?_⟩
  · unfold InRespond
    unfold St.resp at h2
    rw [h2]
    simp
  · unfold Serv.Polite at *
    rw [k.conn, e.fresh, e.n]
    exact hp
  · intro hf
    unfold Failed at *
    rw [k.conn] at hf
    exact hn (e.fail hf)

/-- C127. As long as the service is not stopped there are no such exceptions. -/
theorem C127_all_partial {l : List Nat} (hl : l.Nodup) (h : run (init n) cs = some s) (hd : s.dead = false) (hs : s.p.stop = .idle)
    (hf : ∀ i, Few s i) {ret : Nat → Parallel.Outcome} {ds : List Choice} {s' : St} (hc : ∀ c ∈ ds, Forth ret l c) (hr : run s ds = some s')
    (hq : ∀ c, Forth ret l c → step s' c = none) {r : Nat} (hm : r < s.m) :
    s'.p.ans r ≠ none ∧ ¬ InRespond s' r ∧ (s.conn r ∈ l → Serv.Polite (s.c (s.conn r)) → ¬ Failed s r → Written s' r) := by
  obtain ⟨-, -, e, g⟩ := forth_run (dn := fun _ => 0) hl (going h hd hf) hc hr
  obtain ⟨cs', hp⟩ := g.inv.par
  exact C127_stopped_partial hl h hd hf hc hr hq hm (by rw [Parallel.drained_idle hp (e.2 hs)]; simp)

/-- C127. In particular, no schedule leads to a state from which the server could not come to rest any more, with the requests received answered as
above. -/
theorem C127_answers_partial {l : List Nat} (hl : l.Nodup) (h : run (init n) cs = some s) (hd : s.dead = false) (hf : ∀ i, Few s i)
    (ret : Nat → Parallel.Outcome) :
    ∃ ds s', (∀ c ∈ ds, Forth ret l c) ∧ run s ds = some s' ∧ (∀ c, Forth ret l c → step s' c = none) ∧
      ∀ r, r < s.m → s.p.stop = .idle ∨ r ∉ s'.p.drained → s'.p.ans r ≠ none ∧ ¬ InRespond s' r ∧
      (s.conn r ∈ l → Serv.Polite (s.c (s.conn r)) → ¬ Failed s r → Written s' r) := by
  have key : ∀ w t ds, load l (fun _ => 0) t = w → (∀ c ∈ ds, Forth ret l c) → run s ds = some t →
      ∃ ds s', (∀ c ∈ ds, Forth ret l c) ∧ run s ds = some s' ∧ ∀ c, Forth ret l c → step s' c = none := by
    intro w
    induction w using Nat.strongRecOn with
    | ind w ih =>
      intro t ds hw hc hr
      by_cases hq : ∀ c, Forth ret l c → step t c = none
      · exact ⟨ds, t, hc, hr, hq⟩
      · simp only [Classical.not_forall] at hq
        obtain ⟨c, hc1, hne⟩ := hq
        cases e : step t c with
        | none => exact absurd e hne
        | some t' =>
          obtain ⟨-, k, -, g⟩ := forth_run (dn := fun _ => 0) hl (going h hd hf) hc hr
          have hlt := (forth_step (dn := fun _ => 0) hl g hc1 e).1
          refine ih _ (hw ▸ hlt) t' (ds ++ [c]) rfl ?_ ?_
          · intro x hx
            rcases List.mem_append.1 hx with hx | hx
            · exact hc x hx
            · rw [List.mem_singleton] at hx; exact hx ▸ hc1
          · rw [run_append, hr]
            simp [run, e]
  obtain ⟨ds, s', h1, h2, h3⟩ := key _ s [] rfl (by simp) rfl
  refine ⟨ds, s', h1, h2, h3, fun r hr ho => ?_⟩
  rcases ho with ho | ho
  · exact C127_all_partial hl h hd ho hf h1 h2 h3 hr
  · exact C127_stopped_partial hl h hd hf h1 h2 h3 hr ho

/-- One slot and two connections: a request of the first one is being handled, one of the second one waits, and another one of the first one was
just read. -/
def busyServer : List Choice :=
  [.net 0 (.recv 5), .net 0 .rl, .pass 0, .net 1 (.recv 5), .net 1 .rl, .pass 1] ++ List.replicate 9 (.svc .disp) ++
  [.svc (.hand 0), .net 0 (.recv 6), .net 0 .rl]

/-- Meets the hypotheses of C127; by `C127_answers_partial` there is also a schedule as in `C127_all_partial`. -/
example : ∃ s, run (init 1) busyServer = some s ∧ s.dead = false ∧ s.p.stop = .idle ∧ (∀ i, Few s i) ∧ s.m = 3 ∧ s.p.d = .slot 1 ∧
    s.p.h 0 = .running ∧ s.rd 0 = some 2 ∧ Serv.Polite (s.c (s.conn 0)) ∧ ¬ Failed s 0 := by
  refine ⟨_, rfl, rfl, rfl, ?_, rfl, rfl, rfl, rfl, rfl, ?_⟩
  · intro i
    match i with
    | 0 => exact Nat.le_of_ble_eq_true rfl
    | 1 => exact Nat.le_of_ble_eq_true rfl
    | i + 2 => exact Nat.zero_le _
  · rintro (e | e) <;> cases e

end Verif.Served
