import Verif.Proofs.GracefulEnd
/-!
Theorems about the graceful end of a connection (C115).
-/
namespace Verif.Graceful

section
variable {e : Env} {cs : List Link.Choice} {l : Link.St}

theorem reach (he : e.half = true ∧ e.stop = false) (h : run e Link.init cs = some l) (hy : Conn.Young l.c) :
    GInv l ∧ Link.Inv l := ginv_run he Link.inv_init ginv_init h hy

/-- C115: when nothing goes wrong, the end of the connection fails no request. -/
theorem C115_not_failed_partial (he : e.half = true ∧ e.stop = false) (h : run e Link.init cs = some l)
    (hy : Conn.Young l.c) (r code : Nat) : l.c.ans r ≠ some (.flushed code) := (reach he h hy).1.c.fl r code

/-- C115: when the client's read loop has ended, every request which the connection had accepted is answered: with what the
server's handler gave for it, or because its owner gave up. -/
theorem C115_answered_partial (he : e.half = true ∧ e.stop = false) (h : run e Link.init cs = some l) (hy : Conn.Young l.c)
    (hr : l.c.rp = .ended) {r : Nat} (ht : l.c.rs r ≠ .pending) :
    (∃ i k, l.c.ans r = some (.response i k) ∧ l.c.wire[k]? = some (i, r, true) ∧ Serv.Item.resp i k ∈ l.s.wire) ∨
      l.c.ans r = some .other := by
  obtain ⟨g, gl⟩ := reach he h hy
  have hp : l.c.rs r = .performed := by
    have := (g.c.ended hr).2 r
    cases e : l.c.rs r <;> simp_all
  cases ha : l.c.ans r with
  | none => exact absurd ha (gl.c.perfAns r hp)
  | some a =>
    cases a with
    | flushed x => exact absurd ha (g.c.fl r x)
    | other => exact .inr rfl
    | response i k =>
      obtain ⟨_, _, ⟨f, h1⟩, h2⟩ := Link.C96_own (link_run h) hy ha
      refine .inl ⟨i, k, rfl, ?_, h2⟩
      cases f with
      | true => exact h1
      | false =>
        have := (gl.c.wireId r i false (List.mem_of_getElem? h1)).2 rfl
        rw [ha] at this
        cases this

/-- C115: the client's read loop ends after its write loop, and then the server has received everything. -/
theorem C115_last_partial (he : e.half = true ∧ e.stop = false) (h : run e Link.init cs = some l) (hy : Conn.Young l.c) :
    (l.c.rp = .ended → l.c.wp = .ended) ∧ (l.s.rp = .done → l.c.wp = .ended ∧ l.s.n = l.c.wire.length) := by
  obtain ⟨g, gl⟩ := reach he h hy
  refine ⟨fun hr => (g.c.ended hr).1, fun hr => ?_⟩
  obtain ⟨h1, h2⟩ := g.eof (.inr hr)
  exact ⟨h1, by rw [← h2]; exact (gl.nreg fun id hx => by rw [hr] at hx; cases hx).symm⟩

/-- C115: the end can always be reached: wherever both sides are, they can go on to the end of the client's connection, without
a panic of the server, and then every request accepted is answered. Missing: more than 127 requests and pings on a connection
(C58: its handlers may wait for each other), a server that has panicked (C57). -/
theorem C115_can_end_partial (he : e.half = true ∧ e.stop = false) (h : run e Link.init cs = some l) (hy : Conn.Young l.c)
    (hp : l.s.panicked = false) (hn : l.c.wire.length + l.s.pings.length < 128) :
    ∃ ds l', run e l ds = some l' ∧ l'.c.cp = .ended ∧ l'.s.panicked = false ∧ ∀ r, l'.c.rs r ≠ .pending →
      (∃ i k, l'.c.ans r = some (.response i k) ∧ l'.c.wire[k]? = some (i, r, true) ∧ Serv.Item.resp i k ∈ l'.s.wire) ∨
        l'.c.ans r = some .other := by
  obtain ⟨g, gl⟩ := reach he h hy
  obtain ⟨x, sr⟩ := xs_run (l := Link.init) xinv_init ⟨[], rfl⟩ h
  have hw : pend l.c.wp ≤ 1 := by
    unfold pend
    split <;> omega
  obtain ⟨l', ⟨ds, hr⟩, b, hc⟩ := can_end he ⟨gl, g, x, sr, hy, hp, by unfold Serv.cap; omega⟩
  refine ⟨ds, l', hr, hc, b.np, fun r ht => ?_⟩
  have hre : l'.c.rp = .ended := by
    rcases b.g.c.cpLoop with h | h
    · rw [hc] at h; cases h
    · exact h.2
  exact C115_answered_partial he (run_append h hr) b.y hre ht

end

theorem any_some {o : Option Link.St} {p : Link.St → Prop} [DecidablePred p] (h : (o.any fun s => p s) = true) :
    ∃ s, o = some s ∧ p s := by
  cases o with
  | none => cases h
  | some s => exact ⟨s, rfl, of_decide_eq_true h⟩

instance (c : Conn.St) : Decidable (Conn.Young c) := inferInstanceAs (Decidable (_ ≤ _))

/-- Two requests are written; the client is stopped; the first is answered after that. -/
def start : List Link.Choice :=
  [.client (.take 5), .client .header, .client (.wrote true), .client (.take 6), .client .header, .client (.wrote true),
   .client (.endWrite true)]

def finish : List Link.Choice :=
  [.up, .server .rl, .up, .server .rl, .server .rErr, .server .rl, .server .ctl, .server .ctl, .server .ctl,
   .server (.call 1), .server (.begin 1), .server (.send 1), .server (.call 0), .server (.begin 0), .server (.send 0),
   .server .wl, .server .wl, .down, .client .reply, .server .wl, .server .wl, .server .wl, .server .wl, .server .wl, .server .wl,
   .down, .client .reply]

def leave : List Link.Choice := [.client .endRead, .client .flush, .client .flushOne]

example : ∃ l, run ⟨true, false⟩ Link.init (start ++ finish ++ leave) = some l ∧
    (Conn.Young l.c ∧ l.c.rp = .ended ∧ l.c.cp = .ended ∧ l.s.rp = .done ∧ l.s.wp = .done false ∧
      l.c.ans 5 = some (.response 1 0) ∧ l.c.ans 6 = some (.response 2 1)) := by
  refine any_some ?_
  decide +kernel

/-- C115 fails for connections which cannot be closed in one direction: the client's `CloseWrite` closes the whole connection,
and the requests in flight are failed, although the server has answered them. -/
theorem C115_wrapper_violated : ∃ l, run ⟨false, false⟩ Link.init
      (start ++ finish.take 17 ++ leave.take 2 ++ [.client .flushOne, .client .flushOne, .client .flushOne]) = some l ∧
    (Conn.Young l.c ∧ l.c.cp = .ended ∧ l.s.rs 0 = .done ∧ l.s.rs 1 = .done ∧ l.s.wire = [.resp 2 1] ∧ l.down = 0 ∧
      l.c.ans 5 = some (.flushed Conn.rcShutdown) ∧ l.c.ans 6 = some (.flushed Conn.rcShutdown)) := by
  refine any_some ?_
  decide +kernel

/-- C115 fails when the server is stopped: what it has not read yet is failed in the client. (The client is stopped only
after the server has closed its side.) -/
theorem C115_stop_violated : ∃ l, run ⟨true, true⟩ Link.init
      ([.client (.take 5), .client .header, .client (.wrote true), .server .rErr, .server .rl, .server .ctl, .server .ctl,
        .server .wl, .server .wl] ++ leave.take 1 ++ [.client (.endWrite true), .client .flush, .client .flushOne]) = some l ∧
    (Conn.Young l.c ∧ l.s.panicked = false ∧ l.s.n = 0 ∧ l.c.ans 5 = some (.flushed Conn.rcShutdown)) := by
  refine any_some ?_
  decide +kernel

end Verif.Graceful
