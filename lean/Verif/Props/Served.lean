import Verif.Proofs.ServedDisp

/-! C123: a server in front of a parallel service. -/
namespace Verif.Served

variable {n i : Nat} {cs : List Choice} {s : St}

/-- C123. The service and each of the connections behave as they do by themselves, so that all that is proved about them (C48-C50,
C56-C58, C69, C70, C74-C76) holds here too. -/
theorem C123_parts (h : run (init n) cs = some s) :
    (∃ ds, Parallel.run (Parallel.init n) ds = some s.p) ∧ ∀ i, ∃ ds, Serv.run Serv.init ds = some (s.c i) :=
  have hi := inv_run (inv_init n) h
  ⟨hi.par, hi.con⟩

/-- C123. Every response written to a connection is the answer the service gave to a request received on this connection with this
id; if it is the handler's, it is what the handler returned for this request. No request has two responses. -/
theorem C123_own (h : run (init n) cs = some s) :
    (Serv.keys (s.c i).wire).Nodup ∧ ∀ id k, Serv.Item.resp id k ∈ (s.c i).wire →
      ∃ r src code, r < s.m ∧ s.conn r = i ∧ s.key r = k ∧ (s.c i).idOf k = id ∧ s.p.ans r = some (src, code) ∧
        (src = .handler → s.p.out r = some (.returned code)) := by
  have hi := inv_run (inv_init n) h
  obtain ⟨ds, hd⟩ := hi.con i
  obtain ⟨h1, h2⟩ := Props.C56_own hd
  refine ⟨h1, fun id k hm => ?_⟩
  obtain ⟨h3, h4⟩ := h2 id k hm
  obtain ⟨h5, h6, h7⟩ := hi.lt2 i k h3
  have h8 := ((Serv.inv_run Serv.inv_init hd).item id k (by unfold Serv.flow; simp [hm])).2
  have h9 : s.p.ans (s.num i k) ≠ none := by
    intro e
    have := (hi.link _ h5).1 e
    unfold St.resp at this
    rw [h6, h7, h8] at this
    cases this
  cases ha : s.p.ans (s.num i k) with
  | none => exact absurd ha h9
  | some a =>
    obtain ⟨src, code⟩ := a
    refine ⟨_, src, code, h5, h6, h7, h4, ha, ?_⟩
    rintro rfl
    exact (hi.pi.srcH _ _ ha).1

/-- C123 (partial: as C74, if no request came with an id that was in flight). A connection whose write loop ends without an error has
written, for each request received on it, the answer the service gave. -/
theorem C123_all_partial (h : run (init n) cs = some s) (hp : Serv.Polite (s.c i)) (hw : (s.c i).wp = .done false) {r : Nat}
    (hr : r < s.m) (hi : s.conn r = i) :
    Serv.Item.resp ((s.c i).idOf (s.key r)) (s.key r) ∈ (s.c i).wire ∧ s.p.ans r ≠ none := by
  have hv := inv_run (inv_init n) h
  obtain ⟨ds, hd⟩ := hv.con i
  have h1 := (hv.lt1 r hr).1
  rw [hi] at h1
  have h2 := Props.C74_graceful_partial hd hp hw h1
  refine ⟨h2, fun e => ?_⟩
  have h3 := ((Serv.inv_run Serv.inv_init hd).item ((s.c i).idOf (s.key r)) (s.key r) (by unfold Serv.flow; simp [h2])).2
  have := (hv.link r hr).1 e
  unfold St.resp at this
  rw [hi, h3] at this
  cases this

/-- C123 (partial: as C50, requests received after `Stop` are lost). A request which was received and is not answered is about to be
handed over, is waiting for the service, or is in the hands of a handler. -/
theorem C123_not_lost_partial (h : run (init n) cs = some s) {r : Nat} (hr : r < s.m) (ha : s.p.ans r = none) :
    s.rd (s.conn r) = some r ∨ r ∈ s.p.ch ∨ Parallel.Held s.p r ∨ Parallel.Live s.p r ∨ r ∈ s.p.drained := by
  have hi := inv_run (inv_init n) h
  by_cases e : s.p.rs r = .new
  · exact .inl ((fresh_run (inv_init n) ⟨by simp [init], by simp [init, Serv.init]⟩ h).new r hr e)
  · obtain ⟨ds, hd⟩ := hi.par
    exact .inr (Props.C50_not_lost_partial hd e ha)

/-- C123 (partial: for connections which have received at most 128 requests and pings, see below). A handler that was started comes to
its end, whatever it returns, and gives its slot back: nobody needs to do anything but itself and those who are in `Respond` of the
same connection. -/
theorem C123_back_partial (h : run (init n) cs = some s) (hd : s.dead = false) {r : Nat} (hl : Parallel.Live s.p r)
    (hf : Few s (s.conn r)) (o : Parallel.Outcome) :
    ∃ ds s', run s ds = some s' ∧ (∀ c ∈ ds, Own (s.conn r) r o c) ∧ s'.p.h r = .ended ∧ s'.dead = false := by
  have hi := inv_run (inv_init n) h
  exact way_end o ⟨hi, hd, hf, rfl, live_lt hi hl⟩ hl

/-- C123 does not hold in general: when all slots are taken by handlers that wait in `Respond` of connections that are stuck (C58,
C76), no handler is started any more and none ends, whatever happens, for whichever connection. -/
theorem C123_wedged_violated (h : run (init n) cs = some s) (w : Wedged s) {ds : List Choice} {s' : St} (hs : run s ds = some s') :
    s'.p.h = s.p.h :=
  (wedged_run (inv_run (inv_init n) h) w hs).2

theorem any_some {p : St → Prop} [DecidablePred p] {o : Option St} (h : (o.any fun s => p s) = true) : ∃ s, o = some s ∧ p s := by
  cases o with
  | none => cases h
  | some s => exact ⟨s, rfl, by simpa using h⟩

/-- While the write loop of connection 0, having found nothing, is about to lock, 128 pings are answered and a request is received,
handled and answered; then a request is received on connection 1. -/
def wedging : List Choice :=
  .net 0 .wl :: (List.range 128).flatMap (fun k => [.net 0 (.ping k), .net 0 .rl]) ++ [.net 0 (.recv 5), .net 0 .rl, .pass 0] ++
    List.replicate 5 (.svc .disp) ++ [.svc (.hand 0), .svc (.result 0 (.returned 0)), .svc (.hand 0), .net 0 (.begin 0)] ++
    [.net 1 (.recv 5), .net 1 .rl, .pass 1] ++ List.replicate 4 (.svc .disp)

/-- C123: this happens with one slot, one request and 128 pings from one client: the request of another client is never handled. -/
theorem C123_witness_violated : ∃ s, run (init 1) wedging = some s ∧ Wedged s ∧ s.m = 2 ∧ s.conn 1 = 1 ∧
    ∀ ds s', run s ds = some s' → s'.p.h 1 = .idle := by
  have : ∃ s, run (init 1) wedging = some s ∧ (s.p.sema = 0 ∧ Parallel.holds s.p.d = 0 ∧ s.p.spawned = [0] ∧ s.ins 0 = true ∧
      s.conn 0 = 0 ∧ s.key 0 = 0 ∧ (s.c 0).lock = some 0 ∧ Serv.cap ≤ (s.c 0).out.length ∧ (s.c 0).wp = .lk ∧ s.m = 2 ∧ s.conn 1 = 1) := by
    apply any_some (p := fun s : St => s.p.sema = 0 ∧ Parallel.holds s.p.d = 0 ∧ s.p.spawned = [0] ∧ s.ins 0 = true ∧
      s.conn 0 = 0 ∧ s.key 0 = 0 ∧ (s.c 0).lock = some 0 ∧ Serv.cap ≤ (s.c 0).out.length ∧ (s.c 0).wp = .lk ∧ s.m = 2 ∧ s.conn 1 = 1)
    decide +kernel
  obtain ⟨s, h, h1, h2, h3, h4, h5, h6, h7, h8, h9, h10, h11⟩ := this
  have hi := inv_run (inv_init 1) h
  have hb := Serv.blocked_of (hi.ci 0) h7 h8 (.inl h9)
  have w : Wedged s := by
    refine ⟨h1, h2, fun r hr => ?_⟩
    have := (hi.pi.spawned r).2 hr.1
    rw [h3, List.mem_singleton] at this
    subst this
    refine ⟨h4, ?_, ?_⟩
    · unfold InRespond; rw [h5, h6]; exact .inr ((hi.ci 0).lock1 0 h7)
    · exact ⟨0, fun ds s' hs => by rw [h5] at hs; exact ⟨(hb ds s' hs).1, (hb ds s' hs).2.1⟩⟩
  refine ⟨s, h, w, h10, h11, fun ds s' hs => ?_⟩
  rw [C123_wedged_violated h w hs]
  apply Classical.byContradiction
  intro e
  have := (hi.pi.spawned 1).2 e
  rw [h3] at this
  simp at this

/-- C123 does not hold in general, even with free slots: when the dispatcher waits for the lock of a request which somebody is answering on
a connection that is stuck, no handler is started any more, whatever happens, for whichever connection. -/
theorem C123_halted_violated (h : run (init n) cs = some s) {r : Nat} (w : Halted s r) {ds : List Choice} {s' : St} (hs : run s ds = some s') :
    Halted s' r ∧ ∀ q, s.p.h q = .idle → s'.p.h q = .idle := by
  have hi := inv_run (inv_init n) h
  have hr : r < s.m := by
    apply Classical.byContradiction
    intro hn
    have := hi.pi.reqNew r (by rw [w.disp]; rfl)
    rw [hi.new r (by omega)] at this
    simp at this
  obtain ⟨a, b⟩ := halt_run ⟨w, hr⟩ hs
  exact ⟨a.toHalted, b⟩

/-- Writing to connection 0 fails; 128 pings and a request come before the control loop cancels that request; `Respond` finds the channel full,
and nobody receives from it any more. Then the dispatcher comes to this request. -/
def halting : List Choice :=
  [.net 0 (.ping 0), .net 0 .rl, .net 0 .wl, .net 0 .wErr, .net 0 .wl] ++
    (List.range 128).flatMap (fun k => [.net 0 (.ping k), .net 0 .rl]) ++ [.net 0 (.recv 5), .net 0 .rl, .pass 0] ++
    [.net 0 .ctl, .net 0 .ctl, .net 0 .ctl, .net 0 (.begin 0)] ++ List.replicate 4 (.svc .disp) ++ [.net 1 (.recv 5), .net 1 .rl, .pass 1]

/-- C123: this happens with any number of slots (here three, of which two are free) when a client disconnects: the requests of others are
never handled. -/
theorem C123_halted_witness_violated : ∃ s, run (init 3) halting = some s ∧ Halted s 0 ∧ s.p.sema = 2 ∧ s.m = 2 ∧ s.conn 1 = 1 ∧
    ∀ ds s', run s ds = some s' → s'.p.h 1 = .idle := by
  have : ∃ s, run (init 3) halting = some s ∧ (s.p.sema = 2 ∧ s.p.d = .claim 0 ∧ s.p.spawned = [] ∧ s.conn 0 = 0 ∧ s.key 0 = 0 ∧
      (s.c 0).lock = some 0 ∧ Serv.cap ≤ (s.c 0).out.length ∧ (s.c 0).wp = .done true ∧ s.m = 2 ∧ s.conn 1 = 1) := by
    apply any_some (p := fun s : St => s.p.sema = 2 ∧ s.p.d = .claim 0 ∧ s.p.spawned = [] ∧ s.conn 0 = 0 ∧ s.key 0 = 0 ∧
      (s.c 0).lock = some 0 ∧ Serv.cap ≤ (s.c 0).out.length ∧ (s.c 0).wp = .done true ∧ s.m = 2 ∧ s.conn 1 = 1)
    decide +kernel
  obtain ⟨s, h, h1, h2, h3, h5, h6, h7, h8, h9, h10, h11⟩ := this
  have hi := inv_run (inv_init 3) h
  have hb := Serv.blocked_of (hi.ci 0) h7 h8 (.inr (.inr ⟨_, h9⟩))
  have w : Halted s 0 := by
    refine ⟨h2, ?_, ?_⟩
    · unfold InRespond; rw [h5, h6]; exact .inr ((hi.ci 0).lock1 0 h7)
    · exact ⟨0, fun ds s' hs => by rw [h5] at hs; exact ⟨(hb ds s' hs).1, (hb ds s' hs).2.1⟩⟩
  refine ⟨s, h, w, h1, h10, h11, fun ds s' hs => ?_⟩
  refine (C123_halted_violated h w hs).2 1 ?_
  apply Classical.byContradiction
  intro e
  have := (hi.pi.spawned 1).2 e
  rw [h3] at this
  simp at this

/-! Examples. -/

/-- A request on connection `i` is received, handled and its answer is being sent. -/
def served (i k r d : Nat) : List Choice :=
  [.net i (.recv (7 + k)), .net i .rl, .pass i] ++ List.replicate d (.svc .disp) ++
    [.svc (.hand r), .svc (.result r (.returned 5)), .svc (.hand r), .net i (.begin k)]

/-- C123_own, C123_parts: two connections, two slots. -/
example : ∃ s, run (init 2) (served 0 0 0 5 ++ served 1 0 1 5 ++ [.net 1 (.send 0), .net 1 .wl, .net 1 .wl, .net 0 (.send 0), .net 0 .wl,
    .net 0 .wl]) = some s ∧
    ((s.c 0).wire = [.resp 7 0] ∧ (s.c 1).wire = [.resp 7 0] ∧ s.conn 1 = 1 ∧ s.p.ans 1 = some (.handler, 5) ∧
      s.p.out 1 = some (.returned 5)) := by
  apply any_some (p := fun s : St => (s.c 0).wire = [.resp 7 0] ∧ (s.c 1).wire = [.resp 7 0] ∧ s.conn 1 = 1 ∧
    s.p.ans 1 = some (.handler, 5) ∧ s.p.out 1 = some (.returned 5))
  decide +kernel

/-- C123_all_partial: the client closes its side after one request. -/
example : ∃ s, run (init 2) ([.net 0 (.recv 7), .net 0 .rl, .pass 0, .net 0 .rErr, .net 0 .rl, .net 0 .ctl, .net 0 .ctl, .net 0 .ctl] ++
    List.replicate 5 (.svc .disp) ++ [.svc (.hand 0), .svc (.result 0 (.returned 5)), .svc (.hand 0), .net 0 (.begin 0), .net 0 (.send 0)] ++
    List.replicate 6 (.net 0 .wl)) = some s ∧
    ((s.c 0).fresh.length = (s.c 0).n ∧ (s.c 0).wp = .done false ∧ s.m = 1 ∧ s.conn 0 = 0) := by
  apply any_some (p := fun s : St => (s.c 0).fresh.length = (s.c 0).n ∧ (s.c 0).wp = .done false ∧ s.m = 1 ∧ s.conn 0 = 0)
  decide +kernel

/-- C123_not_lost_partial: one request before `Send`, one in the channel, one with a handler. -/
example : ∃ s, run (init 2) ([.net 0 (.recv 7), .net 0 .rl, .pass 0] ++ List.replicate 5 (.svc .disp) ++
    [.net 1 (.recv 7), .net 1 .rl, .pass 1, .net 0 (.recv 8), .net 0 .rl]) = some s ∧
    (s.m = 3 ∧ s.rd 0 = some 2 ∧ s.p.ch = [1] ∧ s.p.h 0 = .look ∧ s.p.ans 0 = none ∧ s.p.ans 1 = none ∧ s.p.ans 2 = none) := by
  apply any_some (p := fun s : St => s.m = 3 ∧ s.rd 0 = some 2 ∧ s.p.ch = [1] ∧ s.p.h 0 = .look ∧ s.p.ans 0 = none ∧ s.p.ans 1 = none ∧ s.p.ans 2 = none)
  decide +kernel

/-- C123_back_partial: two handlers answer requests of one connection at once; one of them has the lock. -/
example : ∃ s, run (init 2) (served 0 0 0 5 ++ [.net 1 (.recv 9), .net 1 .rl, .pass 1] ++ List.replicate 5 (.svc .disp)) = some s ∧
    (s.dead = false ∧ s.p.h 0 = .fin ∧ s.p.h 1 = .look ∧ (s.c 0).n + (s.c 0).pings.length ≤ 128) := by
  apply any_some (p := fun s : St => s.dead = false ∧ s.p.h 0 = .fin ∧ s.p.h 1 = .look ∧ (s.c 0).n + (s.c 0).pings.length ≤ 128)
  decide +kernel

end Verif.Served
