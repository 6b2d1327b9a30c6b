import Verif.Proofs.Whole
/-!
Theorems about both ends: a client endpoint, and a server in front of a parallel service (C125).
-/
namespace Verif.Whole

theorem any_some {o : Option St} {p : St → Prop} [DecidablePred p] (h : (o.any fun s => p s) = true) : ∃ s, o = some s ∧ p s := by
  cases o with
  | none => cases h
  | some s => exact ⟨s, rfl, of_decide_eq_true h⟩

/-- `Send` of three requests. -/
def sends : List Choice := (List.range 3).flatMap fun r => List.replicate 4 (.client (.queue (.push r)))

/-- Connection `i` takes a request from the channel and writes it; the server reads it and hands it over. -/
def carry (i : Nat) : List Choice :=
  [.client (.take i), .client (.conn i .header), .client (.conn i (.wrote true)), .up i, .server (.net i .rl), .server (.pass i)]

/-- The handler of request `q` of the server runs and returns `code`; the response is number `k` on connection `i`, and is written. -/
def handle (q i k code : Nat) : List Choice :=
  [.server (.svc (.hand q)), .server (.svc (.result q (.returned code))), .server (.svc (.hand q)), .server (.net i (.begin k)),
    .server (.net i (.send k)), .server (.net i .wl), .server (.net i .wl)]

/-- Requests 0 and 2 go over connection 0, request 1 over connection 1; a client of somebody else uses connection 2. Request 2 is handled
first, with two slots, and its owner gets the response; that of 1 gives up before its response comes. -/
def session : List Choice :=
  sends ++ carry 0 ++ [.server (.net 2 (.recv 9)), .server (.net 2 .rl), .server (.pass 2)] ++ carry 1 ++ carry 0 ++
    List.replicate 10 (.server (.svc .disp)) ++ handle 0 0 0 5 ++ List.replicate 2 (.server (.svc (.hand 0))) ++
    handle 1 2 0 3 ++ List.replicate 2 (.server (.svc (.hand 1))) ++ List.replicate 10 (.server (.svc .disp)) ++
    [.client (.fail 1)] ++ handle 3 0 1 6 ++ handle 2 1 0 7 ++
    [.down 0, .client (.conn 0 .reply), .down 0, .client (.conn 0 .reply), .down 1, .client (.conn 1 .reply)]

/-- The connections of the endpoint end. -/
def ending : List Choice :=
  [0, 1].flatMap fun i => [.client (.conn i .endRead), .client (.conn i (.endWrite true)), .client (.conn i .flush), .client (.conn i .flushOne)]

/-- The server's side of connection 0 ends, after the client has ended its own writing. -/
def closing : List Choice :=
  .client (.conn 0 (.endWrite true)) :: (([.rErr, .rl, .ctl, .ctl, .ctl] ++ List.replicate 2 .wl : List Serv.Choice).map fun x => Choice.server (.net 0 x))

/-- Connections 0 and 1 are those of the endpoint. -/
def two (i : Nat) : Bool := i < 2

/-- Short runs are young. -/
theorem young_of {w : St} {R cap n : Nat} {own : Nat → Bool} {cs : List Choice} (hr : run R cap own (init n) cs = some w)
    (hl : cs.length ≤ Conn.M - 2) : Endpoint.Young w.e := by
  intro i
  have h1 := young_run hr i
  have h2 : ((init n).e.c i).h.got = 0 := rfl
  have : (w.e.c i).h.got ≤ Conn.M - 2 := by omega
  exact this

end Verif.Whole

namespace Verif.Props
open Verif.Whole

variable {R cap n : Nat} {own : Nat → Bool} {cs : List Choice} {w : St}

/-- C125: the endpoint, the server and each connection between them behave as they do by themselves; and the servers of the endpoint's
connections answer only what they were asked, and once, as C52, C53 and C121 assume of them. So all that is proved about
them holds here too. -/
theorem C125_parts (h : run R cap own (init n) cs = some w) :
    (∃ ds, Endpoint.run R cap Endpoint.init ds = some w.e ∧ (Endpoint.Young w.e → Endpoint.Polite R cap Endpoint.init ds)) ∧
      (∃ ds, Served.run (Served.init n) ds = some w.s) ∧
      ∀ i, own i = true → ∃ ds, Link.run Link.init ds = some ⟨w.e.c i, w.s.c i, w.up i, w.down i⟩ :=
  ⟨(reach h).e, (reach h).s, (reach h).l⟩

/-- C125: the server gets the requests of the endpoint, each at most once, on whichever connection, and nothing else on the endpoint's
connections; and for each there is at most one handler. -/
theorem C125_once (hR : 0 < R) (h : run R cap own (init n) cs = some w) (hy : Endpoint.Young w.e) :
    (∀ q q' r, Is own w q r → Is own w q' r → q = q') ∧ (∀ q r r', Is own w q r → Is own w q r' → r = r') ∧
      (∀ q, q < w.s.m → own (w.s.conn q) = true → ∃ r, Is own w q r ∧ Endpoint.TakenBy w.e r (w.s.conn q)) ∧ w.s.p.spawned.Nodup := by
  obtain ⟨⟨ds, he, hp⟩, ⟨ss, hs⟩, hl, ho⟩ := reach h
  have hv := Served.inv_run (Served.inv_init n) hs
  have hw := (Endpoint.reach hR he).2
  refine ⟨?_, ?_, ?_, hv.pi.nodup⟩
  · rintro q q' r ⟨h1, h2, id, f, h3⟩ ⟨g1, g2, id', f', g3⟩
    have hc := (C121_written_once hR he r).1 _ _ _ _ _ _ (List.mem_of_getElem? h3) (List.mem_of_getElem? g3)
    obtain ⟨ls, hls⟩ := hl _ h2
    rw [← hc] at g3
    have hk : w.s.key q = w.s.key q' := Link.C96_sent_once hls (hy _) h3 g3
    rw [← (hv.lt1 q h1).2, ← (hv.lt1 q' g1).2, hc, hk]
  · rintro q r r' ⟨_, _, id, f, h3⟩ ⟨_, _, id', f', g3⟩
    rw [h3] at g3
    cases g3
    rfl
  · intro q h1 h2
    obtain ⟨ls, hls⟩ := hl _ h2
    obtain ⟨r, f, h3⟩ := (Link.C96_in_order hls (hy _)).1 (w.s.key q) (hv.lt1 q h1).1
    exact ⟨r, ⟨h1, h2, _, f, h3⟩, hw.wire _ _ _ _ (List.mem_of_getElem? h3)⟩

/-- C125: what the caller gets is what the server answered to this very request, sent with its body; if the handler answered, it is what it
returned for this request. -/
theorem C125_answer (hR : 0 < R) (h : run R cap own (init n) cs = some w) (hy : Endpoint.Young w.e) {i r id k : Nat}
    (ha : (w.e.c i).ans r = some (.response id k)) :
    ∃ q src code, Is own w q r ∧ w.s.conn q = i ∧ w.s.key q = k ∧ (w.e.c i).wire[k]? = some (id, r, true) ∧ Gave w q src code ∧
      (src = .handler → w.s.p.out q = some (.returned code)) := by
  obtain ⟨⟨ds, he, hp⟩, ⟨ss, hs⟩, hl, ho⟩ := reach h
  obtain ⟨h1, _⟩ := C121_response_partial hR he (hp hy) hy ha
  have hi := ho r i h1
  obtain ⟨ls, hls⟩ := hl i hi
  obtain ⟨_, _, ⟨f, h4⟩, h5⟩ := Link.C96_own hls (hy i) ha
  simp only [pair] at h4 h5
  obtain ⟨q, src, code, g1, g2, g3, g4, g5, g6⟩ := (Served.C123_own (i := i) hs).2 id k h5
  have hf : f = true := by
    cases f with
    | true => rfl
    | false =>
      have := ((Link.reach hls (hy i)).c.wireId r id false (List.mem_of_getElem? h4)).2 rfl
      simp only [pair] at this
      rw [ha] at this
      cases this
  subst hf
  refine ⟨q, src, code, ⟨g1, by rw [g2]; exact hi, id, true, by rw [g2, g3]; exact h4⟩, g2, g3, h4, g5, g6⟩

/-- C125: two calls never get the same response. -/
theorem C125_distinct (hR : 0 < R) (h : run R cap own (init n) cs = some w) (hy : Endpoint.Young w.e) {i r r' id id' k : Nat}
    (ha : (w.e.c i).ans r = some (.response id k)) (hb : (w.e.c i).ans r' = some (.response id' k)) : r = r' := by
  obtain ⟨q, _, _, _, _, _, h1, _⟩ := C125_answer hR h hy ha
  obtain ⟨q', _, _, _, _, _, h2, _⟩ := C125_answer hR h hy hb
  rw [h1] at h2
  cases h2
  rfl

/-- C125: no response makes a connection of the endpoint panic, and no request comes with an id that is in flight. -/
theorem C125_no_panic (h : run R cap own (init n) cs = some w) (hy : Endpoint.Young w.e) {i : Nat} (hi : own i = true) :
    (w.e.c i).rp ≠ .panicked ∧ (w.e.c i).cp ≠ .panicked ∧ Serv.Polite (w.s.c i) := by
  obtain ⟨ls, hls⟩ := (reach h).l i hi
  have h1 := Link.C96_no_panic hls (hy i)
  exact ⟨h1.1, h1.2, (Link.C96_in_order hls (hy i)).2⟩

/-- C125: when the queue is at rest and empty and every connection that received something has ended, then every request whose `Send` has
returned, and which is not queued behind one whose `Send` has not, is answered; whatever the server did. -/
theorem C125_end (hR : 0 < R) (h : run R cap own (init n) cs = some w) (hy : Endpoint.Young w.e) (hq : Endpoint.Quiet w.e)
    (hc : w.e.b.chan = []) (hh : w.e.hand = none) (hend : ∀ r i, Endpoint.TakenBy w.e r i → (w.e.c i).cp = .ended)
    {r : Nat} (hs : Endpoint.Sent w.e r) (hb : ¬ Buffer.Behind w.e.b.log r) : Endpoint.Answered w.e r := by
  obtain ⟨ds, he, hp⟩ := (reach h).e
  exact C121_end_partial hR he (hp hy) hy hq hc hh hend hs hb

/-- C125: when the server's side of a connection has ended without an error and the client has read everything, each request which the
server received on it has been answered by the server, and its caller has got the answer, or had given up. -/
theorem C125_graceful (h : run R cap own (init n) cs = some w) (hy : Endpoint.Young w.e) {q r : Nat} (hq : Is own w q r)
    (hw : (w.s.c (w.s.conn q)).wp = .done false) (hd : w.down (w.s.conn q) = (w.s.c (w.s.conn q)).wire.length)
    (hr : (w.e.c (w.s.conn q)).rp = .read) :
    (∃ src code, Gave w q src code) ∧
      ((∃ id, (w.e.c (w.s.conn q)).ans r = some (.response id (w.s.key q))) ∨ (w.e.c (w.s.conn q)).ans r = some .other) := by
  obtain ⟨h1, h2, id, f, h3⟩ := hq
  obtain ⟨_, ⟨ss, hs⟩, hl, _⟩ := reach h
  have hv := Served.inv_run (Served.inv_init n) hs
  obtain ⟨ls, hls⟩ := hl _ h2
  have h4 := Served.C123_all_partial hs (Link.C96_in_order hls (hy _)).2 hw h1 rfl
  refine ⟨?_, ?_⟩
  · cases e : w.s.p.ans q with
    | none => exact absurd e h4.2
    | some a => exact ⟨a.1, a.2, e⟩
  · rcases Link.C96_answered hls (hy _) hw hd hr (hv.lt1 q h1).1 h3 with e | e
    · exact .inl ⟨id, e⟩
    · exact .inr e

/-- C125_parts, C125_once, C125_answer, C125_no_panic: the session. -/
example : ∃ w, run 4 4 two (init 2) session = some w ∧ ((w.e.c 0).ans 0 = some (.response 1 0) ∧ (w.e.c 0).ans 2 = some (.response 2 1) ∧
    (w.e.c 1).ans 1 = some .other ∧ w.s.p.ans 3 = some (.handler, 6) ∧ w.s.conn 3 = 0 ∧ w.s.key 3 = 1 ∧ w.s.m = 4 ∧
    w.s.p.spawned = [3, 2, 1, 0] ∧ w.s.conn 1 = 2 ∧ (w.e.c 0).wire = [(1, 0, true), (2, 2, true)]) := by
  apply Whole.any_some (p := fun w => (w.e.c 0).ans 0 = some (.response 1 0) ∧ (w.e.c 0).ans 2 = some (.response 2 1) ∧
    (w.e.c 1).ans 1 = some .other ∧ w.s.p.ans 3 = some (.handler, 6) ∧ w.s.conn 3 = 0 ∧ w.s.key 3 = 1 ∧ w.s.m = 4 ∧
    w.s.p.spawned = [3, 2, 1, 0] ∧ w.s.conn 1 = 2 ∧ (w.e.c 0).wire = [(1, 0, true), (2, 2, true)])
  decide +kernel

example : session.length ≤ Conn.M - 2 := by decide +kernel

/-- C125_end: both connections end after the session, and the queue is at rest. -/
example : ∃ w, run 4 4 two (init 2) (session ++ ending) = some w ∧ (w.e.b.loop = .wait ∧ w.e.b.sig = false ∧ w.e.b.chan = [] ∧
    w.e.hand = none ∧ (w.e.c 0).cp = .ended ∧ (w.e.c 1).cp = .ended ∧ w.e.got = [(2, some 0), (1, some 1), (0, some 0)] ∧
    .ret 0 ∈ w.e.b.log ∧ .ret 1 ∈ w.e.b.log ∧ .ret 2 ∈ w.e.b.log) := by
  apply Whole.any_some (p := fun w => w.e.b.loop = .wait ∧ w.e.b.sig = false ∧ w.e.b.chan = [] ∧
    w.e.hand = none ∧ (w.e.c 0).cp = .ended ∧ (w.e.c 1).cp = .ended ∧ w.e.got = [(2, some 0), (1, some 1), (0, some 0)] ∧
    .ret 0 ∈ w.e.b.log ∧ .ret 1 ∈ w.e.b.log ∧ .ret 2 ∈ w.e.b.log)
  decide +kernel

/-- C125_graceful: the server ends its connection after two requests, and the client goes on reading. -/
example : ∃ w, run 4 4 two (init 2) (session ++ closing) = some w ∧ ((w.s.c 0).wp = .done false ∧ w.down 0 = 2 ∧
    (w.s.c 0).wire = [.resp 1 0, .resp 2 1] ∧ (w.e.c 0).rp = .read ∧ w.s.conn 3 = 0 ∧ w.s.m = 4) := by
  apply Whole.any_some (p := fun w => (w.s.c 0).wp = .done false ∧ w.down 0 = 2 ∧
    (w.s.c 0).wire = [.resp 1 0, .resp 2 1] ∧ (w.e.c 0).rp = .read ∧ w.s.conn 3 = 0 ∧ w.s.m = 4)
  decide +kernel

end Verif.Props
