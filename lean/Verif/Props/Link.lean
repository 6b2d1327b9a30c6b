import Verif.Proofs.Link
/-!
Theorems about a client connection whose peer is a server connection of this library (C96).
-/
namespace Verif.Link

theorem any_some {o : Option St} {p : St → Prop} [DecidablePred p] (h : (o.any fun s => p s) = true) :
    ∃ s, o = some s ∧ p s := by
  cases o with
  | none => cases h
  | some s => exact ⟨s, rfl, of_decide_eq_true h⟩

theorem reach {cs : List Choice} {l : St} (h : run init cs = some l) (hy : Conn.Young l.c) : Inv l := inv_run inv_init h hy

/-- C96: no response makes the client panic. -/
theorem C96_no_panic {cs : List Choice} {l : St} (h : run init cs = some l) (hy : Conn.Young l.c) :
    l.c.rp ≠ .panicked ∧ l.c.cp ≠ .panicked := (reach h hy).c.noPanic

/-- C96: the server sees the requests in the order in which the client wrote them, with their ids; no id is in use twice. -/
theorem C96_in_order {cs : List Choice} {l : St} (h : run init cs = some l) (hy : Conn.Young l.c) :
    (∀ k, k < l.s.n → ∃ r f, l.c.wire[k]? = some (l.s.idOf k, r, f)) ∧ Serv.Polite l.s :=
  ⟨(reach h hy).ids, (reach h hy).fresh⟩

/-- C96: a request answered with a response is answered with what the server's handler gave for this very request: the
response is that to request number `k` of the server, and the `k`-th request written by the client is `r`, with the id of
the response. -/
theorem C96_own {cs : List Choice} {l : St} (h : run init cs = some l) (hy : Conn.Young l.c) {r i k : Nat}
    (ha : l.c.ans r = some (.response i k)) :
    k < l.s.n ∧ l.s.idOf k = i ∧ (∃ f, l.c.wire[k]? = some (i, r, f)) ∧ Serv.Item.resp i k ∈ l.s.wire := by
  have g := reach h hy
  have hm := g.ans r i k ha
  obtain ⟨h1, h2, r', f, h3, h4⟩ := item_wire g hm
  have := g.c.idInj r r' i (g.c.ansId r i k ha) h4
  subst this
  exact ⟨h1, h2, ⟨f, h3⟩, hm⟩

/-- C96: two requests never get the same response. -/
theorem C96_once {cs : List Choice} {l : St} (h : run init cs = some l) (hy : Conn.Young l.c) {r r' i i' k : Nat}
    (ha : l.c.ans r = some (.response i k)) (hb : l.c.ans r' = some (.response i' k)) : r = r' := by
  obtain ⟨_, _, ⟨f, h1⟩, _⟩ := C96_own h hy ha
  obtain ⟨_, _, ⟨f', h2⟩, _⟩ := C96_own h hy hb
  rw [h1] at h2
  cases h2
  rfl

/-- C96: the server gets each request at most once. -/
theorem C96_sent_once {cs : List Choice} {l : St} (h : run init cs = some l) (hy : Conn.Young l.c) {j k r i i' : Nat}
    {f f' : Bool} (hj : l.c.wire[j]? = some (i, r, f)) (hk : l.c.wire[k]? = some (i', r, f')) : j = k := by
  have g := reach h hy
  have h1 := (g.c.wireId r i f (List.mem_of_getElem? hj)).1
  have h2 := (g.c.wireId r i' f' (List.mem_of_getElem? hk)).1
  rw [h1] at h2
  cases h2
  exact wire_inj g.c hj hk

/-- When the client has read everything, and the response was written, the request is answered. -/
theorem read_all {cs : List Choice} {l : St} (h : run init cs = some l) (hy : Conn.Young l.c) (hd : l.down = l.s.wire.length)
    (hr : l.c.rp = .read) {k r i : Nat} {f : Bool} (hi : l.c.wire[k]? = some (i, r, f))
    (hitem : Serv.Item.resp (l.s.idOf k) k ∈ l.s.wire) : l.c.ans r = some (.response i k) ∨ l.c.ans r = some .other := by
  have g := reach h hy
  obtain ⟨_, hid, r', f', hw', _⟩ := item_wire g hitem
  rw [hi] at hw'
  simp only [Option.some.injEq, Prod.mk.injEq] at hw'
  obtain ⟨e1, e2, _⟩ := hw'
  subst e2
  rw [← e1] at hitem hid
  have hrem : i ∈ l.c.removed := by
    rw [g.rem i, hd, List.take_length]
    exact ids_mem.mpr ⟨k, hitem⟩
  have hidr := (g.c.wireId r i f (List.mem_of_getElem? hi)).1
  have hfly : l.c.rs r ≠ .inFly := by
    intro e
    obtain ⟨c, e'⟩ := g.c.remFly r i hrem hidr e
    rw [hr] at e'
    cases e'
  have hperf : l.c.rs r = .performed := by
    have := g.c.idTaken r i hidr
    cases e : l.c.rs r <;> simp_all
  cases e : l.c.ans r with
  | none => exact absurd e (g.c.perfAns r hperf)
  | some a =>
    cases a with
    | other => exact .inr rfl
    | flushed c =>
      have := (g.c.ansFl r c e).1
      rcases g.c.cpLoop with h' | ⟨_, h'⟩
      · exact absurd h' this
      · rw [hr] at h'; cases h'
    | response i' k' =>
      obtain ⟨_, _, ⟨f'', h'⟩, _⟩ := C96_own h hy e
      have := C96_sent_once h hy hi h'
      subst this
      rw [hi] at h'
      cases h'
      exact .inl rfl

/-- C96: when the server's write loop has ended without an error and the client has read everything, every request which the
server has received is answered: with its response, or because its owner gave up. -/
theorem C96_answered {cs : List Choice} {l : St} (h : run init cs = some l) (hy : Conn.Young l.c)
    (hw : l.s.wp = .done false) (hd : l.down = l.s.wire.length) (hr : l.c.rp = .read) {k r i : Nat} {f : Bool} (hk : k < l.s.n)
    (hi : l.c.wire[k]? = some (i, r, f)) : l.c.ans r = some (.response i k) ∨ l.c.ans r = some .other := by
  have g := reach h hy
  have hitem : Serv.Item.resp (l.s.idOf k) k ∈ l.s.wire := by
    obtain ⟨f1, f2, f3, f4⟩ := g.s.fin (.inr hw)
    have w1 : l.s.wp ≠ .fin true := by rw [hw]; simp
    have w2 : l.s.wp ≠ .done true := by rw [hw]; simp
    have h1 := g.full.fly g.fresh w1 w2 k
    have h2 := g.full.dn g.fresh w1 w2 k
    have h3 := g.full.known k hk
    have h4 := g.s.lock2 k
    unfold Serv.flow at h2
    rw [f2] at h1
    rw [f3, hw] at h2
    rw [f4] at h4
    cases e : l.s.rs k with
    | new => exact absurd e h3
    | sent => exact absurd (h1 (.inl e)) (by simp)
    | called => exact absurd (h1 (.inr e)) (by simp)
    | busy => exact absurd (h4 e) (by simp)
    | done => simpa [Serv.held] using h2 e
  exact read_all h hy hd hr hi hitem

/-- Request `r` is sent. -/
def send (r : Nat) : List Choice := [.client (.take r), .client .header, .client (.wrote true)]

/-- Two requests are sent and received; the second is answered first; the owner of the first gives up; everything ends. -/
def session : List Choice :=
  send 5 ++ send 9 ++ [.up, .server .rl, .up, .server .rl, .server (.call 1), .server (.begin 1), .server (.send 1), .server .wl,
    .server .wl, .down, .client .reply, .client (.fail 5), .server .rErr, .server .rl, .server .ctl, .server .ctl, .server .ctl,
    .server (.call 0), .server (.begin 0), .server (.send 0), .server .wl, .server .wl, .server .wl, .server .wl, .server .wl,
    .server .wl, .down, .client .reply]

/-- C96: the hypotheses of `C96_own` and `C96_answered` can be met. -/
example : ∃ l, run init session = some l ∧ (l.c.h.got ≤ 2 ∧ l.c.ans 9 = some (.response 2 1) ∧ l.c.ans 5 = some .other ∧
    l.s.wp = .done false ∧ l.down = l.s.wire.length ∧ l.c.rp = .read ∧ l.s.n = 2 ∧ l.c.wire = [(1, 5, true), (2, 9, true)]) := by
  apply any_some (p := fun l : St => l.c.h.got ≤ 2 ∧ l.c.ans 9 = some (.response 2 1) ∧ l.c.ans 5 = some .other ∧
    l.s.wp = .done false ∧ l.down = l.s.wire.length ∧ l.c.rp = .read ∧ l.s.n = 2 ∧ l.c.wire = [(1, 5, true), (2, 9, true)])
  decide +kernel

end Verif.Link
