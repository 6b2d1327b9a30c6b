import Verif.Proofs.ByteLink
import Verif.Props.Link
/-!
Theorems about a client and a server connection joined by streams of bytes (C114).
-/
namespace Verif.ByteLink
open Verif.Net

instance (c : Conn.St) : Decidable (Conn.Young c) := inferInstanceAs (Decidable (_ ≤ _))

instance (b : St) : Decidable b.drained := inferInstanceAs (Decidable (_ ∧ _))

theorem any_some {o : Option St} {p : St → Prop} [DecidablePred p] (h : (o.any fun s => p s) = true) :
    ∃ s, o = some s ∧ p s := by
  cases o with
  | none => cases h
  | some s => exact ⟨s, rfl, of_decide_eq_true h⟩

theorem sent_wire (e : Env) (c : UInt32) : Misc.wireCode e.map c = e.sent c := by
  unfold Misc.wireCode Env.sent
  simp only [Misc.RcKindMask, Misc.RcInternal, Misc.RcFatal, beq_iff_eq]
  split
  · cases e.map with
    | none => rfl
    | some m =>
      simp only [Misc.RCMap.get, Option.bind_some]
      obtain ⟨o, ho⟩ : ∃ o, m.lookup c = o := ⟨_, rfl⟩
      cases o with
      | none => simp [ho]
      | some v => by_cases hv : v = 0 <;> simp [ho, hv]
  · rfl

theorem carry_eq (e : Env) (c : UInt32) : e.rc.width.carry c = e.carried c := by
  unfold Env.carried
  cases e.rc <;> rfl

section
variable {e : Env} {dial : Bool} {cs : List Choice} {b : St}

theorem ans_lk (f : Nat → Nat) {b : St} {r i d : Nat} (h : b.c.ans r = some (.response i d)) :
    (lk f b).c.ans r = some (.response i (f d)) := by
  simp [lk, rename, h, rAns]

/-- C114: no response makes the client panic. -/
theorem C114_no_panic_partial (he : e.Fits) (hc : Sane e dial cs) (h : run e (init dial) cs = some b) (hy : Conn.Young b.c) :
    b.c.rp ≠ .panicked ∧ b.c.cp ≠ .panicked := by
  obtain ⟨cs', hl⟩ := (sim_reach he hc h hy).link
  obtain ⟨h1, h2⟩ := Link.C96_no_panic hl hy
  refine ⟨fun h' => h1 ?_, h2⟩
  simp [lk, rename, h', rRp]

/-- C114: what the server's handler sees of its k-th request, at any later time, is the type and the body of the k-th request
written by the client; the body is missing if the request was answered before its header was made. -/
theorem C114_requests_partial (he : e.Fits) (hc : Sane e dial cs) (h : run e (init dial) cs = some b) (hy : Conn.Young b.c)
    {k : Nat} {q : Spec.ReqMsg} (hk : b.seen k = some q) :
    ∃ i r x, b.c.wire[k]? = some (i, r, x) ∧ q.msg = e.msg r ∧ q.id.toNat = i ∧
      (x = true → q.body = e.body r) ∧ (x = false → q.body = []) := by
  have hsim := sim_reach he hc h hy
  have g := sim_inv hsim hy
  obtain ⟨_, fs, n, hb⟩ := hsim
  have h1 : (b.got.map (fun q => (⟨q.msg, q.id, b.sr.mem.view q.body⟩ : Spec.ReqMsg)))[k]? = some q := by
    rw [List.getElem?_map]
    exact hk
  rw [hb.got] at h1
  have hpre : (fs.take n).filter real <+: fs.filter real := by
    refine ⟨(fs.drop n).filter real, ?_⟩
    rw [← List.filter_append, List.take_append_drop]
  obtain ⟨t, ht⟩ := hpre
  have h2 : (fs.filter real)[k]? = some q := by
    rw [← ht]
    exact Link.getElem?_grow h1
  rw [hb.fsw, List.getElem?_map] at h2
  obtain ⟨⟨i, r, x⟩, h3, rfl⟩ := Option.map_eq_some_iff.mp h2
  refine ⟨i, r, x, h3, rfl, wire_id g (List.mem_of_getElem? h3), ?_, ?_⟩ <;> intro hx <;> subst hx <;> rfl

/-- C114: a request answered with a response was received by the server, as number `k`, with its type and its whole body; and
the response which the client sees has the code and the body which the handler gave for it, and nobody else's. -/
theorem C114_end_to_end_partial (he : e.Fits) (hc : Sane e dial cs) (h : run e (init dial) cs = some b) (hy : Conn.Young b.c)
    {r i d : Nat} (ha : b.c.ans r = some (.response i d)) :
    ∃ k id, b.c.wire[k]? = some (i, r, true) ∧ b.seen k = some ⟨e.msg r, id, e.body r⟩ ∧
      b.read d = some ⟨e.msg r, id, e.carried (e.sent (e.code k)), e.answer k⟩ ∧ id.toNat = i := by
  have hsim := sim_reach he hc h hy
  have g := sim_inv hsim hy
  obtain ⟨⟨cs', hl⟩, fs, n, hb⟩ := hsim
  obtain ⟨h1, h2, ⟨x, h3⟩, h4⟩ := Link.C96_own hl hy (ans_lk _ ha)
  have hx : x = true := by
    cases x with
    | true => rfl
    | false =>
      have := (g.c.wireId r i false (List.mem_of_getElem? h3)).2 rfl
      rw [ans_lk _ ha] at this
      cases this
  subst hx
  have hid := wire_id g (List.mem_of_getElem? h3)
  -- the frame which the client has read
  obtain ⟨q, hq, hqi, hqp⟩ := (took_reach h).ans r i d ha
  have hdl : d < b.back.length := (List.getElem?_eq_some_iff.mp hq).1
  have hle : b.back.length ≤ b.s.wire.length := g.down
  have hm : b.s.wire[d]? = some b.s.wire[d] := List.getElem?_eq_getElem (by omega)
  generalize b.s.wire[d] = m at hm
  have hread : b.read d = some (Spec.received e.rc.width (rs e b.got m)) := by
    have e1 := congrArg (·[d]?) hb.back
    simp only [List.getElem?_map, List.getElem?_take, if_pos hdl, hm, Option.map_some] at e1
    exact e1
  have hfl : m ∈ Serv.flow b.s := by
    unfold Serv.flow
    simp [List.mem_of_getElem? hm]
  have hqm : Spec.received e.rc.width (rs e b.got m) = ⟨q.msg, q.id, q.code, b.cr.mem.view q.body⟩ := by
    simp only [St.read, hq, Option.map_some, Option.some.injEq] at hread
    exact hread.symm
  cases m with
  | pong j =>
    exfalso
    have hj := hb.pings j (g.s.pong1 j hfl)
    refine hqp ⟨?_, ?_⟩
    · have := congrArg Spec.RespMsg.id hqm
      rw [← show (Spec.received e.rc.width (rs e b.got (.pong j))).id = q.id from this]
      simp only [Spec.received, rs, response, specResp]
      rw [hj.1]
      rfl
    · have := congrArg Spec.RespMsg.msg hqm
      rw [← show (Spec.received e.rc.width (rs e b.got (.pong j))).msg = q.msg from this]
      rfl
  | resp i' k =>
    have hk : names b.s.wire d = k := by simp [names, hm]
    rw [hk] at h1 h2 h3 h4
    obtain ⟨_, _, r', x', h5, _⟩ := Link.item_wire g (List.mem_of_getElem? hm)
    have h6 : b.c.wire[k]? = some (i, r, true) := h3
    have h7 : b.c.wire[k]? = some (i', r', x') := h5
    rw [h6] at h7
    cases h7
    have hkl : k < b.got.length := item_lt g hfl
    have hseen : b.seen k = some ⟨b.got[k].msg, b.got[k].id, b.sr.mem.view b.got[k].body⟩ := by
      simp [St.seen, hkl]
    obtain ⟨i2, r2, x2, h8, h9, h10, h11, _⟩ := C114_requests_partial he hc h hy hseen
    rw [h6] at h8
    cases h8
    have hid2 : b.got[k].id = UInt32.ofNat i := by
      apply UInt32.toNat_inj.mp
      rw [hid]
      exact h10
    refine ⟨k, UInt32.ofNat i, h6, ?_, ?_, hid⟩
    · rw [hseen]
      simp only at h9
      rw [h9, hid2, show b.sr.mem.view b.got[k].body = e.body r from h11 rfl]
    · rw [hread]
      have hmsg : (rs e b.got (.resp i k)).msg = e.msg r := by
        simp only at h9
        simp [rs, response, specResp, hkl, h9]
      have hnp := rs_msg hb (i := i) (j := k)
      simp only [Spec.received, if_neg hnp, Option.some.injEq]
      rw [hmsg, show (rs e b.got (.resp i k)).code = Misc.wireCode e.map (e.code k) from rfl, sent_wire, carry_eq]
      rfl

/-- C114: a response answers one request only. -/
theorem C114_once_partial (he : e.Fits) (hc : Sane e dial cs) (h : run e (init dial) cs = some b) (hy : Conn.Young b.c)
    {r r' i i' d : Nat} (ha : b.c.ans r = some (.response i d)) (hb : b.c.ans r' = some (.response i' d)) : r = r' := by
  obtain ⟨cs', hl⟩ := (sim_reach he hc h hy).link
  exact Link.C96_once hl hy (ans_lk _ ha) (ans_lk _ hb)

/-- C114: when the server's write loop has ended without an error and the client has read every byte, every request which the
server has received is answered: with its response, or because its owner gave up. -/
theorem C114_answered_partial (he : e.Fits) (hc : Sane e dial cs) (h : run e (init dial) cs = some b) (hy : Conn.Young b.c)
    (hw : b.s.wp = .done false) (hd : b.drained) (hr : b.c.rp = .read) {k r i : Nat} {f : Bool} (hk : k < b.s.n)
    (hi : b.c.wire[k]? = some (i, r, f)) : (∃ d, b.c.ans r = some (.response i d)) ∨ b.c.ans r = some .other := by
  have hsim := sim_reach he hc h hy
  obtain ⟨⟨cs', hl⟩, fs, n, hb⟩ := hsim
  have hall : b.back.length = b.s.wire.length := by
    obtain ⟨d1, d2, d3⟩ := hd
    have h1 := hb.down.str
    have h2 : b.cr.stream = [] := by
      simp only [SR.stream, d2, d3, List.append_nil]
    rw [h2, d1, List.take_length, List.append_nil, hb.sfl hw, (hb.sw (by rw [hw]; simp [alive])).abs] at h1
    have h3 := hb.down.le
    rw [List.length_map] at h3
    apply Classical.byContradiction
    intro hne
    have hlt : b.back.length < (b.s.wire.map (rs e b.got)).length := by rw [List.length_map]; omega
    have h4 := congrArg List.length h1
    conv at h4 => rhs; rw [← List.take_append_drop b.back.length (b.s.wire.map (rs e b.got)), List.drop_eq_getElem_cons hlt]
    simp only [List.map_append, List.map_cons, List.flatten_append, List.flatten_cons, List.length_append] at h4
    have h5 : 12 ≤ (Spec.respFrame e.rc.width (b.s.wire.map (rs e b.got))[b.back.length]).length := by
      simp [Spec.respFrame, Spec.le32]
    omega
  have := Link.C96_answered hl hy hw hall (rRp_read.mpr hr) hk hi
  rcases this with h' | h'
  · left
    simp only [lk, rename, Option.map_eq_some_iff] at h'
    obtain ⟨a, h1, h2⟩ := h'
    cases a with
    | response i' d =>
      simp only [rAns, Conn.Ans.response.injEq] at h2
      obtain ⟨rfl, _⟩ := h2
      exact ⟨d, h1⟩
    | _ => cases h2
  · right
    simp only [lk, rename, Option.map_eq_some_iff] at h'
    obtain ⟨a, h1, h2⟩ := h'
    cases a <;> first | exact h1 | cases h2

/-- C114: nothing stays on the way to the server: when the client's writer is flushed, its bytes have arrived, and the server's
read loop can read no further frame, then the server has received every request written. -/
theorem C114_received_partial (he : e.Fits) (hc : Sane e dial cs) (h : run e (init dial) cs = some b) (hy : Conn.Young b.c)
    (hok : b.cok = true) (hw : b.cw.wr = 0) (hn : b.upN = b.cw.conn.out.length) (hr : b.s.rp = .run)
    (hp : b.s.panicked = false) (hs : step e b .up = none) : b.got.length = b.c.wire.length := by
  obtain ⟨_, fs, n, hb⟩ := sim_reach he hc h hy
  exact up_all hb hok hw hn hr hp hs

/-- C114: nothing stays on the way back: when the server's write loop has ended without an error, its bytes have arrived, and
the client's read loop can read no further frame, then no byte is left. -/
theorem C114_drained_partial (he : e.Fits) (hc : Sane e dial cs) (h : run e (init dial) cs = some b) (hy : Conn.Young b.c)
    (hw : b.s.wp = .done false) (hn : b.downN = b.sw.conn.out.length) (hph : b.phase = .run) (hr : b.c.rp = .read)
    (hs : step e b .down = none) : b.drained := by
  obtain ⟨_, fs, n, hb⟩ := sim_reach he hc h hy
  have hrc : e.rc ≠ .rc1 := by
    rcases hc with h' | h'
    · rw [h']; simp
    · rw [h'.1]; simp
  have := (down_all hrc hb (by rw [hw]; simp [alive]) (hb.sfl hw) hn hph hr hs).2
  rw [SR.stream, List.append_eq_nil_iff] at this
  exact ⟨hn, this.1, this.2⟩

end

/-! ### Examples: two requests answered in the other order, their bytes delivered in odd pieces -/

def env : Env :=
  ⟨.rc0, fun r => 7 + UInt32.ofNat (r % 8), fun r => [UInt8.ofNat r, 9], fun _ => 0, fun k => [100 + UInt8.ofNat k], none⟩

def shake : List Choice :=
  [.dialPing, .arriveUp 5, .arriveUp 100, .up, .server .rl, .put none, .put none, .put none, .put none, .put none,
   .arriveDown 100, .dialPong]

def talk : List Choice :=
  [.client (.take 3), .client .header, .write none, .client (.take 4), .client .header, .write none, .flush none,
   .arriveUp 17, .up, .server .rl, .arriveUp 100, .up, .server .rl, .server (.call 1), .server (.begin 1), .server (.send 1),
   .put none, .put none, .server (.call 0), .server (.begin 0), .server (.send 0), .put none, .put none, .put none, .put none,
   .put none, .arriveDown 13, .down, .client .reply, .arriveDown 40, .down, .client .reply]

def over : List Choice := [.server .rErr, .server .rl, .server .ctl, .server .ctl, .put none, .put none]

theorem small : ∀ m, m < 8 → (7 : UInt32) + UInt32.ofNat m ≠ 0xFF00 := by decide

theorem env_fits : env.Fits :=
  ⟨fun r => ⟨small (r % 8) (Nat.mod_lt _ (by decide)), by simp [env]⟩, fun _ => by simp [env]⟩

-- Request 3 was first for the server and gets the answer of the handler to request number 0, which came second.
example : env.Fits ∧ Sane env true (shake ++ talk ++ over) ∧ ∃ b, run env (init true) (shake ++ talk ++ over) = some b ∧
    (Conn.Young b.c ∧ b.c.ans 3 = some (.response 1 2) ∧ b.c.ans 4 = some (.response 2 1) ∧
      b.seen 0 = some ⟨10, 1, [3, 9]⟩ ∧ b.read 2 = some ⟨10, 1, 0, [100]⟩ ∧ b.read 1 = some ⟨11, 2, 0, [101]⟩ ∧
      b.s.wp = .done false ∧ b.drained ∧
      b.c.rp = .read ∧ b.s.n = 2) := by
  refine ⟨env_fits, .inl rfl, any_some ?_⟩
  decide +kernel

-- Before the end nothing is on the way either.
example : ∃ b, run env (init true) (shake ++ talk) = some b ∧
    (Conn.Young b.c ∧ b.cok = true ∧ b.cw.wr = 0 ∧ b.upN = b.cw.conn.out.length ∧ b.s.rp = .run ∧ b.s.panicked = false ∧
      (step env b .up).isNone = true ∧ (step env b .down).isNone = true ∧ b.got.length = 2) := by
  refine any_some ?_
  decide +kernel

/-! ### Return codes of four bytes -/

def env4 : Env := ⟨.rc4, fun r => 7 + UInt32.ofNat (r % 8), fun r => [UInt8.ofNat r, 9], fun _ => 5, fun _ => [], none⟩

theorem env4_fits : env4.Fits :=
  ⟨fun r => ⟨small (r % 8) (Nat.mod_lt _ (by decide)), by simp [env4]⟩, fun _ => by simp [env4]⟩

def talk4 : List Choice :=
  [.client (.take 0), .client .header, .write none, .client (.take 1), .client .header, .write none,
   .client (.take 2), .client .header, .write none, .client (.take 3), .client .header, .write none, .flush none,
   .arriveUp 100, .up, .server .rl, .up, .server .rl, .up, .server .rl, .up, .server .rl,
   .server (.call 0), .server (.begin 0), .server (.send 0), .put none, .put none, .put none, .put none, .put none,
   .arriveDown 100, .down, .client .reply]

-- Without a handshake and without pings they work.
example : env4.Fits ∧ Sane env4 false talk4 ∧ ∃ b, run env4 (init false) talk4 = some b ∧
    (Conn.Young b.c ∧ b.c.ans 0 = some (.response 1 0) ∧ b.read 0 = some ⟨7, 1, 5, []⟩ ∧ b.c.ans 3 = none) := by
  refine ⟨env4_fits, .inr ⟨rfl, rfl, ?_⟩, any_some ?_⟩
  · intro k h
    simp [talk4] at h
  · decide +kernel

/-- C114 fails for return codes of four bytes after `Loop` has shaken hands: the pong has a code which its length does not
count (C08), the client leaves it in the stream, and every later frame is read four bytes early. Here the handler answers the
first of four requests, with code 5 and an empty body; the client takes this for the answer to the fourth, which no handler
has answered, with code 1 and three bytes; the first gets nothing. -/
theorem C114_rc4_handshake_violated : env4.Fits ∧ env4.rc = .rc4 ∧ (∀ k, Choice.ping k ∉ shake ++ talk4) ∧
    ∃ b, run env4 (init true) (shake ++ talk4) = some b ∧
      (Conn.Young b.c ∧ b.c.wire = [(1, 0, true), (2, 1, true), (3, 2, true), (4, 3, true)] ∧ b.s.rs 0 = .done ∧
        b.s.rs 3 = .sent ∧ b.c.ans 3 = some (.response 4 1) ∧ b.read 1 = some ⟨0, 4, 1, [5, 0, 0]⟩ ∧ b.c.ans 0 = none) := by
  refine ⟨env4_fits, rfl, ?_, any_some ?_⟩
  · intro k h
    simp [shake, talk4] at h
  · decide +kernel

/-! ### Return codes of one byte -/

def env1 : Env := ⟨.rc1, fun r => 7 + UInt32.ofNat (r % 8), fun r => [UInt8.ofNat r, 9], fun _ => 5,
  fun k => [100 + UInt8.ofNat k, 1, 2, 3], none⟩

theorem env1_fits : env1.Fits :=
  ⟨fun r => ⟨small (r % 8) (Nat.mod_lt _ (by decide)), by simp [env1]⟩, fun _ => by simp [env1]⟩

def talk1 : List Choice :=
  [.client (.take 0), .client .header, .write none, .flush none, .arriveUp 100, .up, .server .rl, .server (.call 0),
   .server (.begin 0), .server (.send 0), .put none, .put none, .put none, .put none, .put none, .arriveDown 100, .down,
   .client .reply, .client (.take 1), .client .header, .write none, .flush none, .arriveUp 100, .up, .server .rl,
   .server (.call 1), .server (.begin 1), .server (.send 1), .put none, .put none, .put none, .put none, .put none,
   .arriveDown 100]

/-- C114 fails for return codes of one byte, without handshake and pings too: `WriteByte` leaves three bytes after the code
(C05). Here the handler answers two requests, one after the other, with four bytes each, and all of it arrives. The caller of
the first gets the three stray bytes and the first byte of the answer; the caller of the second gets nothing, as the client
takes the rest of the first answer for the beginning of a header and waits for a body of 80 megabytes. -/
theorem C114_rc1_violated : env1.Fits ∧ env1.rc = .rc1 ∧ (∀ k, Choice.ping k ∉ talk1) ∧ env1.answer 0 = [100, 1, 2, 3] ∧
    ∃ b, run env1 (init false) talk1 = some b ∧
      (Conn.Young b.c ∧ b.c.wire = [(1, 0, true), (2, 1, true)] ∧ b.s.rs 0 = .done ∧ b.s.rs 1 = .done ∧ b.sw.wr = 0 ∧
        b.downN = b.sw.conn.out.length ∧ b.c.ans 0 = some (.response 1 0) ∧ b.read 0 = some ⟨7, 1, 5, [0, 0, 0, 100]⟩ ∧
        b.c.ans 1 = none ∧ b.c.rp = .read ∧ (step env1 b .down).isNone = true) := by
  refine ⟨env1_fits, rfl, ?_, rfl, any_some ?_⟩
  · intro k h
    simp [talk1] at h
  · decide +kernel

end Verif.ByteLink
