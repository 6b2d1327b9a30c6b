import Verif.Spec.Rpc
import Verif.Props.Iface
import Verif.Props.ByteLink

/-! C119: calls with typed arguments and results. -/
namespace Verif.Rpc
open Verif.Marshal Verif.Reflect Verif.Spec Verif.ByteLink

theorem write_layout {t : Ty} {v : Val} (h : Sendable t v) : marshalWrite (.val t v) = some (layout t v) := by
  have hw := Marshal.Wr.ok_new 512
  obtain ⟨w', h1, ok, e⟩ := Props.C18_layout_partial t h.1 v h.2.1 h.2.2 _ hw
  have hv := (Wr.written_spec w' ok).2.2.1
  simp only [marshalWrite, Iface.C99_write t v _ hw, h1, Option.map_some, hv, e]
  rfl

theorem read_layout {t : Ty} {v : Val} (h : Sendable t v) (rest : Bytes) : marshalRead t (layout t v ++ rest) = some (none, v) := by
  obtain ⟨x, hx, g⟩ := tr_ok t false h.1
  have := g.au rfl false v rest h.2.1 h.2.2
  simp only [marshalRead, Iface.C99_read_new t ⟨layout t v ++ rest, none⟩ rfl, Iface.slowR, hx, this, Option.map_some]

/-- C119, one process (partial: for values C18 covers). What `marshal.Write` makes of a value, `marshal.Read` makes the value again. -/
theorem C119_body_partial {t : Ty} {v : Val} (h : Sendable t v) :
    ∃ b, toBody (.val t v) = some b ∧ marshalRead t b = some (none, v) := by
  refine ⟨_, write_layout h, ?_⟩
  have := read_layout h []
  rwa [List.append_nil] at this

variable {s : Service} {e : Env} {dial : Bool} {cs : List Choice} {b : ByteLink.St} {x : Nat → Val} {r i d : Nat}

/-- C119 (partial: as C114, for arguments and results that C18 covers). If a call of the function `f` gets a response from the
server, it is a valid one, and its body read with the type of the result is `f` of the argument of this call. -/
theorem C119_call_partial (he : e.Fits) (hc : Sane e dial cs) (h : run e (init dial) cs = some b) (hy : Conn.Young b.c)
    (hs : Handles s e b) (hx : Called s e x r) (ha : Sendable (s.arg (e.msg r)) (x r))
    (hf : Sendable (s.res (e.msg r)) (s.f (e.msg r) (x r))) (hr : b.c.ans r = some (.response i d)) :
    ∃ q, b.read d = some q ∧ q.msg = e.msg r ∧ q.code = 0 ∧ marshalRead (s.res q.msg) q.body = some (none, s.f q.msg (x r)) := by
  obtain ⟨k, id, _, h1, h2, _⟩ := C114_end_to_end_partial he hc h hy hr
  have e1 : e.body r = layout (s.arg (e.msg r)) (x r) := by
    have := (write_layout ha).symm.trans hx
    exact (Option.some.inj this).symm
  have hread := read_layout ha []
  rw [List.append_nil, ← e1] at hread
  obtain ⟨hcode, hans⟩ := hs k _ _ h1 hread
  have e2 : e.answer k = layout (s.res (e.msg r)) (s.f (e.msg r) (x r)) := by
    have := (write_layout hf).symm.trans hans
    exact (Option.some.inj this).symm
  refine ⟨_, h2, rfl, ?_, ?_⟩
  · have : e.sent 0 = 0 := by simp [Env.sent]
    rw [hcode, this]
    simp only [Env.carried]
    cases e.rc <;> rfl
  · have := read_layout hf []
    rwa [List.append_nil, ← e2] at this

/-- C119: the handler was called with the argument (partial as above). -/
theorem C119_argument_partial (he : e.Fits) (hc : Sane e dial cs) (h : run e (init dial) cs = some b) (hy : Conn.Young b.c)
    (hx : Called s e x r) (ha : Sendable (s.arg (e.msg r)) (x r)) (hr : b.c.ans r = some (.response i d)) :
    ∃ k q, b.seen k = some q ∧ q.msg = e.msg r ∧ marshalRead (s.arg q.msg) q.body = some (none, x r) := by
  obtain ⟨k, id, _, h1, _, _⟩ := C114_end_to_end_partial he hc h hy hr
  have e1 : e.body r = layout (s.arg (e.msg r)) (x r) := by
    have := (write_layout ha).symm.trans hx
    exact (Option.some.inj this).symm
  have hread := read_layout ha []
  rw [List.append_nil, ← e1] at hread
  exact ⟨k, _, h1, rfl, hread⟩

/-- C119, bodies as they are: if the request was made with a `Body`, the handler gets these bytes, and if the handler responds with a
`Body`, the caller gets those bytes. -/
theorem C119_raw_partial (he : e.Fits) (hc : Sane e dial cs) (h : run e (init dial) cs = some b) (hy : Conn.Young b.c)
    {q : Bytes} (hx : toBody (.body q) = some (e.body r)) {a : Nat → Bytes} (hs : ∀ k, toBody (.body (a k)) = some (e.answer k))
    (hr : b.c.ans r = some (.response i d)) :
    ∃ k id, b.seen k = some ⟨e.msg r, id, q⟩ ∧ ∃ c, b.read d = some ⟨e.msg r, id, c, a k⟩ := by
  obtain ⟨k, id, _, h1, h2, _⟩ := C114_end_to_end_partial he hc h hy hr
  have e1 : q = e.body r := Option.some.inj hx
  have e2 : a k = e.answer k := Option.some.inj (hs k)
  exact ⟨k, id, by rw [e1]; exact h1, _, by rw [e2]; exact h2⟩

/-! ### Example: a service which swaps the fields of `struct { A uint16; B string "size(ber)" }` -/

/-- Type 10: `struct { A uint16; B string "size(ber)" }` to `struct { B string "size(ber)"; A uint16 }`. -/
def swap : Service where
  arg _ := .struct (.cons (.use false .none) (.scal .u16) (.cons (.use false (.size .ber)) .str .nil))
  res _ := .struct (.cons (.use false (.size .ber)) .str (.cons (.use false .none) (.scal .u16) .nil))
  f _ v := match v with
    | .seq [a, b] => .seq [b, a]
    | v => v

/-- The arguments of the calls. -/
def args (r : Nat) : Val := .seq [.scal (.u16 (UInt16.ofNat (300 + r))), .str [UInt8.ofNat r, 66, 67]]

/-- What is sent; the server gets request 3 first and request 4 second. -/
def env : Env where
  rc := .rc0
  msg r := 7 + UInt32.ofNat (r % 8)
  body r := (toBody (.val (swap.arg 0) (args (r % 8)))).getD []
  code _ := 0
  answer k := (toBody (.val (swap.res 0) (swap.f 0 (args (3 + k % 2))))).getD []
  map := none

def talk : List Choice :=
  [.client (.take 3), .client .header, .write none, .client (.take 4), .client .header, .write none, .flush none,
   .arriveUp 19, .up, .server .rl, .arriveUp 100, .up, .server .rl, .server (.call 1), .server (.begin 1), .server (.send 1),
   .put none, .put none, .server (.call 0), .server (.begin 0), .server (.send 0), .put none, .put none, .put none, .put none,
   .put none, .arriveDown 17, .arriveDown 40, .down, .client .reply, .down, .client .reply]

theorem mod_all {p : Nat → Prop} {n : Nat} (hn : 0 < n) (h : ∀ r, r < n → p r) (r : Nat) : p (r % n) := h _ (Nat.mod_lt _ hn)

theorem env_fits : env.Fits := by
  refine ⟨fun r => ⟨small (r % 8) (Nat.mod_lt _ (by decide)), ?_⟩, fun k => ?_⟩
  · refine mod_all (p := fun r => ((toBody (.val (swap.arg 0) (args r))).getD []).length < 2 ^ 32) (n := 8) (by decide) ?_ r
    decide +kernel
  · refine mod_all (p := fun k => ((toBody (.val (swap.res 0) (swap.f 0 (args (3 + k))))).getD []).length + 4 < 2 ^ 32) (n := 2)
      (by decide) ?_ k
    decide +kernel

-- Both calls get what they asked for, and all hypotheses hold.
example : env.Fits ∧ Sane env true (shake ++ talk) ∧
    Called swap env args 3 ∧ Called swap env args 4 ∧ Sendable (swap.arg (env.msg 3)) (args 3) ∧
    Sendable (swap.res (env.msg 3)) (swap.f (env.msg 3) (args 3)) ∧
    ∃ b, run env (init true) (shake ++ talk) = some b ∧ Handles swap env b ∧
      (Conn.Young b.c ∧ b.c.ans 3 = some (.response 1 2) ∧ b.c.ans 4 = some (.response 2 1) ∧
        b.read 2 = some ⟨10, 1, 0, [3, 3, 66, 67, 47, 1]⟩) := by
  have hb : ∃ b, run env (init true) (shake ++ talk) = some b ∧
      (b.got.length = 2 ∧ b.seen 0 = some ⟨10, 1, [47, 1, 3, 3, 66, 67]⟩ ∧ b.seen 1 = some ⟨11, 2, [48, 1, 3, 4, 66, 67]⟩ ∧
        Conn.Young b.c ∧ b.c.ans 3 = some (.response 1 2) ∧ b.c.ans 4 = some (.response 2 1) ∧
        b.read 2 = some ⟨10, 1, 0, [3, 3, 66, 67, 47, 1]⟩) := by
    refine any_some ?_
    decide +kernel
  obtain ⟨b, h, h1, h2, h3, h4⟩ := hb
  refine ⟨env_fits, .inl rfl, ?_, ?_, ?_, ?_, b, h, ?_, h4⟩
  · unfold Called; decide +kernel
  · unfold Called; decide +kernel
  · simp [Sendable, swap, args, Sound, SoundFl, Fits, FitsFl, FitsDir, counted, codeSz, pay, fits, SizeOk, Scal.kind, width]
  · simp [Sendable, swap, args, Sound, SoundFl, Fits, FitsFl, FitsDir, counted, codeSz, pay, fits, SizeOk, Scal.kind, width]
  · intro k q v hk hv
    have hlt : k < 2 := by
      have : k < b.got.length := by
        simp only [ByteLink.St.seen, Option.map_eq_some_iff] at hk
        obtain ⟨_, hk, _⟩ := hk
        exact (List.getElem?_eq_some_iff.mp hk).1
      omega
    match k, hlt with
    | 0, _ =>
      rw [h2] at hk
      cases hk
      have e : marshalRead (swap.arg 10) [47, 1, 3, 3, 66, 67] = some (none, args 3) := by decide +kernel
      rw [e] at hv
      cases hv
      refine ⟨rfl, ?_⟩
      decide +kernel
    | 1, _ =>
      rw [h3] at hk
      cases hk
      have e : marshalRead (swap.arg 11) [48, 1, 3, 4, 66, 67] = some (none, args 4) := by decide +kernel
      rw [e] at hv
      cases hv
      refine ⟨rfl, ?_⟩
      decide +kernel

-- C119_raw_partial: the same talk with `Body`s.
example : env.Fits ∧ Sane env true (shake ++ talk) ∧ (toBody (.body (env.body 3)) = some (env.body 3)) ∧
    (∀ k, toBody (.body (env.answer k)) = some (env.answer k)) ∧
    ∃ b, run env (init true) (shake ++ talk) = some b ∧ (Conn.Young b.c ∧ b.c.ans 3 = some (.response 1 2)) := by
  refine ⟨env_fits, .inl rfl, rfl, fun _ => rfl, ?_⟩
  refine any_some ?_
  decide +kernel

end Verif.Rpc
