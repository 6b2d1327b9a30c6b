import Verif.Proofs.Streams
/-
Properties C01, C02, C03, C04, C05, C06, C08: the wire layer.
-/
namespace Verif.Props
open Verif Verif.Net

/-- What the application sees of a received request: the body bytes as they are in the memory of
the reader at the end of the run (so later reads must not have damaged them). -/
def seenReq (r : SR) (q : Req Slc) : Spec.ReqMsg := ⟨q.msg, q.id, r.mem.view q.body⟩
def seenResp (r : SR) (q : Resp Slc) : Spec.RespMsg := ⟨q.msg, q.id, q.code, r.mem.view q.body⟩

/-- The sender's side of C01/C05/C06: a connection that never fails, a fresh writer. -/
def freshWriter : BufW := BufW.init ⟨[], none⟩

/-! ### C02 -/

/-- Calls a user of the buffered writer can make. -/
inductive WOp
  | write (b : Bytes) | u32 (x : UInt32) | u32x3 (x y z : UInt32) | flush

def WOp.run (w : BufW) : WOp → BufW × Out Unit
  | .write b => w.write b
  | .u32 x => w.writeUint32 x
  | .u32x3 x y z => w.write3Uint32 x y z
  | .flush => w.flush

/-- The bytes a call submits. -/
def WOp.bytes : WOp → Bytes
  | .write b => b
  | .u32 x => Spec.le32 x
  | .u32x3 x y z => Spec.le32 x ++ Spec.le32 y ++ Spec.le32 z
  | .flush => []

/-- Run calls until the first failure. -/
def runW : List WOp → BufW → BufW × Out Unit
  | [], w => (w, .ok ())
  | o :: os, w => match o.run w with
    | (w', .ok ()) => runW os w'
    | p => p

/-- **C02.** For every sequence of calls and every behaviour of the connection (failing after any
number of bytes or never): no call indexes outside the buffer; as long as nothing failed, delivered
bytes followed by buffered bytes are the submitted bytes; if the connection failed, what was
delivered is a prefix of what was submitted; without connection failures nothing fails. -/
theorem C02_buffered_writer_transparent (conn : Conn) (ops : List WOp) (w : BufW) (o : Out Unit)
    (h : runW ops (BufW.init conn) = (w, o)) :
    o ≠ .panic ∧
    (o = .ok () → w.conn.out ++ w.buf.take w.wr = conn.out ++ (ops.map WOp.bytes).flatten) ∧
    (o ≠ .ok () → w.conn.out <+: conn.out ++ (ops.map WOp.bytes).flatten) ∧
    (conn.budget = none → o = .ok ()) := by
  have key : ∀ (ops : List WOp) (w0 : BufW), w0.Inv → BufW.Post w0 (ops.map WOp.bytes).flatten
      (runW ops w0) := by
    intro ops
    induction ops with
    | nil => intro w0 hi; exact ⟨hi, by simp, fun h => h, List.prefix_rfl⟩
    | cons op ops ih =>
      intro w0 hi
      have h1 : BufW.Post w0 op.bytes (op.run w0) := by
        cases op with
        | write b => exact BufW.write_post w0 b hi
        | u32 x => simp only [WOp.bytes, le32_eq]; exact BufW.writeUint32_post w0 x hi
        | u32x3 x y z => simp only [WOp.bytes, le32_eq]; exact BufW.write3Uint32_post w0 x y z hi
        | flush => exact (BufW.flush_post w0 hi).1
      have h2 := BufW.post_seq (d2 := (ops.map WOp.bytes).flatten) (f := runW ops) h1
        (fun w' hi' => ih w' hi')
      rw [runW]
      have : BufW.andThen (op.run w0) (runW ops) = (match op.run w0 with
        | (w', .ok ()) => runW ops w' | p => p) := by
        unfold BufW.andThen
        rcases op.run w0 with ⟨w', _ | _ | _⟩ <;> rfl
      rw [← this]
      simpa using h2
  have hp := key ops (BufW.init conn) (BufW.init_inv conn)
  rw [h] at hp
  cases o with
  | ok u =>
    obtain ⟨_, h2, _⟩ := hp
    rw [BufW.init_abs] at h2
    exact ⟨by simp, fun _ => h2, by simp, fun _ => rfl⟩
  | err e =>
    obtain ⟨h1, h2, _⟩ := hp
    rw [BufW.init_abs] at h2
    exact ⟨by simp, by simp, fun _ => h2, fun h => absurd h h1⟩
  | panic => exact hp.elim

theorem putByte_post (w : BufW) (i : UInt8) (hi : w.Inv) (h : w.wr + 4 ≤ w.buf.length) :
    ∃ w' x y z, w.putByte i = (w', .ok ()) ∧ w'.Inv ∧ w'.abs = w.abs ++ [i, x, y, z] := by
  have hd : ∃ x y z l, w.buf.drop (w.wr + 1) = x :: y :: z :: l := by
    match hm : w.buf.drop (w.wr + 1) with
    | x :: y :: z :: l => exact ⟨x, y, z, l, rfl⟩
    | [] | [_] | [_, _] => have := congrArg List.length hm; simp at this; omega
  obtain ⟨x, y, z, l, hd⟩ := hd
  have ho : overwrite w.buf w.wr [i] = overwrite w.buf w.wr [i, x, y, z] := by
    have : w.buf.drop (w.wr + 4) = l := by
      have := congrArg (List.drop 3) hd
      simpa [List.drop_drop, Nat.add_assoc] using this
    simp [overwrite, hd, this]
  have hp := BufW.put_post w [i, x, y, z] hi (by simpa using h)
  simp only [BufW.put, List.length_cons, List.length_nil, Nat.zero_add, Nat.reduceAdd, h, if_true] at hp
  refine ⟨_, x, y, z, ?_, hp.1, hp.2.1⟩
  simp only [BufW.putByte, show w.wr < w.buf.length by omega, if_true, ho]

/-- C05, C02 with `WriteByte`: after any calls, on a connection that does not fail, it submits four bytes, the first of which is
the byte. -/
theorem C05_byte_violated (conn : Conn) (hc : conn.budget = none) (ops : List WOp) (i : UInt8) :
    ∃ w w' x y z, runW ops (BufW.init conn) = (w, .ok ()) ∧ w.writeByte i = (w', .ok ()) ∧
      w'.conn.out ++ w'.buf.take w'.wr = conn.out ++ (ops.map WOp.bytes).flatten ++ [i, x, y, z] := by
  have key : ∀ (ops : List WOp) (w0 : BufW), w0.Inv → w0.conn.budget = none →
      ∃ w, runW ops w0 = (w, .ok ()) ∧ w.Inv ∧ w.conn.budget = none ∧ w.abs = w0.abs ++ (ops.map WOp.bytes).flatten := by
    intro ops
    induction ops with
    | nil => intro w0 hi hb; exact ⟨w0, rfl, hi, hb, by simp⟩
    | cons op ops ih =>
      intro w0 hi hb
      have h1 : BufW.Post w0 op.bytes (op.run w0) := by
        cases op with
        | write b => exact BufW.write_post w0 b hi
        | u32 x => simp only [WOp.bytes, le32_eq]; exact BufW.writeUint32_post w0 x hi
        | u32x3 x y z => simp only [WOp.bytes, le32_eq]; exact BufW.write3Uint32_post w0 x y z hi
        | flush => exact (BufW.flush_post w0 hi).1
      match ho : op.run w0, h1 with
      | (w1, .ok ()), h1 =>
        obtain ⟨w, h2, h3, h4, h5⟩ := ih w1 h1.1 (h1.2.2.1 hb)
        exact ⟨w, by simp only [runW, ho, h2], h3, h4, by rw [h5, h1.2.1]; simp⟩
      | (w1, .err e), h1 => exact absurd hb h1.1
      | (w1, .panic), h1 => exact h1.elim
  obtain ⟨w, h1, hi, hb, ha⟩ := key ops (BufW.init conn) (BufW.init_inv conn) hc
  rw [BufW.init_abs] at ha
  by_cases h : w.wr + 4 > w.buf.length
  · obtain ⟨hp, hq⟩ := BufW.flush_post w hi
    match hf : w.flush, hp, hq with
    | (w1, .ok ()), hp, hq =>
      obtain ⟨h0, hl⟩ := hq w1 rfl
      obtain ⟨w', x, y, z, h2, _, h4⟩ := putByte_post w1 i hp.1 (by simp [h0, hl, BufW.bufSize])
      have e := hp.2.1
      exact ⟨w, w', x, y, z, h1, by simp only [BufW.writeByte, h, if_true, hf, BufW.andThen, h2],
        by have := h4; rw [e, ha] at this; simpa [BufW.abs] using this⟩
    | (w1, .err _), hp, _ => exact absurd hb hp.1
    | (w1, .panic), hp, _ => exact hp.elim
  · obtain ⟨w', x, y, z, h2, _, h4⟩ := putByte_post w i hi (by omega)
    exact ⟨w, w', x, y, z, h1, by simp only [BufW.writeByte, h, if_false, h2], by rw [ha] at h4; simpa [BufW.abs] using h4⟩

/-- **C02**, second half: after a successful Flush nothing is left in the buffer. -/
theorem C02_flush_empties (conn : Conn) (ops : List WOp) (w w' : BufW)
    (h : runW ops (BufW.init conn) = (w, .ok ())) (hf : w.flush = (w', .ok ())) :
    w'.wr = 0 ∧ w'.conn.out = conn.out ++ (ops.map WOp.bytes).flatten := by
  have h2 : ∀ (ops : List WOp) (w0 w1 : BufW), runW ops w0 = (w1, .ok ()) → w1.flush = (w', .ok ()) →
      runW (ops ++ [.flush]) w0 = (w', .ok ()) := by
    intro ops
    induction ops with
    | nil =>
      intro w0 w1 h hf
      simp only [runW, Prod.mk.injEq, and_true] at h
      subst h
      simp [runW, WOp.run, hf]
    | cons op ops ih =>
      intro w0 w1 h hf
      simp only [runW, List.cons_append] at h ⊢
      split at h
      · rename_i w2 heq
        exact ih w2 w1 h hf
      · rename_i hne
        exact absurd (by rw [h]) (hne w1)
  have h3 := C02_buffered_writer_transparent conn (ops ++ [.flush]) w' (.ok ()) (h2 ops _ _ h hf)
  have hi : w.Inv := by
    have key : ∀ (ops : List WOp) (w0 w1 : BufW), w0.Inv → runW ops w0 = (w1, .ok ()) → w1.Inv := by
      intro ops
      induction ops with
      | nil =>
        intro w0 w1 hi h
        simp only [runW, Prod.mk.injEq, and_true] at h
        exact h ▸ hi
      | cons op ops ih =>
        intro w0 w1 hi h
        have h1 : BufW.Post w0 op.bytes (op.run w0) := by
          cases op with
          | write b => exact BufW.write_post w0 b hi
          | u32 x => simp only [WOp.bytes, le32_eq]; exact BufW.writeUint32_post w0 x hi
          | u32x3 x y z => simp only [WOp.bytes, le32_eq]; exact BufW.write3Uint32_post w0 x y z hi
          | flush => exact (BufW.flush_post w0 hi).1
        simp only [runW] at h
        split at h
        · rename_i w2 heq
          rw [heq] at h1
          exact ih w2 w1 h1.1 h
        · rename_i hne
          exact absurd (by rw [h]) (hne w1)
    exact key ops _ w (BufW.init_inv conn) h
  have h0 := ((BufW.flush_post w hi).2 w' hf).1
  refine ⟨h0, ?_⟩
  have := h3.2.1 rfl
  simpa [h0, WOp.bytes] using this

/-- Non-vacuity of C02: a header, a small body and a 5000-byte body that takes the bypass path. -/
example :
    let p := runW [.u32x3 1 2 3, .write [7, 8], .write (List.replicate 5000 9), .u32 5]
      (BufW.init ⟨[], none⟩)
    p.2 = .ok () ∧ p.1.conn.out.length = 5014 ∧ p.1.wr = 4 := by
  decide +kernel

/-! ### C03, C04 -/

/-- Call `Read` with the given sizes until the first failure. -/
def readSizes : List Nat → SR → SR × List Slc × Out Unit
  | [], r => (r, [], .ok ())
  | n :: ns, r => match r.read n with
    | (r', .ok s) => let (r2, ss, o) := readSizes ns r'; (r2, s :: ss, o)
    | (r', .err e) => (r', [], .err e)
    | (r', .panic) => (r', [], .panic)

/-- The segments of the stream, and whether it was long enough. -/
def segments : List Nat → Bytes → List Bytes × Option Bytes
  | [], s => ([], some s)
  | n :: ns, s => if n ≤ s.length then
      let (a, b) := segments ns (s.drop n); (s.take n :: a, b)
    else ([], none)

theorem readSizes_spec (ns : List Nat) (r : SR) (hi : r.Inv) {r' ss o}
    (h : readSizes ns r = (r', ss, o)) :
    (∀ x, r.Safe x → r'.mem.view x = r.mem.view x) ∧
    ss.map r'.mem.view = (segments ns r.stream).1 ∧
    (∀ s, (segments ns r.stream).2 = some s → o = .ok () ∧ r'.stream = s) ∧
    ((segments ns r.stream).2 = none → o ≠ .ok () ∧ (r.src.fin ≠ .eof → o = .err r.src.fin)) ∧
    (o = .ok () → SR.Step r r' ∧ ∀ s ∈ ss, r'.Safe s) := by
  induction ns generalizing r r' ss o with
  | nil =>
    simp only [readSizes, Prod.mk.injEq] at h
    obtain ⟨rfl, rfl, rfl⟩ := h
    exact ⟨fun _ _ => rfl, rfl, fun s hs => by simpa [segments] using hs, by simp [segments],
      fun _ => ⟨SR.Step.refl hi, by simp⟩⟩
  | cons n ns ih =>
    rw [readSizes] at h
    rcases read_cases r n hi with ⟨r1, s, h1, hn, hst, hview, hsafe, hstr⟩ | ⟨hn, hf⟩
    · rw [h1] at h
      dsimp only at h
      match hm : readSizes ns r1 with
      | (r2, ss2, o2) =>
      rw [hm] at h
      simp only [Prod.mk.injEq] at h
      obtain ⟨rfl, rfl, rfl⟩ := h
      obtain ⟨i1, i2, i3, i4, i5⟩ := ih r1 hst.inv hm
      rw [hstr] at i2 i3 i4
      rw [hst.fin] at i4
      have hseg : segments (n :: ns) r.stream = (r.stream.take n :: (segments ns (r.stream.drop n)).1,
          (segments ns (r.stream.drop n)).2) := by
        simp [segments, hn]
      rw [hseg]
      refine ⟨fun x hx => (i1 x (hst.safe x hx)).trans (hst.view x hx), ?_, i3, i4, ?_⟩
      · simp [i2, i1 s hsafe, hview]
      · intro ho
        obtain ⟨j1, j2⟩ := i5 ho
        refine ⟨hst.trans j1, ?_⟩
        intro x hx
        rcases List.mem_cons.mp hx with rfl | hx
        · exact j1.safe _ hsafe
        · exact j2 x hx
    · have hseg : segments (n :: ns) r.stream = ([], none) := by
        simp [segments, Nat.not_le.mpr hn]
      rw [hseg]
      rcases hf with ⟨r1, e, h1, h2⟩ | ⟨r1, h1, h2⟩
      · rw [h1] at h
        simp only [Prod.mk.injEq] at h
        obtain ⟨rfl, rfl, rfl⟩ := h
        exact ⟨h2.1, rfl, by simp, fun _ => ⟨by simp, fun hf => by rw [h2.2.2 hf]⟩, by simp⟩
      · rw [h1] at h
        simp only [Prod.mk.injEq] at h
        obtain ⟨rfl, rfl, rfl⟩ := h
        exact ⟨h2.1, rfl, by simp, fun _ => ⟨by simp, fun hf => absurd h2.2.1 hf⟩, by simp⟩

/-- **C03 (partial).** For every stream, every split of it into pieces (including empty ones, the
final error coming with or after the last piece) and every sequence of sizes: the slices returned
are the successive segments of the stream, until the first size that does not fit; that call does
not succeed, and reports the transport's error when it is not EOF.
Missing from the full property: at EOF inside a segment the code may panic instead of returning
ErrUnexpectedEOF, see `C03_truncation_panics` and the exact condition `C03_truncation_exact`. -/
theorem C03_chunk_independence_partial (chunks : List Bytes) (fin : IOErr) (eager : Bool)
    (ns : List Nat) (r : SR) (ss : List Slc) (o : Out Unit)
    (h : readSizes ns (SR.init ⟨chunks, fin, eager⟩) = (r, ss, o)) :
    ss.map r.mem.view = (segments ns chunks.flatten).1 ∧
    ((segments ns chunks.flatten).2 ≠ none → o = .ok ()) ∧
    ((segments ns chunks.flatten).2 = none → o ≠ .ok () ∧ (fin ≠ .eof → o = .err fin)) := by
  obtain ⟨_, h2, h3, h4, _⟩ := readSizes_spec ns _ (SR.init_inv _) h
  rw [SR.init_stream] at h2 h3 h4
  refine ⟨h2, fun hne => ?_, h4⟩
  obtain ⟨s, hs⟩ := Option.ne_none_iff_exists'.mp hne
  exact (h3 s hs).1

/-- The exact behaviour of one `Read(n)` at EOF, in any reachable state: with nothing left it
reports EOF; with a partial segment it reports ErrUnexpectedEOF when all of the partial segment was
already buffered by earlier reads, and panics when some of it still had to be read. -/
theorem C03_truncation_exact (chunks : List Bytes) (eager : Bool) (ns : List Nat) (r : SR)
    (ss : List Slc) (h : readSizes ns (SR.init ⟨chunks, .eof, eager⟩) = (r, ss, .ok ()))
    (n : Nat) (hn : r.stream.length < n) :
    (r.stream = [] → (r.read n).2 = .err .eof) ∧
    (r.stream ≠ [] → r.src.chunks.flatten = [] → (r.read n).2 = .err .unexpectedEOF) ∧
    (r.stream ≠ [] → r.src.chunks.flatten ≠ [] → (r.read n).2 = .panic) := by
  obtain ⟨_, _, _, _, h5⟩ := readSizes_spec ns _ (SR.init_inv _) h
  have hst := (h5 rfl).1
  have hfin : r.src.fin = .eof := hst.fin
  have h1 := SR.read_res r n hst.inv
  generalize r.read n = q at h1
  cases h1 with
  | ok r' s hn' => omega
  | eof r' _ _ h => simp [h.2]
  | short r' _ _ hne hf hc => simp [hne, hc]
  | panic r' _ hne hf hc _ => simp [hne, hc]
  | other r' _ _ hf => exact absurd hfin hf

/-- **C03 negated.** A peer that sends 5 bytes of a 12-byte header and closes makes `Read(12)`
panic with slice bounds out of range. -/
theorem C03_truncation_panics :
    (readSizes [12] (SR.init ⟨[[1, 2, 3, 4, 5]], .eof, false⟩)).2.2 = .panic := by
  decide +kernel

/-- Non-vacuity of C03: sizes 2, 3, 0, 1 over an awkward chunking. -/
example :
    let p := readSizes [2, 3, 0, 1] (SR.init ⟨[[1], [], [2, 3, 4], [5, 6, 7]], .eof, true⟩)
    p.2.2 = .ok () ∧ p.2.1.map p.1.mem.view = [[1, 2], [3, 4, 5], [], [6]] := by
  decide +kernel

/-- **C04.** Take any history of successful reads (sizes `ns`), then any further reads (sizes `ms`,
stopping at the first failure, whatever the failure): every slice returned in the first part denotes
the same bytes at the end as it did when it was returned. -/
theorem C04_returned_slices_stable (chunks : List Bytes) (fin : IOErr) (eager : Bool)
    (ns ms : List Nat) (r1 r2 : SR) (ss ts : List Slc) (o : Out Unit)
    (h1 : readSizes ns (SR.init ⟨chunks, fin, eager⟩) = (r1, ss, .ok ()))
    (h2 : readSizes ms r1 = (r2, ts, o)) :
    ∀ s ∈ ss, r2.mem.view s = r1.mem.view s := by
  obtain ⟨_, _, _, _, h5⟩ := readSizes_spec ns _ (SR.init_inv _) h1
  obtain ⟨hst, hsafe⟩ := h5 rfl
  intro s hs
  exact (readSizes_spec ms r1 hst.inv h2).1 s (hsafe s hs)

/-- Non-vacuity of C04: a returned slice shares its array with the slices returned later. -/
example :
    let p := readSizes [2] (SR.init ⟨[[1, 2, 3], [4, 5]], .eof, false⟩)
    let q := readSizes [3] p.1
    p.2.2 = .ok () ∧ q.2.2 = .ok () ∧ p.2.1.map (·.blk) = [0] ∧ q.2.1.map (·.blk) = [0] ∧
      q.2.1.map q.1.mem.view = [[3, 4, 5]] := by
  decide +kernel

/-! ### C01, C06 (requests) -/

theorem sendRequests_ok (qs : List (Req Bytes)) :
    ∃ w, writeMany writeRequest qs freshWriter = (w, .ok ()) ∧
      w.conn.out = (qs.map (fun q => Spec.reqFrame (specReq q))).flatten := by
  have h := writeMany_post (wr := writeRequest) (enc := fun q => Spec.reqFrame (specReq q))
    (ok := fun _ => True) (fun w a hi _ => writeRequest_post w a hi) qs (by simp) freshWriter
    (BufW.init_inv _)
  obtain ⟨hp, h0⟩ := h
  match hm : writeMany writeRequest qs freshWriter with
  | (w, .ok ()) =>
    rw [hm] at hp
    refine ⟨w, rfl, ?_⟩
    have := hp.2.1
    simpa [BufW.abs, h0 w hm, freshWriter, BufW.init] using this
  | (w, .err e) => rw [hm] at hp; exact absurd rfl hp.1
  | (w, .panic) => rw [hm] at hp; exact hp.elim

/-- **C01.** For every list of requests with bodies below 4 GiB: writing them all and flushing
succeeds on a working connection, and for every split of the produced bytes into read pieces the
receiving read loop returns exactly these requests in order and then EOF. -/
theorem C01_request_roundtrip (qs : List Spec.ReqMsg) (hq : ∀ q ∈ qs, q.body.length < 2 ^ 32) :
    ∃ w, writeMany writeRequest (qs.map (fun q => ⟨q.msg, q.body, q.id⟩)) freshWriter = (w, .ok ()) ∧
    ∀ (chunks : List Bytes) (eager : Bool) (k : Nat), chunks.flatten = w.conn.out → qs.length < k →
    ∀ r rs o, readMany readRequest k (SR.init ⟨chunks, .eof, eager⟩) = (r, rs, o) →
      rs.map (seenReq r) = qs ∧ o = .err .eof := by
  obtain ⟨w, hw, hout⟩ := sendRequests_ok (qs.map (fun q => ⟨q.msg, q.body, q.id⟩))
  refine ⟨w, hw, ?_⟩
  have hout' : w.conn.out = (qs.map Spec.reqFrame).flatten := by
    rw [hout, List.map_map]; rfl
  intro chunks eager k hc hk r rs o hr
  obtain ⟨_, h2, h3, h4⟩ := readMany_refines readRequest_refines k _ (SR.init_inv _) hr
  rw [SR.init_stream] at h2 h3 h4
  have hpm := (parseMany_frames reqFraming qs hq (qs.map Spec.reqFrame).flatten.length k hk).2
    (Nat.le_refl _)
  rw [List.take_length] at hpm
  simp only [hc, hout'] at h2 h3 h4
  rw [hpm] at h2 h4
  simp only [List.map_id_fun, id_eq] at h2
  refine ⟨h2, ?_⟩
  have hl : rs.length = qs.length := by
    have := congrArg List.length h2; simpa using this
  cases o with
  | ok u => simp only [Ending] at h4; omega
  | err e =>
    obtain ⟨_, _, h5, _⟩ := h4
    rcases h5 rfl with h | h
    · rw [h]
    · simp at h
  | panic => exact absurd rfl h4.2.2.2

/-- Non-vacuity of C01: two requests, the second with an empty body, received byte by byte. -/
example :
    let p := writeMany writeRequest [⟨1, [9, 8, 7], 5⟩, ⟨2, [], 6⟩] freshWriter
    let q := readMany readRequest 3 (SR.init ⟨p.1.conn.out.map (fun b => [b]), .eof, false⟩)
    p.2 = .ok () ∧ q.2.2 = .err .eof ∧
      q.2.1.map (seenReq q.1) = [⟨1, 5, [9, 8, 7]⟩, ⟨2, 6, []⟩] := by
  decide +kernel

/-- **C06 (requests, partial).** Cut the stream of any list of requests after any number `c` of
bytes, deliver it in any pieces, and let it end with EOF or any other error: the receiver gets
exactly the requests that lie wholly before the cut, and then the loop fails; with a non-EOF error
it fails with that error. Missing: at EOF the failure may be a panic rather than an error
(`C06_truncated_request_panics`). -/
theorem C06_truncated_requests_partial (qs : List Spec.ReqMsg)
    (hq : ∀ q ∈ qs, q.body.length < 2 ^ 32) (c : Nat) (chunks : List Bytes) (fin : IOErr)
    (eager : Bool) (k : Nat) (hk : qs.length < k)
    (hc : chunks.flatten = ((qs.map Spec.reqFrame).flatten).take c)
    (r : SR) (rs : List (Req Slc)) (o : Out Unit)
    (hr : readMany readRequest k (SR.init ⟨chunks, fin, eager⟩) = (r, rs, o)) :
    rs.map (seenReq r) = qs.take (Spec.wholeWithin (qs.map Spec.reqFrame) c) ∧ o ≠ .ok () ∧
    (fin ≠ .eof → o = .err fin) := by
  obtain ⟨_, h2, h3, h4⟩ := readMany_refines readRequest_refines k _ (SR.init_inv _) hr
  rw [SR.init_stream] at h2 h3 h4
  simp only [hc] at h2 h3 h4
  have hpm := (parseMany_frames reqFraming qs hq c k hk).1
  rw [hpm] at h2
  simp only [List.map_id_fun, id_eq] at h2
  refine ⟨h2, ?_⟩
  have hl : rs.length ≤ qs.length := by
    have := congrArg List.length h2; simp at this; omega
  cases o with
  | ok u => simp only [Ending] at h4; omega
  | err e => exact ⟨by simp, fun hf => congrArg _ (h4.2.2.2 hf)⟩
  | panic => exact ⟨by simp, fun hf => absurd h4.2.2.1 hf⟩

/-- **C06 negated.** A request cut inside its body makes the reader panic at EOF. -/
theorem C06_truncated_request_panics :
    (readMany readRequest 2 (SR.init
      ⟨[(Spec.reqFrame ⟨1, 5, [9, 8, 7]⟩).take 12, [9]], .eof, false⟩)).2 = ([], .panic) := by
  decide +kernel

/-- Non-vacuity of C06: the first of two requests survives a cut inside the second. -/
example : Spec.wholeWithin ([⟨1, 5, [9, 8, 7]⟩, ⟨2, 6, [1]⟩].map Spec.reqFrame) 20 = 1 := by
  decide +kernel

/-! ### C05, C06, C08 (responses) -/

theorem sendResponses_ok (rc : RCType) (qs : List Spec.RespMsg)
    (h : rc = .rc0 ∨ (rc = .rc4 ∧ ∀ q ∈ qs, q.msg ≠ Spec.pingType)) :
    ∃ w, writeMany (writeResponse rc) (qs.map (fun q => ⟨q.msg, q.id, q.code, q.body⟩)) freshWriter
      = (w, .ok ()) ∧ w.conn.out = (qs.map (Spec.respFrame rc.width)).flatten := by
  have h := writeMany_post (wr := writeResponse rc)
    (enc := fun q => Spec.respFrame rc.width (specResp q))
    (ok := fun q => rc = .rc0 ∨ (rc = .rc4 ∧ q.msg ≠ pingType))
    (fun w a hi ha => writeResponse_post rc w a hi ha)
    (qs.map (fun q => ⟨q.msg, q.id, q.code, q.body⟩))
    (by
      intro a ha
      obtain ⟨q, hq, rfl⟩ := List.mem_map.mp ha
      rcases h with h | h
      · exact Or.inl h
      · exact Or.inr ⟨h.1, h.2 q hq⟩) freshWriter (BufW.init_inv _)
  obtain ⟨hp, h0⟩ := h
  match hm : writeMany (writeResponse rc) (qs.map (fun q => ⟨q.msg, q.id, q.code, q.body⟩))
    freshWriter with
  | (w, .ok ()) =>
    rw [hm] at hp
    refine ⟨w, hm, ?_⟩
    have := hp.2.1
    simpa [BufW.abs, h0 w hm, freshWriter, BufW.init, List.map_map, Function.comp_def, specResp]
      using this
  | (w, .err e) => rw [hm] at hp; exact absurd rfl hp.1
  | (w, .panic) => rw [hm] at hp; exact hp.elim

/-- **C05 (partial).** With RC0byte, or with RC4byte and no ping replies among the responses: for
every list of responses and every chunking the client reads back exactly the responses, with the
code reduced to what the width carries, then EOF.
Missing: RC1byte (`C05_rc1_violated`) and ping replies (`C08_ping_desync`). -/
theorem C05_response_roundtrip_partial (rc : RCType) (qs : List Spec.RespMsg)
    (h : rc = .rc0 ∨ (rc = .rc4 ∧ ∀ q ∈ qs, q.msg ≠ Spec.pingType))
    (hq : ∀ q ∈ qs, q.body.length + 4 < 2 ^ 32) :
    ∃ w, writeMany (writeResponse rc) (qs.map (fun q => ⟨q.msg, q.id, q.code, q.body⟩)) freshWriter
      = (w, .ok ()) ∧
    ∀ (chunks : List Bytes) (eager : Bool) (k : Nat), chunks.flatten = w.conn.out → qs.length < k →
    ∀ r rs o, readMany (readResponse rc) k (SR.init ⟨chunks, .eof, eager⟩) = (r, rs, o) →
      rs.map (seenResp r) = qs.map (Spec.received rc.width) ∧ o = .err .eof := by
  obtain ⟨w, hw, hout⟩ := sendResponses_ok rc qs h
  refine ⟨w, hw, ?_⟩
  intro chunks eager k hc hk r rs o hr
  have hrc : rc ≠ .rc1 := by rcases h with rfl | ⟨rfl, _⟩ <;> simp
  obtain ⟨_, h2, h3, h4⟩ := readMany_refines (readResponse_refines rc hrc) k _ (SR.init_inv _) hr
  rw [SR.init_stream] at h2 h3 h4
  have hpm := (parseMany_frames (respFraming rc.width) qs hq
    (qs.map (Spec.respFrame rc.width)).flatten.length k hk).2 (Nat.le_refl _)
  rw [List.take_length] at hpm
  simp only [hc, hout] at h2 h3 h4
  rw [hpm] at h2 h4
  refine ⟨h2, ?_⟩
  have hl : rs.length = qs.length := by
    have := congrArg List.length h2; simpa using this
  cases o with
  | ok u => simp only [Ending] at h4; omega
  | err e =>
    obtain ⟨_, _, h5, _⟩ := h4
    rcases h5 rfl with h | h
    · rw [h]
    · simp at h
  | panic => exact absurd rfl h4.2.2.2

/-- Non-vacuity of C05: RC4byte, two responses, one chunk. -/
example :
    let p := writeMany (writeResponse .rc4) [⟨1, 5, 0x102, [9]⟩, ⟨2, 6, 0, []⟩] freshWriter
    let q := readMany (readResponse .rc4) 3 (SR.init ⟨[p.1.conn.out], .eof, false⟩)
    p.2 = .ok () ∧ q.2.2 = .err .eof ∧
      q.2.1.map (seenResp q.1) = [⟨1, 5, 0x102, [9]⟩, ⟨2, 6, 0, []⟩] := by
  decide +kernel

/-- **C05 negated for RC1byte.** One response with RC1byte, written and flushed on a working
connection and received in one piece, is not read back as what was sent (the writer emits four code
bytes while announcing one). -/
theorem C05_rc1_violated :
    let p := writeMany (writeResponse .rc1) [⟨1, 5, 2, [9, 8]⟩] freshWriter
    let q := readMany (readResponse .rc1) 2 (SR.init ⟨[p.1.conn.out], .eof, false⟩)
    p.2 = .ok () ∧ q.2.1.map (seenResp q.1) = [⟨1, 5, 2, [0, 0]⟩] ∧ q.2.2 ≠ .err .eof := by
  decide +kernel

/-- **C05 negated for the RC1byte reader alone.** Even on a correctly encoded stream, when the
return-code byte arrives in a later piece than the header the reader reports code 0 and does not
consume the byte. -/
theorem C05_rc1_reader_violated :
    let q := readMany (readResponse .rc1) 1 (SR.init
        ⟨[(Spec.respFrame .one ⟨1, 5, 2, [9, 8]⟩).take 12,
          (Spec.respFrame .one ⟨1, 5, 2, [9, 8]⟩).drop 12], .eof, false⟩)
    q.2.2 = .ok () ∧ q.2.1.map (seenResp q.1) = [⟨1, 5, 0, [2, 9]⟩] := by
  decide +kernel

/-- **C06 (responses, partial).** As for requests, for RC0byte and RC4byte readers on correctly
encoded streams. -/
theorem C06_truncated_responses_partial (rc : RCType) (hrc : rc ≠ .rc1) (qs : List Spec.RespMsg)
    (hq : ∀ q ∈ qs, q.body.length + 4 < 2 ^ 32) (c : Nat) (chunks : List Bytes) (fin : IOErr)
    (eager : Bool) (k : Nat) (hk : qs.length < k)
    (hc : chunks.flatten = ((qs.map (Spec.respFrame rc.width)).flatten).take c)
    (r : SR) (rs : List (Resp Slc)) (o : Out Unit)
    (hr : readMany (readResponse rc) k (SR.init ⟨chunks, fin, eager⟩) = (r, rs, o)) :
    rs.map (seenResp r) =
      (qs.map (Spec.received rc.width)).take (Spec.wholeWithin (qs.map (Spec.respFrame rc.width)) c) ∧
    o ≠ .ok () ∧ (fin ≠ .eof → o = .err fin) := by
  obtain ⟨_, h2, h3, h4⟩ := readMany_refines (readResponse_refines rc hrc) k _ (SR.init_inv _) hr
  rw [SR.init_stream] at h2 h3 h4
  simp only [hc] at h2 h3 h4
  have hpm := (parseMany_frames (respFraming rc.width) qs hq c k hk).1
  rw [hpm] at h2
  refine ⟨h2, ?_⟩
  have hl : rs.length ≤ qs.length := by
    have := congrArg List.length h2; simp at this; omega
  cases o with
  | ok u => simp only [Ending] at h4; omega
  | err e => exact ⟨by simp, fun hf => congrArg _ (h4.2.2.2 hf)⟩
  | panic => exact ⟨by simp, fun hf => absurd h4.2.2.1 hf⟩

/-- **C08 negated.** With RC4byte (the default) a server answers a ping and then sends a response:
the client reads the ping reply, but the next frame it reads is not the response that was sent. -/
theorem C08_ping_desync :
    let sent : List (Resp Bytes) := [⟨pingType, 7, 0, []⟩, ⟨1, 5, 0, List.replicate 8 9⟩]
    let p := writeMany (writeResponse .rc4) sent freshWriter
    let q := readMany (readResponse .rc4) 2 (SR.init ⟨[p.1.conn.out], .eof, false⟩)
    p.2 = .ok () ∧ q.2.1.map (seenResp q.1) ≠ sent.map specResp ∧
      (q.2.1.map (seenResp q.1)).head? = some ⟨pingType, 7, 0, []⟩ := by
  decide +kernel

/-- **C08 (partial).** With RC0byte ping replies are harmless: pings anywhere among the responses
are read back and everything after them too. (Instance of C05 for RC0byte without the ping
restriction, stated for a ping reply followed by arbitrary responses.) -/
theorem C08_rc0_ping_in_sync_partial (id : UInt32) (qs : List Spec.RespMsg)
    (hq : ∀ q ∈ qs, q.body.length + 4 < 2 ^ 32) :
    ∃ w, writeMany (writeResponse .rc0) (⟨pingType, id, 0, []⟩ ::
        qs.map (fun q => ⟨q.msg, q.id, q.code, q.body⟩)) freshWriter = (w, .ok ()) ∧
    ∀ (chunks : List Bytes) (eager : Bool), chunks.flatten = w.conn.out →
    ∀ r rs o, readMany (readResponse .rc0) (qs.length + 2) (SR.init ⟨chunks, .eof, eager⟩) =
        (r, rs, o) →
      rs.map (seenResp r) = ⟨pingType, id, 0, []⟩ :: qs.map (fun q => { q with code := 0 }) ∧
      o = .err .eof := by
  obtain ⟨w, hw, h⟩ := C05_response_roundtrip_partial .rc0 (⟨pingType, id, 0, []⟩ :: qs) (Or.inl rfl)
    (by
      intro q h
      rcases List.mem_cons.mp h with rfl | h
      · simp
      · exact hq q h)
  refine ⟨w, by simpa using hw, ?_⟩
  intro chunks eager hc r rs o hr
  obtain ⟨h1, h2⟩ := h chunks eager (qs.length + 2) hc (by simp) r rs o hr
  refine ⟨?_, h2⟩
  rw [h1]
  simp [Spec.received, RCType.width, Spec.Width.carry]

/-- **C08, handshake.** On a stream of at least 12 bytes, in any chunking, the client's handshake
succeeds exactly when the reply's type is Ping and its id is the ping id (the length field is not
checked), and it consumes exactly 12 bytes. -/
theorem C08_handshake_exact (chunks : List Bytes) (fin : IOErr) (eager : Bool)
    (hl : 12 ≤ chunks.flatten.length) :
    ∃ r, (readPing (SR.init ⟨chunks, fin, eager⟩) = (r, .ok ()) ∧
        Spec.u32At chunks.flatten 0 = 0xFF00 ∧ Spec.u32At chunks.flatten 8 = 0xFFFFFFFF ∨
      readPing (SR.init ⟨chunks, fin, eager⟩) = (r, .err .pingFailed) ∧
        ¬ (Spec.u32At chunks.flatten 0 = 0xFF00 ∧ Spec.u32At chunks.flatten 8 = 0xFFFFFFFF)) ∧
      r.stream = chunks.flatten.drop 12 := by
  unfold readPing
  rcases read_cases (SR.init ⟨chunks, fin, eager⟩) 12 (SR.init_inv _) with
    ⟨r1, hs, hr, hn, hst, hview, hsafe, hstr⟩ | ⟨hn, hf⟩
  · rw [hr]
    dsimp only
    rw [SR.init_stream] at hview hstr
    rw [hview, getU32_zero, getU32_drop, u32At_take _ _ _ (by omega), u32At_take _ _ _ (by omega)]
    refine ⟨r1, ?_, hstr⟩
    by_cases h1 : Spec.u32At chunks.flatten 0 = 0xFF00 <;>
    by_cases h2 : Spec.u32At chunks.flatten 8 = 0xFFFFFFFF <;>
    simp [h1, h2, pingType, pingId]
  · rw [SR.init_stream] at hn; exact absurd hl (Nat.not_le.mpr hn)

/-- Non-vacuity of the handshake theorem: the client's own ping frame is a valid reply. -/
example : (readPing (SR.init ⟨[Spec.reqFrame ⟨0xFF00, 0xFFFFFFFF, []⟩], .eof, false⟩)).2 = .ok () := by
  decide +kernel

end Verif.Props
