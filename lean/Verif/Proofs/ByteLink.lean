import Verif.Spec.ByteLink
import Verif.Proofs.Streams
import Verif.Proofs.Link
/-!
A link of bytes is a link of frames (Model/Link.lean).
-/
namespace Verif.ByteLink
open Verif.Net

/-! ### Contents of responses under other names -/

def rAns (f : Nat → Nat) : Conn.Ans → Conn.Ans
  | .response i d => .response i (f d)
  | a => a

def rRp (f : Nat → Nat) : Conn.RPc → Conn.RPc
  | .reply q i d => .reply q i (f d)
  | p => p

def rename (f : Nat → Nat) (s : Conn.St) : Conn.St := { s with ans := fun r => (s.ans r).map (rAns f), rp := rRp f s.rp }

def rChoice (f : Nat → Nat) : Conn.Choice → Conn.Choice
  | .resp i d => .resp i (f d)
  | c => c

theorem rename_set {f : Nat → Nat} {g : Nat → Option Conn.Ans} {r : Nat} {a : Conn.Ans} :
    (fun j => (Conn.set g r (some a) j).map (rAns f)) = Conn.set (fun j => (g j).map (rAns f)) r (some (rAns f a)) := by
  funext j
  unfold Conn.set
  split <;> rfl

theorem rename_answer {f : Nat → Nat} {s : Conn.St} {r : Nat} {a : Conn.Ans} :
    rename f (Conn.answer s r a) = Conn.answer (rename f s) r (rAns f a) := by
  simp only [rename, Conn.answer, rename_set]

theorem rename_respond {f : Nat → Nat} {s : Conn.St} {r : Nat} {a : Conn.Ans} :
    rename f (Conn.respond s r a) = Conn.respond (rename f s) r (rAns f a) := by
  unfold Conn.respond
  rw [show (rename f s).rs = s.rs from rfl]
  split
  · exact rename_answer
  · rfl

theorem rename_respondFail {f : Nat → Nat} {s : Conn.St} {r : Nat} {a : Conn.Ans} :
    rename f (Conn.respondFail s r a) = Conn.respondFail (rename f s) r (rAns f a) := by
  unfold Conn.respondFail
  rw [show (rename f s).rs = s.rs from rfl]
  split
  · rfl
  · exact rename_answer

theorem rRp_read {f : Nat → Nat} {p : Conn.RPc} : rRp f p = .read ↔ p = .read := by cases p <;> simp [rRp]
theorem rRp_ended {f : Nat → Nat} {p : Conn.RPc} : rRp f p = .ended ↔ p = .ended := by cases p <;> simp [rRp]

theorem rename_step (f : Nat → Nat) {s s' : Conn.St} {c : Conn.Choice} (h : Conn.step s c = some s') :
    Conn.step (rename f s) (rChoice f c) = some (rename f s') := by
  cases c with
  | reply =>
    simp only [Conn.step, rChoice] at h ⊢
    have e : (rename f s).rp = rRp f s.rp := rfl
    rw [e]
    split at h
    · rename_i hrp; cases h; rw [hrp]; rfl
    · rename_i r id d hrp
      cases h
      rw [hrp]
      simp only [rRp]
      have := rename_respond (f := f) (s := s) (r := r) (a := .response id d)
      simp only [rAns] at this
      rw [← this]
      rfl
    · cases h
  | fail r =>
    simp only [Conn.step, rChoice] at h ⊢
    cases h
    rw [rename_respondFail]
    rfl
  | flushOne =>
    have := fun r => rename_respondFail (f := f) (s := s) (r := r)
          (a := .flushed (if s.shutdown then Conn.rcShutdown else Conn.rcIOError))
    simp only [rAns] at this
    obtain ⟨hd, rs, ans, slot, idOf, wreq, wp, rp, cp, sd, wire, rem⟩ := s
    cases cp with
    | flush l =>
      cases l with
      | nil => cases h; rfl
      | cons x l =>
        simp only [Conn.step, rChoice, rename] at h ⊢
        cases e : (hd.heap x.1).req x.2 with
        | none => simp only [e] at h ⊢; cases h; rfl
        | some r =>
          simp only [e] at h ⊢
          cases h
          exact congrArg (fun t : Conn.St => some { t with cp := .flush l }) (this r).symm
    | _ => cases h
  | take r =>
    obtain ⟨hd, rs, ans, slot, idOf, wreq, wp, rp, cp, sd, wire, rem⟩ := s
    simp only [Conn.step, rChoice, rename] at h ⊢
    cases wp with
    | loop =>
      simp only [if_true] at h ⊢
      cases wreq with
      | some x =>
        cases h
        simp only [Conn.offer]
        split <;> rfl
      | none =>
        cases e : hd.getNext with
        | none => simp only [e] at h; cases h
        | some x =>
          simp only [e] at h ⊢
          cases h
          simp only [Conn.offer]
          split <;> rfl
    | _ => cases h
  | header =>
    obtain ⟨hd, rs, ans, slot, idOf, wreq, wp, rp, cp, sd, wire, rem⟩ := s
    cases wp <;> cases h <;> rfl
  | wrote ok =>
    obtain ⟨hd, rs, ans, slot, idOf, wreq, wp, rp, cp, sd, wire, rem⟩ := s
    cases wp <;> cases ok <;> cases h <;> rfl
  | endWrite b =>
    obtain ⟨hd, rs, ans, slot, idOf, wreq, wp, rp, cp, sd, wire, rem⟩ := s
    cases wp <;> cases h <;> rfl
  | resp id d =>
    obtain ⟨hd, rs, ans, slot, idOf, wreq, wp, rp, cp, sd, wire, rem⟩ := s
    simp only [Conn.step, rChoice, rename] at h ⊢
    cases rp with
    | read =>
      by_cases hl : id < Conn.M
      · simp only [rRp, hl, and_self, if_true] at h ⊢
        cases e : hd.remove id with
        | none => simp only [e] at h ⊢; cases h; rfl
        | some x => simp only [e] at h ⊢; cases h; rfl
      · simp [hl] at h
    | _ => simp at h
  | endRead =>
    obtain ⟨hd, rs, ans, slot, idOf, wreq, wp, rp, cp, sd, wire, rem⟩ := s
    cases rp <;> cases h <;> rfl
  | flush =>
    obtain ⟨hd, rs, ans, slot, idOf, wreq, wp, rp, cp, sd, wire, rem⟩ := s
    simp only [Conn.step, rChoice, rename] at h ⊢
    split at h
    · rename_i hc
      simp only [hc.1, hc.2.1, rRp_ended.mpr hc.2.2, and_self, if_true]
      cases e : hd.getAll with
      | none => simp only [e] at h ⊢; cases h; rw [rRp_ended.mpr hc.2.2, hc.2.1]
      | some x => simp only [e] at h ⊢; cases h; rw [rRp_ended.mpr hc.2.2, hc.2.1]
    · cases h

/-! ### One direction -/

/-- The first `k` of the frames `fs` have been read, `str` has arrived and is unread, `n` bytes of `w`, all that was written,
have arrived. -/
structure Pipe {α : Type} (enc : α → Bytes) (ok : α → Prop) (fs : List α) (k : Nat) (w : Bytes) (n : Nat) (str : Bytes) :
    Prop where
  le : k ≤ fs.length
  nle : n ≤ w.length
  str : ((fs.take k).map enc).flatten ++ str = w.take n
  pre : w <+: (fs.map enc).flatten ∨ ∃ q, ok q ∧ w <+: (fs.map enc).flatten ++ enc q ∧
    w.length < ((fs.map enc).flatten ++ enc q).length
  ok : ∀ f ∈ fs, ok f

theorem parseReq_append {s t : Bytes} {q : Spec.ReqMsg} {r : Bytes} (h : Spec.parseReq s = some (q, r)) :
    Spec.parseReq (s ++ t) = some (q, r ++ t) := by
  have h12 : 12 ≤ s.length := by
    rcases Nat.lt_or_ge s.length 12 with h' | h'
    · rw [parseReq_none _ (.inl h')] at h; cases h
    · exact h'
  have hn : (Spec.u32At s 4).toNat ≤ s.length - 12 := by
    rcases Nat.lt_or_ge (s.length - 12) (Spec.u32At s 4).toNat with h' | h'
    · rw [parseReq_none _ (.inr h')] at h; cases h
    · exact h'
  have hu : ∀ k, k + 4 ≤ 12 → Spec.u32At (s ++ t) k = Spec.u32At s k := by
    intro k hk
    have hb : ∀ j, j < 12 → Spec.byteAt (s ++ t) j = Spec.byteAt s j := by
      intro j hj
      unfold Spec.byteAt
      rw [List.getElem?_append_left (by omega)]
    unfold Spec.u32At
    rw [hb k (by omega), hb (k + 1) (by omega), hb (k + 2) (by omega), hb (k + 3) (by omega)]
  rw [parseReq_some _ h12 hn] at h
  rw [parseReq_some _ (by simp; omega) (by rw [hu 4 (by omega)]; simp; omega), hu 0 (by omega), hu 4 (by omega), hu 8 (by omega)]
  simp only [Option.some.injEq, Prod.mk.injEq] at h
  obtain ⟨h1, h2⟩ := h
  rw [← h1, ← h2, List.drop_append_of_le_length h12, List.take_append_of_le_length (by simp; omega),
    List.drop_append_of_le_length (by simp; omega)]

theorem parseResp_append {w : Spec.Width} {s t : Bytes} {q : Spec.RespMsg} {r : Bytes}
    (h : Spec.parseResp w s = some (q, r)) : Spec.parseResp w (s ++ t) = some (q, r ++ t) := by
  rw [parseResp_of_parseReq] at h ⊢
  cases e : Spec.parseReq s with
  | none => rw [e] at h; cases h
  | some x =>
    obtain ⟨q', r'⟩ := x
    rw [e] at h
    rw [parseReq_append e]
    simp only [Option.map_some, Option.some.injEq, Prod.mk.injEq] at h ⊢
    exact ⟨h.1, by rw [h.2]⟩

section
variable {α β : Type} {enc : α → Bytes} {ok : α → Prop} {out : α → β} {p : Bytes → Option (β × Bytes)}

/-- A frame which was read is the next one written. -/
theorem Pipe.read {fs : List α} {k n : Nat} {w str : Bytes} (h : Pipe enc ok fs k w n str) (hp : Framing enc out ok p)
    (ha : ∀ {s t : Bytes} {q : β} {r : Bytes}, p s = some (q, r) → p (s ++ t) = some (q, r ++ t)) {q : β} {r : Bytes}
    (hr : p str = some (q, r)) : ∃ f, fs[k]? = some f ∧ q = out f ∧ Pipe enc ok fs (k + 1) w n r := by
  have hsplit : (fs.map enc).flatten = ((fs.take k).map enc).flatten ++ ((fs.drop k).map enc).flatten := by
    rw [← List.flatten_append, ← List.map_append, List.take_append_drop]
  have hwn : ((fs.take k).map enc).flatten ++ str <+: w := h.str ▸ List.take_prefix _ _
  rcases Nat.lt_or_ge k fs.length with hk | hk
  · have hd : fs.drop k = fs[k] :: fs.drop (k + 1) := List.drop_eq_getElem_cons hk
    have hpre : ∃ X, str <+: enc fs[k] ++ X := by
      rcases h.pre with hl | ⟨q', _, hl, _⟩
      · refine ⟨((fs.drop (k + 1)).map enc).flatten, ?_⟩
        have := hwn.trans hl
        rw [hsplit, List.prefix_append_right_inj, hd, List.map_cons, List.flatten_cons] at this
        exact this
      · refine ⟨((fs.drop (k + 1)).map enc).flatten ++ enc q', ?_⟩
        have := hwn.trans hl
        rw [hsplit, List.append_assoc, List.prefix_append_right_inj, hd, List.map_cons, List.flatten_cons, List.append_assoc] at this
        exact this
    obtain ⟨X, t, ht⟩ := hpre
    have h1 := ha (t := t) hr
    rw [ht, hp.whole _ _ (h.ok _ (List.getElem_mem hk))] at h1
    simp only [Option.some.injEq, Prod.mk.injEq] at h1
    obtain ⟨h1, h2⟩ := h1
    rw [h2, ← List.append_assoc] at ht
    have hs : str = enc fs[k] ++ r := List.append_cancel_right ht
    refine ⟨fs[k], by simp [hk], h1.symm, hk, h.nle, ?_, h.pre, h.ok⟩
    rw [← h.str, hs, List.take_succ_eq_append_getElem hk, List.map_append, List.flatten_append]
    simp only [List.map_cons, List.map_nil, List.flatten_cons, List.flatten_nil, List.append_nil, List.append_assoc]
  · have hd : fs.drop k = [] := List.drop_eq_nil_of_le hk
    rw [hd] at hsplit
    simp only [List.map_nil, List.flatten_nil, List.append_nil] at hsplit
    rcases h.pre with hl | ⟨q', hq, hl, hlen⟩
    · have := hwn.trans hl
      rw [hsplit] at this
      have h0 : str = [] := by
        have := this.length_le
        simp only [List.length_append] at this
        exact List.eq_nil_of_length_eq_zero (by omega)
      rw [h0, hp.nil] at hr
      cases hr
    · have h1 := hwn.trans hl
      rw [hsplit, List.prefix_append_right_inj] at h1
      have h2 := hwn.length_le
      rw [hsplit] at hlen
      simp only [List.length_append] at h2 hlen
      have h3 := hp.cut q' str.length hq (by omega)
      rw [← List.prefix_iff_eq_take.mp h1] at h3
      rw [h3] at hr
      cases hr

/-- More bytes arrive. -/
theorem Pipe.arrive {fs : List α} {k n : Nat} {w str : Bytes} (h : Pipe enc ok fs k w n str) (j : Nat) :
    Pipe enc ok fs k w (n + ((w.drop n).take j).length) (str ++ (w.drop n).take j) := by
  have hn := h.nle
  refine ⟨h.le, by simp; omega, ?_, h.pre, h.ok⟩
  rw [← List.append_assoc, h.str, List.take_add]
  congr 1
  simp [List.take_eq_take_iff]

/-- Frames are written; what has not arrived is unconstrained. -/
theorem Pipe.grow {fs gs : List α} {k n : Nat} {w w' str : Bytes} (h : Pipe enc ok fs k w n str) (hw : w <+: w')
    (hg : ∀ f ∈ gs, ok f) (hpre : w' <+: ((fs ++ gs).map enc).flatten ∨ ∃ q, ok q ∧ w' <+: ((fs ++ gs).map enc).flatten ++ enc q ∧
      w'.length < (((fs ++ gs).map enc).flatten ++ enc q).length) : Pipe enc ok (fs ++ gs) k w' n str := by
  have hn := h.nle
  refine ⟨by simp; have := h.le; omega, Nat.le_trans hn hw.length_le, ?_, hpre, ?_⟩
  · rw [List.take_append_of_le_length h.le, h.str]
    obtain ⟨t, rfl⟩ := hw
    rw [List.take_append_of_le_length hn]
  · intro f hf
    rcases List.mem_append.mp hf with h' | h'
    · exact h.ok f h'
    · exact hg f h'

end

/-! ### Writers -/

structure Wr (w : BufW) (F : Bytes) : Prop where
  inv : w.Inv
  bud : w.conn.budget = none
  abs : w.abs = F

theorem limit_none {w : BufW} (h : w.conn.budget = none) : limit w none = w := by
  obtain ⟨⟨out, budget⟩, buf, wr⟩ := w
  cases h
  rfl

theorem limit_inv {w : BufW} {k : Option Nat} (h : w.Inv) : (limit w k).Inv := ⟨h.wr_le, h.len⟩

theorem abs_out {w : BufW} : w.conn.out <+: w.abs := List.prefix_append _ _

theorem Wr.ok {w w' : BufW} {F d : Bytes} {p : BufW × Out Unit} (h : Wr w F) (hp : BufW.Post (limit w none) d p)
    (e : p = (w', .ok ())) : Wr w' (F ++ d) ∧ w.conn.out <+: w'.conn.out := by
  rw [limit_none h.bud] at hp
  subst e
  obtain ⟨h1, h2, h3, h4⟩ := hp
  exact ⟨⟨h1, h3 h.bud, by rw [h2, h.abs]⟩, h4⟩

theorem Wr.err {w w' : BufW} {F d : Bytes} {p : BufW × Out Unit} {k : Nat} {x : IOErr} (h : Wr w F)
    (hp : BufW.Post (limit w (some k)) d p) (e : p = (w', .err x)) :
    w'.conn.out <+: F ++ d ∧ w.conn.out <+: w'.conn.out ∧ w'.conn.out.length < (F ++ d).length := by
  subst e
  obtain ⟨_, h2, h3, h4⟩ := hp
  have : (limit w (some k)).abs = F := h.abs
  rw [this] at h2 h4
  exact ⟨h2, h3, h4⟩

/-! ### The server's steps -/

theorem srv_keep {s s' : Serv.St} {c : Serv.Choice} (h : Serv.step s c = some s') (h1 : c ≠ .wl) (h2 : c ≠ .wErr) :
    s'.wp = s.wp ∧ s'.wire = s.wire ∧ ((∀ id, c ≠ .ping id) → s'.pings = s.pings) := by
  unfold Serv.step at h
  split at h
  · cases h
  cases c with
  | wl => exact absurd rfl h1
  | wErr => exact absurd rfl h2
  | ping id =>
    simp only [Serv.step1] at h
    split at h <;> cases h
    exact ⟨rfl, rfl, fun h => absurd rfl (h id)⟩
  | rl =>
    simp only [Serv.step1, Serv.stepR] at h
    (repeat' split at h) <;> cases h <;> exact ⟨rfl, rfl, fun _ => rfl⟩
  | ctl =>
    simp only [Serv.step1, Serv.stepC, Serv.closeOut] at h
    (repeat' split at h) <;> cases h <;> exact ⟨rfl, rfl, fun _ => rfl⟩
  | begin k =>
    simp only [Serv.step1, Serv.beginRespond] at h
    (repeat' split at h) <;> cases h <;> exact ⟨rfl, rfl, fun _ => rfl⟩
  | recv _ | rErr | call _ | send _ =>
    simp only [Serv.step1] at h
    (repeat' split at h) <;> cases h <;> exact ⟨rfl, rfl, fun _ => rfl⟩

theorem srv_ping {s s' : Serv.St} {id : Nat} (h : Serv.step s (.ping id) = some s') : s'.pings = id :: s.pings := by
  unfold Serv.step at h
  split at h
  · cases h
  simp only [Serv.step1] at h
  split at h <;> cases h
  rfl

theorem srv_wl {s s' : Serv.St} (h : Serv.step s .wl = some s') : s'.pings = s.pings ∧
    ((∃ m, s.wp = .got m ∧ s'.wire = s.wire ++ [m] ∧ s'.wp = .sel) ∨
      (s'.wire = s.wire ∧ (∀ m, s.wp ≠ .got m) ∧ (s'.wp = .done false → s.wp = .fin false) ∧ s.wp ≠ .done false ∧
        (s'.wp = .fin true ∨ s'.wp = .done true ↔ s.wp = .fin true ∨ s.wp = .done true))) := by
  unfold Serv.step at h
  split at h
  · cases h
  simp only [Serv.step1, Serv.stepW] at h
  (repeat' split at h) <;> rename_i e <;> cases h <;> simp_all

theorem srv_wErr {s s' : Serv.St} (h : Serv.step s .wErr = some s') : s'.pings = s.pings ∧ s'.wire = s.wire ∧
    s'.wp = .fin true ∧ ((s.wp = .flush ∨ s.wp = .fin false) ∨ ∃ m, s.wp = .got m) := by
  unfold Serv.step at h
  split at h
  · cases h
  simp only [Serv.step1] at h
  (repeat' split at h) <;> cases h <;> simp_all

/-! ### The invariant -/

/-- The frame of an entry of the client's list of written requests. -/
def rq (e : Env) (x : Nat × Nat × Bool) : Spec.ReqMsg := specReq (request e x.1 x.2.1 x.2.2)

def rs (e : Env) (got : List (Req Slc)) (m : Serv.Item) : Spec.RespMsg := specResp (response e got m)

def okQ (q : Spec.ReqMsg) : Prop := q.body.length < 2 ^ 32
def okR (q : Spec.RespMsg) : Prop := q.body.length + 4 < 2 ^ 32 ∧ (q.msg = Spec.pingType → q.body = [])

def real (q : Spec.ReqMsg) : Bool := q.msg ≠ Spec.pingType

def pingMsg : Spec.ReqMsg := ⟨Spec.pingType, pingId, []⟩

def alive (p : Serv.WPc) : Prop := ¬ (p = .fin true ∨ p = .done true)

structure BInv (e : Env) (b : St) (fs : List Spec.ReqMsg) (k : Nat) : Prop where
  cw : b.cok = true → Wr b.cw (fs.map Spec.reqFrame).flatten
  cend : b.cok = false → b.c.wp = .ended
  sw : alive b.s.wp → Wr b.sw ((b.s.wire.map (rs e b.got)).map (Spec.respFrame e.rc.width)).flatten
  sfl : b.s.wp = .done false → b.sw.conn.out = b.sw.abs
  up : Pipe Spec.reqFrame okQ fs k b.cw.conn.out b.upN b.sr.stream
  down : Pipe (Spec.respFrame e.rc.width) okR (b.s.wire.map (rs e b.got)) b.back.length b.sw.conn.out b.downN b.cr.stream
  fsw : fs.filter real = b.c.wire.map (rq e)
  fsp : ∀ f ∈ fs, f.msg = Spec.pingType → f = pingMsg ∧ e.rc = .rc0
  got : b.got.map (fun q => (⟨q.msg, q.id, b.sr.mem.view q.body⟩ : Spec.ReqMsg)) = (fs.take k).filter real
  gotSafe : ∀ q ∈ b.got, b.sr.Safe q.body
  back : b.back.map (fun q => (⟨q.msg, q.id, q.code, b.cr.mem.view q.body⟩ : Spec.RespMsg)) =
    ((b.s.wire.map (rs e b.got)).take b.back.length).map (Spec.received e.rc.width)
  backSafe : ∀ q ∈ b.back, b.cr.Safe q.body
  srI : b.sr.Inv
  crI : b.cr.Inv
  pings : ∀ id ∈ b.s.pings, id = pingId.toNat ∧ e.rc = .rc0
  phase : b.phase ≠ .run → b.cok = true ∧ e.rc = .rc0 ∧ b.c.rp = .read

/-- The link of frames. -/
def lk (f : Nat → Nat) (b : St) : Link.St := ⟨rename f b.c, b.s, b.got.length, b.back.length⟩

structure Sim (e : Env) (f : Nat → Nat) (b : St) : Prop where
  link : ∃ cs, Link.run Link.init cs = some (lk f b)
  inv : ∃ fs k, BInv e b fs k

theorem binv_init {e : Env} {dial : Bool} (h : dial = true → e.rc = .rc0) : BInv e (init dial) [] 0 := by
  constructor
  case srI => exact SR.init_inv _
  case crI => exact SR.init_inv _
  case cw => exact fun _ => ⟨BufW.init_inv _, rfl, rfl⟩
  case sw => exact fun _ => ⟨BufW.init_inv _, rfl, rfl⟩
  case up => exact ⟨Nat.le_refl _, Nat.le_refl _, by simp [init, SR.init_stream, BufW.init], .inl (by simp [init, BufW.init]), by simp⟩
  case down => exact ⟨Nat.le_refl _, Nat.le_refl _, by simp [init, SR.init_stream, BufW.init],
    .inl (by simp [init, BufW.init]), by simp [init, Serv.init]⟩
  case phase => cases dial <;> simp_all [init, Conn.init]
  all_goals simp [init, Conn.init, Serv.init]

theorem link_add {ls : Link.St} {c : Link.Choice} {l : Link.St} (h : ∃ cs, Link.run Link.init cs = some ls)
    (hs : Link.step ls c = some l) : ∃ cs, Link.run Link.init cs = some l := by
  obtain ⟨cs, h⟩ := h
  refine ⟨cs ++ [c], ?_⟩
  have : ∀ (cs : List Link.Choice) (a : Link.St), Link.run a cs = some ls → Link.run a (cs ++ [c]) = some l := by
    intro cs
    induction cs with
    | nil => intro a h; cases h; simp [Link.run, hs]
    | cons x cs ih =>
      intro a h
      simp only [Link.run, List.cons_append] at h ⊢
      cases e : Link.step a x with
      | none => rw [e] at h; cases h
      | some y => rw [e] at h; exact ih y h
  exact this cs _ h

/-! ### Facts -/

theorem filter_at {α : Type} {p : α → Bool} {l : List α} {k : Nat} {a : α} (h : l[k]? = some a) (hp : p a = true) :
    (l.filter p)[((l.take k).filter p).length]? = some a := by
  obtain ⟨hk, he⟩ := List.getElem?_eq_some_iff.mp h
  have hs : l = l.take k ++ a :: l.drop (k + 1) := by
    rw [← he, ← List.drop_eq_getElem_cons hk, List.take_append_drop]
  have : l.filter p = (l.take k).filter p ++ a :: (l.drop (k + 1)).filter p := by
    conv => lhs; rw [hs]
    rw [List.filter_append, List.filter_cons_of_pos hp]
  rw [this]
  simp

theorem take_filter {α : Type} {p : α → Bool} {l : List α} {k : Nat} {a : α} (h : l[k]? = some a) :
    (l.take (k + 1)).filter p = (l.take k).filter p ++ [a].filter p := by
  obtain ⟨hk, he⟩ := List.getElem?_eq_some_iff.mp h
  rw [List.take_succ_eq_append_getElem hk, List.filter_append, he]

theorem wire_id {f : Nat → Nat} {b : St} (g : Link.Inv (lk f b)) {i r : Nat} {x : Bool} (h : (i, r, x) ∈ b.c.wire) :
    (UInt32.ofNat i).toNat = i := by
  have h1 := g.c.idRange r i (g.c.wireId r i x h).1
  have h2 := g.c.hh.young
  have h3 := g.c.hh.cur
  have : i < 2 ^ 32 := by
    unfold Conn.M at *
    omega
  rw [UInt32.toNat_ofNat']
  exact Nat.mod_eq_of_lt this

theorem item_lt {f : Nat → Nat} {b : St} (g : Link.Inv (lk f b)) {i k : Nat} (h : Serv.Item.resp i k ∈ Serv.flow b.s) :
    k < b.got.length := by
  have h1 := (g.s.item i k h).2
  have hk : k < b.s.n := by
    rcases Nat.lt_or_ge k b.s.n with h | h'
    · exact h
    · have := g.s.new k h'
      rw [h1] at this
      cases this
  have hn : b.s.n ≤ b.got.length := by
    by_cases hr : ∃ id, b.s.rp = .reg id
    · obtain ⟨id, hr⟩ := hr
      have : b.got.length = b.s.n + 1 := (g.reg id hr).1
      omega
    · have : b.got.length = b.s.n := g.nreg fun id h => hr ⟨id, h⟩
      omega
  omega

theorem rs_grow {f : Nat → Nat} {e : Env} {b : St} (g : Link.Inv (lk f b)) {q : Req Slc} {m : Serv.Item}
    (h : m ∈ Serv.flow b.s) : rs e (b.got ++ [q]) m = rs e b.got m := by
  cases m with
  | pong id => rfl
  | resp i k =>
    simp only [rs, response]
    rw [List.getElem?_append_left (item_lt g h)]

theorem wire_grow {f : Nat → Nat} {e : Env} {b : St} (g : Link.Inv (lk f b)) {q : Req Slc} :
    b.s.wire.map (rs e (b.got ++ [q])) = b.s.wire.map (rs e b.got) := by
  apply List.map_congr_left
  intro m hm
  exact rs_grow g (by unfold Serv.flow; simp [hm])

theorem got_msg {e : Env} {b : St} {fs : List Spec.ReqMsg} {k : Nat} (h : BInv e b fs k) {q : Req Slc} (hq : q ∈ b.got) :
    q.msg ≠ Spec.pingType := by
  have h1 : (⟨q.msg, q.id, b.sr.mem.view q.body⟩ : Spec.ReqMsg) ∈ (fs.take k).filter real := by
    rw [← h.got]
    exact List.mem_map.mpr ⟨q, hq, rfl⟩
  have := (List.mem_filter.mp h1).2
  simpa [real] using this

theorem rs_msg {e : Env} {b : St} {fs : List Spec.ReqMsg} {k : Nat} (h : BInv e b fs k) {i j : Nat} :
    (rs e b.got (.resp i j)).msg ≠ Spec.pingType := by
  simp only [rs, response, specResp]
  cases hq : b.got[j]? with
  | none => decide
  | some q =>
    simp only [Option.map_some, Option.getD_some]
    exact got_msg h (List.mem_of_getElem? hq)

theorem rs_ok {e : Env} {b : St} {fs : List Spec.ReqMsg} {k : Nat} (he : e.Fits) (h : BInv e b fs k) (m : Serv.Item) :
    okR (rs e b.got m) := by
  cases m with
  | pong id => exact ⟨by simp [rs, response, specResp], fun _ => rfl⟩
  | resp i j => exact ⟨he.2 j, fun hp => absurd hp (rs_msg h)⟩

theorem rq_ok {e : Env} (he : e.Fits) (x : Nat × Nat × Bool) : okQ (rq e x) ∧ real (rq e x) = true := by
  obtain ⟨i, r, x⟩ := x
  have := he.1 r
  refine ⟨?_, by simpa [real, rq, request, specReq, Spec.pingType] using this.1⟩
  cases x <;> simp [okQ, rq, request, specReq]
  exact this.2

theorem respFraming' (w : Spec.Width) : Framing (Spec.respFrame w) (Spec.received w) okR (Spec.parseResp w) :=
  ⟨fun a r h => (respFraming w).whole a r h.1, fun a c h => (respFraming w).cut a c h.1, (respFraming w).nil⟩

theorem map_got {o : Option Conn.St} {c : Conn.St} {b' : St} {F : Conn.St → St} (hF : ∀ c, (F c).c = c)
    (h : o.map F = some b') (hc : ∀ c', o = some c' → c.h.got ≤ c'.h.got) : c.h.got ≤ b'.c.h.got := by
  obtain ⟨c', e1, rfl⟩ := Option.map_eq_some_iff.mp h
  rw [hF]
  exact hc c' e1

theorem map_same {o : Option Serv.St} {b b' : St} {F : Serv.St → St}
    (h : o.map F = some b') (hF : ∀ s, (F s).c = b.c) : b.c.h.got ≤ b'.c.h.got := by
  obtain ⟨c', e1, rfl⟩ := Option.map_eq_some_iff.mp h
  rw [hF]
  exact Nat.le_refl _

theorem step_got {e : Env} {b b' : St} {c : Choice} (hs : step e b c = some b') : b.c.h.got ≤ b'.c.h.got := by
  cases c with
  | client c =>
    have he : step e b (.client c) = none ∨ step e b (.client c) = if b.phase = .run then (Conn.step b.c c).map fun c => { b with c } else none := by
      cases c with
      | endWrite x => cases x <;> first | exact .inl rfl | exact .inr rfl
      | _ => first | exact .inl rfl | exact .inr rfl
    rcases he with he | he <;> rw [he] at hs
    · cases hs
    · split at hs
      · exact map_got (fun _ => rfl) hs fun _ => Conn.got_step
      · cases hs
  | server c =>
    have he : step e b (.server c) = none ∨ step e b (.server c) = (Serv.step b.s c).map fun s => { b with s } := by
      cases c <;> first | exact .inl rfl | exact .inr rfl
    rcases he with he | he <;> rw [he] at hs
    · cases hs
    · exact map_same hs (fun _ => rfl)
  | arriveUp j => cases hs; exact Nat.le_refl _
  | arriveDown j => cases hs; exact Nat.le_refl _
  | _ =>
    simp only [step] at hs
    (repeat' split at hs) <;>
      first
      | exact map_got (fun _ => rfl) hs fun _ => Conn.got_step
      | exact map_same hs (fun _ => rfl)
      | (cases hs <;> exact Nat.le_refl _)

theorem append_stream {r : SR} {p : Bytes} :
    SR.stream { r with src := { r.src with chunks := r.src.chunks ++ [p] } } = r.stream ++ p := by
  simp [SR.stream]

/-! ### Every step is a step of the link of frames -/

def Agree (f : Nat → Nat) (b : St) : Prop := ∀ d i k, b.s.wire[d]? = some (.resp i k) → f d = k

def Allowed (e : Env) (c : Choice) : Prop := e.rc = .rc0 ∨ (e.rc = .rc4 ∧ ∀ k, c ≠ .ping k)

theorem sim_up {e : Env} {f : Nat → Nat} {b b' : St} (h : Sim e f b) (g : Link.Inv (lk f b))
    (hs : step e b .up = some b') : Sim e f b' := by
  obtain ⟨hl, fs, k, hb⟩ := h
  rcases readRequest_refines b.sr hb.srI with ⟨sr, q, hr, hst, hsafe, hp⟩ | ⟨_, hf⟩
  · obtain ⟨fr, h1, h2, h3⟩ := hb.up.read reqFraming parseReq_append hp
    have hview : b.got.map (fun q => (⟨q.msg, q.id, sr.mem.view q.body⟩ : Spec.ReqMsg)) =
        b.got.map (fun q => (⟨q.msg, q.id, b.sr.mem.view q.body⟩ : Spec.ReqMsg)) := by
      apply List.map_congr_left
      intro x hx
      rw [hst.view _ (hb.gotSafe x hx)]
    simp only [id] at h2
    simp only [step, hr] at hs
    split at hs
    · rename_i hq
      obtain ⟨s', e1, rfl⟩ := Option.map_eq_some_iff.mp hs
      have hm := hb.fsp fr (List.mem_of_getElem? h1) (by rw [← h2]; exact hq)
      have hid : q.id = pingId := by
        have := congrArg Spec.ReqMsg.id (h2.trans hm.1)
        exact this
      obtain ⟨k1, k2, _⟩ := srv_keep e1 (by simp) (by simp)
      refine ⟨link_add hl (c := .server (.ping q.id.toNat)) (by simp [Link.step, lk, e1]), fs, k + 1, ?_⟩
      exact { hb with
        sw := by simpa only [k1, k2] using hb.sw
        sfl := by simpa only [k1] using hb.sfl
        up := h3
        down := by simpa only [k2] using hb.down
        got := by
          show b.got.map (fun q => (⟨q.msg, q.id, sr.mem.view q.body⟩ : Spec.ReqMsg)) = _
          rw [hview, hb.got, take_filter h1, hm.1]
          simp [real, pingMsg]
        gotSafe := fun x hx => hst.safe _ (hb.gotSafe x hx)
        back := by simpa only [k2] using hb.back
        srI := hst.inv
        pings := by
          intro id hid'
          rw [srv_ping e1] at hid'
          rcases List.mem_cons.mp hid' with rfl | h'
          · exact ⟨by rw [hid], hm.2⟩
          · exact hb.pings id h' }
    · rename_i hq
      obtain ⟨s', e1, rfl⟩ := Option.map_eq_some_iff.mp hs
      have hreal : real fr = true := by
        rw [← h2]
        exact decide_eq_true hq
      have hx := filter_at h1 hreal
      have hlen : ((fs.take k).filter real).length = b.got.length := by
        rw [← hb.got]
        simp
      rw [hb.fsw, hlen, List.getElem?_map] at hx
      obtain ⟨⟨i, r, x⟩, hw, hx⟩ := Option.map_eq_some_iff.mp hx
      have hid : q.id.toNat = i := by
        have := congrArg Spec.ReqMsg.id (h2.trans hx.symm)
        simp only [rq, request, specReq] at this
        rw [this]
        exact wire_id g (List.mem_of_getElem? hw)
      rw [hid] at e1
      obtain ⟨k1, k2, k3⟩ := srv_keep e1 (by simp) (by simp)
      refine ⟨link_add hl (c := .up) ?_, fs, k + 1, ?_⟩
      · have : (rename f b.c).wire[b.got.length]? = some (i, r, x) := hw
        simp [Link.step, lk, e1, this]
      have hk2 : s'.wire.map (rs e (b.got ++ [q])) = b.s.wire.map (rs e b.got) := by
        rw [k2]
        exact wire_grow g
      exact { hb with
        sw := by simpa only [k1, hk2] using hb.sw
        sfl := by simpa only [k1] using hb.sfl
        up := h3
        down := by simpa only [hk2] using hb.down
        got := by
          show (b.got ++ [q]).map (fun q => (⟨q.msg, q.id, sr.mem.view q.body⟩ : Spec.ReqMsg)) = _
          rw [List.map_append, hview, hb.got, take_filter h1, ← h2]
          congr 1
          rw [← h2] at hreal
          simp [hreal]
        gotSafe := by
          intro x hx
          rcases List.mem_append.mp hx with hx | hx
          · exact hst.safe _ (hb.gotSafe x hx)
          · cases List.mem_singleton.mp hx
            exact hsafe
        back := by simpa only [hk2] using hb.back
        srI := hst.inv
        pings := by
          intro id hid'
          rw [k3 (by simp)] at hid'
          exact hb.pings id hid' }
  · simp only [step] at hs
    generalize readRequest b.sr = p at hs hf
    obtain ⟨sr, o⟩ := p
    cases o with
    | ok q => exact hf.2.elim
    | _ => cases hs

theorem sim_down {e : Env} {f : Nat → Nat} {b b' : St} (he : e.rc ≠ .rc1) (h : Sim e f b) (g : Link.Inv (lk f b))
    (hs : step e b .down = some b') (ha : Agree f b') : Sim e f b' := by
  obtain ⟨hl, fs, k, hb⟩ := h
  simp only [step] at hs
  split at hs
  case isFalse => cases hs
  rename_i hrun
  rcases readResponse_refines e.rc he b.cr hb.crI with ⟨cr, q, hr, hst, hsafe, hp⟩ | ⟨_, hf⟩
  · obtain ⟨fr, h1, h2, h3⟩ := hb.down.read (respFraming' _) parseResp_append hp
    have hview : (b.back ++ [q]).map (fun q => (⟨q.msg, q.id, q.code, cr.mem.view q.body⟩ : Spec.RespMsg)) =
        ((b.s.wire.map (rs e b.got)).take (b.back.length + 1)).map (Spec.received e.rc.width) := by
      obtain ⟨hlt, hget⟩ := List.getElem?_eq_some_iff.mp h1
      rw [List.take_succ_eq_append_getElem hlt, List.map_append, List.map_append, ← hb.back, hget]
      congr 1
      · apply List.map_congr_left
        intro x hx
        rw [hst.view _ (hb.backSafe x hx)]
      · simp [h2]
    have hsf : ∀ x ∈ b.back ++ [q], cr.Safe x.body := by
      intro x hx
      rcases List.mem_append.mp hx with hx | hx
      · exact hst.safe _ (hb.backSafe x hx)
      · cases List.mem_singleton.mp hx
        exact hsafe
    rw [List.getElem?_map] at h1
    obtain ⟨m, hm, rfl⟩ := Option.map_eq_some_iff.mp h1
    have hmf : m ∈ Serv.flow b.s := by
      unfold Serv.flow
      simp [List.mem_of_getElem? hm]
    rw [hr] at hs
    simp only at hs
    have hmsg : q.msg = (rs e b.got m).msg := congrArg Spec.RespMsg.msg h2
    have hid : q.id = (rs e b.got m).id := congrArg Spec.RespMsg.id h2
    cases m with
    | pong i =>
      have hi := hb.pings i (g.s.pong1 i hmf)
      rw [if_pos ⟨by rw [hid]; simp only [rs, response, specResp]; rw [hi.1]; rfl, by rw [hmsg]; rfl⟩] at hs
      split at hs
      · rename_i hrp
        cases hs
        refine ⟨link_add hl (c := .down) ?_, fs, k, ?_⟩
        · have : (lk f b).s.wire[(lk f b).down]? = some (.pong i) := hm
          have h' : (lk f b).c.rp = .read := rRp_read.mpr hrp
          simp [Link.step, this, h']
          simp [lk]
        · exact { hb with
            down := by simpa using h3
            back := by simpa using hview
            backSafe := hsf
            crI := hst.inv }
      · cases hs
    | resp i j =>
      have hne : ¬ (q.id = pingId ∧ q.msg = pingType) := fun h' => rs_msg hb (i := i) (j := j) (by rw [← hmsg]; exact h'.2)
      rw [if_neg hne] at hs
      obtain ⟨c', e1, rfl⟩ := Option.map_eq_some_iff.mp hs
      obtain ⟨_, _, r, x, hw, _⟩ := Link.item_wire g (List.mem_of_getElem? hm)
      have hi : q.id.toNat = i := by
        rw [hid]
        exact wire_id g (List.mem_of_getElem? hw)
      rw [hi] at e1
      have hfd : f b.back.length = j := ha _ i j hm
      have e2 := rename_step f e1
      simp only [rChoice, hfd] at e2
      refine ⟨link_add hl (c := .down) ?_, fs, k, ?_⟩
      · have : (lk f b).s.wire[(lk f b).down]? = some (.resp i j) := hm
        have h' : (lk f b).c = rename f b.c := rfl
        simp only [Link.step, this, h', e2]
        simp [lk]
      · have hc : c'.wire = b.c.wire ∧ c'.wp = b.c.wp := by
          simp only [Conn.step] at e1
          (repeat' split at e1) <;> cases e1 <;> exact ⟨rfl, rfl⟩
        exact { hb with
          cend := by simpa only [hc.2] using hb.cend
          fsw := by simpa only [hc.1] using hb.fsw
          down := by simpa using h3
          back := by simpa using hview
          backSafe := hsf
          crI := hst.inv
          phase := fun h => absurd hrun h }
  · generalize readResponse e.rc b.cr = p at hs hf
    obtain ⟨sr, o⟩ := p
    cases o with
    | ok q => exact hf.2.elim
    | _ => cases hs

theorem conn_keep {s s' : Conn.St} {c : Conn.Choice} (hc : ∀ ok, c ≠ .wrote ok) (h : Conn.step s c = some s') :
    s'.wire = s.wire ∧ (s.wp = .ended → s'.wp = .ended) := by
  cases c with
  | wrote ok => exact absurd rfl (hc ok)
  | take r =>
    simp only [Conn.step, Conn.offer, Conn.claim] at h
    (repeat' split at h) <;> cases h <;> simp_all
  | reply =>
    simp only [Conn.step, Conn.respond, Conn.answer] at h
    (repeat' split at h) <;> cases h <;> simp_all
  | fail r =>
    simp only [Conn.step, Conn.respondFail, Conn.answer] at h
    (repeat' split at h) <;> cases h <;> simp_all
  | flushOne =>
    simp only [Conn.step, Conn.respondFail, Conn.answer] at h
    (repeat' split at h) <;> cases h <;> simp_all
  | _ =>
    simp only [Conn.step] at h
    (repeat' split at h) <;> cases h <;> simp_all

theorem sim_client {e : Env} {f : Nat → Nat} {b b' : St} {c : Conn.Choice} (h : Sim e f b)
    (hs : step e b (.client c) = some b') : Sim e f b' := by
  obtain ⟨hl, fs, k, hb⟩ := h
  have he : (∀ ok, c ≠ .wrote ok) ∧ (∀ i d, c ≠ .resp i d) ∧
      step e b (.client c) = if b.phase = .run then (Conn.step b.c c).map fun c => { b with c } else none := by
    cases c with
    | endWrite x => cases x <;> first | cases hs | exact ⟨by simp, by simp, rfl⟩
    | wrote => cases hs
    | resp => cases hs
    | _ => exact ⟨by simp, by simp, rfl⟩
  obtain ⟨h1, h2, he⟩ := he
  rw [he] at hs
  split at hs
  case isFalse => cases hs
  rename_i hrun
  obtain ⟨c', e1, rfl⟩ := Option.map_eq_some_iff.mp hs
  obtain ⟨k1, k2⟩ := conn_keep h1 e1
  have e2 := rename_step f e1
  have hr : rChoice f c = c := by cases c <;> first | rfl | exact absurd rfl (h2 _ _)
  rw [hr] at e2
  refine ⟨link_add hl (c := .client c) ?_, fs, k, ?_⟩
  · have : Link.step (lk f b) (.client c) = (Conn.step (rename f b.c) c).map fun c => { lk f b with c } := by
      cases c <;> first | rfl | exact absurd rfl (h2 _ _)
    rw [this, e2]
    rfl
  · exact { hb with
      cend := fun h => k2 (hb.cend h)
      fsw := by simpa only [k1] using hb.fsw
      phase := fun h => absurd hrun h }

theorem endWrite_keep {s s' : Conn.St} (h : Conn.step s (.endWrite false) = some s') : s'.wire = s.wire ∧ s'.wp = .ended := by
  simp only [Conn.step] at h
  split at h <;> cases h
  exact ⟨rfl, rfl⟩

/-- The client's writer has failed. -/
theorem BInv.fail {e : Env} {b : St} {fs : List Spec.ReqMsg} {k n : Nat} (hb : BInv e b fs k) (hok : b.cok = true)
    {c : Conn.St} {cw : BufW} {q : Spec.ReqMsg} {p : BufW × Out Unit} {x : IOErr} (hq : okQ q)
    (hp : BufW.Post (limit b.cw (some n)) (Spec.reqFrame q) p) (ep : p = (cw, .err x)) (hrun : b.phase = .run)
    (hw : c.wire = b.c.wire) (hwp : c.wp = .ended) : BInv e { b with c, cw, cok := false } fs k := by
  obtain ⟨h1, h2, h3⟩ := (hb.cw hok).err hp ep
  exact { hb with
    cw := fun h => by cases h
    cend := fun _ => hwp
    up := by
      have := hb.up.grow (gs := []) h2 (by simp) (.inr ⟨q, hq, by simpa using h1, by simpa using h3⟩)
      simpa using this
    fsw := by simpa only [hw] using hb.fsw
    phase := fun h => absurd hrun h }

theorem flush_as {w : BufW} {p : BufW × Out Unit} {x : IOErr} {w' : BufW} (hp : BufW.Post w [] p) (ep : p = (w', .err x)) (d : Bytes) :
    BufW.Post w d p := by
  subst ep
  obtain ⟨h1, h2, h3, h4⟩ := hp
  simp only [List.append_nil] at h2 h4
  exact ⟨h1, h2.trans (List.prefix_append _ _), h3, by simp only [List.length_append]; omega⟩

theorem okQ_ping : okQ pingMsg := by simp [okQ, pingMsg]

theorem writePing_post {w : BufW} (hi : w.Inv) : BufW.Post w (Spec.reqFrame pingMsg) (writePing w) := writeRequest_post w _ hi

/-- The client has written a frame. -/
theorem BInv.wrote {e : Env} {b : St} {fs : List Spec.ReqMsg} {k : Nat} (hb : BInv e b fs k) (hok : b.cok = true)
    {c : Conn.St} {cw : BufW} {qs : List Spec.ReqMsg} {p : BufW × Out Unit} (hq : ∀ q ∈ qs, okQ q)
    (hp : BufW.Post (limit b.cw none) (qs.map Spec.reqFrame).flatten p) (ep : p = (cw, .ok ()))
    (hw : qs.filter real = [] ∧ c.wire = b.c.wire ∨ ∃ x, qs = [rq e x] ∧ real (rq e x) = true ∧ c.wire = b.c.wire ++ [x])
    (hm : ∀ q ∈ qs, q.msg = Spec.pingType → q = pingMsg ∧ e.rc = .rc0) (hph : b.phase ≠ .run → c.rp = b.c.rp) :
    BInv e { b with c, cw } (fs ++ qs) k := by
  obtain ⟨h1, h2⟩ := (hb.cw hok).ok hp ep
  have hfl : (fs.map Spec.reqFrame).flatten ++ (qs.map Spec.reqFrame).flatten = ((fs ++ qs).map Spec.reqFrame).flatten := by
    simp
  rw [hfl] at h1
  exact { hb with
    cw := fun _ => h1
    cend := fun h => by rw [show b.cok = true from hok] at h; cases h
    up := hb.up.grow h2 hq (.inl (h1.abs ▸ abs_out))
    fsw := by
      show (fs ++ qs).filter real = c.wire.map (rq e)
      rw [List.filter_append, hb.fsw]
      rcases hw with ⟨h, h'⟩ | ⟨x, rfl, hx, h'⟩
      · rw [h, h']
        simp
      · rw [h']
        simp [hx]
    fsp := by
      intro q hq'
      rcases List.mem_append.mp hq' with h | h
      · exact hb.fsp q h
      · exact hm q h
    got := by
      show _ = ((fs ++ qs).take k).filter real
      rw [List.take_append_of_le_length hb.up.le]
      exact hb.got
    phase := fun h => ⟨(hb.phase h).1, (hb.phase h).2.1, (hph h).trans (hb.phase h).2.2⟩ }

theorem sim_write {e : Env} {f : Nat → Nat} {b b' : St} {n : Option Nat} (he : e.Fits) (h : Sim e f b)
    (hs : step e b (.write n) = some b') : Sim e f b' := by
  obtain ⟨hl, fs, k, hb⟩ := h
  simp only [step] at hs
  split at hs
  case isFalse => cases hs
  rename_i hrun
  split at hs
  case h_2 => cases hs
  rename_i id r full hwp
  have hok : b.cok = true := by
    cases e1 : b.cok with
    | true => rfl
    | false => rw [hb.cend e1] at hwp; cases hwp
  have hinv := (hb.cw hok).inv
  split at hs
  · rename_i cw hw
    obtain ⟨c', e1, rfl⟩ := Option.map_eq_some_iff.mp hs
    have e2 := rename_step f e1
    refine ⟨link_add hl (c := .client (.wrote true)) ?_, fs ++ [rq e (id, r, full)], k, ?_⟩
    · show (Conn.step (rename f b.c) (.wrote true)).map _ = _
      rw [show Conn.step (rename f b.c) (.wrote true) = _ from e2]
      rfl
    · have hc : c'.wire = b.c.wire ++ [(id, r, full)] := by
        simp only [Conn.step, hwp, if_true] at e1
        cases e1
        rfl
      have hx := rq_ok he (id, r, full)
      refine hb.wrote hok (by simpa using hx.1) (by simpa [rq] using writeRequest_post _ _ (limit_inv hinv)) hw
        (.inr ⟨_, rfl, hx.2, hc⟩) ?_ (fun h => absurd hrun h)
      intro q hq hp
      cases List.mem_singleton.mp hq
      exact absurd hp (of_decide_eq_true hx.2)
  · rename_i n cw x hw
    obtain ⟨c', e1, rfl⟩ := Option.map_eq_some_iff.mp hs
    have e2 := rename_step f e1
    refine ⟨link_add hl (c := .client (.wrote false)) ?_, fs, k, ?_⟩
    · show (Conn.step (rename f b.c) (.wrote false)).map _ = _
      rw [show Conn.step (rename f b.c) (.wrote false) = _ from e2]
      rfl
    · have hc : c'.wire = b.c.wire ∧ c'.wp = .ended := by
        simp only [Conn.step, hwp] at e1
        cases e1
        exact ⟨rfl, rfl⟩
      exact hb.fail hok (rq_ok he (id, r, full)).1 (writeRequest_post _ _ (limit_inv hinv)) hw hrun hc.1 hc.2
  · cases hs

theorem sim_ping {e : Env} {f : Nat → Nat} {b b' : St} {n : Option Nat} (hrc : e.rc = .rc0) (h : Sim e f b)
    (hs : step e b (.ping n) = some b') : Sim e f b' := by
  obtain ⟨hl, fs, k, hb⟩ := h
  simp only [step] at hs
  split at hs
  case isFalse => cases hs
  rename_i hrun
  obtain ⟨hrun, hwp⟩ := hrun
  have hok : b.cok = true := by
    cases e1 : b.cok with
    | true => rfl
    | false => rw [hb.cend e1] at hwp; cases hwp
  have hinv := (hb.cw hok).inv
  split at hs
  · rename_i cw hw
    cases hs
    refine ⟨hl, fs ++ [pingMsg], k, ?_⟩
    refine hb.wrote (c := b.c) hok (by simpa using okQ_ping) (by simpa using writePing_post (limit_inv hinv)) hw
        (.inl ⟨by decide, rfl⟩) ?_ (fun h => absurd hrun h)
    intro q hq _
    cases List.mem_singleton.mp hq
    exact ⟨rfl, hrc⟩
  · rename_i n cw x hw
    obtain ⟨c', e1, rfl⟩ := Option.map_eq_some_iff.mp hs
    have e2 := rename_step f e1
    refine ⟨link_add hl (c := .client (.endWrite false)) ?_, fs, k, ?_⟩
    · show (Conn.step (rename f b.c) (.endWrite false)).map _ = _
      rw [show Conn.step (rename f b.c) (.endWrite false) = _ from e2]
      rfl
    · have hc := endWrite_keep e1
      exact hb.fail hok okQ_ping (writePing_post (limit_inv hinv)) hw hrun hc.1 hc.2
  · cases hs

theorem sim_flush {e : Env} {f : Nat → Nat} {b b' : St} {n : Option Nat} (h : Sim e f b)
    (hs : step e b (.flush n) = some b') : Sim e f b' := by
  obtain ⟨hl, fs, k, hb⟩ := h
  simp only [step] at hs
  split at hs
  case isFalse => cases hs
  rename_i hrun
  obtain ⟨hrun, hok, hwp⟩ := hrun
  have hinv := (hb.cw hok).inv
  split at hs
  · rename_i cw hw
    cases hs
    refine ⟨hl, fs ++ [], k, ?_⟩
    exact hb.wrote (c := b.c) hok (by simp) (by simpa using (BufW.flush_post _ (limit_inv hinv)).1) hw (.inl ⟨rfl, rfl⟩) (by simp)
      (fun _ => rfl)
  · rename_i n cw x hw
    have hp := flush_as (BufW.flush_post _ (limit_inv (k := some n) hinv)).1 hw (Spec.reqFrame pingMsg)
    split at hs
    · obtain ⟨c', e1, rfl⟩ := Option.map_eq_some_iff.mp hs
      have e2 := rename_step f e1
      refine ⟨link_add hl (c := .client (.endWrite false)) ?_, fs, k, ?_⟩
      · show (Conn.step (rename f b.c) (.endWrite false)).map _ = _
        rw [show Conn.step (rename f b.c) (.endWrite false) = _ from e2]
        rfl
      · have hc := endWrite_keep e1
        exact hb.fail hok okQ_ping hp hw hrun hc.1 hc.2
    · rename_i hne
      cases hs
      exact ⟨hl, fs, k, hb.fail (c := b.c) hok okQ_ping hp hw hrun rfl (hwp.resolve_left hne)⟩
  · cases hs

theorem sim_dialPing {e : Env} {f : Nat → Nat} {b b' : St} (h : Sim e f b)
    (hs : step e b .dialPing = some b') : Sim e f b' := by
  obtain ⟨hl, fs, k, hb⟩ := h
  simp only [step] at hs
  split at hs
  case isFalse => cases hs
  rename_i hph
  obtain ⟨hok, hrc, hrp⟩ := hb.phase (by rw [hph]; simp)
  split at hs
  · rename_i cw hw
    cases hs
    have hinv := (hb.cw hok).inv
    have hp : BufW.Post (limit b.cw none) ([pingMsg].map Spec.reqFrame).flatten (BufW.andThen (writePing b.cw) (·.flush)) := by
      rw [limit_none (hb.cw hok).bud]
      have := BufW.post_seq (d2 := []) (f := (·.flush)) (writePing_post hinv) (fun w' hi' => (BufW.flush_post w' hi').1)
      simpa using this
    have h1 := hb.wrote (c := b.c) hok (qs := [pingMsg]) (by simpa using okQ_ping) hp hw (.inl ⟨by decide, rfl⟩) (by
      intro q hq _
      cases List.mem_singleton.mp hq
      exact ⟨rfl, hrc⟩) (fun _ => rfl)
    exact ⟨hl, fs ++ [pingMsg], k, { h1 with phase := fun _ => ⟨hok, hrc, hrp⟩ }⟩
  · cases hs

theorem Pipe.next {α : Type} {enc : α → Bytes} {ok : α → Prop} {fs : List α} {k n : Nat} {w str : Bytes}
    (h : Pipe enc ok fs k w n str) (hne : str ≠ []) : ∃ g X, ok g ∧ str <+: enc g ++ X := by
  have hsplit : (fs.map enc).flatten = ((fs.take k).map enc).flatten ++ ((fs.drop k).map enc).flatten := by
    rw [← List.flatten_append, ← List.map_append, List.take_append_drop]
  have hwn : ((fs.take k).map enc).flatten ++ str <+: w := h.str ▸ List.take_prefix _ _
  have hs : str <+: ((fs.drop k).map enc).flatten ∨ ∃ q, ok q ∧ str <+: ((fs.drop k).map enc).flatten ++ enc q := by
    rcases h.pre with hl | ⟨q', hq, hl, _⟩
    · have := hwn.trans hl
      rw [hsplit, List.prefix_append_right_inj] at this
      exact .inl this
    · have := hwn.trans hl
      rw [hsplit, List.append_assoc, List.prefix_append_right_inj] at this
      exact .inr ⟨q', hq, this⟩
  cases e : fs.drop k with
  | nil =>
    rw [e] at hs
    rcases hs with hs | ⟨q, hq, hs⟩
    · exact absurd (List.prefix_nil.mp hs) hne
    · exact ⟨q, [], hq, by simpa using hs⟩
  | cons g gs =>
    rw [e] at hs
    have hg : ok g := h.ok g (List.mem_of_mem_drop (by rw [e]; simp))
    rcases hs with hs | ⟨q, hq, hs⟩
    · exact ⟨g, (gs.map enc).flatten, hg, by simpa using hs⟩
    · exact ⟨g, (gs.map enc).flatten ++ enc q, hg, by simpa using hs⟩

theorem u32At_pre {s t : Bytes} (h : s <+: t) (h12 : 12 ≤ s.length) {k : Nat} (hk : k + 4 ≤ 12) :
    Spec.u32At s k = Spec.u32At t k := by
  obtain ⟨t, rfl⟩ := h
  have hb : ∀ j, j < 12 → Spec.byteAt (s ++ t) j = Spec.byteAt s j := by
    intro j hj
    unfold Spec.byteAt
    rw [List.getElem?_append_left (by omega)]
  unfold Spec.u32At
  rw [hb k (by omega), hb (k + 1) (by omega), hb (k + 2) (by omega), hb (k + 3) (by omega)]

theorem sim_dialPong {e : Env} {f : Nat → Nat} {b b' : St} (h : Sim e f b)
    (hs : step e b .dialPong = some b') : Sim e f b' := by
  obtain ⟨hl, fs, k, hb⟩ := h
  simp only [step] at hs
  split at hs
  case isFalse => cases hs
  rename_i hph
  obtain ⟨hok, hrc, hrp⟩ := hb.phase (by rw [hph]; simp)
  split at hs
  case h_2 => cases hs
  rename_i cr hr
  cases hs
  unfold readPing at hr
  rcases read_cases b.cr 12 hb.crI with ⟨r1, sl, h1, hn, hst, hview, hsafe, hstr⟩ | ⟨hn, hf⟩
  · rw [h1] at hr
    simp only at hr
    split at hr
    · cases hr
    rename_i hhead
    cases hr
    rw [hview, getU32_drop, getU32_zero, u32At_take _ _ _ (by omega), u32At_take _ _ _ (by omega)] at hhead
    have hhead : Spec.u32At b.cr.stream 0 = pingType ∧ Spec.u32At b.cr.stream 8 = pingId := by
      constructor
      · exact Decidable.byContradiction fun h => hhead (.inl h)
      · exact Decidable.byContradiction fun h => hhead (.inr h)
    have hne : b.cr.stream ≠ [] := by intro h; rw [h] at hn; simp at hn
    obtain ⟨q, X, hq, hpre⟩ := hb.down.next hne
    rw [hrc] at hpre
    have hen : Spec.respFrame RCType.rc0.width q ++ X = Spec.le32 q.msg ++ Spec.le32 (UInt32.ofNat q.body.length) ++
        Spec.le32 q.id ++ (q.body ++ X) := by
      simp [respFrame_eq, codeBytes, RCType.width, Spec.Width.bytes, Spec.reqFrame]
    rw [hen] at hpre
    have hw := header_words q.msg (UInt32.ofNat q.body.length) q.id (q.body ++ X)
    have hmsg : q.msg = Spec.pingType := by
      rw [← hw.1, ← u32At_pre hpre hn (by omega)]
      exact hhead.1
    have hbody := hq.2 hmsg
    have h4 : Spec.u32At b.cr.stream 4 = 0 := by
      rw [u32At_pre hpre hn (by omega), hw.2.1, hbody]
      rfl
    have hp : Spec.parseResp e.rc.width b.cr.stream = some (⟨Spec.pingType, pingId, 0, []⟩, cr.stream) := by
      rw [parseResp_of_parseReq, parseReq_some _ hn (by rw [h4]; simp), h4, hhead.1, hhead.2, hstr, hrc]
      simp [RCType.width, Spec.splitCode]
      rfl
    obtain ⟨fr, k1, k2, k3⟩ := hb.down.read (respFraming' _) parseResp_append hp
    rw [List.getElem?_map] at k1
    obtain ⟨m, hm, rfl⟩ := Option.map_eq_some_iff.mp k1
    cases m with
    | resp i j =>
      have := congrArg Spec.RespMsg.msg k2
      exact absurd this.symm (rs_msg hb (i := i) (j := j))
    | pong i =>
      have hview' : (b.back ++ [(⟨pingType, pingId, 0, Slc.nil⟩ : Resp Slc)]).map
          (fun q => (⟨q.msg, q.id, q.code, cr.mem.view q.body⟩ : Spec.RespMsg)) =
          ((b.s.wire.map (rs e b.got)).take (b.back.length + 1)).map (Spec.received e.rc.width) := by
        have k1' : (b.s.wire.map (rs e b.got))[b.back.length]? = some (rs e b.got (.pong i)) := by simp [hm]
        obtain ⟨hlt, hget⟩ := List.getElem?_eq_some_iff.mp k1'
        rw [List.take_succ_eq_append_getElem hlt, List.map_append, List.map_append, ← hb.back, hget]
        congr 1
        · apply List.map_congr_left
          intro x hx
          rw [hst.view _ (hb.backSafe x hx)]
        · rw [List.map_singleton, List.map_singleton, ← k2]
          simp [Mem.view, Slc.nil]
          rfl
      refine ⟨link_add hl (c := .down) ?_, fs, k, ?_⟩
      · have : (lk f b).s.wire[(lk f b).down]? = some (.pong i) := hm
        have h' : (lk f b).c.rp = .read := rRp_read.mpr hrp
        simp [Link.step, this, h']
        simp [lk]
      · exact { hb with
          down := by simpa using k3
          back := by simpa using hview'
          backSafe := by
            intro x hx
            rcases List.mem_append.mp hx with hx | hx
            · exact hst.safe _ (hb.backSafe x hx)
            · cases List.mem_singleton.mp hx
              exact .inl rfl
          crI := hst.inv
          phase := fun h => absurd rfl h }
  · rcases hf with ⟨r', x, h1, _⟩ | ⟨r', h1, _⟩ <;> rw [h1] at hr <;> cases hr

theorem sim_arriveUp {e : Env} {f : Nat → Nat} {b b' : St} {j : Nat} (h : Sim e f b)
    (hs : step e b (.arriveUp j) = some b') : Sim e f b' := by
  obtain ⟨hl, fs, k, hb⟩ := h
  cases hs
  refine ⟨hl, fs, k, ?_⟩
  exact { hb with
    up := by
      show Pipe _ _ _ _ _ _ (SR.stream _)
      rw [append_stream]
      exact hb.up.arrive j
    srI := ⟨hb.srI.wf, hb.srI.blk⟩ }

theorem sim_arriveDown {e : Env} {f : Nat → Nat} {b b' : St} {j : Nat} (h : Sim e f b)
    (hs : step e b (.arriveDown j) = some b') : Sim e f b' := by
  obtain ⟨hl, fs, k, hb⟩ := h
  cases hs
  refine ⟨hl, fs, k, ?_⟩
  exact { hb with
    down := by
      show Pipe _ _ _ _ _ _ (SR.stream _)
      rw [append_stream]
      exact hb.down.arrive j
    crI := ⟨hb.crI.wf, hb.crI.blk⟩ }

theorem sim_server {e : Env} {f : Nat → Nat} {b b' : St} {c : Serv.Choice} (h : Sim e f b)
    (hs : step e b (.server c) = some b') : Sim e f b' := by
  obtain ⟨hl, fs, k, hb⟩ := h
  have he : (c ≠ .wl) ∧ (c ≠ .wErr) ∧ (∀ id, c ≠ .recv id) ∧ (∀ id, c ≠ .ping id) ∧
      step e b (.server c) = (Serv.step b.s c).map fun s => { b with s } := by
    cases c <;> first | cases hs | exact ⟨by simp, by simp, by simp, by simp, rfl⟩
  obtain ⟨h1, h2, h3, h4, he⟩ := he
  rw [he] at hs
  obtain ⟨s', e1, rfl⟩ := Option.map_eq_some_iff.mp hs
  obtain ⟨k1, k2, k3⟩ := srv_keep e1 h1 h2
  refine ⟨link_add hl (c := .server c) ?_, fs, k, ?_⟩
  · have : Link.step (lk f b) (.server c) = (Serv.step b.s c).map fun s => { lk f b with s } := by
      cases c <;> first | rfl | exact absurd rfl (h3 _)
    rw [this, e1]
    rfl
  · exact { hb with
      sw := by simpa only [k1, k2] using hb.sw
      sfl := by simpa only [k1] using hb.sfl
      down := by simpa only [k2] using hb.down
      back := by simpa only [k2] using hb.back
      pings := by simpa only [k3 h4] using hb.pings }

theorem put_post {e : Env} {b : St} {fs : List Spec.ReqMsg} {k : Nat} {f : Nat → Nat} (hrc : e.rc = .rc0 ∨ e.rc = .rc4)
    (hb : BInv e b fs k) (g : Link.Inv (lk f b)) {w : BufW} (hi : w.Inv) :
    (∀ m, b.s.wp = .got m → BufW.Post w (Spec.respFrame e.rc.width (rs e b.got m)) (put e b w)) ∧
    ((∀ m, b.s.wp ≠ .got m) → BufW.Post w [] (put e b w) ∧
      (b.s.wp = .fin false → ∀ w', put e b w = (w', .ok ()) → w'.wr = 0)) := by
  constructor
  · intro m hm
    unfold put
    rw [hm]
    apply writeResponse_post e.rc w _ hi
    rcases hrc with h | h
    · exact .inl h
    · refine .inr ⟨h, ?_⟩
      cases m with
      | resp i j => exact rs_msg hb (i := i) (j := j)
      | pong i =>
        have := (hb.pings i (g.s.pong1 i (by simp [Serv.flow, lk, hm, Serv.held]))).2
        rw [h] at this
        cases this
  · intro hm
    unfold put
    split
    · rename_i m h; exact absurd h (hm m)
    · rename_i h
      exact ⟨(BufW.flush_post w hi).1, fun h' => by rw [h] at h'; cases h'⟩
    · exact ⟨(BufW.flush_post w hi).1, fun _ w' h => ((BufW.flush_post w hi).2 w' h).1⟩
    · refine ⟨⟨hi, by simp, fun h => h, List.prefix_rfl⟩, fun h => ?_⟩
      rename_i h1
      exact absurd h h1

theorem sim_put {e : Env} {f : Nat → Nat} {b b' : St} {n : Option Nat} (he : e.Fits) (hrc : e.rc = .rc0 ∨ e.rc = .rc4)
    (h : Sim e f b) (g : Link.Inv (lk f b)) (hs : step e b (.put n) = some b') : Sim e f b' := by
  obtain ⟨hl, fs, k, hb⟩ := h
  simp only [step] at hs
  split at hs
  · rename_i sw hw
    obtain ⟨s', e1, rfl⟩ := Option.map_eq_some_iff.mp hs
    have hlink : ∃ cs, Link.run Link.init cs = some (lk f { b with s := s', sw }) := link_add hl (c := .server .wl) (by
      show (Serv.step b.s .wl).map _ = _
      rw [e1]
      rfl)
    refine ⟨hlink, fs, k, ?_⟩
    obtain ⟨k1, ⟨m, hm, k2, k3⟩ | ⟨k2, hm, k3, k4, k5⟩⟩ := srv_wl e1
    · have hal : alive b.s.wp := by rw [hm]; simp [alive]
      have hWr := hb.sw hal
      obtain ⟨h1, h2⟩ := hWr.ok ((put_post hrc hb g (limit_inv hWr.inv)).1 m hm) hw
      have hfl : ((b.s.wire.map (rs e b.got)).map (Spec.respFrame e.rc.width)).flatten ++ Spec.respFrame e.rc.width (rs e b.got m) =
          ((s'.wire.map (rs e b.got)).map (Spec.respFrame e.rc.width)).flatten := by
        rw [k2]
        simp
      rw [hfl] at h1
      have hmp : s'.wire.map (rs e b.got) = b.s.wire.map (rs e b.got) ++ [rs e b.got m] := by rw [k2]; simp
      exact { hb with
        sw := fun _ => h1
        sfl := fun h => by rw [show s'.wp = _ from k3] at h; cases h
        down := by
          show Pipe _ _ (s'.wire.map (rs e b.got)) _ _ _ _
          have hpre : sw.conn.out <+: ((s'.wire.map (rs e b.got)).map (Spec.respFrame e.rc.width)).flatten := h1.abs ▸ abs_out
          rw [hmp] at hpre ⊢
          exact hb.down.grow h2 (by simpa using rs_ok he hb m) (.inl hpre)
        back := by
          show _ = ((s'.wire.map (rs e b.got)).take b.back.length).map _
          rw [hmp, List.take_append_of_le_length hb.down.le]
          exact hb.back
        pings := by simpa only [k1] using hb.pings }
    · by_cases hal : alive b.s.wp
      · have hWr := hb.sw hal
        have hpp := (put_post hrc hb g (limit_inv (k := none) hWr.inv)).2 hm
        obtain ⟨h1, h2⟩ := hWr.ok hpp.1 hw
        rw [List.append_nil] at h1
        exact { hb with
          sw := fun _ => by simpa only [k2] using h1
          sfl := fun h => by
            have h0 := hpp.2 (k3 h) sw hw
            simp [BufW.abs, h0]
          down := by
            have := hb.down.grow (gs := []) h2 (by simp) (.inl (by
              have := abs_out (w := sw)
              rw [h1.abs] at this
              simpa using this))
            simpa only [k2, List.append_nil] using this
          back := by simpa only [k2] using hb.back
          pings := by simpa only [k1] using hb.pings }
      · have hd : b.s.wp = .fin true ∨ b.s.wp = .done true := Decidable.byContradiction hal
        have hsw : sw.conn.out = b.sw.conn.out := by
          unfold put at hw
          rcases hd with hd | hd <;> rw [hd] at hw <;> cases hw <;> rfl
        exact { hb with
          sw := fun h => absurd (k5.mpr hd) h
          sfl := fun h => by
            have := k5.mpr hd
            rw [h] at this
            simp at this
          down := by simpa only [k2, hsw] using hb.down
          back := by simpa only [k2] using hb.back
          pings := by simpa only [k1] using hb.pings }
  · rename_i n sw x hw
    obtain ⟨s', e1, rfl⟩ := Option.map_eq_some_iff.mp hs
    have hlink : ∃ cs, Link.run Link.init cs = some (lk f { b with s := s', sw }) := link_add hl (c := .server .wErr) (by
      show (Serv.step b.s .wErr).map _ = _
      rw [e1]
      rfl)
    refine ⟨hlink, fs, k, ?_⟩
    obtain ⟨k1, k2, k3, k4⟩ := srv_wErr e1
    have hal : alive b.s.wp := by
      rcases k4 with (h | h) | ⟨m, h⟩ <;> rw [h] <;> simp [alive]
    have hWr := hb.sw hal
    have hpp := put_post hrc hb g (limit_inv (k := some n) hWr.inv)
    have hpost : ∃ m, BufW.Post (limit b.sw (some n)) (Spec.respFrame e.rc.width (rs e b.got m)) (put e b (limit b.sw (some n))) := by
      rcases k4 with h | ⟨m, h⟩
      · refine ⟨.pong 0, flush_as (hpp.2 ?_).1 hw _⟩
        rcases h with h | h <;> rw [h] <;> simp
      · exact ⟨m, hpp.1 m h⟩
    obtain ⟨m, hpost⟩ := hpost
    obtain ⟨h1, h2, h3⟩ := hWr.err hpost hw
    exact { hb with
      sw := fun h => absurd (.inl k3) h
      sfl := fun h => by rw [show s'.wp = _ from k3] at h; cases h
      down := by
        have := hb.down.grow (gs := []) h2 (by simp) (.inr ⟨rs e b.got m, rs_ok he hb m, by simpa using h1, by simpa using h3⟩)
        simpa only [k2, List.append_nil] using this
      back := by simpa only [k2] using hb.back
      pings := by simpa only [k1] using hb.pings }
  · cases hs

theorem sim_inv {e : Env} {f : Nat → Nat} {b : St} (h : Sim e f b) (hy : Conn.Young b.c) : Link.Inv (lk f b) := by
  obtain ⟨cs, h⟩ := h.link
  exact Link.inv_run Link.inv_init h hy

theorem sim_step {e : Env} {f : Nat → Nat} {b b' : St} {c : Choice} (he : e.Fits) (hc : Allowed e c) (h : Sim e f b)
    (hs : step e b c = some b') (hy : Conn.Young b'.c) (ha : Agree f b') : Sim e f b' := by
  have g := sim_inv h (Nat.le_trans (step_got hs) hy)
  have hrc : e.rc = .rc0 ∨ e.rc = .rc4 := hc.imp id And.left
  cases c with
  | dialPing => exact sim_dialPing h hs
  | dialPong => exact sim_dialPong h hs
  | client c => exact sim_client h hs
  | write n => exact sim_write he h hs
  | ping n => exact sim_ping (hc.resolve_right fun h => h.2 n rfl) h hs
  | flush n => exact sim_flush h hs
  | server c => exact sim_server h hs
  | put n => exact sim_put he hrc h g hs
  | arriveUp j => exact sim_arriveUp h hs
  | arriveDown j => exact sim_arriveDown h hs
  | up => exact sim_up h g hs
  | down => exact sim_down (by rcases hrc with h | h <;> rw [h] <;> simp) h g hs ha

theorem run_got {e : Env} {b b' : St} {cs : List Choice} (hs : run e b cs = some b') : b.c.h.got ≤ b'.c.h.got := by
  induction cs generalizing b with
  | nil => cases hs; exact Nat.le_refl _
  | cons c cs ih =>
    simp only [run] at hs
    cases e1 : step e b c with
    | none => rw [e1] at hs; cases hs
    | some l1 =>
      rw [e1] at hs
      exact Nat.le_trans (step_got e1) (ih hs)

theorem step_wire {e : Env} {b b' : St} {c : Choice} (hs : step e b c = some b') : b.s.wire <+: b'.s.wire := by
  have key : ∀ {o : Option Serv.St} {F : Serv.St → St}, o.map F = some b' → (∀ s, (F s).s = s) →
      (∀ s', o = some s' → b.s.wire <+: s'.wire) → b.s.wire <+: b'.s.wire := by
    intro o F h hF hc
    obtain ⟨s', e1, rfl⟩ := Option.map_eq_some_iff.mp h
    rw [hF]
    exact hc s' e1
  have same : ∀ {o : Option Conn.St} {F : Conn.St → St}, o.map F = some b' → (∀ c, (F c).s = b.s) →
      b.s.wire <+: b'.s.wire := by
    intro o F h hF
    obtain ⟨s', e1, rfl⟩ := Option.map_eq_some_iff.mp h
    rw [hF]
    exact List.prefix_rfl
  have srv : ∀ c s', (∀ id, c ≠ .recv id) → Serv.step b.s c = some s' → b.s.wire <+: s'.wire := by
    intro c s' hc h
    obtain ⟨t, ht⟩ := (Link.server_step hc h).1
    exact ⟨t, ht.symm⟩
  have rcv : ∀ id s', Serv.step b.s (.recv id) = some s' → b.s.wire <+: s'.wire := by
    intro id s' h
    rw [(srv_keep h (by simp) (by simp)).2.1]
    exact List.prefix_rfl
  cases c with
  | client c =>
    have he : step e b (.client c) = none ∨ step e b (.client c) = if b.phase = .run then (Conn.step b.c c).map fun c => { b with c } else none := by
      cases c with
      | endWrite x => cases x <;> first | exact .inl rfl | exact .inr rfl
      | _ => first | exact .inl rfl | exact .inr rfl
    rcases he with he | he <;> rw [he] at hs
    · cases hs
    · split at hs
      · exact same hs (fun _ => rfl)
      · cases hs
  | server c =>
    have he : step e b (.server c) = none ∨ step e b (.server c) = (Serv.step b.s c).map fun s => { b with s } := by
      cases c <;> first | exact .inl rfl | exact .inr rfl
    rcases he with he | he <;> rw [he] at hs
    · cases hs
    · refine key hs (fun _ => rfl) fun s' h => ?_
      by_cases hr : ∃ id, c = .recv id
      · obtain ⟨id, rfl⟩ := hr
        exact rcv id s' h
      · exact srv c s' (fun id h => hr ⟨id, h⟩) h
  | arriveUp j => cases hs; exact List.prefix_rfl
  | arriveDown j => cases hs; exact List.prefix_rfl
  | up =>
    simp only [step] at hs
    (repeat' split at hs)
    · exact key hs (fun _ => rfl) fun s' h => srv _ s' (by simp) h
    · exact key hs (fun _ => rfl) fun s' h => rcv _ s' h
    · cases hs
  | put n =>
    simp only [step] at hs
    (repeat' split at hs)
    · exact key hs (fun _ => rfl) fun s' h => srv _ s' (by simp) h
    · exact key hs (fun _ => rfl) fun s' h => srv _ s' (by simp) h
    · cases hs
  | _ =>
    simp only [step] at hs
    (repeat' split at hs) <;>
      first
      | exact same hs (fun _ => rfl)
      | (cases hs <;> exact List.prefix_rfl)

theorem run_wire {e : Env} {b b' : St} {cs : List Choice} (hs : run e b cs = some b') : b.s.wire <+: b'.s.wire := by
  induction cs generalizing b with
  | nil => cases hs; exact List.prefix_rfl
  | cons c cs ih =>
    simp only [run] at hs
    cases e1 : step e b c with
    | none => rw [e1] at hs; cases hs
    | some l1 =>
      rw [e1] at hs
      exact (step_wire e1).trans (ih hs)

theorem Agree.back {f : Nat → Nat} {b b' : St} (h : Agree f b') (hw : b.s.wire <+: b'.s.wire) : Agree f b := by
  intro d i k hd
  obtain ⟨t, ht⟩ := hw
  exact h d i k (by rw [← ht]; exact Link.getElem?_grow hd)

theorem sim_run {e : Env} {f : Nat → Nat} {b b' : St} {cs : List Choice} (he : e.Fits) (hc : ∀ c ∈ cs, Allowed e c) (h : Sim e f b)
    (hs : run e b cs = some b') (hy : Conn.Young b'.c) (ha : Agree f b') : Sim e f b' := by
  induction cs generalizing b with
  | nil => cases hs; exact h
  | cons c cs ih =>
    simp only [run] at hs
    cases e1 : step e b c with
    | none => rw [e1] at hs; cases hs
    | some l1 =>
      rw [e1] at hs
      refine ih (fun x hx => hc x (List.mem_cons_of_mem _ hx)) ?_ hs
      exact sim_step he (hc c (by simp)) h e1 (Nat.le_trans (run_got hs) hy) (ha.back (run_wire hs))

/-- The names of the contents: the request which the d-th frame of the server answers. -/
def names (l : List Serv.Item) (d : Nat) : Nat :=
  match l[d]? with
  | some (.resp _ k) => k
  | _ => 0

theorem agree_names {b : St} : Agree (names b.s.wire) b := by
  intro d i k h
  simp [names, h]

theorem sim_reach {e : Env} {dial : Bool} {b : St} {cs : List Choice} (he : e.Fits) (hc : Sane e dial cs)
    (hs : run e (init dial) cs = some b) (hy : Conn.Young b.c) : Sim e (names b.s.wire) b := by
  refine sim_run he ?_ ?_ hs hy agree_names
  · intro c hm
    rcases hc with h | ⟨h1, _, h2⟩
    · exact .inl h
    · exact .inr ⟨h1, fun k h => h2 k (h ▸ hm)⟩
  · refine ⟨⟨[], ?_⟩, [], 0, binv_init ?_⟩
    · simp only [Link.run, Option.some.injEq]
      rfl
    · intro h
      rcases hc with h' | ⟨_, h', _⟩
      · exact h'
      · rw [h] at h'; cases h'

/-! ### Contents -/

/-- Every response in the hands of the client is one of those that `P` knows. -/
structure From (c : Conn.St) (P : Nat → Nat → Prop) : Prop where
  ans : ∀ r i d, c.ans r = some (.response i d) → P i d
  rep : ∀ q i d, c.rp = .reply q i d → P i d

theorem From.mono {c : Conn.St} {P Q : Nat → Nat → Prop} (h : From c P) (hpq : ∀ i d, P i d → Q i d) : From c Q :=
  ⟨fun r i d e => hpq i d (h.ans r i d e), fun q i d e => hpq i d (h.rep q i d e)⟩

theorem from_step {c c' : Conn.St} {x : Conn.Choice} {P : Nat → Nat → Prop} (h : From c P)
    (hx : ∀ i d, x = .resp i d → P i d) (hs : Conn.step c x = some c') : From c' P := by
  obtain ⟨h1, h2⟩ := h
  cases x <;> simp only [Conn.step, Conn.offer, Conn.respond, Conn.respondFail, Conn.answer, Conn.claim] at hs <;>
    (repeat' split at hs) <;> cases hs <;> constructor <;> (try simp only [Conn.set]) <;> grind

/-- `d` is a frame which the client has read, which has the id `i` and is no pong. -/
def St.took (b : St) (i d : Nat) : Prop := ∃ q, b.back[d]? = some q ∧ q.id.toNat = i ∧ ¬ (q.id = pingId ∧ q.msg = pingType)

theorem took_grow {b b' : St} {q : Resp Slc} (h : b'.back = b.back ++ [q]) (i d : Nat) (ht : b.took i d) : b'.took i d := by
  obtain ⟨x, h1, h2⟩ := ht
  exact ⟨x, by rw [h]; exact Link.getElem?_grow h1, h2⟩

theorem took_step {e : Env} {b b' : St} {x : Choice} (h : From b.c b.took) (hs : step e b x = some b') : From b'.c b'.took := by
  cases x with
  | client c =>
    have hc : ∃ c', Conn.step b.c c = some c' ∧ b' = { b with c := c' } ∧ ∀ i d, c ≠ .resp i d := by
      have key : (if b.phase = .run then (Conn.step b.c c).map fun c => { b with c } else none) = some b' →
          ∃ c', Conn.step b.c c = some c' ∧ b' = { b with c := c' } := by
        intro h
        split at h
        · obtain ⟨c', h1, h2⟩ := Option.map_eq_some_iff.mp h
          exact ⟨c', h1, h2.symm⟩
        · cases h
      cases c with
      | endWrite x =>
        cases x with
        | false => cases hs
        | true =>
          obtain ⟨c', h1, h2⟩ := key hs
          exact ⟨c', h1, h2, fun _ _ h => by cases h⟩
      | resp | wrote => cases hs
      | _ =>
        obtain ⟨c', h1, h2⟩ := key hs
        exact ⟨c', h1, h2, fun _ _ h => by cases h⟩
    obtain ⟨c', h1, rfl, h2⟩ := hc
    exact from_step h (fun i d e => absurd e (h2 i d)) h1
  | down =>
    simp only [step] at hs
    (repeat' split at hs) <;> try cases hs
    · rename_i hq _
      exact h.mono (took_grow rfl)
    · rename_i q hr hq
      obtain ⟨c', h1, rfl⟩ := Option.map_eq_some_iff.mp hs
      refine from_step (h.mono (took_grow (q := q) rfl)) ?_ h1
      intro i d hx
      cases hx
      exact ⟨q, by simp, rfl, hq⟩
  | dialPong =>
    simp only [step] at hs
    (repeat' split at hs) <;> cases hs
    exact h.mono (took_grow rfl)
  | write n =>
    simp only [step] at hs
    (repeat' split at hs) <;> try cases hs
    all_goals
      obtain ⟨c', h1, rfl⟩ := Option.map_eq_some_iff.mp hs
      exact from_step h (fun i d e => by cases e) h1
  | ping n =>
    simp only [step] at hs
    (repeat' split at hs) <;> try cases hs
    · exact h
    · obtain ⟨c', h1, rfl⟩ := Option.map_eq_some_iff.mp hs
      exact from_step h (fun i d e => by cases e) h1
  | flush n =>
    simp only [step] at hs
    (repeat' split at hs) <;> try cases hs
    · exact h
    · obtain ⟨c', h1, rfl⟩ := Option.map_eq_some_iff.mp hs
      exact from_step h (fun i d e => by cases e) h1
    · exact h
  | server c =>
    cases c <;> simp only [step] at hs <;> try cases hs
    all_goals
      obtain ⟨s', h1, rfl⟩ := Option.map_eq_some_iff.mp hs
      exact h
  | _ =>
    simp only [step] at hs
    (repeat' split at hs) <;> try cases hs
    all_goals first
      | exact h
      | (obtain ⟨s', h1, rfl⟩ := Option.map_eq_some_iff.mp hs; exact h)

theorem took_run {e : Env} {b b' : St} {cs : List Choice} (h : From b.c b.took) (hs : run e b cs = some b') :
    From b'.c b'.took := by
  induction cs generalizing b with
  | nil => cases hs; exact h
  | cons c cs ih =>
    simp only [run] at hs
    cases e1 : step e b c with
    | none => rw [e1] at hs; cases hs
    | some l1 =>
      rw [e1] at hs
      exact ih (took_step h e1) hs

theorem took_reach {e : Env} {dial : Bool} {b : St} {cs : List Choice} (hs : run e (init dial) cs = some b) :
    From b.c b.took := by
  refine took_run ⟨?_, ?_⟩ hs <;> simp [init, Conn.init]

/-! ### Nothing stays unread -/

theorem Pipe.whole {α : Type} {enc : α → Bytes} {ok : α → Prop} {fs : List α} {k n : Nat} {w str : Bytes}
    (h : Pipe enc ok fs k w n str) (hw : w = (fs.map enc).flatten) (hn : n = w.length) (hk : k < fs.length) :
    ok fs[k] ∧ ∃ X, str = enc fs[k] ++ X := by
  refine ⟨h.ok _ (List.getElem_mem hk), ((fs.drop (k + 1)).map enc).flatten, ?_⟩
  have h1 := h.str
  have h2 : (fs.map enc).flatten = ((fs.take k).map enc).flatten ++ ((fs.drop k).map enc).flatten := by
    rw [← List.flatten_append, ← List.map_append, List.take_append_drop]
  rw [hn, List.take_length, hw, h2, List.append_cancel_left_eq, List.drop_eq_getElem_cons hk] at h1
  rw [h1, List.map_cons, List.flatten_cons]

theorem flushed {w : BufW} (h : w.wr = 0) : w.conn.out = w.abs := by simp [BufW.abs, h]

theorem up_all {e : Env} {b : St} {fs : List Spec.ReqMsg} {k : Nat} (hb : BInv e b fs k) (hok : b.cok = true)
    (hw : b.cw.wr = 0) (hn : b.upN = b.cw.conn.out.length) (hr : b.s.rp = .run) (hp : b.s.panicked = false)
    (hs : step e b .up = none) : b.got.length = b.c.wire.length := by
  have hk : k = fs.length := by
    apply Classical.byContradiction
    intro hne
    have hlt : k < fs.length := by have := hb.up.le; omega
    obtain ⟨h1, X, h2⟩ := hb.up.whole ((flushed hw).trans (hb.cw hok).abs) hn hlt
    rcases readRequest_refines b.sr hb.srI with ⟨sr, q, hq, _⟩ | ⟨hf, _⟩
    · simp only [step, hq, Serv.step, Serv.step1, hp, hr] at hs
      split at hs <;> simp at hs
    · rw [h2, reqFraming.whole _ _ h1] at hf
      cases hf
  have := congrArg List.length hb.got
  rw [List.length_map, hk, List.take_length, hb.fsw, List.length_map] at this
  exact this

theorem down_all {e : Env} {b : St} {fs : List Spec.ReqMsg} {k : Nat} (he : e.rc ≠ .rc1) (hb : BInv e b fs k) (ha : alive b.s.wp)
    (hw : b.sw.conn.out = b.sw.abs) (hn : b.downN = b.sw.conn.out.length) (hph : b.phase = .run) (hr : b.c.rp = .read)
    (hs : step e b .down = none) : b.back.length = b.s.wire.length ∧ b.cr.stream = [] := by
  have hk : b.back.length = (b.s.wire.map (rs e b.got)).length := by
    apply Classical.byContradiction
    intro hne
    have hlt : b.back.length < (b.s.wire.map (rs e b.got)).length := by have := hb.down.le; omega
    obtain ⟨h1, X, h2⟩ := hb.down.whole (hw.trans (hb.sw ha).abs) hn hlt
    rcases readResponse_refines e.rc he b.cr hb.crI with ⟨sr, q, hq, _⟩ | ⟨hf, _⟩
    · have hM : q.id.toNat < Conn.M := UInt32.toNat_lt q.id
      simp only [step, hph, hq, Conn.step, hr, hM] at hs
      (repeat' split at hs) <;> simp_all
    · rw [h2, (respFraming' _).whole _ _ h1] at hf
      cases hf
  refine ⟨by rw [hk, List.length_map], ?_⟩
  have h1 := hb.down.str
  rw [hk, List.take_length, hn, List.take_length, hw, (hb.sw ha).abs] at h1
  simpa using h1

end Verif.ByteLink
