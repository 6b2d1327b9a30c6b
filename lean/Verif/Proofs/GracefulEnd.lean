import Verif.Proofs.Graceful
import Verif.Proofs.ServMore
import Verif.Props.Serv
/-!
The graceful end of a connection can always be reached.
-/
namespace Verif.Graceful
open Verif.Serv (cap)

/-! ### What holds while nothing goes wrong -/

/-- The write loop of the server has no error; the end of its read loop was handled or will be; the control loop does
nothing else while the write loop runs. -/
structure XInv (s : Serv.St) : Prop where
  ok : s.wp ≠ .fin true ∧ s.wp ≠ .done true
  told : s.rp = .done → s.rdClosed = true ∨ .readClosed ∈ s.q ∨ s.cp = .rlock
  ctl : s.wp ≠ .fin false → s.wp ≠ .done false → (s.cp = .loop ∨ s.cp = .rlock ∨ s.cp = .chk) ∧ s.wrClosed = false

theorem xinv_init : XInv Serv.init := by
  constructor <;> simp [Serv.init]

theorem xinv_step {s s' : Serv.St} {c : Serv.Choice} (i : Serv.Inv s) (h : XInv s) (hc : c ≠ .wErr)
    (hs : Serv.step s c = some s') : XInv s' := by
  obtain ⟨⟨x1, x2⟩, x3, x4⟩ := h
  have w1 := i.wr2
  have w2 := i.empq
  have w3 := i.wr1
  unfold Serv.step at hs
  split at hs
  · cases hs
  · cases c <;> simp only [Serv.step1, Serv.stepR, Serv.stepW, Serv.stepC, Serv.beginRespond, Serv.closeOut] at hs <;>
      (repeat' split at hs) <;> cases hs <;> refine ⟨⟨?_, ?_⟩, ?_, ?_⟩ <;> grind

/-- How many requests the write loop of the client is about to write. -/
def pend (p : Conn.WPc) : Nat :=
  match p with | .header _ _ _ => 1 | .write _ _ _ => 1 | _ => 0

/-- Neither a new request nor a ping. -/
def quiet : Link.Choice → Bool
  | .client (.take _) => false
  | .server (.ping _) => false
  | _ => true

structure B (l : Link.St) : Prop where
  g : Link.Inv l
  h : GInv l
  x : XInv l.s
  sr : ∃ ds, Serv.run Serv.init ds = some l.s
  y : Conn.Young l.c
  np : l.s.panicked = false
  room : l.c.wire.length + pend l.c.wp + l.s.pings.length ≤ cap

theorem conn_quiet {c c' : Conn.St} {x : Conn.Choice} (hx : ∀ r, x ≠ .take r) (hs : Conn.step c x = some c') :
    c'.h.got = c.h.got ∧ c'.wire.length + pend c'.wp ≤ c.wire.length + pend c.wp := by
  cases x with
  | take r => exact absurd rfl (hx r)
  | resp i d =>
    simp only [Conn.step, Conn.Holder.remove, Conn.Holder.fetch] at hs
    (repeat' split at hs) <;> cases hs <;> grind
  | _ =>
    simp only [Conn.step, Conn.respond, Conn.respondFail, Conn.answer, Conn.unchain] at hs
    (repeat' split at hs) <;> cases hs <;> grind [pend]

theorem serv_pings {s s' : Serv.St} {c : Serv.Choice} (hc : ∀ i, c ≠ .ping i) (hs : Serv.step s c = some s') :
    s'.pings = s.pings := by
  unfold Serv.step at hs
  split at hs
  · cases hs
  · cases c with
    | ping i => exact absurd rfl (hc i)
    | _ =>
      simp only [Serv.step1, Serv.stepR, Serv.stepW, Serv.stepC, Serv.beginRespond, Serv.closeOut] at hs
      (repeat' split at hs) <;> cases hs <;> rfl

theorem serv_add {s s' : Serv.St} {c : Serv.Choice} (h : ∃ ds, Serv.run Serv.init ds = some s) (hs : Serv.step s c = some s') :
    ∃ ds, Serv.run Serv.init ds = some s' := by
  obtain ⟨ds, h⟩ := h
  refine ⟨ds ++ [c], ?_⟩
  have : ∀ (ds : List Serv.Choice) (a : Serv.St), Serv.run a ds = some s → Serv.run a (ds ++ [c]) = some s' := by
    intro ds
    induction ds with
    | nil => intro a h; cases h; simp [Serv.run, hs]
    | cons x ds ih =>
      intro a h
      simp only [Serv.run, List.cons_append] at h ⊢
      cases e : Serv.step a x with
      | none => rw [e] at h; cases h
      | some y => rw [e] at h; exact ih y h
  exact this ds _ h

/-- What a step is made of. -/
theorem parts {e : Env} {l l' : Link.St} {c : Link.Choice} (hs : step e l c = some l') :
    (l'.c = l.c ∨ ∃ x, Conn.step l.c x = some l'.c ∧ ∀ r, x = .take r → c = .client (.take r)) ∧
    (l'.s = l.s ∨ ∃ x, Serv.step l.s x = some l'.s ∧ x ≠ .wErr ∧ ∀ i, x = .ping i → c = .server (.ping i)) := by
  have hl := link_step hs
  cases c with
  | client x =>
    have : (Conn.step l.c x).map (fun c => { l with c }) = some l' := by
      cases x <;> first | exact hl | cases hl
    obtain ⟨c', h1, rfl⟩ := Option.map_eq_some_iff.mp this
    exact ⟨.inr ⟨x, h1, fun r h => by rw [h]⟩, .inl rfl⟩
  | server x =>
    have : (Serv.step l.s x).map (fun s => { l with s }) = some l' := by
      cases x <;> first | exact hl | cases hl
    obtain ⟨s', h1, rfl⟩ := Option.map_eq_some_iff.mp this
    refine ⟨.inl rfl, .inr ⟨x, h1, ?_, fun r h => by rw [h]⟩⟩
    rintro rfl
    cases hs
  | up =>
    simp only [Link.step] at hl
    split at hl
    · cases hl
    · obtain ⟨s', h1, rfl⟩ := Option.map_eq_some_iff.mp hl
      exact ⟨.inl rfl, .inr ⟨_, h1, by simp, by simp⟩⟩
  | down =>
    simp only [Link.step] at hl
    split at hl
    · cases hl
    · split at hl <;> cases hl
      exact ⟨.inl rfl, .inl rfl⟩
    · obtain ⟨c', h1, rfl⟩ := Option.map_eq_some_iff.mp hl
      exact ⟨.inr ⟨_, h1, by simp⟩, .inl rfl⟩

theorem B.go {e : Env} (he : e.half = true ∧ e.stop = false) {l l' : Link.St} {c : Link.Choice} (b : B l)
    (hs : step e l c = some l') (hq : quiet c = true) (hp : l'.s.panicked = false) : B l' := by
  obtain ⟨pc, ps⟩ := parts hs
  have hc : l'.c.h.got = l.c.h.got ∧ l'.c.wire.length + pend l'.c.wp ≤ l.c.wire.length + pend l.c.wp := by
    rcases pc with h | ⟨x, h, hx⟩
    · rw [h]; exact ⟨rfl, Nat.le_refl _⟩
    · refine conn_quiet (fun r hr => ?_) h
      rw [hx r hr] at hq
      cases hq
  have hy : Conn.Young l'.c := by
    have := b.y
    unfold Conn.Young at *
    omega
  refine ⟨Link.inv_step b.g (link_step hs) hy, ginv_step he b.g b.h hs, ?_, ?_, hy, hp, ?_⟩
  · rcases ps with h | ⟨x, h, hx, _⟩
    · rw [h]; exact b.x
    · exact xinv_step b.g.s b.x hx h
  · rcases ps with h | ⟨x, h, _, _⟩
    · rw [h]; exact b.sr
    · exact serv_add b.sr h
  · have : l'.s.pings = l.s.pings := by
      rcases ps with h | ⟨x, h, _, hx⟩
      · rw [h]
      · refine serv_pings (fun i hi => ?_) h
        rw [hx i hi] at hq
        cases hq
    rw [this]
    have := b.room
    omega

def Reach (e : Env) (l l' : Link.St) : Prop := ∃ cs, run e l cs = some l'

theorem Reach.refl {e : Env} {l : Link.St} : Reach e l l := ⟨[], rfl⟩

theorem Reach.head {e : Env} {l l1 l2 : Link.St} {c : Link.Choice} (hs : step e l c = some l1) (h : Reach e l1 l2) : Reach e l l2 := by
  obtain ⟨cs, h⟩ := h
  exact ⟨c :: cs, by simp [run, hs, h]⟩

theorem Reach.trans {e : Env} {l l1 l2 : Link.St} (h1 : Reach e l l1) (h2 : Reach e l1 l2) : Reach e l l2 := by
  obtain ⟨cs, h1⟩ := h1
  induction cs generalizing l with
  | nil => cases h1; exact h2
  | cons c cs ih =>
    simp only [run] at h1
    cases e1 : step e l c with
    | none => rw [e1] at h1; cases h1
    | some x => rw [e1] at h1; exact .head e1 (ih h1)

theorem xs_run {e : Env} {cs : List Link.Choice} {l l' : Link.St} (x : XInv l.s) (sr : ∃ ds, Serv.run Serv.init ds = some l.s)
    (h : run e l cs = some l') : XInv l'.s ∧ ∃ ds, Serv.run Serv.init ds = some l'.s := by
  induction cs generalizing l with
  | nil => cases h; exact ⟨x, sr⟩
  | cons c cs ih =>
    simp only [run] at h
    cases e1 : step e l c with
    | none => rw [e1] at h; cases h
    | some y =>
      rw [e1] at h
      have hi : Serv.Inv l.s := by
        obtain ⟨ds, hds⟩ := sr
        exact Serv.inv_run Serv.inv_init hds
      rcases (parts e1).2 with hq | ⟨z, hz, hw, _⟩
      · exact ih (by rw [hq]; exact x) (by rw [hq]; exact sr) h
      · exact ih (xinv_step hi x hw hz) (serv_add sr hz) h

theorem run_append {e : Env} {cs ds : List Link.Choice} {a b c : Link.St} (h1 : run e a cs = some b) (h2 : run e b ds = some c) :
    run e a (cs ++ ds) = some c := by
  induction cs generalizing a with
  | nil => cases h1; exact h2
  | cons x cs ih =>
    simp only [run, List.cons_append] at h1 ⊢
    cases e1 : step e a x with
    | none => rw [e1] at h1; cases h1
    | some y => rw [e1] at h1; exact ih h1

/-! ### One step after the other -/

section
variable {e : Env} {l : Link.St}

/-- The end of the client's write loop. -/
theorem stopWrite (he : e.half = true ∧ e.stop = false) (b : B l) :
    ∃ l', Reach e l l' ∧ B l' ∧ l'.c.wp = .ended ∧ l'.c.rp = l.c.rp := by
  have fromLoop : ∀ l : Link.St, B l → l.c.wp = .loop → ∃ l', Reach e l l' ∧ B l' ∧ l'.c.wp = .ended ∧ l'.c.rp = l.c.rp := by
    intro l b hw
    have hs : step e l (.client (.endWrite true)) = some { l with c := { l.c with wp := .ended, shutdown := true } } := by
      simp [step, Link.step, Conn.step, hw]
    exact ⟨_, .head hs .refl, b.go he hs rfl b.np, rfl, rfl⟩
  have fromWrite : ∀ (l : Link.St) (i r : Nat) (f : Bool), B l → l.c.wp = .write i r f →
      ∃ l', Reach e l l' ∧ B l' ∧ l'.c.wp = .ended ∧ l'.c.rp = l.c.rp := by
    intro l i r f b hw
    have hs : step e l (.client (.wrote true)) = some { l with c := { l.c with wire := l.c.wire ++ [(i, r, f)], wp := .loop } } := by
      simp [step, Link.step, Conn.step, hw]
    obtain ⟨l', h1, h2, h3, h4⟩ := fromLoop _ (b.go he hs rfl b.np) rfl
    exact ⟨l', .head hs h1, h2, h3, h4⟩
  cases hw : l.c.wp with
  | ended => exact ⟨l, .refl, b, hw, rfl⟩
  | loop => exact fromLoop l b hw
  | write i r f => exact fromWrite l i r f b hw
  | header r o j =>
    obtain ⟨l', hs, i, f, hw', hr, hp⟩ : ∃ l', step e l (.client .header) = some l' ∧ ∃ i f, l'.c.wp = .write i r f ∧ l'.c.rp = l.c.rp ∧
        l'.s.panicked = l.s.panicked := by
      exact ⟨{ l with c := { l.c with idOf := Conn.set l.c.idOf r (some ((l.c.h.heap o).fake j)), wp := .write ((l.c.h.heap o).fake j) r (l.c.rs r = .inFly) } },
        by simp only [step, Link.step, Conn.step, hw]; rfl, _, _, rfl, rfl, rfl⟩
    obtain ⟨l2, h1, h2, h3, h4⟩ := fromWrite l' i r f (b.go he hs rfl (hp.trans b.np)) hw'
    exact ⟨l2, .head hs h1, h2, h3, h4.trans hr⟩

/-- A step of the server. -/
theorem srv (he : e.half = true ∧ e.stop = false) (b : B l) {x : Serv.Choice} {s' : Serv.St}
    (hx : x = .rl ∨ x = .wl ∨ x = .ctl ∨ ∃ k, x = .call k ∨ x = .begin k ∨ x = .send k)
    (h : Serv.step l.s x = some s') (hp : s'.panicked = false) : Reach e l { l with s := s' } ∧ B { l with s := s' } := by
  have hs : step e l (.server x) = some { l with s := s' } := by
    rcases hx with rfl | rfl | rfl | ⟨k, rfl | rfl | rfl⟩ <;> simp [step, Link.step, h]
  have hq : quiet (.server x) = true := by
    rcases hx with rfl | rfl | rfl | ⟨k, rfl | rfl | rfl⟩ <;> rfl
  exact ⟨.head hs .refl, b.go he hs hq hp⟩

theorem n_le (g : Link.Inv l) : l.s.n ≤ l.c.wire.length := by
  rcases Nat.lt_or_ge l.c.wire.length l.s.n with h | h
  · obtain ⟨r, f, hk⟩ := g.ids _ h
    rw [List.getElem?_eq_none (Nat.le_refl _)] at hk
    cases hk
  · exact h

theorem B.few (b : B l) : l.s.n + l.s.pings.length ≤ cap := by
  have := n_le b.g
  have := b.room
  omega

/-- The handler that holds the lock goes on. -/
theorem unlock (he : e.half = true ∧ e.stop = false) (b : B l) :
    ∃ s', (Reach e l { l with s := s' } ∧ B { l with s := s' }) ∧ s'.lock = none ∧ s'.rp = l.s.rp ∧ s'.wp = l.s.wp ∧ s'.cp = l.s.cp ∧
      s'.rdClosed = l.s.rdClosed ∧ s'.inFly = l.s.inFly ∧ s'.q = l.s.q := by
  cases hl : l.s.lock with
  | none => exact ⟨l.s, ⟨.refl, b⟩, hl, rfl, rfl, rfl, rfl, rfl, rfl⟩
  | some k =>
    have hk := b.g.s.lock1 k hl
    obtain ⟨ds, hds⟩ := b.sr
    obtain ⟨s', h1, _, h3⟩ := Props.C58_few_partial hds b.few b.np hk
    have h4 := h1
    simp only [Serv.step, b.np, Serv.step1, hk, if_true, Bool.false_eq_true, if_false] at h4
    have hc : l.s.outClosed = false := by
      cases e : l.s.outClosed with
      | false => rfl
      | true => have := (b.g.s.clo e).2.2.2; rw [hl] at this; cases this
    simp only [hc, Bool.false_eq_true, if_false] at h4
    split at h4 <;> cases h4
    exact ⟨_, srv he b (.inr (.inr (.inr ⟨k, .inr (.inr rfl)⟩))) h1 (by simp), rfl, rfl, rfl, rfl, rfl, rfl, rfl⟩

theorem open_reading (b : B l) (hr : l.s.rp ≠ .done) : l.s.outClosed = false ∧ l.s.rdClosed = false := by
  have h1 : l.s.rdClosed = false := by
    cases h : l.s.rdClosed with
    | false => rfl
    | true => exact absurd (b.g.s.rd1 h) hr
  refine ⟨?_, h1⟩
  cases h : l.s.outClosed with
  | false => rfl
  | true => have := (b.g.s.clo h).1; rw [h1] at this; cases this

/-- The server's read loop finishes what it is doing. -/
theorem settle (he : e.half = true ∧ e.stop = false) (b : B l) (hr : l.s.rp ≠ .notify ∧ l.s.rp ≠ .done) :
    ∃ s', (Reach e l { l with s := s' } ∧ B { l with s := s' }) ∧ s'.rp = .run := by
  cases hp : l.s.rp with
  | run => exact ⟨l.s, ⟨.refl, b⟩, hp⟩
  | notify => exact absurd hp hr.1
  | done => exact absurd hp hr.2
  | pong id =>
    obtain ⟨ds, hds⟩ := b.sr
    have hlen := Serv.len_run Serv.inv_init Serv.len_init hds
    unfold Serv.Len Serv.flow at hlen
    rw [hp] at hlen
    simp only [List.length_append] at hlen
    have := b.few
    have hlt : l.s.out.length < cap := by omega
    have ho := (open_reading b hr.2).1
    have hs : Serv.step l.s .rl = some { l.s with out := l.s.out ++ [.pong id], rp := .run } := by
      simp [Serv.step, b.np, Serv.step1, Serv.stepR, hp, ho, hlt]
    exact ⟨_, srv he b (.inl rfl) hs b.np, rfl⟩
  | reg id =>
    obtain ⟨s1, ⟨r1, b1⟩, h1, h2, _⟩ := unlock he b
    have hs : Serv.step s1 .rl = some { s1 with inFly := (id, s1.n) :: Serv.del s1.inFly id, idOf := Serv.set s1.idOf s1.n id, rs := Serv.set s1.rs s1.n .sent, n := s1.n + 1, fresh := (if Serv.has s1.inFly id then s1.fresh else s1.fresh ++ [id]), rp := .run } := by
      have np := b1.np
      simp only at np
      simp [Serv.step, np, Serv.step1, Serv.stepR, h2, hp, h1]
    obtain ⟨r2, b2⟩ := srv he b1 (.inl rfl) hs b1.np
    exact ⟨_, ⟨r1.trans r2, b2⟩, rfl⟩

/-- The server reads all that was written. -/
theorem receive (he : e.half = true ∧ e.stop = false) : ∀ (m : Nat) (l : Link.St), B l → l.c.wp = .ended → l.c.wire.length - l.up ≤ m →
    ∃ l', Reach e l l' ∧ B l' ∧ l'.c = l.c ∧ (l'.s.rp = .notify ∨ l'.s.rp = .done) := by
  intro m
  induction m with
  | zero =>
    intro l b hw hm
    by_cases hr : l.s.rp = .notify ∨ l.s.rp = .done
    · exact ⟨l, .refl, b, rfl, hr⟩
    · obtain ⟨s1, ⟨r1, b1⟩, h1⟩ := settle he b ⟨fun h => hr (.inl h), fun h => hr (.inr h)⟩
      have hup : l.up = l.c.wire.length := by
        have := b1.g.nreg (fun id h => by simp only [h1] at h; cases h)
        have := n_le b1.g
        simp only at *
        omega
      have hs : step e { l with s := s1 } (.server .rErr) = some { l with s := { s1 with rp := .notify } } := by
        have np := b1.np
        simp only at np
        have : serverEof e { l with s := s1 } := .inl ⟨hw, hup⟩
        simp [step, this, Link.step, Serv.step, Serv.step1, np, h1]
      exact ⟨_, r1.trans (.head hs .refl), b1.go he hs rfl b1.np, rfl, .inl rfl⟩
  | succ m ih =>
    intro l b hw hm
    by_cases hr : l.s.rp = .notify ∨ l.s.rp = .done
    · exact ⟨l, .refl, b, rfl, hr⟩
    · by_cases hlt : l.up < l.c.wire.length
      · obtain ⟨s1, ⟨r1, b1⟩, h1⟩ := settle he b ⟨fun h => hr (.inl h), fun h => hr (.inr h)⟩
        have hs : step e { l with s := s1 } .up = some { l with s := { s1 with rp := .reg (l.c.wire[l.up]).1 }, up := l.up + 1 } := by
          have np := b1.np
          simp only at np
          simp [step, Link.step, Serv.step, Serv.step1, np, h1, List.getElem?_eq_getElem hlt]
        obtain ⟨l', h2, h3, h4, h5⟩ := ih _ (b1.go he hs rfl b1.np) hw (by simp only; omega)
        exact ⟨l', r1.trans (.head hs h2), h3, h4, h5⟩
      · exact ih l b hw (by omega)

/-- The end of reading is handled. -/
theorem handled (he : e.half = true ∧ e.stop = false) (b : B l) (hr : l.s.rp = .notify ∨ l.s.rp = .done) :
    ∃ s', (Reach e l { l with s := s' } ∧ B { l with s := s' }) ∧ s'.rdClosed = true := by
  -- the control loop is about to handle it
  have fromLock : ∀ s : Serv.St, B { l with s := s } → s.cp = .rlock →
      ∃ s', (Reach e { l with s := s } { l with s := s' } ∧ B { l with s := s' }) ∧ s'.rdClosed = true := by
    intro s b hc
    obtain ⟨s1, ⟨r1, b1⟩, h1, h2, h3, h4, h5, _⟩ := unlock he b
    have hrd : s1.rdClosed = false := h5.trans (b.g.s.rd3 hc).2
    have ho : s1.outClosed = false := by
      cases h : s1.outClosed with
      | false => rfl
      | true => have := (b1.g.s.clo h).1; simp only [hrd] at this; cases this
    have np := b1.np
    simp only at np h4
    obtain ⟨s2, hs, h6, h7⟩ : ∃ s2, Serv.step s1 .ctl = some s2 ∧ s2.panicked = false ∧ s2.rdClosed = true := by
      simp only [Serv.step, np, Serv.step1, Serv.stepC, h4, hc, h1, if_true, Bool.false_eq_true, if_false]
      split
      · exact ⟨_, rfl, by simp [Serv.closeOut, ho], by simp [Serv.closeOut, ho]⟩
      · exact ⟨_, rfl, rfl, rfl⟩
    obtain ⟨r2, b2⟩ := srv he b1 (.inr (.inr (.inl rfl))) hs h6
    exact ⟨s2, ⟨r1.trans r2, b2⟩, h7⟩
  have fromLoop : ∀ s : Serv.St, B { l with s := s } → s.cp = .loop → .readClosed ∈ s.q →
      ∃ s', (Reach e { l with s := s } { l with s := s' } ∧ B { l with s := s' }) ∧ s'.rdClosed = true := by
    intro s b hc hq
    have i := b.g.s
    have x := b.x
    simp only at i x
    obtain ⟨_, hrd, _⟩ := i.rd2 hq
    obtain ⟨q, hq'⟩ : ∃ q, s.q = .readClosed :: q := by
      cases e : s.q with
      | nil => rw [e] at hq; cases hq
      | cons a q =>
        cases a with
        | readClosed => exact ⟨q, rfl⟩
        | writeClosed =>
          exfalso
          rcases i.wr2 (by rw [e]; simp) with h | h
          · have := (i.fin (.inr h)).1; rw [hrd] at this; cases this
          · exact x.ok.2 h
        | inFlyEmpty =>
          exfalso
          have := (i.empq (by rw [e]; simp)).1
          rw [hrd] at this; cases this
    have np := b.np
    simp only at np
    have hs : Serv.step s .ctl = some { s with q, cp := .rlock } := by
      simp [Serv.step, np, Serv.step1, Serv.stepC, hc, hq']
    obtain ⟨r1, b1⟩ := srv he b (.inr (.inr (.inl rfl))) hs np
    obtain ⟨s2, ⟨r2, b2⟩, h2⟩ := fromLock _ b1 rfl
    exact ⟨s2, ⟨r1.trans r2, b2⟩, h2⟩
  have fromDone : ∀ s : Serv.St, B { l with s := s } → s.rp = .done →
      ∃ s', (Reach e { l with s := s } { l with s := s' } ∧ B { l with s := s' }) ∧ s'.rdClosed = true := by
    intro s b hr
    have i := b.g.s
    have x := b.x
    simp only at i x
    rcases x.told hr with h | h | h
    · exact ⟨s, ⟨.refl, b⟩, h⟩
    · obtain ⟨_, hrd, hcp⟩ := i.rd2 h
      have nf : s.wp ≠ .fin false := fun hw => by have := (i.fin (.inl hw)).1; rw [hrd] at this; cases this
      have nd : s.wp ≠ .done false := fun hw => by have := (i.fin (.inr hw)).1; rw [hrd] at this; cases this
      obtain ⟨hc | hc | hc, hwr⟩ := x.ctl nf nd
      · exact fromLoop s b hc h
      · exact absurd hc hcp
      · have np := b.np
        simp only at np
        have hs : Serv.step s .ctl = some { s with cp := .loop } := by
          simp [Serv.step, np, Serv.step1, Serv.stepC, hc, hwr]
        obtain ⟨r1, b1⟩ := srv he b (.inr (.inr (.inl rfl))) hs np
        obtain ⟨s2, ⟨r2, b2⟩, h2⟩ := fromLoop _ b1 rfl h
        exact ⟨s2, ⟨r1.trans r2, b2⟩, h2⟩
    · exact fromLock s b h
  rcases hr with hr | hr
  · have i := b.g.s
    have hq : l.s.q = [] := by
      cases e : l.s.q with
      | nil => rfl
      | cons a q =>
        exfalso
        have hd : l.s.rp = .done := by
          cases a with
          | readClosed => exact (i.rd2 (by rw [e]; simp)).1
          | writeClosed =>
            rcases i.wr2 (by rw [e]; simp) with h | h
            · exact i.rd1 (i.fin (.inr h)).1
            · exact absurd h b.x.ok.2
          | inFlyEmpty => exact i.rd1 (i.empq (by rw [e]; simp)).1
        rw [hr] at hd
        cases hd
    have hs : Serv.step l.s .rl = some { l.s with q := [.readClosed], rp := .done } := by
      simp [Serv.step, b.np, Serv.step1, Serv.stepR, hr, hq]
    obtain ⟨r1, b1⟩ := srv he b (.inl rfl) hs b.np
    obtain ⟨s2, ⟨r2, b2⟩, h2⟩ := fromDone _ b1 rfl
    exact ⟨s2, ⟨r1.trans r2, b2⟩, h2⟩
  · exact fromDone l.s b hr

/-- The handlers answer. -/
theorem answered (he : e.half = true ∧ e.stop = false) : ∀ (m : Nat) (s : Serv.St), B { l with s := s } → s.rdClosed = true → s.inFly.length ≤ m →
    ∃ s', (Reach e { l with s := s } { l with s := s' } ∧ B { l with s := s' }) ∧ s'.rdClosed = true ∧ s'.inFly = [] ∧ s'.lock = none := by
  intro m
  induction m with
  | zero =>
    intro s b hr hm
    obtain ⟨s1, r1, h1, _, _, _, h5, h6, _⟩ := unlock he b
    exact ⟨s1, r1, h5.trans hr, h6.trans (List.eq_nil_of_length_eq_zero (by simp only; omega)), h1⟩
  | succ m ih =>
    intro s b hr hm
    obtain ⟨s1, ⟨r1, b1⟩, h1, _, _, _, h5, h6, _⟩ := unlock he b
    simp only at h5 h6
    cases hf : s1.inFly with
    | nil => exact ⟨s1, ⟨r1, b1⟩, h5.trans hr, hf, h1⟩
    | cons p f =>
      obtain ⟨id, k⟩ := p
      have i1 := b1.g.s
      have np := b1.np
      simp only at i1 np
      obtain ⟨hid, hk⟩ := i1.fly id k (by rw [hf]; simp)
      have begun : ∀ s2 : Serv.St, B { l with s := s2 } → s2.rs k = .called → s2.lock = none → s2.inFly = s1.inFly → s2.idOf = s1.idOf →
          s2.rdClosed = true → Reach e { l with s := s1 } { l with s := s2 } →
          ∃ s', (Reach e { l with s := s } { l with s := s' } ∧ B { l with s := s' }) ∧ s'.rdClosed = true ∧ s'.inFly = [] ∧ s'.lock = none := by
        intro s2 b2 e1 e2 e3 e4 e5 r2
        have np2 := b2.np
        have i2 := b2.g.s
        simp only at np2 i2
        have hhas : Serv.has s2.inFly (s2.idOf k) = true := by
          rw [e3, e4, hf, hid]; simp [Serv.has]
        have hs : Serv.step s2 (.begin k) = some { s2 with inFly := Serv.del s2.inFly (s2.idOf k), lock := some k, rs := Serv.set s2.rs k .busy } := by
          simp [Serv.step, np2, Serv.step1, e1, e2, Serv.beginRespond, hhas, i2.buf]
        obtain ⟨r3, b3⟩ := srv he b2 (.inr (.inr (.inr ⟨k, .inr (.inl rfl)⟩))) hs np2
        have := Serv.del_lt hhas
        obtain ⟨s4, ⟨r4, b4⟩, h4⟩ := ih _ b3 e5 (by simp only; rw [e3] at this ⊢; rw [h6] at this ⊢; omega)
        exact ⟨s4, ⟨r1.trans (r2.trans (r3.trans r4)), b4⟩, h4⟩
      rcases hk with hk | hk
      · have hs : Serv.step s1 (.call k) = some { s1 with rs := Serv.set s1.rs k .called } := by
          simp [Serv.step, np, Serv.step1, hk]
        obtain ⟨r2, b2⟩ := srv he b1 (.inr (.inr (.inr ⟨k, .inl rfl⟩))) hs np
        exact begun _ b2 (by simp [Serv.set]) h1 rfl rfl (h5.trans hr) r2
      · exact begun s1 b1 hk h1 rfl rfl (h5.trans hr) .refl

theorem wls (he : e.half = true ∧ e.stop = false) : ∀ (m : Nat) (s s' : Serv.St), B { l with s := s } → Serv.run s (List.replicate m .wl) = some s' →
    Reach e { l with s := s } { l with s := s' } ∧ B { l with s := s' } := by
  intro m
  induction m with
  | zero => intro s s' b h; cases h; exact ⟨.refl, b⟩
  | succ m ih =>
    intro s s' b h
    simp only [List.replicate_succ, Serv.run] at h
    cases e1 : Serv.step s .wl with
    | none => rw [e1] at h; cases h
    | some s1 =>
      rw [e1] at h
      have np := b.np
      simp only at np
      have np1 : s1.panicked = false := by
        simp only [Serv.step, np, Serv.step1, Serv.stepW, Bool.false_eq_true, if_false] at e1
        (repeat' split at e1) <;> cases e1 <;> rfl
      obtain ⟨r1, b1⟩ := srv he b (.inr (.inl rfl)) e1 np1
      obtain ⟨r2, b2⟩ := ih s1 s' b1 h
      exact ⟨r1.trans r2, b2⟩

/-- The server's write loop ends. -/
theorem written (he : e.half = true ∧ e.stop = false) (b : B l) (h1 : l.s.rdClosed = true) (h2 : l.s.inFly = []) (h3 : l.s.lock = none) :
    ∃ s', (Reach e l { l with s := s' } ∧ B { l with s := s' }) ∧ (s'.wp = .fin false ∨ s'.wp = .done false) := by
  have fromEmpty : ∀ s : Serv.St, B { l with s := s } → s.wp = .empty →
      ∃ s', (Reach e { l with s := s } { l with s := s' } ∧ B { l with s := s' }) ∧ (s'.wp = .fin false ∨ s'.wp = .done false) := by
    intro s b hw
    have np := b.np
    have i := b.g.s
    simp only at np i
    have hq : s.q = [] := by
      obtain ⟨q1, _, _, _, q5⟩ := i.emp hw
      cases e : s.q with
      | nil => rfl
      | cons a q =>
        exfalso
        cases a with
        | readClosed => have := (i.rd2 (by rw [e]; simp)).2.1; rw [q1] at this; cases this
        | writeClosed => rcases i.wr2 (by rw [e]; simp) with h | h <;> rw [hw] at h <;> cases h
        | inFlyEmpty => exact q5 (by rw [e]; simp)
    have hs : Serv.step s .wl = some { s with q := [.inFlyEmpty], wp := .fin false } := by
      simp [Serv.step, np, Serv.step1, Serv.stepW, hw, hq]
    exact ⟨_, srv he b (.inr (.inl rfl)) hs np, .inl rfl⟩
  by_cases hf : l.s.wp = .fin false ∨ l.s.wp = .done false
  · exact ⟨l.s, ⟨.refl, b⟩, hf⟩
  · by_cases hem : l.s.wp = .empty
    · exact fromEmpty l.s b hem
    · have ok := b.x.ok
      obtain ⟨ds, hds⟩ := b.sr
      obtain ⟨m, s1, r1, h4, _, _⟩ := Props.C75_ends hds b.np h1 h2 h3 ⟨fun x h => by cases x <;> simp_all, fun x h => by cases x <;> simp_all, hem⟩
      obtain ⟨r2, b2⟩ := wls he m l.s s1 b r1
      rcases h4 with h4 | h4
      · obtain ⟨s2, ⟨r3, b3⟩, h5⟩ := fromEmpty s1 b2 h4
        exact ⟨s2, ⟨Reach.trans r2 r3, b3⟩, h5⟩
      · exact ⟨s1, ⟨r2, b2⟩, .inl h4⟩

/-- The client reads all responses. -/
theorem read (he : e.half = true ∧ e.stop = false) : ∀ (m : Nat) (l : Link.St), B l → l.c.rp ≠ .ended → l.s.wire.length - l.down ≤ m →
    ∃ l', Reach e l l' ∧ B l' ∧ l'.s = l.s ∧ l'.c.rp = .read ∧ l'.down = l.s.wire.length := by
  have ready : ∀ l : Link.St, B l → l.c.rp ≠ .ended → ∃ l', Reach e l l' ∧ B l' ∧ l'.s = l.s ∧ l'.c.rp = .read ∧ l'.down = l.down := by
    intro l b hr
    cases hp : l.c.rp with
    | read => exact ⟨l, .refl, b, rfl, hp, rfl⟩
    | ended => exact absurd hp hr
    | panicked => exact absurd hp b.g.c.noPanic.1
    | reply q i k =>
      obtain ⟨l', hs, h1, h2, h3⟩ : ∃ l', step e l (.client .reply) = some l' ∧ l'.s = l.s ∧ l'.c.rp = .read ∧ l'.down = l.down := by
        cases q with
        | none => simp only [step, Link.step, Conn.step, hp]; exact ⟨_, rfl, rfl, rfl, rfl⟩
        | some r => simp only [step, Link.step, Conn.step, hp]; exact ⟨_, rfl, rfl, rfl, rfl⟩
      exact ⟨l', .head hs .refl, b.go he hs rfl (by rw [h1]; exact b.np), h1, h2, h3⟩
  intro m
  induction m with
  | zero =>
    intro l b hr hm
    obtain ⟨l', h1, h2, h3, h4, h5⟩ := ready l b hr
    have := b.g.down
    exact ⟨l', h1, h2, h3, h4, by omega⟩
  | succ m ih =>
    intro l b hr hm
    by_cases hlt : l.down < l.s.wire.length
    · obtain ⟨l1, r1, b1, h1, h2, h3⟩ := ready l b hr
      have hlt1 : l1.down < l1.s.wire.length := by rw [h1, h3]; exact hlt
      obtain ⟨l2, hs, h4, h5, h6⟩ : ∃ l2, step e l1 .down = some l2 ∧ l2.s = l1.s ∧ l2.down = l1.down + 1 ∧ l2.c.rp ≠ .ended := by
        cases hm : l1.s.wire[l1.down] with
        | pong id =>
          simp only [step, Link.step, List.getElem?_eq_getElem hlt1, hm, h2, if_true]
          exact ⟨_, rfl, rfl, rfl, by simp [h2]⟩
        | resp id k =>
          have hmem : Serv.Item.resp id k ∈ l1.s.wire := by rw [← hm]; exact List.getElem_mem hlt1
          obtain ⟨_, _, r, f, _, hid⟩ := Link.item_wire b1.g hmem
          have hM : id < Conn.M := by
            have := (b1.g.c.idRange r id hid).2
            have := b1.g.c.hh.cur
            have hy := b1.y
            unfold Conn.Young at hy
            simp only [Conn.M] at *
            omega
          cases hrm : l1.c.h.remove id with
          | none => simp only [step, Link.step, List.getElem?_eq_getElem hlt1, hm, Conn.step, h2, hM, hrm, and_self, if_true]; exact ⟨_, rfl, rfl, rfl, by simp⟩
          | some p => simp only [step, Link.step, List.getElem?_eq_getElem hlt1, hm, Conn.step, h2, hM, hrm, and_self, if_true]; exact ⟨_, rfl, rfl, rfl, by simp⟩
      have b2 := b1.go he hs rfl (by rw [h4]; exact b1.np)
      obtain ⟨l3, r3, b3, h7, h8, h9⟩ := ih l2 b2 h6 (by rw [h4, h5, h1, h3]; omega)
      refine ⟨l3, r1.trans (.head hs r3), b3, ?_, h8, ?_⟩
      · rw [h7, h4, h1]
      · rw [h9, h4, h1]
    · exact ih l b hr (by omega)

/-- The client's control loop ends. -/
theorem flushed (he : e.half = true ∧ e.stop = false) (b : B l) (hr : l.c.rp = .ended) :
    ∃ l', Reach e l l' ∧ B l' ∧ l'.c.cp = .ended := by
  have hw := (b.h.c.ended hr).1
  have fromList : ∀ (f : List (Nat × Nat)) (l : Link.St), B l → l.c.cp = .flush f → ∃ l', Reach e l l' ∧ B l' ∧ l'.c.cp = .ended := by
    intro f
    induction f with
    | nil =>
      intro l b hc
      have hs : step e l (.client .flushOne) = some { l with c := { l.c with cp := .ended } } := by
        simp [step, Link.step, Conn.step, hc]
      exact ⟨_, .head hs .refl, b.go he hs rfl b.np, rfl⟩
    | cons p f ih =>
      intro l b hc
      obtain ⟨o, j⟩ := p
      obtain ⟨l', hs, h1, h2⟩ : ∃ l', step e l (.client .flushOne) = some l' ∧ l'.s = l.s ∧ l'.c.cp = .flush f := by
        cases hq : (l.c.h.heap o).req j with
        | none => simp only [step, Link.step, Conn.step, hc, hq]; exact ⟨_, rfl, rfl, rfl⟩
        | some r => simp only [step, Link.step, Conn.step, hc, hq]; exact ⟨_, rfl, rfl, rfl⟩
      obtain ⟨l2, r2, b2, h3⟩ := ih l' (b.go he hs rfl (by rw [h1]; exact b.np)) h2
      exact ⟨l2, .head hs r2, b2, h3⟩
  cases hc : l.c.cp with
  | ended => exact ⟨l, .refl, b, hc⟩
  | panicked => exact absurd hc b.g.c.noPanic.2
  | flush f => exact fromList f l b hc
  | loop =>
    cases hg : l.c.h.getAll with
    | none =>
      have hs : step e l (.client .flush) = some { l with c := { l.c with cp := .panicked } } := by
        simp [step, Link.step, Conn.step, hc, hw, hr, hg]
      exact absurd rfl (b.go he hs rfl b.np).g.c.noPanic.2
    | some f =>
      have hs : step e l (.client .flush) = some { l with c := { l.c with cp := .flush f } } := by
        simp [step, Link.step, Conn.step, hc, hw, hr, hg]
      obtain ⟨l2, r2, b2, h3⟩ := fromList f _ (b.go he hs rfl b.np) rfl
      exact ⟨l2, .head hs r2, b2, h3⟩

theorem can_end (he : e.half = true ∧ e.stop = false) (b : B l) : ∃ l', Reach e l l' ∧ B l' ∧ l'.c.cp = .ended := by
  by_cases hr : l.c.rp = .ended
  · exact flushed he b hr
  obtain ⟨l1, r1, b1, w1, p1⟩ := stopWrite he b
  obtain ⟨l2, r2, b2, c2, w2⟩ := receive he _ l1 b1 w1 (Nat.le_refl _)
  obtain ⟨s3, ⟨r3, b3⟩, w3⟩ := handled he b2 w2
  obtain ⟨s4, ⟨r4, b4⟩, w4, f4, k4⟩ := answered he _ s3 b3 w3 (Nat.le_refl _)
  obtain ⟨s5, ⟨r5, b5⟩, w5⟩ := written he b4 w4 f4 k4
  obtain ⟨l6, r6, b6, q6, p6, d6⟩ := read he _ _ b5 (by simp only; rw [c2, p1]; exact hr) (Nat.le_refl _)
  have hs : step e l6 (.client .endRead) = some { l6 with c := { l6.c with rp := .ended } } := by
    have : clientEof e l6 := .inl ⟨by rw [q6]; exact w5, by rw [d6, q6]⟩
    simp [step, this, Link.step, Conn.step, p6]
  obtain ⟨l7, r7, b7, h7⟩ := flushed he (b6.go he hs rfl b6.np) rfl
  exact ⟨l7, r1.trans (r2.trans (r3.trans (r4.trans (r5.trans (r6.trans (.head hs r7)))))), b7, h7⟩

end

end Verif.Graceful
