import Verif.Model.Graceful
import Verif.Proofs.Link
import Verif.Props.Link
/-!
Nobody loses a request when a connection ends gracefully.
-/
namespace Verif.Graceful
open Verif.Link (inv_init)

theorem link_step {e : Env} {l l' : Link.St} {c : Link.Choice} (h : step e l c = some l') : Link.step l c = some l' := by
  unfold step at h
  split at h <;> first | assumption | cases h | (split at h; assumption; cases h)

theorem link_run {e : Env} {l l' : Link.St} {cs : List Link.Choice} (h : run e l cs = some l') : Link.run l cs = some l' := by
  induction cs generalizing l with
  | nil => exact h
  | cons c cs ih =>
    simp only [run, Link.run] at h ⊢
    cases e1 : step e l c with
    | none => rw [e1] at h; cases h
    | some x =>
      rw [e1] at h
      rw [link_step e1]
      exact ih h

/-- The client: what has an id was written or is about to be; when the read loop has ended the write loop has too, and nothing is
in flight; nothing was flushed. -/
structure CInv (c : Conn.St) : Prop where
  sent : ∀ r i, c.idOf r = some i → (∃ f, (i, r, f) ∈ c.wire) ∨ ∃ f, c.wp = .write i r f
  ended : c.rp = .ended → c.wp = .ended ∧ ∀ r, c.rs r ≠ .inFly
  fl : ∀ r x, c.ans r ≠ some (.flushed x)

structure GInv (l : Link.St) : Prop where
  c : CInv l.c
  eof : l.s.rp = .notify ∨ l.s.rp = .done → l.c.wp = .ended ∧ l.up = l.c.wire.length

theorem cinv_step {c c' : Conn.St} {x : Conn.Choice} (g : Conn.Inv c) (h : CInv c) (hs : Conn.step c x = some c')
    (h1 : x ≠ .wrote false) (h2 : x = .endRead → c.wp = .ended ∧ ∀ r, c.rs r ≠ .inFly) :
    CInv c' ∧ (c.wp = .ended → c'.wp = .ended ∧ c'.wire = c.wire) := by
  obtain ⟨s1, s2, s3⟩ := h
  cases x with
  | flushOne =>
    simp only [Conn.step, Conn.respondFail, Conn.answer] at hs
    split at hs
    · cases hs
      exact ⟨⟨s1, s2, s3⟩, fun h => ⟨h, rfl⟩⟩
    · rename_i o j l hcp
      have hrp : c.rp = .ended := by
        rcases g.cpLoop with h | h
        · rw [hcp] at h; cases h
        · exact h.2
      split at hs
      · rename_i r hr
        exfalso
        have hsl := g.reqSlot o j r hr
        rcases g.slotFly r with h | h
        · rw [hsl] at h; cases h
        · exact (s2 hrp).2 r h
      · cases hs
        exact ⟨⟨s1, s2, s3⟩, fun h => ⟨h, rfl⟩⟩
    · cases hs
  | header =>
    simp only [Conn.step] at hs
    split at hs <;> cases hs
    rename_i r o j hwp
    refine ⟨⟨?_, ?_, s3⟩, fun h => by rw [hwp] at h; cases h⟩
    · intro r' i hi
      simp only [Conn.set] at hi
      split at hi
      · cases hi
        subst_vars
        exact .inr ⟨_, rfl⟩
      · rcases s1 r' i hi with h | ⟨f, h⟩
        · exact .inl h
        · rw [hwp] at h; cases h
    · intro h
      have := (s2 h).1
      rw [hwp] at this
      cases this
  | _ =>
    simp only [Conn.step, Conn.offer, Conn.respond, Conn.respondFail, Conn.answer, Conn.claim] at hs
    (repeat' split at hs) <;> cases hs <;> refine ⟨⟨?_, ?_, ?_⟩, ?_⟩ <;> (try simp only [Conn.set]) <;> grind

theorem ginv_init : GInv Link.init := by
  refine ⟨⟨?_, ?_, ?_⟩, ?_⟩ <;> simp [Link.init, Conn.init, Serv.init]

/-- What the server has answered and the client has read is not in flight any more. -/
theorem served {l : Link.St} (g : Link.Inv l) (hw : l.s.wp = .fin false ∨ l.s.wp = .done false) (hd : l.down = l.s.wire.length)
    (hr : l.c.rp = .read) {k r i : Nat} {f : Bool} (hk : k < l.s.n) (hi : l.c.wire[k]? = some (i, r, f)) :
    l.c.rs r ≠ .inFly := by
  have hitem : Serv.Item.resp (l.s.idOf k) k ∈ l.s.wire := by
    obtain ⟨f1, f2, f3, f4⟩ := g.s.fin hw
    have w1 : l.s.wp ≠ .fin true := by rcases hw with h | h <;> rw [h] <;> simp
    have w2 : l.s.wp ≠ .done true := by rcases hw with h | h <;> rw [h] <;> simp
    have h1 := g.full.fly g.fresh w1 w2 k
    have h2 := g.full.dn g.fresh w1 w2 k
    have h3 := g.full.known k hk
    have h4 := g.s.lock2 k
    have hh : Serv.held l.s.wp = [] := by rcases hw with h | h <;> rw [h] <;> rfl
    unfold Serv.flow at h2
    rw [f2] at h1
    rw [f3, hh] at h2
    rw [f4] at h4
    cases e : l.s.rs k with
    | new => exact absurd e h3
    | sent => exact absurd (h1 (.inl e)) (by simp)
    | called => exact absurd (h1 (.inr e)) (by simp)
    | busy => exact absurd (h4 e) (by simp)
    | done => simpa using h2 e
  obtain ⟨_, hid, r', f', hw', _⟩ := Link.item_wire g hitem
  rw [hi] at hw'
  simp only [Option.some.injEq, Prod.mk.injEq] at hw'
  obtain ⟨e1, e2, _⟩ := hw'
  subst e2
  rw [← e1] at hitem hid
  have hrem : i ∈ l.c.removed := by
    rw [g.rem i, hd, List.take_length]
    exact Link.ids_mem.mpr ⟨k, hitem⟩
  have hidr := (g.c.wireId r i f (List.mem_of_getElem? hi)).1
  intro hf
  obtain ⟨c, hc⟩ := g.c.remFly r i hrem hidr hf
  rw [hr] at hc
  cases hc

/-- When as many ids were removed as given, all of them were. -/
theorem all_removed {c : Conn.St} (h : Conn.Inv c) (hp : c.h.got - c.h.put = 0) {i : Nat} (h1 : 1 ≤ i) (h2 : i ≤ c.h.curId) :
    i ∈ c.removed := by
  have hh := h.hh
  have hlen : c.h.curId ≤ c.removed.length := by
    have := hh.put; have := hh.cur; omega
  apply Classical.byContradiction
  intro hn
  have hnd : (i :: c.removed).Nodup := List.nodup_cons.mpr ⟨hn, hh.nodup⟩
  have hsub : (i :: c.removed) ⊆ (List.range c.h.curId).map (· + 1) := by
    intro x hx
    have : 1 ≤ x ∧ x ≤ c.h.curId := by
      rcases List.mem_cons.mp hx with rfl | hx
      · exact ⟨h1, h2⟩
      · exact hh.range x hx
    exact List.mem_map.mpr ⟨x - 1, by simp; omega, by omega⟩
  have := Conn.length_le hnd hsub
  simp at this
  omega

/-- Nothing is in flight if nothing written is. -/
theorem idle {c : Conn.St} (g : Conn.Inv c) (h : CInv c) (hw : c.wp = .ended)
    (hall : ∀ r i f, (i, r, f) ∈ c.wire → c.rs r ≠ .inFly) (r : Nat) : c.rs r ≠ .inFly := by
  intro hf
  cases hs : c.slot r with
  | none => exact g.flySlot r hf hs
  | some p =>
    obtain ⟨o, j⟩ := p
    obtain ⟨_, hid | hid⟩ := g.slotId r o j hs
    · rcases h.sent r _ hid with ⟨f, hm⟩ | ⟨f, hm⟩
      · exact hall _ _ _ hm hf
      · rw [hw] at hm; cases hm
    · rw [hw] at hid; cases hid

theorem serv_rp {s s' : Serv.St} {c : Serv.Choice} (h : Serv.step s c = some s') (hc : c ≠ .rErr)
    (hr : s'.rp = .notify ∨ s'.rp = .done) : s.rp = .notify ∨ s.rp = .done := by
  unfold Serv.step at h
  split at h
  · cases h
  · cases c with
    | rErr => exact absurd rfl hc
    | rl =>
      simp only [Serv.step1, Serv.stepR] at h
      split at h
      · (repeat' split at h) <;> cases h <;> simp_all
      · (repeat' split at h) <;> cases h <;> simp_all
      · exact .inl ‹_›
      · cases h
    | _ =>
      simp only [Serv.step1, Serv.stepW, Serv.stepC, Serv.beginRespond, Serv.closeOut] at h
      (repeat' split at h) <;> cases h <;> simp_all

theorem eof_ended {l : Link.St} {e : Env} (he : e.half = true) (g : Link.Inv l) (h : GInv l) (hr : l.c.rp = .read)
    (hq : clientEof e l) : l.c.wp = .ended ∧ ∀ r, l.c.rs r ≠ .inFly := by
  rcases hq with ⟨hw, hd⟩ | ⟨h1, _⟩ | ⟨hw, hc⟩
  · have hrd := g.s.rd1 (g.s.fin hw).1
    obtain ⟨h1, h2⟩ := h.eof (.inr hrd)
    refine ⟨h1, idle g.c h.c h1 ?_⟩
    intro r i f hm
    obtain ⟨k, hk, hk'⟩ := List.getElem_of_mem hm
    have hn : l.up = l.s.n := g.nreg (fun id hx => by rw [hrd] at hx; cases hx)
    exact served g hw hd hr (k := k) (by omega) (by rw [List.getElem?_eq_getElem hk, hk'])
  · rw [he] at h1; cases h1
  · refine ⟨hw, idle g.c h.c hw ?_⟩
    intro r i f hm hf
    have hid := (g.c.wireId r i f hm).1
    obtain ⟨h1, h2⟩ := g.c.idRange r i hid
    obtain ⟨c, hc⟩ := g.c.remFly r i (all_removed g.c hc h1 h2) hid hf
    rw [hr] at hc
    cases hc

theorem ginv_step {e : Env} {l l' : Link.St} {c : Link.Choice} (he : e.half = true ∧ e.stop = false) (g : Link.Inv l)
    (h : GInv l) (hs : step e l c = some l') : GInv l' := by
  have hl := link_step hs
  cases c with
  | client x =>
    have hx : ∀ i d, x ≠ .resp i d := by
      rintro i d rfl
      cases hl
    have hx' : Link.step l (.client x) = (Conn.step l.c x).map fun c => { l with c } := by
      cases x <;> first | rfl | exact absurd rfl (hx _ _)
    rw [hx'] at hl
    obtain ⟨c', h1, rfl⟩ := Option.map_eq_some_iff.mp hl
    have hw : x ≠ .wrote false := by
      rintro rfl
      cases hs
    have hr : x = .endRead → l.c.wp = .ended ∧ ∀ r, l.c.rs r ≠ .inFly := by
      rintro rfl
      simp only [step] at hs
      split at hs
      · rename_i hq
        refine eof_ended he.1 g h ?_ hq
        simp only [Conn.step] at h1
        split at h1
        · assumption
        · cases h1
      · cases hs
    obtain ⟨k1, k2⟩ := cinv_step g.c h.c h1 hw hr
    refine ⟨k1, fun hq => ?_⟩
    obtain ⟨q1, q2⟩ := h.eof hq
    exact ⟨(k2 q1).1, by rw [(k2 q1).2]; exact q2⟩
  | server x =>
    have hx : ∀ i, x ≠ .recv i := by
      rintro i rfl
      cases hl
    have hx' : Link.step l (.server x) = (Serv.step l.s x).map fun s => { l with s } := by
      cases x <;> first | rfl | exact absurd rfl (hx _)
    rw [hx'] at hl
    obtain ⟨s', h1, rfl⟩ := Option.map_eq_some_iff.mp hl
    refine ⟨h.c, fun hq => ?_⟩
    by_cases hr : x = .rErr
    · subst hr
      simp only [step] at hs
      split at hs
      · rename_i hq
        rcases hq with hq | hq
        · exact hq
        · rw [he.2] at hq; cases hq
      · cases hs
    · exact h.eof (serv_rp h1 hr hq)
  | up =>
    simp only [Link.step] at hl
    split at hl
    · cases hl
    · obtain ⟨s', h1, rfl⟩ := Option.map_eq_some_iff.mp hl
      refine ⟨h.c, fun hq => ?_⟩
      exfalso
      rename_i id _ _ _
      have : s'.rp = .reg id := by
        unfold Serv.step at h1
        split at h1
        · cases h1
        · simp only [Serv.step1] at h1
          split at h1 <;> cases h1
          rfl
      rw [this] at hq
      simp at hq
  | down =>
    simp only [Link.step] at hl
    split at hl
    · cases hl
    · split at hl <;> cases hl
      exact ⟨h.c, h.eof⟩
    · obtain ⟨c', h1, rfl⟩ := Option.map_eq_some_iff.mp hl
      obtain ⟨k1, k2⟩ := cinv_step g.c h.c h1 (by simp) (by simp)
      refine ⟨k1, fun hq => ?_⟩
      obtain ⟨q1, q2⟩ := h.eof hq
      exact ⟨(k2 q1).1, by rw [(k2 q1).2]; exact q2⟩

theorem ginv_run {e : Env} {l l' : Link.St} {cs : List Link.Choice} (he : e.half = true ∧ e.stop = false) (g : Link.Inv l)
    (h : GInv l) (hs : run e l cs = some l') (hy : Conn.Young l'.c) : GInv l' ∧ Link.Inv l' := by
  induction cs generalizing l with
  | nil => cases hs; exact ⟨h, g⟩
  | cons c cs ih =>
    simp only [run] at hs
    cases e1 : step e l c with
    | none => rw [e1] at hs; cases hs
    | some x =>
      rw [e1] at hs
      have hx := link_run hs
      exact ih (Link.inv_step g (link_step e1) (Nat.le_trans (Link.got_run hx) hy)) (ginv_step he g h e1) hs

end Verif.Graceful
