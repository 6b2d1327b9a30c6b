import Verif.Model.Link
import Verif.Proofs.ConnInv
import Verif.Proofs.ServMore
/-!
The invariant of a client and a server connected to each other.
-/
namespace Verif.Link

/-- What a step of the client other than reading a response changes. -/
theorem client_step {s s' : Conn.St} {c : Conn.Choice} (hc : ∀ id x, c ≠ .resp id x) (hs : Conn.step s c = some s') :
    s'.removed = s.removed ∧ (∃ t, s'.wire = s.wire ++ t) ∧
    (∀ q i k, s'.rp = .reply q i k → s.rp = .reply q i k) ∧
    (∀ r i k, s'.ans r = some (.response i k) → s.ans r = some (.response i k) ∨ ∃ q, s.rp = .reply q i k) := by
  cases c with
  | resp id x => exact absurd rfl (hc id x)
  | take r =>
    simp only [Conn.step, Conn.offer, Conn.claim] at hs
    (repeat' split at hs) <;> cases hs <;> refine ⟨rfl, ⟨[], by simp⟩, fun _ _ _ h => h, fun _ _ _ h => .inl h⟩
  | wrote ok =>
    simp only [Conn.step] at hs
    (repeat' split at hs) <;> cases hs
    · exact ⟨rfl, ⟨_, rfl⟩, fun _ _ _ h => h, fun _ _ _ h => .inl h⟩
    · exact ⟨rfl, ⟨[], by simp⟩, fun _ _ _ h => h, fun _ _ _ h => .inl h⟩
  | reply =>
    simp only [Conn.step, Conn.respond, Conn.answer] at hs
    (repeat' split at hs) <;> cases hs <;> refine ⟨rfl, ⟨[], by simp⟩, fun _ _ _ h => (by cases h), ?_⟩
    · exact fun _ _ _ h => .inl h
    · rename_i r id content e e2
      intro r' i k h
      by_cases hr : r' = r
      · subst hr
        simp only [Conn.set, if_true, Option.some.injEq, Conn.Ans.response.injEq] at h
        obtain ⟨rfl, rfl⟩ := h
        exact .inr ⟨_, e⟩
      · simp only [Conn.set, hr, if_false] at h
        exact .inl h
    · exact fun _ _ _ h => .inl h
  | fail r =>
    simp only [Conn.step, Conn.respondFail, Conn.answer] at hs
    (repeat' split at hs) <;> cases hs <;> refine ⟨rfl, ⟨[], by simp⟩, fun _ _ _ h => h, ?_⟩
    · exact fun _ _ _ h => .inl h
    · intro r' i k h
      by_cases hr : r' = r
      · subst hr; simp [Conn.set] at h
      · simp only [Conn.set, hr, if_false] at h
        exact .inl h
  | flushOne =>
    simp only [Conn.step, Conn.respondFail, Conn.answer] at hs
    (repeat' split at hs) <;> cases hs <;> refine ⟨rfl, ⟨[], by simp⟩, fun _ _ _ h => h, ?_⟩ <;>
      first
      | exact fun _ _ _ h => .inl h
      | (intro r' i k h
         simp only [Conn.set] at h
         split at h
         · cases h
         · exact .inl h)
  | header | endWrite _ | endRead | flush =>
    simp only [Conn.step] at hs
    (repeat' split at hs) <;> cases hs <;>
      refine ⟨rfl, ⟨[], by simp⟩, fun _ _ _ h => (by first | exact h | cases h), fun _ _ _ h => .inl h⟩

/-- What a step of the server other than reading a request changes. -/
theorem server_step {s s' : Serv.St} {c : Serv.Choice} (hc : ∀ id, c ≠ .recv id) (hs : Serv.step s c = some s') :
    (∃ t, s'.wire = s.wire ++ t) ∧
    ((s'.n = s.n ∧ s'.idOf = s.idOf ∧ s'.fresh = s.fresh ∧ ((∀ id, s.rp ≠ .reg id) → ∀ id, s'.rp ≠ .reg id) ∧
        ∀ id, s.rp = .reg id → s'.rp = .reg id) ∨
      ∃ id, s.rp = .reg id ∧ s'.rp = .run ∧ s'.n = s.n + 1 ∧ s'.idOf = Serv.set s.idOf s.n id ∧
        s'.fresh = if Serv.has s.inFly id then s.fresh else s.fresh ++ [id]) := by
  unfold Serv.step at hs
  split at hs
  · cases hs
  · cases c with
    | recv id => exact absurd rfl (hc id)
    | rl =>
      simp only [Serv.step1, Serv.stepR] at hs
      cases e : s.rp with
      | reg id =>
        rw [e] at hs
        simp only at hs
        split at hs <;> cases hs
        exact ⟨⟨[], by simp⟩, .inr ⟨id, rfl, rfl, rfl, rfl, rfl⟩⟩
      | _ =>
        rw [e] at hs
        simp only at hs
        (repeat' split at hs) <;> cases hs <;>
          exact ⟨⟨[], by simp⟩, .inl ⟨rfl, rfl, rfl, fun _ id => by simp, fun id h => by simp_all⟩⟩
    | begin k =>
      simp only [Serv.step1, Serv.beginRespond] at hs
      (repeat' split at hs) <;> cases hs <;> exact ⟨⟨[], by simp⟩, .inl ⟨rfl, rfl, rfl, fun h => h, fun id h => h⟩⟩
    | ping _ | rErr | call _ | send _ | wErr =>
      simp only [Serv.step1] at hs
      (repeat' split at hs) <;> cases hs <;>
        exact ⟨⟨[], by simp⟩, .inl ⟨rfl, rfl, rfl, fun h => by first | exact h | simp, fun id h => by first | exact h | simp_all⟩⟩
    | wl =>
      simp only [Serv.step1, Serv.stepW] at hs
      (repeat' split at hs) <;> cases hs <;>
        first
        | exact ⟨⟨_, rfl⟩, .inl ⟨rfl, rfl, rfl, fun h => h, fun id h => h⟩⟩
        | exact ⟨⟨[], by simp⟩, .inl ⟨rfl, rfl, rfl, fun h => h, fun id h => h⟩⟩
    | ctl =>
      simp only [Serv.step1, Serv.stepC, Serv.closeOut] at hs
      (repeat' split at hs) <;> cases hs <;> exact ⟨⟨[], by simp⟩, .inl ⟨rfl, rfl, rfl, fun h => h, fun id h => h⟩⟩

structure Inv (l : St) : Prop where
  c : Conn.Inv l.c
  s : Serv.Inv l.s
  full : Serv.Full l.s
  reg : ∀ id, l.s.rp = .reg id → l.up = l.s.n + 1 ∧ ∃ r f, l.c.wire[l.s.n]? = some (id, r, f)
  nreg : (∀ id, l.s.rp ≠ .reg id) → l.up = l.s.n
  ids : ∀ k, k < l.s.n → ∃ r f, l.c.wire[k]? = some (l.s.idOf k, r, f)
  fresh : l.s.fresh.length = l.s.n
  down : l.down ≤ l.s.wire.length
  rem : ∀ i, i ∈ l.c.removed ↔ i ∈ Serv.ids (l.s.wire.take l.down)
  rep : ∀ q i k, l.c.rp = .reply q i k → Serv.Item.resp i k ∈ l.s.wire
  ans : ∀ r i k, l.c.ans r = some (.response i k) → Serv.Item.resp i k ∈ l.s.wire

theorem inv_init : Inv init := by
  refine ⟨Conn.inv_init, Serv.inv_init, Serv.full_init, ?_, ?_, ?_, ?_, ?_, ?_, ?_, ?_⟩ <;>
    simp [init, Conn.init, Serv.init, Serv.ids]

/-- Ids on the wire are different. -/
theorem wire_inj {c : Conn.St} (h : Conn.Inv c) {a b i r r' : Nat} {f f' : Bool} (ha : c.wire[a]? = some (i, r, f))
    (hb : c.wire[b]? = some (i, r', f')) : a = b := by
  have hn := h.wireNodup
  have h1 : (c.wire.map (·.1))[a]? = some i := by simp [ha]
  have h2 : (c.wire.map (·.1))[b]? = some i := by simp [hb]
  exact (List.getElem?_inj (List.getElem?_eq_some_iff.mp h1).1 hn).mp (h1.trans h2.symm)

theorem ids_mem {i : Nat} {l : List Serv.Item} : i ∈ Serv.ids l ↔ ∃ k, Serv.Item.resp i k ∈ l := by
  induction l with
  | nil => simp [Serv.ids]
  | cons m l ih => cases m <;> simp [Serv.ids, ih]; grind

/-- A response on the wire is for a request of the client. -/
theorem item_wire {l : St} (h : Inv l) {i k : Nat} (hm : Serv.Item.resp i k ∈ l.s.wire) :
    k < l.s.n ∧ l.s.idOf k = i ∧ ∃ r f, l.c.wire[k]? = some (i, r, f) ∧ l.c.idOf r = some i := by
  obtain ⟨h1, h2⟩ := h.s.item i k (by unfold Serv.flow; simp [hm])
  have hk : k < l.s.n := by
    rcases Nat.lt_or_ge k l.s.n with h | h'
    · exact h
    · have := h.s.new k h'; rw [h2] at this; cases this
  obtain ⟨r, f, e⟩ := h.ids k hk
  rw [h1] at e
  exact ⟨hk, h1, r, f, e, (h.c.wireId r i f (List.mem_of_getElem? e)).1⟩

/-- The next response is expected. -/
theorem expected {l : St} (h : Inv l) {i k : Nat} (e : l.s.wire[l.down]? = some (.resp i k)) : Conn.Expected l.c i := by
  obtain ⟨hk, hid, r, f, hw, hr⟩ := item_wire h (List.mem_of_getElem? e)
  refine ⟨⟨r, hr⟩, fun hm => ?_⟩
  obtain ⟨k', hm'⟩ := ids_mem.mp ((h.rem i).mp hm)
  obtain ⟨_, hid', r', f', hw', _⟩ := item_wire h (List.mem_of_mem_take hm')
  have hkk := wire_inj h.c hw hw'
  subst hkk
  -- the same response twice
  have hn := h.s.nodup
  unfold Serv.flow at hn
  rw [Serv.keys_append, Serv.keys_append, List.append_assoc] at hn
  have hn := (List.nodup_append.mp hn).1
  obtain ⟨hlt, he⟩ := List.getElem?_eq_some_iff.mp e
  have hsplit : l.s.wire = l.s.wire.take l.down ++ Serv.Item.resp i k :: l.s.wire.drop (l.down + 1) := by
    rw [← he, ← List.drop_eq_getElem_cons hlt, List.take_append_drop]
  rw [hsplit, Serv.keys_append] at hn
  exact (List.nodup_append.mp hn).2.2 k (Serv.mem_keys.mpr ⟨i, hm'⟩) k (by simp [Serv.keys]) rfl

theorem getElem?_grow {α : Type} {l t : List α} {k : Nat} {a : α} (h : l[k]? = some a) : (l ++ t)[k]? = some a := by
  rw [List.getElem?_append_left (List.getElem?_eq_some_iff.mp h).1, h]

theorem inv_client {l : St} (h : Inv l) {c : Conn.Choice} {s' : Conn.St} (hc : ∀ id x, c ≠ .resp id x)
    (hs : Conn.step l.c c = some s') (hy : Conn.Young s') : Inv { l with c := s' } := by
  have hi := Conn.inv_step h.c (fun id x e => absurd e (hc id x)) hy hs
  obtain ⟨h1, ⟨t, h2⟩, h3, h4⟩ := client_step hc hs
  refine ⟨hi, h.s, h.full, ?_, h.nreg, ?_, h.fresh, h.down, ?_, ?_, ?_⟩
  · intro id e
    obtain ⟨e1, r, f, e2⟩ := h.reg id e
    exact ⟨e1, r, f, by simp only [h2]; exact getElem?_grow e2⟩
  · intro k hk
    obtain ⟨r, f, e⟩ := h.ids k hk
    exact ⟨r, f, by simp only [h2]; exact getElem?_grow e⟩
  · simpa only [h1] using h.rem
  · exact fun q i k e => h.rep q i k (h3 q i k e)
  · intro r i k e
    rcases h4 r i k e with e | ⟨q, e⟩
    · exact h.ans r i k e
    · exact h.rep q i k e

theorem inv_server {l : St} (h : Inv l) {c : Serv.Choice} {s' : Serv.St} (hc : ∀ id, c ≠ .recv id)
    (hs : Serv.step l.s c = some s') : Inv { l with s := s' } := by
  have hi := Serv.inv_step h.s hs
  have hf := Serv.full_step h.s h.full hs
  obtain ⟨⟨t, h2⟩, h3⟩ := server_step hc hs
  have hdown : l.down ≤ s'.wire.length := by rw [h2, List.length_append]; have := h.down; omega
  have hrem : ∀ i, i ∈ l.c.removed ↔ i ∈ Serv.ids (s'.wire.take l.down) := by
    intro i
    rw [h2, List.take_append_of_le_length h.down]
    exact h.rem i
  have hrep : ∀ q i k, l.c.rp = .reply q i k → Serv.Item.resp i k ∈ s'.wire := by
    intro q i k e
    rw [h2]
    exact List.mem_append_left _ (h.rep q i k e)
  have hans : ∀ r i k, l.c.ans r = some (.response i k) → Serv.Item.resp i k ∈ s'.wire := by
    intro q i k e
    rw [h2]
    exact List.mem_append_left _ (h.ans q i k e)
  rcases h3 with ⟨g1, g2, g3, g4, g5⟩ | ⟨id, g0, g1, g2, g3, g4⟩
  · refine ⟨h.c, hi, hf, ?_, ?_, ?_, ?_, hdown, hrem, hrep, hans⟩
    · intro id e
      by_cases hr : ∃ id', l.s.rp = .reg id'
      · obtain ⟨id', hr⟩ := hr
        have := g5 id' hr
        simp only at e
        rw [e] at this
        cases this
        simp only [g1]
        exact h.reg id hr
      · exact absurd e (g4 (fun id' e' => hr ⟨id', e'⟩) id)
    · intro e
      simp only [g1]
      exact h.nreg fun id e' => e id (g5 id e')
    · simp only [g1, g2]
      exact h.ids
    · simp only [g1, g3]
      exact h.fresh
  · obtain ⟨k1, r, f, k2⟩ := h.reg id g0
    have hnew : Serv.has l.s.inFly id = false := by
      rw [Bool.eq_false_iff]
      intro hh
      obtain ⟨⟨id', k⟩, hm, rfl⟩ := Serv.has_true hh
      obtain ⟨m1, m2⟩ := h.s.fly _ _ hm
      have hk : k < l.s.n := by
        rcases Nat.lt_or_ge k l.s.n with h' | h'
        · exact h'
        · have := h.s.new k h'; rw [this] at m2; simp at m2
      obtain ⟨r', f', e'⟩ := h.ids k hk
      rw [m1] at e'
      have := wire_inj h.c e' k2
      omega
    rw [hnew] at g4
    refine ⟨h.c, hi, hf, ?_, ?_, ?_, ?_, hdown, hrem, hrep, hans⟩
    · intro id' e
      simp only [g1] at e
      cases e
    · intro _
      simp only [g2]
      exact k1
    · intro k hk
      simp only [g2] at hk
      simp only [g3, Serv.set]
      split
      · rename_i e; subst e; exact ⟨r, f, k2⟩
      · exact h.ids k (by omega)
    · simp only [g2, g4]
      simp [h.fresh]

theorem inv_up {l : St} (h : Inv l) {id r : Nat} {f : Bool} {s' : Serv.St} (he : l.c.wire[l.up]? = some (id, r, f))
    (hs : Serv.step l.s (.recv id) = some s') : Inv { l with s := s', up := l.up + 1 } := by
  have hi := Serv.inv_step h.s hs
  have hf := Serv.full_step h.s h.full hs
  have hup : l.s.rp = .run ∧ s' = { l.s with rp := .reg id } := by
    unfold Serv.step at hs
    split at hs
    · cases hs
    · simp only [Serv.step1] at hs
      split at hs <;> cases hs
      exact ⟨by assumption, rfl⟩
  obtain ⟨h1, rfl⟩ := hup
  have hn := h.nreg (by rw [h1]; intro id e; cases e)
  refine ⟨h.c, hi, hf, ?_, ?_, h.ids, h.fresh, h.down, h.rem, h.rep, h.ans⟩
  · intro id' e
    simp only [Serv.RPc.reg.injEq] at e
    subst e
    simp only
    rw [← hn]
    exact ⟨rfl, r, f, he⟩
  · intro e
    exact absurd rfl (e id)

theorem take_succ_ids {l : List Serv.Item} {n : Nat} {m : Serv.Item} (h : l[n]? = some m) :
    Serv.ids (l.take (n + 1)) = Serv.ids (l.take n) ++ Serv.ids [m] := by
  rw [List.take_add_one, h, Serv.ids_append]
  rfl

theorem inv_down {l : St} (h : Inv l) {i k : Nat} {s' : Conn.St} (he : l.s.wire[l.down]? = some (.resp i k))
    (hs : Conn.step l.c (.resp i k) = some s') (hy : Conn.Young s') : Inv { l with c := s', down := l.down + 1 } := by
  have hx := expected h he
  have hi := Conn.inv_step h.c (fun id x e => by cases e; exact hx) hy hs
  have hlt := (List.getElem?_eq_some_iff.mp he).1
  have hmem := List.mem_of_getElem? he
  have key : s'.wire = l.c.wire ∧ s'.ans = l.c.ans ∧ (s'.removed = i :: l.c.removed ∧ (∃ q, s'.rp = .reply q i k) ∨ s'.rp = .panicked) := by
    simp only [Conn.step] at hs
    (repeat' split at hs) <;> cases hs
    · exact ⟨rfl, rfl, .inl ⟨rfl, _, rfl⟩⟩
    · exact ⟨rfl, rfl, .inr rfl⟩
  obtain ⟨k1, k2, ⟨k3, q, k4⟩ | k3⟩ := key
  · refine ⟨hi, h.s, h.full, ?_, h.nreg, ?_, h.fresh, hlt, ?_, ?_, ?_⟩
    · simpa only [k1] using h.reg
    · simpa only [k1] using h.ids
    · intro j
      simp only [k3]
      rw [take_succ_ids he, List.mem_append, ← h.rem j]
      simp [Serv.ids, or_comm]
    · intro q' i' k' e
      simp only [k4, Conn.RPc.reply.injEq] at e
      obtain ⟨_, rfl, rfl⟩ := e
      exact hmem
    · simpa only [k2] using h.ans
  · exact absurd k3 hi.noPanic.1

theorem inv_step {l l' : St} {c : Choice} (h : Inv l) (hs : step l c = some l') (hy : Conn.Young l'.c) : Inv l' := by
  cases c with
  | client c =>
    have : (∃ id x, c = .resp id x) ∨ ∀ id x, c ≠ .resp id x := by
      cases c <;> simp
    rcases this with ⟨id, x, rfl⟩ | hc
    · simp [step] at hs
    · have e : step l (.client c) = (Conn.step l.c c).map fun c => { l with c } := by
        cases c <;> first | rfl | exact absurd rfl (hc _ _)
      rw [e] at hs
      obtain ⟨s', e1, rfl⟩ := Option.map_eq_some_iff.mp hs
      exact inv_client h hc e1 hy
  | server c =>
    have : (∃ id, c = .recv id) ∨ ∀ id, c ≠ .recv id := by
      cases c <;> simp
    rcases this with ⟨id, rfl⟩ | hc
    · simp [step] at hs
    · have e : step l (.server c) = (Serv.step l.s c).map fun s => { l with s } := by
        cases c <;> first | rfl | exact absurd rfl (hc _)
      rw [e] at hs
      obtain ⟨s', e1, rfl⟩ := Option.map_eq_some_iff.mp hs
      exact inv_server h hc e1
  | up =>
    simp only [step] at hs
    split at hs
    · cases hs
    · rename_i id r f e
      obtain ⟨s', e1, rfl⟩ := Option.map_eq_some_iff.mp hs
      exact inv_up h e e1
  | down =>
    simp only [step] at hs
    split at hs
    · cases hs
    · rename_i e
      split at hs <;> cases hs
      refine ⟨h.c, h.s, h.full, h.reg, h.nreg, h.ids, h.fresh, (List.getElem?_eq_some_iff.mp e).1, ?_, h.rep, h.ans⟩
      intro i
      simp only
      rw [take_succ_ids e]
      simpa [Serv.ids] using h.rem i
    · rename_i id k e
      obtain ⟨s', e1, rfl⟩ := Option.map_eq_some_iff.mp hs
      exact inv_down h e e1 hy

theorem got_step {l l' : St} {c : Choice} (hs : step l c = some l') : l.c.h.got ≤ l'.c.h.got := by
  cases c with
  | client c =>
    have e : step l (.client c) = none ∨ step l (.client c) = (Conn.step l.c c).map fun c => { l with c } := by
      cases c <;> first | exact .inr rfl | exact .inl rfl
    rcases e with e | e
    · rw [e] at hs; cases hs
    · rw [e] at hs
      obtain ⟨s', e1, rfl⟩ := Option.map_eq_some_iff.mp hs
      exact Conn.got_step e1
  | server c =>
    have e : step l (.server c) = none ∨ step l (.server c) = (Serv.step l.s c).map fun s => { l with s } := by
      cases c <;> first | exact .inr rfl | exact .inl rfl
    rcases e with e | e
    · rw [e] at hs; cases hs
    · rw [e] at hs
      obtain ⟨s', e1, rfl⟩ := Option.map_eq_some_iff.mp hs
      exact Nat.le_refl _
  | up =>
    simp only [step] at hs
    split at hs
    · cases hs
    · obtain ⟨s', e1, rfl⟩ := Option.map_eq_some_iff.mp hs
      exact Nat.le_refl _
  | down =>
    simp only [step] at hs
    split at hs
    · cases hs
    · split at hs <;> cases hs
      exact Nat.le_refl _
    · obtain ⟨s', e1, rfl⟩ := Option.map_eq_some_iff.mp hs
      exact Conn.got_step e1

theorem got_run {l l' : St} {cs : List Choice} (hs : run l cs = some l') : l.c.h.got ≤ l'.c.h.got := by
  induction cs generalizing l with
  | nil => cases hs; exact Nat.le_refl _
  | cons c cs ih =>
    simp only [run] at hs
    cases e : step l c with
    | none => rw [e] at hs; cases hs
    | some l1 =>
      rw [e] at hs
      exact Nat.le_trans (got_step e) (ih hs)

theorem inv_run {l l' : St} {cs : List Choice} (h : Inv l) (hs : run l cs = some l') (hy : Conn.Young l'.c) : Inv l' := by
  induction cs generalizing l with
  | nil => cases hs; exact h
  | cons c cs ih =>
    simp only [run] at hs
    cases e : step l c with
    | none => rw [e] at hs; cases hs
    | some l1 =>
      rw [e] at hs
      exact ih (inv_step h e (Nat.le_trans (got_run hs) hy)) hs

end Verif.Link
