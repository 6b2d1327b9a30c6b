import Verif.Spec.Buffer
namespace Verif.Buffer

@[simp] theorem slots_append (a b : List Ev) : slots (a ++ b) = slots a ++ slots b := List.filterMap_append
@[simp] theorem sent_append (a b : List Ev) : sent (a ++ b) = sent a ++ sent b := List.filterMap_append
@[simp] theorem forwarded_append (a b : List Ev) : forwarded (a ++ b) = forwarded a ++ forwarded b :=
  List.filterMap_append

theorem mem_slots {log r} : r ∈ slots log ↔ .slot r ∈ log := by
  constructor
  · intro h
    obtain ⟨e, he, h⟩ := List.mem_filterMap.1 h
    cases e <;> simp_all
  · intro h; exact List.mem_filterMap.2 ⟨_, h, rfl⟩

theorem mem_forwarded {log r} : r ∈ forwarded log ↔ .forward r ∈ log := by
  constructor
  · intro h
    obtain ⟨e, he, h⟩ := List.mem_filterMap.1 h
    cases e <;> simp_all
  · intro h; exact List.mem_filterMap.2 ⟨_, h, rfl⟩

theorem mem_sent {log r} : r ∈ sent log ↔ ∃ e ∈ log, Sends r e := by
  constructor
  · intro h
    obtain ⟨e, he, h⟩ := List.mem_filterMap.1 h
    refine ⟨e, he, ?_⟩
    cases e <;> simp_all [Sends]
  · rintro ⟨e, he, h | h⟩ <;> subst h <;> exact List.mem_filterMap.2 ⟨_, he, rfl⟩

theorem before_append {p q : Ev → Prop} {log : List Ev} {e : Ev} :
    Before p q (log ++ [e]) ↔ Before p q log ∨ ((∃ a ∈ log, p a) ∧ q e) := by
  constructor
  · rintro ⟨l₁, l₂, h, ⟨a, ha, pa⟩, ⟨b, hb, qb⟩⟩
    rcases List.eq_nil_or_concat l₂ with e' | ⟨l, x, e'⟩
    · subst e'; cases hb
    · subst e'
      rw [List.concat_eq_append, ← List.append_assoc] at h
      obtain ⟨h1, h2⟩ := List.append_inj' h rfl
      cases h2
      rw [List.concat_eq_append, List.mem_append] at hb
      rcases hb with hb | hb
      · exact .inl ⟨l₁, l, h1, ⟨a, ha, pa⟩, ⟨b, hb, qb⟩⟩
      · rw [List.mem_singleton] at hb
        subst hb
        exact .inr ⟨⟨a, h1 ▸ List.mem_append_left _ ha, pa⟩, qb⟩
  · rintro (⟨l₁, l₂, h, ha, ⟨b, hb, qb⟩⟩ | ⟨⟨a, ha, pa⟩, qe⟩)
    · exact ⟨l₁, l₂ ++ [e], by rw [h, List.append_assoc], ha, ⟨b, List.mem_append_left _ hb, qb⟩⟩
    · exact ⟨log, [e], rfl, ⟨a, ha, pa⟩, ⟨e, List.mem_singleton.2 rfl, qe⟩⟩

/-- Not yet holding a slot. -/
def PPc.before : PPc → Prop
  | .idle | .start | .gotTail _ | .gotHead _ | .direct | .reserve => True
  | _ => False

/-- The slot held. -/
def PPc.slotNo : PPc → Option Nat
  | .readRow n | .lookup n | .chain n _ | .markSet n _ | .markFree n _ => some n
  | _ => none

/-- The slot and the row object held. -/
def PPc.obj : PPc → Option (Nat × Nat)
  | .chain n o | .markSet n o | .markFree n o => some (n, o)
  | _ => none

/-- Nothing written into the slot yet, and nobody else does. -/
def PPc.early : PPc → Prop
  | .readRow _ | .lookup _ | .chain _ _ | .markFree _ _ => True
  | _ => False

/-- The state has been written into the slot. -/
def PPc.late : PPc → Prop
  | .signal | .done | .panicked => True
  | _ => False

def LPc.obj : LPc → Option Nat
  | .look o | .take o | .free o _ => some o
  | _ => none

def LPc.busy : LPc → Prop
  | .wait | .cmp | .exited => False
  | _ => True

def LPc.past : LPc → Bool
  | .take _ | .free _ _ | .pend _ | .send _ | .inc => true
  | _ => false

/-- The request in the hands of the loop; `some none` when it found none. -/
def LPc.req : LPc → Option (Option Nat)
  | .free _ q | .pend q => some q
  | .send q => some (some q)
  | _ => none

def LPc.idle : LPc → Prop
  | .wait | .exited => True
  | _ => False

/-- The number of slots at which the loop has read a state other than bsNew. -/
def St.cur (s : St) : Nat := s.head + if s.loop.past then 1 else 0

/-- The number of slots the loop is through with. -/
def St.fin (s : St) : Nat := s.head + if s.loop = .inc then 1 else 0

structure Inv (R : Nat) (s : St) (S : List Nat) : Prop where
  slots : slots s.log = S
  len : S.length = s.tail
  nodup : S.Nodup
  unslotted : ∀ r, (s.push r).before → r ∉ S
  slotted : ∀ r n, (s.push r).slotNo = some n → S[n]? = some r
  inj : ∀ o o', o < s.ids.length → o' < s.ids.length → s.idOf o = s.idOf o' → o = o'
  rows1 : ∀ k o, s.rows k = some o → o < s.ids.length ∧ s.idOf o = k
  rows2 : ∀ o, o < s.ids.length → s.head / R ≤ s.idOf o → s.rows (s.idOf o) = some o
  tRow : s.tRow < s.ids.length
  hRow : s.hRow < s.ids.length
  hRowle : s.idOf s.hRow ≤ s.head / R
  pobj : ∀ r n o, (s.push r).obj = some (n, o) → o < s.ids.length ∧ s.idOf o = n / R
  lobj : ∀ o, s.loop.obj = some o → o < s.ids.length ∧ s.idOf o = s.head / R
  headle : s.head ≤ s.tail
  busy : s.loop.busy → s.head < s.tail
  early : ∀ r n, (s.push r).early → (s.push r).slotNo = some n → s.cur ≤ n
  cellnew : ∀ r o i, o < s.ids.length → i < R → S[s.idOf o * R + i]? = some r → (s.push r).early →
    (s.cell o i).mark = .new
  cellnone : ∀ o i, i < R → (o < s.ids.length → S[s.idOf o * R + i]? = none) → s.cell o i = ⟨.new, none⟩
  celllate : ∀ r n, S[n]? = some r → (s.push r).late →
    ∃ o, o < s.ids.length ∧ s.idOf o = n / R ∧ (s.cell o (n % R)).mark ≠ .new
  cellreq : ∀ o i r, o < s.ids.length → i < R → (s.cell o i).req = some r → S[s.idOf o * R + i]? = some r
  cellset : ∀ o i r, o < s.ids.length → i < R → (s.cell o i).mark = .set → S[s.idOf o * R + i]? = some r →
    (s.cell o i).req = some r ∨ s.life r ≠ .live
  markset : ∀ r n o, s.push r = .markSet n o → (s.cell o (n % R)).req = some r ∨ s.life r ≠ .live
  cellfree : ∀ o i r, o < s.ids.length → i < R → (s.cell o i).mark = .free → S[s.idOf o * R + i]? = some r →
    s.cur ≤ s.idOf o * R + i → s.life r ≠ .live
  mark : ∀ r o i, s.mark r = some (o, i) → o < s.ids.length ∧ i < R ∧ S[s.idOf o * R + i]? = some r ∧
    ¬ (s.push r).early
  markfree : ∀ r n o, s.push r = .markFree n o → s.life r = .gone
  life : ∀ r, s.life r ≠ .live → .answered r ∈ s.log
  loopreq : ∀ q, s.loop.req = some (some q) → S[s.head]? = some q
  loopnone : ∀ r, s.loop.req = some none → S[s.head]? = some r → s.life r ≠ .live
  looptake : ∀ r o, s.loop = .take o → S[s.head]? = some r →
    (s.cell o (s.head % R)).req = some r ∨ s.life r ≠ .live
  fwd : (forwarded s.log).Sublist (S.take s.fin)
  fin : ∀ n r, n < s.fin → S[n]? = some r → .forward r ∈ s.log ∨ s.life r ≠ .live
  dir : ∀ r, .direct r ∈ s.log → s.push r = .done ∧ r ∉ S
  sent : (sent s.log).Nodup
  called : ∀ r, s.push r ≠ .idle → .call r ∈ s.log
  ret : ∀ r, .ret r ∈ s.log → s.push r = .done
  done : ∀ r, s.push r = .done → r ∈ S ∨ .direct r ∈ s.log
  insig : ∀ r, s.push r = .signal → r ∈ S
  quiet : ∀ r, s.loop.idle → s.sig = false → S[s.head]? = some r → s.push r ≠ .done
  exited : s.loop = .exited → s.closing = 2 ∧ s.sig = false

theorem inv_init {R : Nat} : Inv R init [] := by
  constructor <;> simp [init, Buffer.slots, Buffer.sent, forwarded, PPc.before, PPc.slotNo, PPc.early, PPc.late,
    LPc.obj, LPc.busy, LPc.req, St.fin, PPc.obj, St.idOf]
  all_goals (intros; omega)

theorem divmod {R k i : Nat} (h : i < R) : (k * R + i) / R = k ∧ (k * R + i) % R = i := by
  have : 0 < R := by omega
  constructor
  · rw [Nat.mul_comm, Nat.mul_add_div this, Nat.div_eq_of_lt h]; simp
  · rw [Nat.mul_comm, Nat.mul_add_mod, Nat.mod_eq_of_lt h]

theorem moddiv {R n : Nat} : n / R * R + n % R = n := by
  rw [Nat.mul_comm]; exact Nat.div_add_mod n R

theorem set_same {α : Type} (f : Nat → α) (k : Nat) (v : α) : set f k v k = v := if_pos rfl
theorem set_ne {α : Type} (f : Nat → α) {k j : Nat} (v : α) (h : j ≠ k) : set f k v j = f j := if_neg h

theorem set_cases {α : Type} {P : α → Prop} (f : Nat → α) (k j : Nat) (v : α) (h : P (set f k v j)) :
    (j = k ∧ P v) ∨ (j ≠ k ∧ P (f j)) := by
  by_cases e : j = k
  · subst e; rw [set_same] at h; exact .inl ⟨rfl, h⟩
  · rw [set_ne _ _ e] at h; exact .inr ⟨e, h⟩

/-- A step of `push(r)` which changes nothing but its program counter. -/
theorem Inv.move {R : Nat} {s : St} {S : List Nat} (h : Inv R s S) {r : Nat} {p : PPc}
    (hb : p.before → r ∉ S)
    (hs : ∀ n, p.slotNo = some n → S[n]? = some r)
    (ho : ∀ n o, p.obj = some (n, o) → o < s.ids.length ∧ s.idOf o = n / R)
    (he : ∀ n, p.early → p.slotNo = some n → s.cur ≤ n)
    (he' : p.early → (s.push r).early)
    (hm : p.early → s.mark r = none ∨ (s.push r).early)
    (hl : ∀ n, p.late → S[n]? = some r → ∃ o, o < s.ids.length ∧ s.idOf o = n / R ∧ (s.cell o (n % R)).mark ≠ .new)
    (hset : ∀ n o, p ≠ .markSet n o)
    (hfree : ∀ n o, p = .markFree n o → s.life r = .gone)
    (hcall : .call r ∈ s.log) (hsig : p = .signal → r ∈ S)
    (hd : p ≠ .done) (hd' : s.push r ≠ .done) :
    Inv R { s with push := set s.push r p } S := by
  refine { h with unslotted := ?_, slotted := ?_, pobj := ?_, early := ?_, cellnew := ?_, celllate := ?_, markset := ?_, mark := ?_, markfree := ?_, dir := ?_, called := ?_, ret := ?_, done := ?_, insig := ?_, quiet := ?_ }
  · intro r' hx
    replace hx := set_cases (P := fun x : PPc => x.before) s.push r r' p hx; rcases hx with ⟨e, hx⟩ | ⟨e, hx⟩
    · subst e; exact hb hx
    · exact h.unslotted r' hx
  · intro r' n hx
    replace hx := set_cases (P := fun x : PPc => x.slotNo = some n) s.push r r' p hx; rcases hx with ⟨e, hx⟩ | ⟨e, hx⟩
    · subst e; exact hs n hx
    · exact h.slotted r' n hx
  · intro r' n o hx
    replace hx := set_cases (P := fun x : PPc => x.obj = some (n, o)) s.push r r' p hx; rcases hx with ⟨e, hx⟩ | ⟨e, hx⟩
    · subst e; exact ho n o hx
    · exact h.pobj r' n o hx
  · intro r' n hx hy
    replace hx := set_cases (P := fun x : PPc => x.early ∧ x.slotNo = some n) s.push r r' p ⟨hx, hy⟩; clear hy; rcases hx with ⟨e, hx, hy⟩ | ⟨e, hx, hy⟩
    · subst e; exact he n hx hy
    · exact h.early r' n hx hy
  · intro r' o i ho hi hS hx
    replace hx := set_cases (P := fun x : PPc => x.early) s.push r r' p hx; rcases hx with ⟨e, hx⟩ | ⟨e, hx⟩
    · subst e; exact h.cellnew r' o i ho hi hS (he' hx)
    · exact h.cellnew r' o i ho hi hS hx
  · intro r' n hS hx
    replace hx := set_cases (P := fun x : PPc => x.late) s.push r r' p hx; rcases hx with ⟨e, hx⟩ | ⟨e, hx⟩
    · subst e; exact hl n hx hS
    · exact h.celllate r' n hS hx
  · intro r' n o hx
    replace hx := set_cases (P := fun x : PPc => x = .markSet n o) s.push r r' p hx; rcases hx with ⟨e, hx⟩ | ⟨e, hx⟩
    · exact absurd hx (hset n o)
    · exact h.markset r' n o hx
  · intro r' o i hx
    obtain ⟨h1, h2, h3, h4⟩ := h.mark r' o i hx
    refine ⟨h1, h2, h3, fun hx' => ?_⟩
    replace hx' := set_cases (P := fun x : PPc => x.early) s.push r r' p hx'; rcases hx' with ⟨e, hx'⟩ | ⟨e, hx'⟩
    · subst e
      rcases hm hx' with hh | hh
      · have := hx.symm.trans hh; cases this
      · exact h4 hh
    · exact h4 hx'
  · intro r' n o hx
    replace hx := set_cases (P := fun x : PPc => x = .markFree n o) s.push r r' p hx; rcases hx with ⟨e, hx⟩ | ⟨e, hx⟩
    · subst e; exact hfree n o hx
    · exact h.markfree r' n o hx
  · intro r' hx
    obtain ⟨h1, h2⟩ := h.dir r' hx
    refine ⟨?_, h2⟩
    show set s.push r p r' = _
    rw [set_ne]; exact h1
    intro e; subst e; exact hd' h1
  · intro r' hx
    replace hx := set_cases (P := fun x : PPc => x ≠ .idle) s.push r r' p hx; rcases hx with ⟨e, hx⟩ | ⟨e, hx⟩
    · subst e; exact hcall
    · exact h.called r' hx
  · intro r' hx
    have h1 := h.ret r' hx
    show set s.push r p r' = _
    rw [set_ne]; exact h1
    intro e; subst e; exact hd' h1
  · intro r' hx
    replace hx := set_cases (P := fun x : PPc => x = .done) s.push r r' p hx; rcases hx with ⟨e, hx⟩ | ⟨e, hx⟩
    · exact absurd hx hd
    · exact h.done r' hx
  · intro r' hx
    replace hx := set_cases (P := fun x : PPc => x = .signal) s.push r r' p hx; rcases hx with ⟨e, hx⟩ | ⟨e, hx⟩
    · subst e; exact hsig hx
    · exact h.insig r' hx
  · intro r' hl' hsig hS hx
    replace hx := set_cases (P := fun x : PPc => x = .done) s.push r r' p hx; rcases hx with ⟨e, hx⟩ | ⟨e, hx⟩
    · exact hd hx
    · exact h.quiet r' hl' hsig hS hx

/-- Events which are not counted anywhere. -/
theorem Inv.note {R : Nat} {s : St} {S : List Nat} (h : Inv R s S) {r : Nat} :
    Inv R { s with log := s.log ++ [.call r] } S := by
  have h1 : Buffer.slots (s.log ++ [.call r]) = Buffer.slots s.log := by
    rw [slots_append]; exact List.append_nil _
  have h2 : forwarded (s.log ++ [.call r]) = forwarded s.log := by
    rw [forwarded_append]; exact List.append_nil _
  have h3 : Buffer.sent (s.log ++ [.call r]) = Buffer.sent s.log := by
    rw [sent_append]; exact List.append_nil _
  exact { h with
    slots := h1.trans h.slots
    life := fun r h' => List.mem_append_left _ (h.life r h')
    fwd := h2 ▸ h.fwd
    fin := fun n r h1 h2 => (h.fin n r h1 h2).imp_left (List.mem_append_left _)
    dir := fun r h' => h.dir r (by simpa using h')
    sent := h3 ▸ h.sent
    called := fun r h' => List.mem_append_left _ (h.called r h')
    ret := fun r h' => h.ret r (by simpa using h')
    done := fun r h' => (h.done r h').imp_right (List.mem_append_left _) }

/-- Clause by clause: the pushing call which moved is settled by computation, the others as before. -/
macro "pcs" r:ident h:term : tactic => `(tactic| (
  intro r'
  by_cases e : r' = $r
  · subst e; simp [set_same, PPc.before, PPc.slotNo, PPc.obj, PPc.early, PPc.late]
  · simp only [set_ne _ _ e]; exact $h r'))

theorem slots_single {log : List Ev} {e : Ev} (h : ∀ r, e ≠ .slot r) : Buffer.slots (log ++ [e]) = Buffer.slots log := by
  rw [slots_append]
  cases e <;> first | exact List.append_nil _ | exact absurd rfl (h _)

theorem forwarded_single {log : List Ev} {e : Ev} (h : ∀ r, e ≠ .forward r) :
    forwarded (log ++ [e]) = forwarded log := by
  rw [forwarded_append]
  cases e <;> first | exact List.append_nil _ | exact absurd rfl (h _)

theorem sent_single {log : List Ev} {e : Ev} (h : ∀ r, ¬ Sends r e) : Buffer.sent (log ++ [e]) = Buffer.sent log := by
  rw [sent_append]
  cases e <;> first | exact List.append_nil _ | exact absurd (.inl rfl) (h _) | exact absurd (.inr rfl) (h _)

theorem Inv.sent_cases {R : Nat} {s : St} {S : List Nat} (h : Inv R s S) {r : Nat} (hr : r ∈ Buffer.sent s.log) :
    s.push r = .done ∧ r ∉ S ∨ ∃ n, n < s.fin ∧ S[n]? = some r := by
  obtain ⟨e, he, h' | h'⟩ := mem_sent.1 hr
  · subst h'; exact .inl (h.dir r he)
  · subst h'
    have := h.fwd.subset (mem_forwarded.2 he)
    obtain ⟨n, hn⟩ := List.getElem?_of_mem this
    rw [List.getElem?_take] at hn
    split at hn
    · exact .inr ⟨n, by assumption, hn⟩
    · cases hn

theorem Inv.mem_iff {R : Nat} {s : St} {S : List Nat} (_ : Inv R s S) {r : Nat} : r ∈ S ↔ ∃ n : Nat, S[n]? = some r :=
  List.mem_iff_getElem?

/-- `push(r)` delivers `r` itself (buffer.go:55-56). -/
theorem Inv.direct {R : Nat} {s : St} {S : List Nat} (h : Inv R s S) {r : Nat} {ch : List Nat}
    (hr : s.push r = .direct) :
    Inv R { s with chan := ch, push := set s.push r .done, log := s.log ++ [.direct r, .ret r] } S := by
  have hu : r ∉ S := h.unslotted r (by rw [hr]; trivial)
  have hl : s.log ++ [.direct r, .ret r] = (s.log ++ [.direct r]) ++ [.ret r] := by simp
  exact { h with
    slots := by
      show Buffer.slots (s.log ++ [_, _]) = S
      rw [hl, slots_single (by simp), slots_single (by simp)]; exact h.slots
    unslotted := by pcs r h.unslotted
    slotted := by pcs r h.slotted
    pobj := by pcs r h.pobj
    early := by pcs r h.early
    cellnew := by pcs r h.cellnew
    celllate := by
      intro r' n hS
      by_cases e : r' = r
      · subst e; exact absurd (List.mem_of_getElem? hS) hu
      · show (set s.push r .done r').late → _
        rw [set_ne _ _ e]; exact h.celllate r' n hS
    markset := by pcs r h.markset
    mark := fun r' o i hm => by
      obtain ⟨h1, h2, h3, h4⟩ := h.mark r' o i hm
      refine ⟨h1, h2, h3, ?_⟩
      show ¬ (set s.push r .done r').early
      by_cases e : r' = r
      · subst e; exact absurd (List.mem_of_getElem? h3) hu
      · rw [set_ne _ _ e]; exact h4
    markfree := by pcs r h.markfree
    life := fun r' h' => List.mem_append_left _ (h.life r' h')
    fwd := by
      show (forwarded (s.log ++ [_, _])).Sublist _
      rw [hl, forwarded_single (by simp), forwarded_single (by simp)]; exact h.fwd
    fin := fun n r' h1 h2 => (h.fin n r' h1 h2).imp_left (List.mem_append_left _)
    dir := fun r' h' => by
      by_cases e : r' = r
      · subst e; exact ⟨set_same _ _ _, hu⟩
      · obtain ⟨h1, h2⟩ := h.dir r' (by simpa [e] using h')
        exact ⟨by rw [← h1]; exact set_ne _ _ e, h2⟩
    sent := by
      show (Buffer.sent (s.log ++ [_, _])).Nodup
      rw [hl, sent_single (by simp [Sends]), sent_append]
      show (Buffer.sent s.log ++ [r]).Nodup
      rw [List.nodup_append]
      refine ⟨h.sent, by simp, fun a ha b hb => ?_⟩
      rw [List.mem_singleton] at hb
      subst hb
      intro e; subst e
      rcases h.sent_cases ha with ⟨h1, _⟩ | ⟨n, _, h1⟩
      · rw [hr] at h1; cases h1
      · exact hu (List.mem_of_getElem? h1)
    called := by
      intro r' hx
      by_cases e : r' = r
      · subst e; exact List.mem_append_left _ (h.called r' (by rw [hr]; simp))
      · exact List.mem_append_left _ (h.called r' (by rw [← set_ne s.push .done e]; exact hx))
    ret := by
      intro r' hx
      by_cases e : r' = r
      · subst e; exact set_same _ _ _
      · show set s.push r .done r' = _
        rw [set_ne _ _ e]; exact h.ret r' (by simpa [e] using hx)
    done := by
      intro r' hx
      by_cases e : r' = r
      · subst e; exact .inr (by simp)
      · exact (h.done r' (by rw [← set_ne s.push .done e]; exact hx)).imp_right (List.mem_append_left _)
    insig := by pcs r h.insig
    quiet := by
      intro r' h1 h2 h3
      by_cases e : r' = r
      · subst e; exact absurd (List.mem_of_getElem? h3) hu
      · show set s.push r .done r' ≠ _
        rw [set_ne _ _ e]; exact h.quiet r' h1 h2 h3 }

/-- `push(r)` signals the loop and returns (buffer.go:81-84). -/
theorem Inv.signal {R : Nat} {s : St} {S : List Nat} (h : Inv R s S) {r : Nat}
    (hr : s.push r = .signal) (hc : s.closing ≠ 2) :
    Inv R { s with sig := true, push := set s.push r .done, log := s.log ++ [.ret r] } S := by
  have hS := h.insig r hr
  exact { h with
    slots := by
      show Buffer.slots (s.log ++ [_]) = S
      rw [slots_single (by simp)]; exact h.slots
    unslotted := by pcs r h.unslotted
    slotted := by pcs r h.slotted
    pobj := by pcs r h.pobj
    early := by pcs r h.early
    cellnew := by pcs r h.cellnew
    celllate := by
      intro r' n hS' hx
      by_cases e : r' = r
      · subst e; exact h.celllate r' n hS' (by rw [hr]; trivial)
      · exact h.celllate r' n hS' (by rw [← set_ne s.push .done e]; exact hx)
    markset := by pcs r h.markset
    mark := fun r' o i hm => by
      obtain ⟨h1, h2, h3, h4⟩ := h.mark r' o i hm
      refine ⟨h1, h2, h3, ?_⟩
      show ¬ (set s.push r .done r').early
      by_cases e : r' = r
      · subst e; rw [set_same]; exact fun h => h
      · rw [set_ne _ _ e]; exact h4
    markfree := by pcs r h.markfree
    life := fun r' h' => List.mem_append_left _ (h.life r' h')
    fwd := by
      show (forwarded (s.log ++ [_])).Sublist _
      rw [forwarded_single (by simp)]; exact h.fwd
    fin := fun n r' h1 h2 => (h.fin n r' h1 h2).imp_left (List.mem_append_left _)
    dir := fun r' h' => by
      obtain ⟨h1, h2⟩ := h.dir r' (by simpa using h')
      have e : r' ≠ r := by rintro rfl; exact h2 hS
      exact ⟨by rw [← h1]; exact set_ne _ _ e, h2⟩
    sent := by
      show (Buffer.sent (s.log ++ [_])).Nodup
      rw [sent_single (by simp [Sends])]; exact h.sent
    called := by
      intro r' hx
      by_cases e : r' = r
      · subst e; exact List.mem_append_left _ (h.called r' (by rw [hr]; simp))
      · exact List.mem_append_left _ (h.called r' (by rw [← set_ne s.push .done e]; exact hx))
    ret := by
      intro r' hx
      by_cases e : r' = r
      · subst e; exact set_same _ _ _
      · show set s.push r .done r' = _
        rw [set_ne _ _ e]; exact h.ret r' (by simpa [e] using hx)
    done := by
      intro r' hx
      by_cases e : r' = r
      · subst e; exact .inl hS
      · exact (h.done r' (by rw [← set_ne s.push .done e]; exact hx)).imp_right (List.mem_append_left _)
    insig := by pcs r h.insig
    quiet := by intro r' h1 h2; cases h2
    exited := fun h' => absurd (h.exited h').1 hc }

theorem setCell_same (c : Nat → Nat → Slot) (o i : Nat) (v : Slot) : setCell c o i v o i = v := if_pos ⟨rfl, rfl⟩
theorem setCell_ne (c : Nat → Nat → Slot) {o i o' i' : Nat} (v : Slot) (h : ¬ (o' = o ∧ i' = i)) :
    setCell c o i v o' i' = c o' i' := if_neg h

theorem setMark_req (c : Nat → Nat → Slot) (o i o' i' : Nat) (m : Mark) :
    (setCell c o i { c o i with mark := m } o' i').req = (c o' i').req := by
  by_cases h : o' = o ∧ i' = i
  · obtain ⟨rfl, rfl⟩ := h; rw [setCell_same]
  · rw [setCell_ne _ _ h]

theorem setReq_mark (c : Nat → Nat → Slot) (o i o' i' : Nat) (q : Option Nat) :
    (setCell c o i { c o i with req := q } o' i').mark = (c o' i').mark := by
  by_cases h : o' = o ∧ i' = i
  · obtain ⟨rfl, rfl⟩ := h; rw [setCell_same]
  · rw [setCell_ne _ _ h]

theorem setMark_mark (c : Nat → Nat → Slot) {o i o' i' : Nat} {m : Mark} {P : Mark → Prop}
    (h : P (setCell c o i { c o i with mark := m } o' i').mark) :
    (o' = o ∧ i' = i ∧ P m) ∨ (¬ (o' = o ∧ i' = i) ∧ P (c o' i').mark) := by
  by_cases h' : o' = o ∧ i' = i
  · obtain ⟨rfl, rfl⟩ := h'; rw [setCell_same] at h; exact .inl ⟨rfl, rfl, h⟩
  · rw [setCell_ne _ _ h'] at h; exact .inr ⟨h', h⟩

/-- `push(r)` writes the state of its slot (buffer.go:77, 79). -/
theorem Inv.write {R : Nat} {s : St} {S : List Nat} (h : Inv R s S) {r n o : Nat} {m : Mark} (hR : 0 < R)
    (hr : s.push r = .markSet n o ∧ m = .set ∨ s.push r = .markFree n o ∧ m = .free) :
    Inv R { s with cell := setCell s.cell o (n % R) { s.cell o (n % R) with mark := m },
                   push := set s.push r .signal } S := by
  have hS : S[n]? = some r := h.slotted r n (by rcases hr with ⟨h, -⟩ | ⟨h, -⟩ <;> rw [h] <;> rfl)
  obtain ⟨ho, hid⟩ := h.pobj r n o (by rcases hr with ⟨h, -⟩ | ⟨h, -⟩ <;> rw [h] <;> rfl)
  have hi : n % R < R := Nat.mod_lt _ hR
  have hn : s.idOf o * R + n % R = n := by rw [hid]; exact moddiv
  have hm : m ≠ .new := by rcases hr with ⟨_, h⟩ | ⟨_, h⟩ <;> subst h <;> simp
  have hd : s.push r ≠ .done := by rcases hr with ⟨h, -⟩ | ⟨h, -⟩ <;> rw [h] <;> simp
  exact { h with
    unslotted := by pcs r h.unslotted
    slotted := by pcs r h.slotted
    pobj := by pcs r h.pobj
    early := by pcs r h.early
    cellnew := by
      intro r' o' i' ho' hi' hS' hx
      by_cases e : r' = r
      · subst e; simp only [set_same] at hx; exact hx.elim
      · simp only [set_ne _ _ e] at hx
        show (setCell _ _ _ _ o' i').mark = _
        rw [setCell_ne]
        · exact h.cellnew r' o' i' ho' hi' hS' hx
        · rintro ⟨rfl, rfl⟩
          replace hS' : S[s.idOf o' * R + n % R]? = some r' := hS'
          rw [hn, hS] at hS'; cases hS'; exact e rfl
    cellnone := by
      intro o' i' hi' hx
      show setCell _ _ _ _ o' i' = _
      rw [setCell_ne]
      · exact h.cellnone o' i' hi' hx
      · rintro ⟨rfl, rfl⟩
        have hx : S[s.idOf o' * R + n % R]? = none := hx ho
        rw [hn, hS] at hx; cases hx
    celllate := by
      intro r' n' hS' hx
      by_cases e : r' = r
      · subst e
        have : n' = n := by
          have h1 := (List.getElem?_inj (List.getElem?_eq_some_iff.1 hS').1 h.nodup).1 (hS'.trans hS.symm)
          exact h1
        subst this
        exact ⟨o, ho, hid, by show (setCell _ _ _ _ _ _).mark ≠ _; rw [setCell_same]; exact hm⟩
      · simp only [set_ne _ _ e] at hx
        obtain ⟨o', h1, h2, h3⟩ := h.celllate r' n' hS' hx
        refine ⟨o', h1, h2, fun hx => ?_⟩
        rcases setMark_mark (P := fun x => x = .new) _ hx with ⟨_, _, h4⟩ | ⟨_, h4⟩
        · exact hm h4
        · exact h3 h4
    cellreq := by
      intro o' i' r' ho' hi' hx
      exact h.cellreq o' i' r' ho' hi' (by rw [← setMark_req]; exact hx)
    cellset := by
      intro o' i' r' ho' hi' hx hS'
      show (setCell _ _ _ _ o' i').req = _ ∨ _
      rw [setMark_req]
      rcases setMark_mark (P := fun x => x = .set) _ hx with ⟨h1, h2, h4⟩ | ⟨_, h4⟩
      · subst h1 h2
        rcases hr with ⟨h5, -⟩ | ⟨_, h5⟩
        · replace hS' : S[s.idOf o' * R + n % R]? = some r' := hS'
          rw [hn, hS] at hS'; cases hS'
          exact h.markset r n o' h5
        · rw [h5] at h4; cases h4
      · exact h.cellset o' i' r' ho' hi' h4 hS'
    markset := by
      intro r' n' o' hx
      show (setCell _ _ _ _ _ _).req = _ ∨ _
      rw [setMark_req]
      by_cases e : r' = r
      · subst e; simp only [set_same] at hx; cases hx
      · simp only [set_ne _ _ e] at hx; exact h.markset r' n' o' hx
    looptake := by
      intro r' o' hx hy
      show (setCell _ _ _ _ _ _).req = _ ∨ _
      rw [setMark_req]; exact h.looptake r' o' hx hy
    cellfree := by
      intro o' i' r' ho' hi' hx hS' hc
      rcases setMark_mark (P := fun x => x = .free) _ hx with ⟨h1, h2, h4⟩ | ⟨_, h4⟩
      · subst h1 h2
        rcases hr with ⟨_, h5⟩ | ⟨h5, _⟩
        · rw [h5] at h4; cases h4
        · replace hS' : S[s.idOf o' * R + n % R]? = some r' := hS'
          rw [hn, hS] at hS'; cases hS'
          show s.life r ≠ _
          rw [h.markfree r n o' h5]; simp
      · exact h.cellfree o' i' r' ho' hi' h4 hS' hc
    mark := fun r' o i hm => by
      obtain ⟨h1, h2, h3, h4⟩ := h.mark r' o i hm
      refine ⟨h1, h2, h3, ?_⟩
      show ¬ (set s.push r .signal r').early
      by_cases e : r' = r
      · subst e; rw [set_same]; exact fun h => h
      · rw [set_ne _ _ e]; exact h4
    markfree := by pcs r h.markfree
    dir := fun r' h' => by
      obtain ⟨h1, h2⟩ := h.dir r' h'
      exact ⟨by rw [← h1]; exact set_ne _ _ (by rintro rfl; exact hd h1), h2⟩
    called := by
      intro r' hx
      by_cases e : r' = r
      · subst e; exact h.called r' (by rcases hr with ⟨h, -⟩ | ⟨h, -⟩ <;> rw [h] <;> simp)
      · exact h.called r' (by rw [← set_ne s.push .signal e]; exact hx)
    ret := by
      intro r' hx
      have h1 := h.ret r' hx
      show set s.push r .signal r' = _
      rw [set_ne _ _ (by rintro rfl; exact hd h1)]; exact h1
    done := by pcs r h.done
    insig := by
      intro r' hx
      by_cases e : r' = r
      · subst e; exact List.mem_of_getElem? hS
      · exact h.insig r' (by rw [← set_ne s.push .signal e]; exact hx)
    quiet := by
      intro r' h1 h2 h3
      by_cases e : r' = r
      · subst e; simp [set_same]
      · show set s.push r .signal r' ≠ _
        rw [set_ne _ _ e]; exact h.quiet r' h1 h2 h3 }

/-- `push(r)` reserves a slot (buffer.go:61). -/
theorem Inv.reserve {R : Nat} {s : St} {S : List Nat} (h : Inv R s S) {r : Nat}
    (hr : s.push r = .reserve) :
    Inv R { s with tail := s.tail + 1, push := set s.push r (.readRow s.tail), log := s.log ++ [.slot r] }
      (S ++ [r]) := by
  have hu : r ∉ S := h.unslotted r (by rw [hr]; trivial)
  have hS : ∀ (n r' : Nat), (S ++ [r])[n]? = some r' → S[n]? = some r' ∨ n = s.tail ∧ r' = r := by
    intro n r' hx
    rw [← h.len]
    rw [List.getElem?_append] at hx
    split at hx
    · exact .inl hx
    · have : n - S.length = 0 := by
        rcases Nat.eq_zero_or_pos (n - S.length) with h | h
        · exact h
        · rw [List.getElem?_eq_none (by simp; omega)] at hx; cases hx
      rw [this] at hx
      cases hx
      exact .inr ⟨by omega, rfl⟩
  have hS' : ∀ (n r' : Nat), S[n]? = some r' → (S ++ [r])[n]? = some r' := by
    intro n r' hx
    rw [List.getElem?_append_left (List.getElem?_eq_some_iff.1 hx).1]; exact hx
  have hd : s.push r ≠ .done := by rw [hr]; simp
  have ne : ∀ (n r' : Nat), S[n]? = some r' → r' ≠ r := by
    rintro n r' hx rfl; exact hu (List.mem_of_getElem? hx)
  have hcur : s.cur ≤ s.tail := by
    have h1 := h.headle
    have h2 := h.busy
    unfold St.cur
    cases hl : s.loop <;> simp [LPc.past] <;> simp [hl, LPc.busy] at h2 <;> omega
  have hfin : s.fin ≤ s.tail := by
    have h1 := h.headle
    have h2 := h.busy
    unfold St.fin
    cases hl : s.loop <;> simp <;> simp [hl, LPc.busy] at h2 <;> omega
  exact { h with
    slots := by
      show Buffer.slots (s.log ++ [_]) = _
      rw [slots_append, h.slots]; rfl
    len := by simp [h.len]
    nodup := by
      rw [List.nodup_append]
      exact ⟨h.nodup, by simp, fun a ha b hb e => hu (by rw [List.mem_singleton] at hb; rwa [← hb, ← e])⟩
    unslotted := by
      intro r' hx
      by_cases e : r' = r
      · subst e; simp only [set_same] at hx; exact hx.elim
      · simp only [set_ne _ _ e] at hx
        simp [e, h.unslotted r' hx]
    slotted := by
      intro r' n hx
      by_cases e : r' = r
      · subst e
        simp only [set_same] at hx
        cases hx
        rw [← h.len, List.getElem?_append_right (Nat.le_refl _)]
        simp
      · simp only [set_ne _ _ e] at hx
        exact hS' _ _ (h.slotted r' n hx)
    pobj := by pcs r h.pobj
    headle := Nat.le_succ_of_le h.headle
    busy := fun hx => Nat.lt_succ_of_lt (h.busy hx)
    early := by
      intro r' n hx hy
      by_cases e : r' = r
      · subst e
        simp only [set_same] at hy
        cases hy; exact hcur
      · simp only [set_ne _ _ e] at hx hy
        exact h.early r' n hx hy
    cellnew := by
      intro r' o i ho hi hx hy
      by_cases e : r' = r
      · subst e
        rcases hS _ _ hx with hx | ⟨hx, -⟩
        · exact absurd rfl (ne _ _ hx)
        · show (s.cell o i).mark = _
          rw [h.cellnone o i hi]
          intro _
          apply List.getElem?_eq_none
          rw [h.len]; exact Nat.le_of_eq hx.symm
      · simp only [set_ne _ _ e] at hy
        rcases hS _ _ hx with hx | ⟨-, hx⟩
        · exact h.cellnew r' o i ho hi hx hy
        · exact absurd hx e
    cellnone := by
      intro o i hi hx
      refine h.cellnone o i hi fun ho => ?_
      have hx := hx ho
      rw [List.getElem?_eq_none_iff] at hx ⊢
      simp only [List.length_append, List.length_cons] at hx
      exact Nat.le_trans (Nat.le_add_right _ _) hx
    celllate := by
      intro r' n hx hy
      by_cases e : r' = r
      · subst e; simp only [set_same] at hy; exact hy.elim
      · simp only [set_ne _ _ e] at hy
        rcases hS _ _ hx with hx | ⟨-, hx⟩
        · exact h.celllate r' n hx hy
        · exact absurd hx e
    cellreq := fun o i r' ho hi hx => hS' _ _ (h.cellreq o i r' ho hi hx)
    cellset := by
      intro o i r' ho hi hx hy
      rcases hS _ _ hy with hy | ⟨hy, -⟩
      · exact h.cellset o i r' ho hi hx hy
      · rw [show (s.cell o i) = _ from h.cellnone o i hi fun _ => List.getElem?_eq_none (by rw [h.len]; exact Nat.le_of_eq hy.symm)] at hx
        cases hx
    markset := by pcs r h.markset
    cellfree := by
      intro o i r' ho hi hx hy hc
      rcases hS _ _ hy with hy | ⟨hy, -⟩
      · exact h.cellfree o i r' ho hi hx hy hc
      · rw [show (s.cell o i) = _ from h.cellnone o i hi fun _ => List.getElem?_eq_none (by rw [h.len]; exact Nat.le_of_eq hy.symm)] at hx
        cases hx
    mark := fun r' o i hm => by
      obtain ⟨h1, h2, h3, h4⟩ := h.mark r' o i hm
      refine ⟨h1, h2, hS' _ _ h3, ?_⟩
      show ¬ (set s.push r _ r').early
      rw [set_ne _ _ (ne _ _ h3)]; exact h4
    markfree := by pcs r h.markfree
    life := fun r' h' => List.mem_append_left _ (h.life r' h')
    loopreq := fun q hq => hS' _ _ (h.loopreq q hq)
    loopnone := by
      intro r' hx hy
      rcases hS _ _ hy with hy | ⟨hy, -⟩
      · exact h.loopnone r' hx hy
      · exfalso
        have := h.busy (by revert hx; show s.loop.req = _ → _; cases s.loop <;> simp [LPc.req, LPc.busy])
        have hy : s.head = s.tail := hy
        omega
    looptake := by
      intro r' o hx hy
      rcases hS _ _ hy with hy | ⟨hy, -⟩
      · exact h.looptake r' o hx hy
      · exfalso
        have := h.busy (by rw [show s.loop = _ from hx]; trivial)
        have hy : s.head = s.tail := hy
        omega
    fwd := by
      show (forwarded (s.log ++ [_])).Sublist ((S ++ [r]).take s.fin)
      rw [forwarded_single (by simp), List.take_append_of_le_length (by rw [h.len]; exact hfin)]
      exact h.fwd
    fin := by
      intro n r' h1 h2
      rcases hS _ _ h2 with h2 | ⟨h2, -⟩
      · exact (h.fin n r' h1 h2).imp_left (List.mem_append_left _)
      · have h1 : n < s.fin := h1
        omega
    dir := fun r' h' => by
      obtain ⟨h1, h2⟩ := h.dir r' (by simpa using h')
      have e : r' ≠ r := by rintro rfl; exact hd h1
      exact ⟨by rw [← h1]; exact set_ne _ _ e, by simp [h2, e]⟩
    sent := by
      show (Buffer.sent (s.log ++ [_])).Nodup
      rw [sent_single (by simp [Sends])]; exact h.sent
    called := by
      intro r' hx
      by_cases e : r' = r
      · subst e; exact List.mem_append_left _ (h.called r' (by rw [hr]; simp))
      · exact List.mem_append_left _ (h.called r' (by rw [← set_ne s.push _ e]; exact hx))
    ret := by
      intro r' hx
      have h1 := h.ret r' (by simpa using hx)
      show set s.push r _ r' = _
      rw [set_ne _ _ (by rintro rfl; exact hd h1)]; exact h1
    done := by
      intro r' hx
      by_cases e : r' = r
      · subst e; simp only [set_same] at hx; cases hx
      · rcases h.done r' (by rw [← set_ne s.push _ e]; exact hx) with h' | h'
        · exact .inl (List.mem_append_left _ h')
        · exact .inr (List.mem_append_left _ h')
    insig := by
      intro r' hx
      by_cases e : r' = r
      · subst e; simp only [set_same] at hx; cases hx
      · exact List.mem_append_left _ (h.insig r' (by rw [← set_ne s.push _ e]; exact hx))
    quiet := by
      intro r' h1 h2 h3
      by_cases e : r' = r
      · subst e; simp [set_same]
      · show set s.push r _ r' ≠ _
        rw [set_ne _ _ e]
        rcases hS _ _ h3 with h3 | ⟨-, h3⟩
        · exact h.quiet r' h1 h2 h3
        · exact absurd h3 e }

/-- A new row (buffer.go:68-71). -/
theorem Inv.newRow {R : Nat} {s : St} {S : List Nat} (h : Inv R s S) {k : Nat} (hk : s.rows k = none)
    (hh : s.head / R ≤ k) :
    Inv R { s with ids := s.ids ++ [k], rows := set s.rows k (some s.ids.length), tRow := s.ids.length } S := by
  let s' : St := { s with ids := s.ids ++ [k], rows := set s.rows k (some s.ids.length), tRow := s.ids.length }
  have old : ∀ o, o < s.ids.length → s'.idOf o = s.idOf o := fun o ho => by
    simp [St.idOf, s', List.getD, List.getElem?_append_left ho]
  have new : s'.idOf s.ids.length = k := by simp [St.idOf, s', List.getD]
  have len : ∀ o, o < (s.ids ++ [k]).length → o < s.ids.length ∨ o = s.ids.length := by
    intro o ho; simp at ho; omega
  have up : ∀ o, o < s.ids.length → o < (s.ids ++ [k]).length := by intro o ho; simp; omega
  have nok : ∀ o, o < s.ids.length → s.idOf o ≠ k := by
    intro o ho e
    have := h.rows2 o ho (by rw [e]; exact hh)
    rw [e, hk] at this; cases this
  have fresh : ∀ i, i < R → s.cell s.ids.length i = ⟨.new, none⟩ := fun i hi =>
    h.cellnone _ i hi fun h => absurd h (Nat.lt_irrefl _)
  exact { h with
    inj := by
      intro o o' ho ho' e
      replace e : s'.idOf o = s'.idOf o' := e
      rcases len o ho with ho | ho <;> rcases len o' ho' with ho' | ho'
      · rw [old o ho, old o' ho'] at e; exact h.inj o o' ho ho' e
      · subst ho'; rw [old o ho, new] at e; exact absurd e (nok o ho)
      · subst ho; rw [old o' ho', new] at e; exact absurd e.symm (nok o' ho')
      · rw [ho, ho']
    rows1 := by
      intro k' o ho
      show o < (s.ids ++ [k]).length ∧ s'.idOf o = k'
      by_cases e : k' = k
      · subst e
        simp only [set_same] at ho
        cases ho
        exact ⟨by simp, new⟩
      · simp only [set_ne _ _ e] at ho
        obtain ⟨h1, h2⟩ := h.rows1 k' o ho
        exact ⟨up o h1, by rw [old o h1]; exact h2⟩
    rows2 := by
      intro o ho hx
      show set s.rows k _ (s'.idOf o) = _
      replace hx : s.head / R ≤ s'.idOf o := hx
      rcases len o ho with ho | ho
      · rw [old o ho] at hx ⊢
        rw [set_ne _ _ (nok o ho)]
        exact h.rows2 o ho hx
      · subst ho; rw [new, set_same]
    tRow := by show s.ids.length < (s.ids ++ [k]).length; simp
    hRow := up _ h.hRow
    hRowle := by
      show s'.idOf s.hRow ≤ _
      rw [old _ h.hRow]; exact h.hRowle
    pobj := by
      intro r n o hx
      obtain ⟨h1, h2⟩ := h.pobj r n o hx
      exact ⟨up o h1, by rw [← h2]; exact old o h1⟩
    lobj := by
      intro o hx
      obtain ⟨h1, h2⟩ := h.lobj o hx
      exact ⟨up o h1, by rw [← h2]; exact old o h1⟩
    cellnew := by
      intro r o i ho hi hx
      replace hx : S[s'.idOf o * R + i]? = some r := hx
      rcases len o ho with ho | ho
      · rw [old o ho] at hx; exact h.cellnew r o i ho hi hx
      · subst ho; intro _; show (s.cell _ i).mark = _; rw [fresh i hi]
    cellnone := by
      intro o i hi hx
      refine h.cellnone o i hi fun ho => ?_
      rw [← old o ho]; exact hx (up o ho)
    celllate := by
      intro r n h1 h2
      obtain ⟨o, h1, h2, h3⟩ := h.celllate r n h1 h2
      exact ⟨o, up o h1, by rw [← h2]; exact old o h1, h3⟩
    cellreq := by
      intro o i r ho hi hx
      show S[s'.idOf o * R + i]? = some r
      replace hx : (s.cell o i).req = some r := hx
      rcases len o ho with ho | ho
      · rw [old o ho]; exact h.cellreq o i r ho hi hx
      · subst ho; rw [fresh i hi] at hx; cases hx
    cellset := by
      intro o i r ho hi hx hy
      replace hx : (s.cell o i).mark = .set := hx
      replace hy : S[s'.idOf o * R + i]? = some r := hy
      rcases len o ho with ho | ho
      · rw [old o ho] at hy; exact h.cellset o i r ho hi hx hy
      · subst ho; rw [fresh i hi] at hx; cases hx
    cellfree := by
      intro o i r ho hi hx hy hc
      replace hx : (s.cell o i).mark = .free := hx
      replace hy : S[s'.idOf o * R + i]? = some r := hy
      replace hc : s.cur ≤ s'.idOf o * R + i := hc
      rcases len o ho with ho | ho
      · rw [old o ho] at hy hc; exact h.cellfree o i r ho hi hx hy hc
      · subst ho; rw [fresh i hi] at hx; cases hx
    mark := by
      intro r o i hx
      obtain ⟨h1, h2, h3, h4⟩ := h.mark r o i hx
      exact ⟨up o h1, h2, by show S[s'.idOf o * R + i]? = _; rw [old o h1]; exact h3, h4⟩ }

/-- `ChainBookmark` on a pending request (buffer.go:76). -/
theorem Inv.chain {R : Nat} {s : St} {S : List Nat} (h : Inv R s S) {r n o : Nat} (hR : 0 < R)
    (hr : s.push r = .chain n o) :
    Inv R { s with mark := set s.mark r (some (o, n % R)),
                   cell := setCell s.cell o (n % R) { s.cell o (n % R) with req := some r },
                   push := set s.push r (.markSet n o) } S := by
  have hS : S[n]? = some r := h.slotted r n (by rw [hr]; rfl)
  obtain ⟨ho, hid⟩ := h.pobj r n o (by rw [hr]; rfl)
  have hi : n % R < R := Nat.mod_lt _ hR
  have hn : s.idOf o * R + n % R = n := by rw [hid]; exact moddiv
  have hd : s.push r ≠ .done := by rw [hr]; simp
  have hS2 : S[s.idOf o * R + n % R]? = some r := by rw [hn]; exact hS
  have hnew := h.cellnew r o (n % R) ho hi (by rw [hn]; exact hS) (by rw [hr]; trivial)
  exact { h with
    unslotted := by pcs r h.unslotted
    slotted := by
      intro r' n' hx
      by_cases e : r' = r
      · subst e; simp only [set_same] at hx; cases hx; exact hS
      · simp only [set_ne _ _ e] at hx; exact h.slotted r' n' hx
    pobj := by
      intro r' n' o' hx
      by_cases e : r' = r
      · subst e; simp only [set_same] at hx; cases hx; exact ⟨ho, hid⟩
      · simp only [set_ne _ _ e] at hx; exact h.pobj r' n' o' hx
    early := by pcs r h.early
    cellnew := by
      intro r' o' i' ho' hi' hS' hx
      by_cases e : r' = r
      · subst e; simp only [set_same] at hx; exact hx.elim
      · simp only [set_ne _ _ e] at hx
        show (setCell _ _ _ _ o' i').mark = _
        rw [setReq_mark]
        exact h.cellnew r' o' i' ho' hi' hS' hx
    cellnone := by
      intro o' i' hi' hx
      show setCell _ _ _ _ o' i' = _
      rw [setCell_ne]
      · exact h.cellnone o' i' hi' hx
      · rintro ⟨rfl, rfl⟩
        have hx : S[s.idOf o' * R + n % R]? = none := hx ho
        rw [hn, hS] at hx; cases hx
    celllate := by
      intro r' n' hS' hx
      by_cases e : r' = r
      · subst e; simp only [set_same] at hx; exact hx.elim
      · simp only [set_ne _ _ e] at hx
        obtain ⟨o', h1, h2, h3⟩ := h.celllate r' n' hS' hx
        refine ⟨o', h1, h2, ?_⟩
        show (setCell _ _ _ _ _ _).mark ≠ _
        rw [setReq_mark]; exact h3
    cellreq := by
      intro o' i' r' ho' hi' hx
      replace hx : (setCell _ _ _ _ o' i').req = _ := hx
      by_cases e : o' = o ∧ i' = n % R
      · obtain ⟨rfl, rfl⟩ := e
        rw [setCell_same] at hx
        cases hx
        exact hS2
      · rw [setCell_ne _ _ e] at hx
        exact h.cellreq o' i' r' ho' hi' hx
    cellset := by
      intro o' i' r' ho' hi' hx hS'
      replace hx : (setCell _ _ _ _ o' i').mark = _ := hx
      rw [setReq_mark] at hx
      show (setCell _ _ _ _ o' i').req = _ ∨ _
      by_cases e : o' = o ∧ i' = n % R
      · obtain ⟨rfl, rfl⟩ := e
        rw [hnew] at hx; cases hx
      · rw [setCell_ne _ _ e]
        exact h.cellset o' i' r' ho' hi' hx hS'
    markset := by
      intro r' n' o' hx
      show (setCell _ _ _ _ _ _).req = _ ∨ _
      by_cases e : r' = r
      · subst e; simp only [set_same] at hx; cases hx; rw [setCell_same]; exact .inl rfl
      · simp only [set_ne _ _ e] at hx
        rw [setCell_ne]
        · exact h.markset r' n' o' hx
        · rintro ⟨rfl, h1⟩
          obtain ⟨-, h2⟩ := h.pobj r' n' o' (by rw [hx]; rfl)
          have h3 := h.slotted r' n' (by rw [hx]; rfl)
          have : n' = n := by
            rw [← moddiv (n := n') (R := R), ← hn, ← h2, h1]
          rw [this, hS] at h3; cases h3; exact e rfl
    looptake := by
      intro r' o' hx hy
      replace hx : s.loop = .take o' := hx
      show (setCell _ _ _ _ o' (s.head % R)).req = _ ∨ _
      rw [setCell_ne]
      · exact h.looptake r' o' hx hy
      · rintro ⟨rfl, h1⟩
        obtain ⟨-, h2⟩ := h.lobj o' (by rw [hx]; rfl)
        have : s.head = n := by
          rw [← moddiv (n := s.head) (R := R), ← hn, ← h2, h1]
        have h3 := h.early r n (by rw [hr]; trivial) (by rw [hr]; rfl)
        unfold St.cur at h3
        rw [hx, show (LPc.take o').past = true from rfl, if_pos rfl] at h3
        omega
    cellfree := by
      intro o' i' r' ho' hi' hx
      exact h.cellfree o' i' r' ho' hi' (by rw [← setReq_mark]; exact hx)
    mark := by
      intro r' o' i' hx
      show _ ∧ _ ∧ _ ∧ ¬ (set s.push r _ r').early
      by_cases e : r' = r
      · subst e; simp only [set_same] at hx; cases hx
        exact ⟨ho, hi, hS2, by rw [set_same]; exact fun h => h⟩
      · simp only [set_ne _ _ e] at hx ⊢; exact h.mark r' o' i' hx
    markfree := by pcs r h.markfree
    dir := fun r' h' => by
      obtain ⟨h1, h2⟩ := h.dir r' h'
      exact ⟨by rw [← h1]; exact set_ne _ _ (by rintro rfl; exact hd h1), h2⟩
    called := by
      intro r' hx
      by_cases e : r' = r
      · subst e; exact h.called r' (by rw [hr]; simp)
      · exact h.called r' (by rw [← set_ne s.push _ e]; exact hx)
    ret := by
      intro r' hx
      have h1 := h.ret r' hx
      show set s.push r _ r' = _
      rw [set_ne _ _ (by rintro rfl; exact hd h1)]; exact h1
    done := by pcs r h.done
    insig := by pcs r h.insig
    quiet := by
      intro r' h1 h2 h3
      by_cases e : r' = r
      · subst e; simp [set_same]
      · show set s.push r _ r' ≠ _
        rw [set_ne _ _ e]; exact h.quiet r' h1 h2 h3 }

theorem inv_push {R cap : Nat} (hR : 0 < R) {s s' : St} {S : List Nat} (h : Inv R s S) {r : Nat}
    (hs : stepPush R cap s r = some s') : ∃ S', Inv R s' S' := by
  unfold stepPush at hs
  split at hs <;> rename_i hr
  · cases hs
    exact ⟨S, h.note.move (r := r) (p := .start) (fun _ => h.unslotted r (by rw [hr]; trivial)) (by simp [PPc.slotNo])
      (by simp [PPc.obj]) (by simp [PPc.early]) (by simp [PPc.early]) (by simp [PPc.early]) (by simp [PPc.late])
      (by simp) (by simp) (by simp) (by simp) (by simp) (by rw [hr]; simp)⟩
  · cases hs
    exact ⟨S, h.move (fun _ => h.unslotted r (by rw [hr]; trivial)) (by simp [PPc.slotNo])
      (by simp [PPc.obj]) (by simp [PPc.early]) (by simp [PPc.early]) (by simp [PPc.early]) (by simp [PPc.late])
      (by simp) (by simp) (h.called r (by rw [hr]; simp)) (by simp) (by simp) (by rw [hr]; simp)⟩
  · cases hs
    have : ∀ p : PPc, p = .direct ∨ p = .reserve → Inv R { s with push := set s.push r p } S := by
      rintro p (rfl | rfl)
      all_goals
        exact h.move (fun _ => h.unslotted r (by rw [hr]; trivial)) (by simp [PPc.slotNo])
          (by simp [PPc.obj]) (by simp [PPc.early]) (by simp [PPc.early]) (by simp [PPc.early]) (by simp [PPc.late])
          (by simp) (by simp) (h.called r (by rw [hr]; simp)) (by simp) (by simp) (by rw [hr]; simp)
    exact ⟨S, this _ (by split <;> simp)⟩
  · cases hs
    have : ∀ p : PPc, p = .direct ∨ p = .reserve → Inv R { s with push := set s.push r p } S := by
      rintro p (rfl | rfl)
      all_goals
        exact h.move (fun _ => h.unslotted r (by rw [hr]; trivial)) (by simp [PPc.slotNo])
          (by simp [PPc.obj]) (by simp [PPc.early]) (by simp [PPc.early]) (by simp [PPc.early]) (by simp [PPc.late])
          (by simp) (by simp) (h.called r (by rw [hr]; simp)) (by simp) (by simp) (by rw [hr]; simp)
    exact ⟨S, this _ (by split <;> simp)⟩
  · split at hs
    · cases hs; exact ⟨S, h.direct hr⟩
    · cases hs
      exact ⟨S, h.move (fun _ => h.unslotted r (by rw [hr]; trivial)) (by simp [PPc.slotNo])
        (by simp [PPc.obj]) (by simp [PPc.early]) (by simp [PPc.early]) (by simp [PPc.early]) (by simp [PPc.late])
        (by simp) (by simp) (h.called r (by rw [hr]; simp)) (by simp) (by simp) (by rw [hr]; simp)⟩
  · cases hs; exact ⟨_, h.reserve hr⟩
  · rename_i n
    have hS := h.slotted r n (by rw [hr]; rfl)
    have hc := h.early r n (by rw [hr]; trivial) (by rw [hr]; rfl)
    cases hs
    have : ∀ p : PPc, (p = .lookup n ∨ p = .chain n s.tRow ∧ s.idOf s.tRow = n / R) →
        Inv R { s with push := set s.push r p } S := by
      rintro p hp
      refine h.move ?_ ?_ ?_ ?_ ?_ ?_ ?_ ?_ ?_ (h.called r (by rw [hr]; simp)) ?_ ?_ (by rw [hr]; simp) <;>
        rcases hp with rfl | ⟨rfl, hp⟩ <;>
        simp_all [PPc.before, PPc.slotNo, PPc.obj, PPc.early, PPc.late, h.tRow]
    refine ⟨S, this _ ?_⟩
    split
    · exact .inr ⟨rfl, by assumption⟩
    · exact .inl rfl
  · rename_i n
    have hS := h.slotted r n (by rw [hr]; rfl)
    have hc := h.early r n (by rw [hr]; trivial) (by rw [hr]; rfl)
    have hh : s.head / R ≤ n / R := Nat.div_le_div_right (by unfold St.cur at hc; omega)
    split at hs
    · rename_i o ho
      cases hs
      obtain ⟨h1, h2⟩ := h.rows1 _ _ ho
      refine ⟨S, h.move ?_ ?_ ?_ ?_ ?_ ?_ ?_ ?_ ?_ (h.called r (by rw [hr]; simp)) ?_ ?_ (by rw [hr]; simp)⟩ <;>
        simp_all [PPc.before, PPc.slotNo, PPc.obj, PPc.early, PPc.late]
    · rename_i hk
      cases hs
      have h' := h.newRow hk hh
      obtain ⟨h1, h2⟩ := h'.rows1 (n / R) s.ids.length (set_same _ _ _)
      refine ⟨S, h'.move ?_ ?_ ?_ ?_ ?_ ?_ ?_ ?_ ?_ (h.called r (by rw [hr]; simp)) ?_ ?_ (by rw [hr]; simp)⟩
      · simp [PPc.before]
      · intro n' h; cases h; exact hS
      · intro n' o' h; cases h; exact ⟨h1, h2⟩
      · intro n' _ h; cases h; exact hc
      · intro _; show (s.push r).early; rw [hr]; trivial
      · intro _; right; show (s.push r).early; rw [hr]; trivial
      all_goals simp [PPc.late]
  · rename_i n o
    have hS := h.slotted r n (by rw [hr]; rfl)
    have hc := h.early r n (by rw [hr]; trivial) (by rw [hr]; rfl)
    have hp := h.pobj r n o (by rw [hr]; rfl)
    split at hs
    · cases hs; exact ⟨S, h.chain hR hr⟩
    · cases hs
      refine ⟨S, h.move ?_ ?_ ?_ ?_ ?_ ?_ ?_ ?_ ?_ (h.called r (by rw [hr]; simp)) ?_ ?_ (by rw [hr]; simp)⟩ <;>
        simp_all [PPc.before, PPc.slotNo, PPc.obj, PPc.early, PPc.late]
    · cases hs
  · cases hs; exact ⟨S, h.write hR (.inl ⟨hr, rfl⟩)⟩
  · cases hs; exact ⟨S, h.write hR (.inr ⟨hr, rfl⟩)⟩
  · split at hs
    · cases hs
      refine ⟨S, h.move ?_ ?_ ?_ ?_ ?_ ?_ ?_ ?_ ?_ (h.called r (by rw [hr]; simp)) ?_ ?_ (by rw [hr]; simp)⟩
      case refine_7 => exact fun n _ hS => h.celllate r n hS (by rw [hr]; trivial)
      all_goals simp [PPc.before, PPc.slotNo, PPc.obj, PPc.early]
    · cases hs; exact ⟨S, h.signal hr (by assumption)⟩
  · cases hs
  · cases hs

/-- A step of `loop` which only changes its program counter and the signal. -/
theorem Inv.loopMove {R : Nat} {s : St} {S : List Nat} (h : Inv R s S) {l : LPc} {sg : Bool}
    (hobj : ∀ o, l.obj = some o → o < s.ids.length ∧ s.idOf o = s.head / R)
    (hbusy : l.busy → s.head < s.tail)
    (hcur : s.loop.past = true → l.past = true)
    (hpast : l.past = true → s.loop.past = true ∨ ∀ r n, (s.push r).early → (s.push r).slotNo = some n → n ≠ s.head)
    (hreq : ∀ q, l.req = some (some q) → S[s.head]? = some q)
    (hnone : ∀ r, l.req = some none → S[s.head]? = some r → s.life r ≠ .live)
    (htake : ∀ r o, l = .take o → S[s.head]? = some r → (s.cell o (s.head % R)).req = some r ∨ s.life r ≠ .live)
    (hninc : s.loop ≠ .inc)
    (hinc : l = .inc → ∀ r, S[s.head]? = some r → .forward r ∈ s.log ∨ s.life r ≠ .live)
    (hquiet : l.idle → sg = false → ∀ r, S[s.head]? = some r → s.push r ≠ .done)
    (hexit : l = .exited → s.closing = 2 ∧ sg = false) :
    Inv R { s with loop := l, sig := sg } S := by
  have hcur' : s.cur ≤ s.head + if l.past then 1 else 0 := by
    unfold St.cur
    by_cases e : s.loop.past = true
    · rw [hcur e, e]; exact Nat.le_refl _
    · rw [if_neg e]; omega
  have hfin : s.fin = s.head := by unfold St.fin; rw [if_neg hninc]; rfl
  exact { h with
    lobj := hobj
    busy := hbusy
    early := by
      intro r n h1 h2
      have h3 := h.early r n h1 h2
      show s.head + (if l.past then 1 else 0) ≤ n
      split
      · rename_i hp
        unfold St.cur at h3
        rcases hpast hp with h4 | h4
        · rw [h4] at h3; exact h3
        · have := h4 r n h1 h2; omega
      · unfold St.cur at h3; omega
    cellfree := fun o i r ho hi h1 h2 h3 => h.cellfree o i r ho hi h1 h2 (Nat.le_trans hcur' h3)
    loopreq := hreq
    loopnone := hnone
    looptake := htake
    fwd := by
      show (forwarded s.log).Sublist (S.take (s.head + _))
      have := h.fwd
      rw [hfin] at this
      exact this.trans (List.take_sublist_take_left (Nat.le_add_right _ _))
    fin := by
      intro n r hn hS
      replace hn : n < s.head + (if l = .inc then 1 else 0) := hn
      by_cases e : n < s.head
      · exact h.fin n r (by rw [hfin]; exact e) hS
      · by_cases hl : l = .inc
        · rw [if_pos hl] at hn
          have : n = s.head := by omega
          subst this
          exact hinc hl r hS
        · rw [if_neg hl] at hn; omega
    quiet := fun r h1 h2 h3 => hquiet h1 h2 r h3
    exited := hexit }

/-- An old row is dropped from the map (buffer.go:105). -/
theorem Inv.dropRow {R : Nat} {s : St} {S : List Nat} (h : Inv R s S) (hk : s.idOf s.hRow ≠ s.head / R) :
    Inv R { s with rows := set s.rows (s.head / R - 1) none } S := by
  have hpos : s.head / R ≠ 0 := by
    intro e
    have := h.hRowle
    omega
  exact { h with
    rows1 := by
      intro k o hx
      by_cases e : k = s.head / R - 1
      · subst e; simp only [set_same] at hx; cases hx
      · simp only [set_ne _ _ e] at hx; exact h.rows1 k o hx
    rows2 := by
      intro o ho hx
      replace hx : s.head / R ≤ s.idOf o := hx
      show set s.rows _ _ (s.idOf o) = _
      rw [set_ne _ _ (by generalize s.head / R = k at *; omega)]
      exact h.rows2 o ho hx }

/-- `b.hRow = row` (buffer.go:110). -/
theorem Inv.setHRow {R : Nat} {s : St} {S : List Nat} (h : Inv R s S) {o : Nat} (ho : o < s.ids.length)
    (hid : s.idOf o = s.head / R) : Inv R { s with hRow := o } S :=
  { h with hRow := ho, hRowle := Nat.le_of_eq hid }

/-- `loop` writes bsFree (buffer.go:118). -/
theorem Inv.loopFree {R : Nat} {s : St} {S : List Nat} (h : Inv R s S) {o : Nat} {q : Option Nat} (hR : 0 < R)
    (hl : s.loop = .free o q) :
    Inv R { s with cell := setCell s.cell o (s.head % R) { s.cell o (s.head % R) with mark := .free } } S := by
  obtain ⟨ho, hid⟩ := h.lobj o (by rw [hl]; rfl)
  have hi : s.head % R < R := Nat.mod_lt _ hR
  have hn : s.idOf o * R + s.head % R = s.head := by rw [hid]; exact moddiv
  have hlt := h.busy (by rw [hl]; trivial)
  have hcur : s.cur = s.head + 1 := by unfold St.cur; rw [hl]; rfl
  obtain ⟨r₀, hS⟩ : ∃ r, S[s.head]? = some r :=
    ⟨_, List.getElem?_eq_getElem (by rw [h.len]; exact hlt)⟩
  exact { h with
    cellnew := by
      intro r' o' i' ho' hi' hS' hx
      show (setCell _ _ _ _ o' i').mark = _
      rw [setCell_ne]
      · exact h.cellnew r' o' i' ho' hi' hS' hx
      · rintro ⟨rfl, rfl⟩
        replace hS' : S[s.idOf o' * R + s.head % R]? = some r' := hS'
        rw [hn] at hS'
        have hx : (s.push r').early := hx
        have : ∃ n, (s.push r').slotNo = some n := by
          revert hx; cases s.push r' <;> simp [PPc.early, PPc.slotNo]
        obtain ⟨n, h1⟩ := this
        have h2 := h.early r' n hx h1
        have h3 := h.slotted r' n h1
        have h4 := (List.getElem?_inj (List.getElem?_eq_some_iff.1 h3).1 h.nodup).1 (h3.trans hS'.symm)
        omega
    cellnone := by
      intro o' i' hi' hx
      show setCell _ _ _ _ o' i' = _
      rw [setCell_ne]
      · exact h.cellnone o' i' hi' hx
      · rintro ⟨rfl, rfl⟩
        have hx : S[s.idOf o' * R + s.head % R]? = none := hx ho
        rw [hn, hS] at hx; cases hx
    celllate := by
      intro r' n' hS' hx
      obtain ⟨o', h1, h2, h3⟩ := h.celllate r' n' hS' hx
      refine ⟨o', h1, h2, fun hx => ?_⟩
      rcases setMark_mark (P := fun x => x = .new) _ hx with ⟨_, _, h4⟩ | ⟨_, h4⟩
      · cases h4
      · exact h3 h4
    cellreq := by
      intro o' i' r' ho' hi' hx
      exact h.cellreq o' i' r' ho' hi' (by rw [← setMark_req]; exact hx)
    cellset := by
      intro o' i' r' ho' hi' hx hS'
      show (setCell _ _ _ _ o' i').req = _ ∨ _
      rw [setMark_req]
      rcases setMark_mark (P := fun x => x = .set) _ hx with ⟨h1, h2, h4⟩ | ⟨_, h4⟩
      · cases h4
      · exact h.cellset o' i' r' ho' hi' h4 hS'
    markset := by
      intro r' n' o' hx
      show (setCell _ _ _ _ _ _).req = _ ∨ _
      rw [setMark_req]
      exact h.markset r' n' o' hx
    looptake := by
      intro r' o' hx hy
      rw [show s.loop = _ from hl] at hx; cases hx
    cellfree := by
      intro o' i' r' ho' hi' hx hS' hc
      rcases setMark_mark (P := fun x => x = .free) _ hx with ⟨h1, h2, h4⟩ | ⟨_, h4⟩
      · subst h1 h2
        replace hc : s.cur ≤ s.idOf o' * R + s.head % R := hc
        omega
      · exact h.cellfree o' i' r' ho' hi' h4 hS' hc }

/-- `loop` delivers a request (buffer.go:120). -/
theorem Inv.forward {R : Nat} {s : St} {S : List Nat} (h : Inv R s S) {q : Nat} {ch : List Nat}
    (hl : s.loop = .send q) :
    Inv R { s with chan := ch, loop := .inc, log := s.log ++ [.forward q] } S := by
  have hS := h.loopreq q (by rw [hl]; rfl)
  have hq : q ∈ S := List.mem_of_getElem? hS
  have hfin : s.fin = s.head := by unfold St.fin; rw [hl]; simp
  have hlt := h.busy (by rw [hl]; trivial)
  have hcur : s.cur = s.head + 1 := by unfold St.cur; rw [hl]; rfl
  exact { h with
    slots := by
      show Buffer.slots (s.log ++ [_]) = S
      rw [slots_single (by simp)]; exact h.slots
    lobj := by simp [LPc.obj]
    busy := fun _ => hlt
    early := fun r n h1 h2 => by
      have := h.early r n h1 h2
      rw [hcur] at this; exact this
    cellfree := fun o i r ho hi h1 h2 h3 => h.cellfree o i r ho hi h1 h2 (by rw [hcur]; exact h3)
    life := fun r' h' => List.mem_append_left _ (h.life r' h')
    loopreq := by simp [LPc.req]
    loopnone := by simp [LPc.req]
    looptake := by simp
    fwd := by
      show (forwarded (s.log ++ [_])).Sublist (S.take (s.head + 1))
      rw [forwarded_append, List.take_add_one, hS]
      have := h.fwd
      rw [hfin] at this
      exact this.append (List.Sublist.refl _)
    fin := by
      intro n r hn hS'
      replace hn : n < s.head + 1 := hn
      by_cases e : n = s.head
      · subst e; rw [hS] at hS'; cases hS'; exact .inl (by simp)
      · exact (h.fin n r (by rw [hfin]; omega) hS').imp_left (List.mem_append_left _)
    dir := fun r h' => h.dir r (by simpa using h')
    sent := by
      show (Buffer.sent (s.log ++ [_])).Nodup
      rw [sent_append]
      show (Buffer.sent s.log ++ [q]).Nodup
      rw [List.nodup_append]
      refine ⟨h.sent, by simp, fun a ha b hb => ?_⟩
      rw [List.mem_singleton] at hb
      subst hb
      intro e; subst e
      rcases h.sent_cases ha with ⟨_, h1⟩ | ⟨n, hn, h1⟩
      · exact h1 hq
      · have := (List.getElem?_inj (List.getElem?_eq_some_iff.1 h1).1 h.nodup).1 (h1.trans hS.symm)
        omega
    called := fun r h' => List.mem_append_left _ (h.called r h')
    ret := fun r h' => h.ret r (by simpa using h')
    done := fun r h' => (h.done r h').imp_right (List.mem_append_left _)
    quiet := by simp [LPc.idle]
    exited := by simp }

/-- `b.head++` (buffer.go:98). -/
theorem Inv.advance {R : Nat} {s : St} {S : List Nat} (h : Inv R s S) (hl : s.loop = .inc) :
    Inv R { s with head := s.head + 1, loop := .cmp } S := by
  have hlt := h.busy (by rw [hl]; trivial)
  have hcur : s.cur = s.head + 1 := by unfold St.cur; rw [hl]; rfl
  have hfin : s.fin = s.head + 1 := by unfold St.fin; rw [hl]; simp
  have hdiv : s.head / R ≤ (s.head + 1) / R := Nat.div_le_div_right (by omega)
  exact { h with
    rows2 := fun o ho hx => h.rows2 o ho (Nat.le_trans hdiv hx)
    hRowle := Nat.le_trans h.hRowle hdiv
    lobj := by simp [LPc.obj]
    headle := hlt
    busy := by simp [LPc.busy]
    early := fun r n h1 h2 => by
      have := h.early r n h1 h2
      rw [hcur] at this; exact this
    cellfree := fun o i r ho hi h1 h2 h3 => h.cellfree o i r ho hi h1 h2 (by rw [hcur]; exact h3)
    loopreq := by simp [LPc.req]
    loopnone := by simp [LPc.req]
    looptake := by simp
    fwd := by have := h.fwd; rw [hfin] at this; exact this
    fin := fun n r h1 h2 => h.fin n r (by rw [hfin]; exact h1) h2
    quiet := by simp [LPc.idle]
    exited := by simp }

theorem inv_loop {R cap : Nat} (hR : 0 < R) {s s' : St} {S : List Nat} (h : Inv R s S)
    (hs : stepLoop R cap s = some s') : Inv R s' S := by
  unfold stepLoop at hs
  split at hs <;> rename_i hl
  · split at hs
    · cases hs
      apply h.loopMove <;> simp [LPc.obj, LPc.busy, LPc.past, LPc.req, LPc.idle, hl]
    · rename_i hsig
      split at hs
      · cases hs
        have : Inv R { s with loop := .exited, sig := s.sig } S := by
          apply h.loopMove <;> simp [LPc.obj, LPc.busy, LPc.past, LPc.req, LPc.idle, hl]
          · intro h1 r h2; exact h.quiet r (by rw [hl]; trivial) h1 h2
          · exact ⟨by assumption, by simpa using hsig⟩
        exact this
      · cases hs
  · cases hs
    by_cases e : s.head < s.tail
    · have : Inv R { s with loop := .row, sig := s.sig } S := by
        apply h.loopMove <;> simp [LPc.obj, LPc.busy, LPc.past, LPc.req, LPc.idle, hl, e]
      rw [if_pos e]; exact this
    · have : Inv R { s with loop := .wait, sig := s.sig } S := by
        apply h.loopMove <;> simp [LPc.obj, LPc.busy, LPc.past, LPc.req, LPc.idle, hl]
        intro _ r hr
        rw [List.getElem?_eq_none (by rw [h.len]; omega)] at hr; cases hr
      rw [if_neg e]; exact this
  · have hlt := h.busy (by rw [hl]; trivial)
    split at hs
    · rename_i hid
      cases hs
      have : Inv R { s with loop := .look s.hRow, sig := s.sig } S := by
        apply h.loopMove <;> simp [LPc.obj, LPc.busy, LPc.past, LPc.req, LPc.idle, hl, hlt]
        exact ⟨h.hRow, hid⟩
      exact this
    · rename_i hid
      have h' := h.dropRow hid
      simp only at hs
      split at hs
      · rename_i hk
        cases hs
        have := h'.loopMove (l := .wait) (sg := s.sig) (by simp [LPc.obj]) (by simp [LPc.busy])
          (by show s.loop.past = true → _; rw [hl]; simp [LPc.past]) (by simp [LPc.past]) (by simp [LPc.req])
          (by simp [LPc.req]) (by simp) (by show s.loop ≠ _; rw [hl]; simp) (by simp)
          (by
            intro _ _ r hr hd
            obtain ⟨o, h1, h2, _⟩ := h.celllate r s.head hr (by rw [show s.push r = _ from hd]; trivial)
            have := h.rows2 o h1 (by rw [h2]; exact Nat.le_refl _)
            rw [h2, hk] at this; cases this)
          (by simp)
        exact this
      · rename_i o hk
        cases hs
        obtain ⟨h1, h2⟩ := h.rows1 _ _ hk
        have := (h'.setHRow h1 h2).loopMove (l := .look o) (sg := s.sig) (by simp [LPc.obj]; exact ⟨h1, h2⟩)
          (fun _ => hlt)
          (by show s.loop.past = true → _; rw [hl]; simp [LPc.past]) (by simp [LPc.past]) (by simp [LPc.req])
          (by simp [LPc.req]) (by simp) (by show s.loop ≠ _; rw [hl]; simp) (by simp)
          (by simp [LPc.idle])
          (by simp)
        exact this
  · rename_i o
    have hlt := h.busy (by rw [hl]; trivial)
    obtain ⟨ho, hid⟩ := h.lobj o (by rw [hl]; rfl)
    have hi : s.head % R < R := Nat.mod_lt _ hR
    have hn : s.idOf o * R + s.head % R = s.head := by rw [hid]; exact moddiv
    have hpast : (s.cell o (s.head % R)).mark ≠ .new → ∀ r n, (s.push r).early → (s.push r).slotNo = some n →
        n ≠ s.head := by
      rintro hm r n h1 h2 rfl
      exact hm (h.cellnew r o _ ho hi (by rw [hn]; exact h.slotted r _ h2) h1)
    split at hs <;> rename_i hm
    · cases hs
      have : Inv R { s with loop := .wait, sig := s.sig } S := by
        apply h.loopMove <;> simp [LPc.obj, LPc.busy, LPc.past, LPc.req, LPc.idle, hl]
        intro _ r hr hd
        obtain ⟨o', h1, h2, h3⟩ := h.celllate r s.head hr (by rw [hd]; trivial)
        have := h.inj o' o h1 ho (h2.trans hid.symm)
        subst this
        exact h3 hm
      exact this
    · cases hs
      have := h.loopMove (l := .take o) (sg := s.sig) (by simp [LPc.obj]; exact ⟨ho, hid⟩)
        (fun _ => hlt) (fun _ => rfl) (fun _ => .inr (hpast (by rw [hm]; simp))) (by simp [LPc.req])
        (by simp [LPc.req])
        (by rintro r o' h1 h2; cases h1; exact h.cellset o _ r ho hi hm (by rw [hn]; exact h2))
        (by rw [hl]; simp) (by simp) (by simp [LPc.idle]) (by simp)
      exact this
    · cases hs
      have := h.loopMove (l := .inc) (sg := s.sig) (by simp [LPc.obj])
        (fun _ => hlt) (fun _ => rfl) (fun _ => .inr (hpast (by rw [hm]; simp))) (by simp [LPc.req])
        (by simp [LPc.req]) (by simp) (by rw [hl]; simp)
        (by
          intro _ r hr
          exact .inr (h.cellfree o _ r ho hi hm (by rw [hn]; exact hr) (by rw [hn]; unfold St.cur; rw [hl]; simp [LPc.past])))
        (by simp [LPc.idle]) (by simp)
      exact this
  · rename_i o
    have hlt := h.busy (by rw [hl]; trivial)
    obtain ⟨ho, hid⟩ := h.lobj o (by rw [hl]; rfl)
    have hi : s.head % R < R := Nat.mod_lt _ hR
    have hn : s.idOf o * R + s.head % R = s.head := by rw [hid]; exact moddiv
    cases hs
    have := h.loopMove (l := .free o (s.cell o (s.head % R)).req) (sg := s.sig) (by simp [LPc.obj]; exact ⟨ho, hid⟩)
      (fun _ => hlt) (fun _ => rfl) (fun _ => .inl (by rw [hl]; rfl))
      (by
        intro q hq
        have hq : (s.cell o (s.head % R)).req = some q := by simpa [LPc.req] using hq
        have := h.cellreq o _ q ho hi hq
        rwa [hn] at this)
      (by
        intro r hq hr
        have hq : (s.cell o (s.head % R)).req = none := by simpa [LPc.req] using hq
        rcases h.looptake r o hl hr with h' | h'
        · rw [hq] at h'; cases h'
        · exact h')
      (by simp) (by rw [hl]; simp) (by simp) (by simp [LPc.idle]) (by simp)
    exact this
  · rename_i o q
    have hlt := h.busy (by rw [hl]; trivial)
    cases hs
    have := (h.loopFree hR hl).loopMove (l := .pend q) (sg := s.sig) (by simp [LPc.obj])
      (fun _ => hlt) (fun _ => rfl) (fun _ => .inl (by show s.loop.past = true; rw [hl]; rfl))
      (fun q' hq => h.loopreq q' (by rw [hl]; exact hq)) (fun r hq hr => h.loopnone r (by rw [hl]; exact hq) hr)
      (by simp) (by show s.loop ≠ _; rw [hl]; simp) (by simp) (by simp [LPc.idle]) (by simp)
    exact this
  · have hlt := h.busy (by rw [hl]; trivial)
    cases hs
    have := h.loopMove (l := .inc) (sg := s.sig) (by simp [LPc.obj])
      (fun _ => hlt) (fun _ => rfl) (fun _ => .inl (by rw [hl]; rfl))
      (by simp [LPc.req]) (by simp [LPc.req]) (by simp) (by rw [hl]; simp)
      (fun _ r hr => .inr (h.loopnone r (by rw [hl]; rfl) hr)) (by simp [LPc.idle]) (by simp)
    exact this
  · rename_i q
    have hlt := h.busy (by rw [hl]; trivial)
    have hS := h.loopreq q (by rw [hl]; rfl)
    cases hs
    by_cases e : s.life q = .live
    · have := h.loopMove (l := .send q) (sg := s.sig) (by simp [LPc.obj])
        (fun _ => hlt) (fun _ => rfl) (fun _ => .inl (by rw [hl]; rfl))
        (fun q' hq => by cases hq; exact hS) (by simp [LPc.req]) (by simp) (by rw [hl]; simp)
        (by simp) (by simp [LPc.idle]) (by simp)
      rw [if_pos e]; exact this
    · have := h.loopMove (l := .inc) (sg := s.sig) (by simp [LPc.obj])
        (fun _ => hlt) (fun _ => rfl) (fun _ => .inl (by rw [hl]; rfl))
        (by simp [LPc.req]) (by simp [LPc.req]) (by simp) (by rw [hl]; simp)
        (fun _ r hr => by rw [hS] at hr; cases hr; exact .inr e) (by simp [LPc.idle]) (by simp)
      rw [if_neg e]; exact this
  · split at hs
    · cases hs; exact h.forward hl
    · cases hs
  · cases hs; exact h.advance hl
  · cases hs

/-- A request gets on with being answered. -/
theorem Inv.lifeUp {R : Nat} {s : St} {S : List Nat} (h : Inv R s S) {r : Nat} {l : Life} (hl : l ≠ .live)
    (hg : s.life r ≠ .gone) (ha : .answered r ∈ s.log) : Inv R { s with life := set s.life r l } S := by
  have up : ∀ r', s.life r' ≠ .live → set s.life r l r' ≠ .live := by
    intro r' h'
    by_cases e : r' = r
    · subst e; rw [set_same]; exact hl
    · rw [set_ne _ _ e]; exact h'
  exact { h with
    cellset := fun o i r' h1 h2 h3 h4 => (h.cellset o i r' h1 h2 h3 h4).imp_right (up r')
    markset := fun r' n o h1 => (h.markset r' n o h1).imp_right (up r')
    cellfree := fun o i r' h1 h2 h3 h4 h5 => up r' (h.cellfree o i r' h1 h2 h3 h4 h5)
    markfree := fun r' n o h1 => by
      have h2 := h.markfree r' n o h1
      show set s.life r l r' = _
      rw [set_ne _ _ (by rintro rfl; exact hg h2)]; exact h2
    life := fun r' h1 => by
      by_cases e : r' = r
      · subst e; exact ha
      · simp only [set_ne _ _ e] at h1; exact h.life r' h1
    loopnone := fun r' h1 h2 => up r' (h.loopnone r' h1 h2)
    looptake := fun r' o h1 h2 => (h.looptake r' o h1 h2).imp_right (up r')
    fin := fun n r' h1 h2 => (h.fin n r' h1 h2).imp_right (up r') }

/-- An answer is noted in the history. -/
theorem Inv.noteAnswer {R : Nat} {s : St} {S : List Nat} (h : Inv R s S) {r : Nat} :
    Inv R { s with log := s.log ++ [.answered r] } S :=
  { h with
    slots := by
      show Buffer.slots (s.log ++ [_]) = S
      rw [slots_single (by simp)]; exact h.slots
    life := fun r h' => List.mem_append_left _ (h.life r h')
    fwd := by
      show (forwarded (s.log ++ [_])).Sublist _
      rw [forwarded_single (by simp)]; exact h.fwd
    fin := fun n r h1 h2 => (h.fin n r h1 h2).imp_left (List.mem_append_left _)
    dir := fun r h' => h.dir r (by simpa using h')
    sent := by
      show (Buffer.sent (s.log ++ [_])).Nodup
      rw [sent_single (by simp [Sends])]; exact h.sent
    called := fun r h' => List.mem_append_left _ (h.called r h')
    ret := fun r h' => h.ret r (by simpa using h')
    done := fun r h' => (h.done r h').imp_right (List.mem_append_left _) }

/-- The bookmark hears of the answer (buffer.go:16-18). -/
theorem Inv.tell {R : Nat} {s : St} {S : List Nat} (h : Inv R s S) {r o i : Nat} (hm : s.mark r = some (o, i))
    (hl : s.life r ≠ .live) :
    Inv R { s with cell := setCell s.cell o i { s.cell o i with mark := .free } } S := by
  obtain ⟨ho, hi, hS, hne⟩ := h.mark r o i hm
  exact { h with
    cellnew := by
      intro r' o' i' ho' hi' hS' hx
      show (setCell _ _ _ _ o' i').mark = _
      rw [setCell_ne]
      · exact h.cellnew r' o' i' ho' hi' hS' hx
      · rintro ⟨rfl, rfl⟩
        have hS' : S[s.idOf o' * R + i']? = some r' := hS'
        rw [hS] at hS'; cases hS'
        exact hne hx
    cellnone := by
      intro o' i' hi' hx
      show setCell _ _ _ _ o' i' = _
      rw [setCell_ne]
      · exact h.cellnone o' i' hi' hx
      · rintro ⟨rfl, rfl⟩
        have hx : S[s.idOf o' * R + i']? = none := hx ho
        rw [hS] at hx; cases hx
    celllate := by
      intro r' n' hS' hx
      obtain ⟨o', h1, h2, h3⟩ := h.celllate r' n' hS' hx
      refine ⟨o', h1, h2, fun hx => ?_⟩
      rcases setMark_mark (P := fun x => x = .new) _ hx with ⟨_, _, h4⟩ | ⟨_, h4⟩
      · cases h4
      · exact h3 h4
    cellreq := by
      intro o' i' r' ho' hi' hx
      exact h.cellreq o' i' r' ho' hi' (by rw [← setMark_req]; exact hx)
    cellset := by
      intro o' i' r' ho' hi' hx hS'
      show (setCell _ _ _ _ o' i').req = _ ∨ _
      rw [setMark_req]
      rcases setMark_mark (P := fun x => x = .set) _ hx with ⟨h1, h2, h4⟩ | ⟨_, h4⟩
      · cases h4
      · exact h.cellset o' i' r' ho' hi' h4 hS'
    markset := by
      intro r' n' o' hx
      show (setCell _ _ _ _ _ _).req = _ ∨ _
      rw [setMark_req]
      exact h.markset r' n' o' hx
    looptake := by
      intro r' o' hx hy
      show (setCell _ _ _ _ _ _).req = _ ∨ _
      rw [setMark_req]
      exact h.looptake r' o' hx hy
    cellfree := by
      intro o' i' r' ho' hi' hx hS' hc
      rcases setMark_mark (P := fun x => x = .free) _ hx with ⟨h1, h2, h4⟩ | ⟨_, h4⟩
      · subst h1 h2
        have hS' : S[s.idOf o' * R + i']? = some r' := hS'
        rw [hS] at hS'; cases hS'
        exact hl
      · exact h.cellfree o' i' r' ho' hi' h4 hS' hc }

/-- The bookmark is unchained (response.go:81-87). -/
theorem Inv.unchain {R : Nat} {s : St} {S : List Nat} (h : Inv R s S) {r o i : Nat} (hm : s.mark r = some (o, i))
    (hl : s.life r ≠ .live) :
    Inv R { s with cell := setCell s.cell o i { s.cell o i with req := none } } S := by
  obtain ⟨ho, hi, hS, hne⟩ := h.mark r o i hm
  have key : ∀ o' i' r', S[s.idOf o' * R + i']? = some r' → ((s.cell o' i').req = some r' ∨ s.life r' ≠ .live) →
      (setCell s.cell o i { s.cell o i with req := none } o' i').req = some r' ∨ s.life r' ≠ .live := by
    intro o' i' r' hS' hx
    by_cases e : o' = o ∧ i' = i
    · obtain ⟨rfl, rfl⟩ := e
      rw [hS] at hS'; cases hS'; exact .inr hl
    · rw [setCell_ne _ _ e]; exact hx
  exact { h with
    cellnew := by
      intro r' o' i' ho' hi' hS' hx
      show (setCell _ _ _ _ o' i').mark = _
      rw [setReq_mark]
      exact h.cellnew r' o' i' ho' hi' hS' hx
    cellnone := by
      intro o' i' hi' hx
      show setCell _ _ _ _ o' i' = _
      rw [setCell_ne]
      · exact h.cellnone o' i' hi' hx
      · rintro ⟨rfl, rfl⟩
        have hx : S[s.idOf o' * R + i']? = none := hx ho
        rw [hS] at hx; cases hx
    celllate := by
      intro r' n' hS' hx
      obtain ⟨o', h1, h2, h3⟩ := h.celllate r' n' hS' hx
      refine ⟨o', h1, h2, ?_⟩
      show (setCell _ _ _ _ _ _).mark ≠ _
      rw [setReq_mark]; exact h3
    cellreq := by
      intro o' i' r' ho' hi' hx
      replace hx : (setCell _ _ _ _ o' i').req = _ := hx
      by_cases e : o' = o ∧ i' = i
      · obtain ⟨rfl, rfl⟩ := e
        rw [setCell_same] at hx; cases hx
      · rw [setCell_ne _ _ e] at hx; exact h.cellreq o' i' r' ho' hi' hx
    cellset := by
      intro o' i' r' ho' hi' hx hS'
      exact key o' i' r' hS' (h.cellset o' i' r' ho' hi' (by rw [← setReq_mark]; exact hx) hS')
    markset := by
      intro r' n' o' hx
      obtain ⟨h1, h2⟩ := h.pobj r' n' o' (by rw [show s.push r' = _ from hx]; rfl)
      have h3 := h.slotted r' n' (by rw [show s.push r' = _ from hx]; rfl)
      exact key o' _ r' (by rw [h2, moddiv]; exact h3) (h.markset r' n' o' hx)
    looptake := by
      intro r' o' hx hy
      obtain ⟨h1, h2⟩ := h.lobj o' (by rw [show s.loop = _ from hx]; rfl)
      exact key o' _ r' (by rw [h2, moddiv]; exact hy) (h.looptake r' o' hx hy)
    cellfree := by
      intro o' i' r' ho' hi' hx hS' hc
      exact h.cellfree o' i' r' ho' hi' (by rw [← setReq_mark]; exact hx) hS' hc }

theorem inv_answer {R : Nat} {s s' : St} {S : List Nat} (h : Inv R s S) {r : Nat}
    (hs : stepAnswer s r = some s') : Inv R s' S := by
  unfold stepAnswer at hs
  split at hs <;> rename_i hl
  · cases hs
    exact (h.noteAnswer (r := r)).lifeUp (r := r) (l := .prepared) (by simp) (by rw [hl]; simp) (by simp)
  · have h' := h.lifeUp (r := r) (l := .told) (by simp) (by rw [hl]; simp) (h.life r (by rw [hl]; simp))
    simp only at hs
    split at hs <;> cases hs
    · exact h'
    · rename_i o i hm
      exact h'.tell (r := r) hm (by simp [set_same])
  · have h' := h.lifeUp (r := r) (l := .gone) (by simp) (by rw [hl]; simp) (h.life r (by rw [hl]; simp))
    simp only at hs
    split at hs <;> cases hs
    · exact h'
    · rename_i o i hm
      exact h'.unchain (r := r) hm (by simp [set_same])
  · cases hs

theorem inv_close {R : Nat} {s s' : St} {S : List Nat} (h : Inv R s S)
    (hs : stepClose s = some s') : Inv R s' S := by
  unfold stepClose at hs
  split at hs
  · rename_i hc
    cases hs
    exact { h with
      quiet := by intro _ _ hx; cases hx
      exited := fun hx => by have := (h.exited hx).1; omega }
  · cases hs
    exact { h with exited := fun hx => ⟨rfl, (h.exited hx).2⟩ }
  · cases hs

theorem inv_step {R cap : Nat} (hR : 0 < R) {s s' : St} {S : List Nat} (h : Inv R s S) {c : Choice}
    (hs : step R cap s c = some s') : ∃ S', Inv R s' S' := by
  cases c with
  | push r => exact inv_push hR h hs
  | headFirst r =>
    simp only [step] at hs
    split at hs
    · rename_i hr
      cases hs
      exact ⟨S, h.move (fun _ => h.unslotted r (by rw [hr]; trivial)) (by simp [PPc.slotNo])
        (by simp [PPc.obj]) (by simp [PPc.early]) (by simp [PPc.early]) (by simp [PPc.early]) (by simp [PPc.late])
        (by simp) (by simp) (h.called r (by rw [hr]; simp)) (by simp) (by simp) (by rw [hr]; simp)⟩
    · cases hs
  | loop => exact ⟨S, inv_loop hR h hs⟩
  | close => exact ⟨S, inv_close h hs⟩
  | answer r => exact ⟨S, inv_answer h hs⟩
  | recv =>
    unfold step at hs
    simp only at hs
    split at hs
    · cases hs
    · cases hs; exact ⟨S, { h with }⟩

theorem inv_run {R cap : Nat} (hR : 0 < R) {s s' : St} {S : List Nat} (h : Inv R s S) {cs : List Choice}
    (hs : run R cap s cs = some s') : ∃ S', Inv R s' S' := by
  induction cs generalizing s S with
  | nil => cases hs; exact ⟨S, h⟩
  | cons c cs ih =>
    unfold run at hs
    obtain ⟨s₁, h1, h2⟩ := Option.bind_eq_some_iff.1 hs
    obtain ⟨S₁, h'⟩ := inv_step hR h h1
    exact ih h' h2

end Verif.Buffer
