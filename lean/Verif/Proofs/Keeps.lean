import Verif.Proofs.ConnInv
import Verif.Proofs.Buffer
/-!
What is kept in the table of requests of a connection and in the queue of an endpoint.
-/
namespace Verif.Conn

/-- The write loop has a slot whose id is not in a header yet. -/
def Holds (s : St) : Prop := s.wreq ≠ none ∨ ∃ r o j, s.wp = .header r o j

/-- Every row has an id that is out or not used yet, and all ids used belong to a request, but the one of the slot that the
write loop holds. -/
structure Keep (s : St) : Prop where
  row : ∀ b o, (b, o) ∈ s.h.rows → ∃ id, InRow b id ∧ id ∉ s.removed
  owner : ∀ i, 1 ≤ i → i ≤ s.h.curId → (∃ r, s.idOf r = some i) ∨ i = s.h.curId ∧ Holds s

theorem keep_init : Keep init := by
  constructor
  · intro b o h
    exact ⟨256 * b + 1, ⟨by omega, by omega, by simp [init, Holder.init] at h; unfold pingId; omega⟩, by simp [init]⟩
  · intro i h1 h2
    simp [init, Holder.init] at h2
    omega

theorem Keep.same {s s' : St} (k : Keep s) (h1 : s'.h.rows = s.h.rows) (h2 : s'.h.curId = s.h.curId) (h3 : s'.removed = s.removed)
    (h4 : s'.idOf = s.idOf) (h5 : Holds s → Holds s') : Keep s' := by
  constructor
  · rw [h1, h3]; exact k.row
  · intro i
    rw [h2, h4]
    intro a b
    exact (k.owner i a b).imp id (And.imp id h5)

theorem keep_answer {s : St} (k : Keep s) (r : Nat) (a : Ans) : Keep (answer s r a) := by
  refine k.same ?_ ?_ rfl rfl id <;> (unfold answer unchain; dsimp only; split <;> rfl)

theorem keep_respond {s : St} (k : Keep s) (r : Nat) (a : Ans) : Keep (respond s r a) := by
  unfold respond
  split
  · exact keep_answer k r a
  · exact k

theorem keep_respondFail {s : St} (k : Keep s) (r : Nat) (a : Ans) : Keep (respondFail s r a) := by
  unfold respondFail
  split
  · exact k
  · exact keep_answer k r a

theorem keep_offer {s : St} (k : Keep s) (r o j : Nat) : Keep (offer s r o j) := by
  unfold offer claim
  split
  · exact k.same rfl rfl rfl rfl fun _ => .inr ⟨_, _, _, rfl⟩
  · exact k.same rfl rfl rfl rfl fun _ => .inl (by simp)

theorem rowIds_all (o : Nat) : (rowIds o).length = 256 ∨ (rowIds o).length = 255 ∧ (o = 0 ∨ o = pingId / 256) := by
  by_cases h0 : o = 0
  · subst h0; exact .inr ⟨by decide +kernel, .inl rfl⟩
  by_cases h1 : o = pingId / 256
  · subst h1; exact .inr ⟨by decide +kernel, .inr rfl⟩
  left
  unfold rowIds
  rw [List.filter_eq_self.2 (by
    intro a ha
    simp only [List.mem_map, List.mem_range] at ha
    obtain ⟨j, hj, rfl⟩ := ha
    unfold pingId at *
    simp only [decide_eq_true_eq]
    omega)]
  simp

theorem rowIds_nodup (o : Nat) : (rowIds o).Nodup := by
  unfold rowIds
  apply List.Nodup.sublist List.filter_sublist
  rw [List.nodup_iff_pairwise_ne, List.pairwise_map]
  exact (List.nodup_range (n := 256)).imp fun h e => h (by omega)

/-- The row of an id that is out is found. -/
theorem fetch_eq {h : Holder} {removed : List Nat} (hi : HInv h removed) {b : Nat} (hb : b ≤ h.big) (hrow : (b, b) ∈ h.rows) :
    h.fetch b = some { h with last := b, lastBig := b } := by
  unfold Holder.fetch
  split
  · cases hg : Conn.get h.rows b with
    | none => exact absurd hrow (get_none hg _)
    | some o =>
      have := hi.rowsEq _ _ (get_mem hg)
      dsimp only
      rw [this.1]
  · have := hi.last
    have e1 : h.lastBig = b := by omega
    have e2 : h.last = b := by omega
    cases h
    simp_all

theorem keep_resp {s : St} (h : Inv s) (k : Keep s) {id : Nat} (h1 : 1 ≤ id) (h2 : id ≤ s.h.curId) (h3 : id ∉ s.removed)
    {h' : Holder} {q : Option Nat} (e : s.h.remove id = some (h', q)) (rp : RPc) :
    Keep { s with h := h', rp, removed := id :: s.removed } := by
  have hh := h.hh
  have hb : id / 256 ≤ s.h.big := by have := hh.big; omega
  have hy := hh.young
  have hcur := hh.cur
  have hin : InRow (id / 256) id := by
    refine ⟨rfl, by omega, ?_⟩
    unfold pingId M at *
    omega
  have hrow : (id / 256, id / 256) ∈ s.h.rows := by
    apply Classical.byContradiction
    intro hn
    exact h3 (hh.gone _ hb hn id hin)
  unfold Holder.remove at e
  rw [fetch_eq hh hb hrow] at e
  simp only [Option.map_some, Option.some.injEq, Prod.mk.injEq] at e
  obtain ⟨rfl, _⟩ := e
  constructor
  · dsimp only
    intro b o hm
    by_cases hbb : b = id / 256
    · subst hbb
      apply Classical.byContradiction
      intro hall
      have hall' : ∀ x, InRow (id / 256) x → x ∈ id :: s.removed := by
        intro x hx
        apply Classical.byContradiction
        intro hn
        exact hall ⟨x, hx, hn⟩
      have hnd : (id :: s.removed).Nodup := List.nodup_cons.2 ⟨h3, hh.nodup⟩
      have hlen : ((id :: s.removed).filter fun x => x / 256 = id / 256).length = (s.h.heap (id / 256)).freed + 1 := by
        rw [List.filter_cons, if_pos (by simp), List.length_cons, hh.freed]
      have ha := length_le (l := rowIds (id / 256)) (m := (id :: s.removed).filter fun x => x / 256 = id / 256) (rowIds_nodup _)
        fun x hx => List.mem_filter.2 ⟨hall' x (mem_rowIds.1 hx), by simpa using (mem_rowIds.1 hx).1⟩
      have hc := length_le (l := (id :: s.removed).filter fun x => x / 256 = id / 256) (m := rowIds (id / 256))
        (hnd.sublist List.filter_sublist) (fun y hy => by
          rw [List.mem_filter] at hy
          have hy2 : y / 256 = id / 256 := by simpa using hy.2
          rw [mem_rowIds]
          rcases List.mem_cons.1 hy.1 with rfl | hm
          · exact hin
          · have := hh.range y hm
            refine ⟨hy2, by omega, ?_⟩
            unfold pingId M at *
            omega)
      have hl := rowIds_all (id / 256)
      rw [if_pos (by omega)] at hm
      simp at hm
    · have hm' : (b, o) ∈ s.h.rows := by
        split at hm
        · exact (List.mem_filter.1 hm).1
        · exact hm
      obtain ⟨x, hx, hn⟩ := k.row b o hm'
      refine ⟨x, hx, ?_⟩
      rw [List.mem_cons]
      rintro (rfl | hr)
      · exact hbb hx.1.symm
      · exact hn hr
  · exact k.owner

theorem keep_next {s : St} (h : Inv s) (k : Keep s) (hw : s.wp = .loop) (hq : s.wreq = none) (hy : s.h.got + 1 ≤ M - 2)
    {h' : Holder} {o j : Nat} (e : s.h.getNext = some (h', o, j)) : Keep { s with h := h', wreq := some (o, j) } := by
  have hh := h.hh
  rw [next_eq hh hy] at e
  cases e
  constructor
  · dsimp only
    intro b o hm
    unfold turned at hm
    split at hm
    · exact k.row b o hm
    · rcases mem_put.1 hm with ⟨rfl, _⟩ | hm
      · refine ⟨s.h.curId + 1, ⟨rfl, by omega, ?_⟩, fun hr => ?_⟩
        · have := hh.cur
          unfold pingId M at *
          omega
        · have := hh.range _ hr
          omega
      · exact k.row b o hm.1
  · dsimp only
    intro i a b
    by_cases hi : i = s.h.curId + 1
    · exact .inr ⟨hi, .inl (by simp)⟩
    · rcases k.owner i a (by omega) with hr | ⟨_, hr⟩
      · exact .inl hr
      · rcases hr with hr | ⟨r, o, j, hr⟩
        · exact absurd hq hr
        · rw [hw] at hr; cases hr

theorem keep_step {s s' : St} {c : Choice} (h : Inv s) (k : Keep s) (hp : ∀ id x, c = .resp id x → Expected s id) (hy : Young s')
    (hs : step s c = some s') : Keep s' := by
  cases c with
  | take r =>
    simp only [step] at hs
    split at hs
    · rename_i hw
      split at hs
      · cases hs
        exact keep_offer k ..
      · rename_i hq
        split at hs
        · rename_i h' o j hn
          cases hs
          have hg := got_next hn
          unfold Young at hy
          rw [got_offer] at hy
          dsimp only at hy
          rw [← offer_wreq]
          exact keep_offer (keep_next h k hw hq (by omega) hn) ..
        · cases hs
    · cases hs
  | header =>
    simp only [step] at hs
    split at hs
    · rename_i r o j hw
      cases hs
      obtain ⟨hj, he, h1, hno, _, hn, _⟩ := h.hdr r o j hw
      have hf : (s.h.heap o).fake j = s.h.curId := by
        rw [h.hh.fake o j hj, if_pos, he]
        refine ⟨by omega, by omega, fun hr => ?_⟩
        obtain ⟨r', hr'⟩ := h.remId _ hr
        rw [he] at hr'
        exact hno r' hr'
      constructor
      · exact k.row
      · dsimp only
        intro i a b
        rcases k.owner i a b with ⟨r', hr⟩ | ⟨rfl, _⟩
        · left
          refine ⟨r', ?_⟩
          by_cases er : r' = r
          · subst er; rw [hn] at hr; cases hr
          · rw [set, if_neg er]; exact hr
        · left
          exact ⟨r, by rw [set, if_pos rfl, hf]⟩
    · cases hs
  | wrote ok =>
    simp only [step] at hs
    split at hs
    · rename_i hw
      split at hs <;> cases hs <;> refine k.same rfl rfl rfl rfl ?_ <;> rintro (a | ⟨r, o, j, a⟩) <;>
        first | exact .inl a | (rw [hw] at a; cases a)
    · cases hs
  | endWrite b =>
    simp only [step] at hs
    split at hs
    · rename_i hw
      cases hs
      refine k.same rfl rfl rfl rfl ?_
      rintro (a | ⟨r, o, j, a⟩)
      · exact .inl a
      · rw [hw] at a; cases a
    · cases hs
  | resp id x =>
    simp only [step] at hs
    obtain ⟨⟨r, hr⟩, hx⟩ := hp id x rfl
    have hi := h.idRange r id hr
    split at hs
    · split at hs
      · rename_i e
        cases hs
        exact keep_resp h k hi.1 hi.2 hx e _
      · rename_i e
        obtain ⟨_, e', _⟩ := remove_eq h.hh hi.1 hi.2 hx
        rw [e] at e'
        cases e'
    · cases hs
  | reply =>
    simp only [step] at hs
    split at hs
    · cases hs
      exact k.same rfl rfl rfl rfl id
    · cases hs
      exact (keep_respond k _ _).same rfl rfl rfl rfl id
    · cases hs
  | endRead =>
    simp only [step] at hs
    split at hs
    · cases hs
      exact k.same rfl rfl rfl rfl id
    · cases hs
  | fail r =>
    cases hs
    exact keep_respondFail k _ _
  | flush =>
    simp only [step] at hs
    split at hs
    · split at hs <;> cases hs <;> exact k.same rfl rfl rfl rfl id
    · cases hs
  | flushOne =>
    simp only [step] at hs
    split at hs
    · cases hs
      exact k.same rfl rfl rfl rfl id
    · split at hs
      · cases hs
        exact (keep_respondFail k _ _).same rfl rfl rfl rfl id
      · cases hs
        exact k.same rfl rfl rfl rfl id
    · cases hs

theorem keep_run {cs : List Choice} {s s' : St} (h : Inv s) (k : Keep s) (hp : Polite s cs) (hs : run s cs = some s')
    (hy : Young s') : Keep s' := by
  induction cs generalizing s with
  | nil => cases hs; exact k
  | cons c cs ih =>
    simp only [run] at hs
    cases e : step s c with
    | none => rw [e] at hs; cases hs
    | some s1 =>
      rw [e] at hs
      have hy1 : Young s1 := Nat.le_trans (got_run hs) hy
      exact ih (inv_step h hp.1 hy1 e) (keep_step h k hp.1 hy1 e) (hp.2 s1 e) hs

/-- One id for each of some rows. -/
theorem pick {P : Nat → Prop} : ∀ {l : List Nat}, l.Nodup → (∀ b ∈ l, ∃ id, id / 256 = b ∧ P id) →
    ∃ ids : List Nat, ids.Nodup ∧ ids.length = l.length ∧ ∀ id ∈ ids, P id ∧ id / 256 ∈ l
  | [], _, _ => ⟨[], by simp⟩
  | b :: l, hn, hp => by
    rw [List.nodup_cons] at hn
    obtain ⟨ids, h1, h2, h3⟩ := pick hn.2 fun b hb => hp b (List.mem_cons_of_mem _ hb)
    obtain ⟨id, e, h⟩ := hp b (by simp)
    refine ⟨id :: ids, List.nodup_cons.2 ⟨fun hm => hn.1 ?_, h1⟩, by simp [h2], ?_⟩
    · rw [← e]; exact (h3 id hm).2
    · intro x hx
      rcases List.mem_cons.1 hx with rfl | hx
      · exact ⟨h, by simp [e]⟩
      · exact ⟨(h3 x hx).1, List.mem_cons_of_mem _ (h3 x hx).2⟩

theorem keep_bound {s : St} (h : Inv s) (k : Keep s) :
    ∃ ids : List Nat, ids.Nodup ∧ (∀ id ∈ ids, Expected s id) ∧ s.h.rows.length ≤ ids.length + 1 := by
  have hh := h.hh
  have hfst : (s.h.rows.map (·.1)).Nodup := by
    rw [List.nodup_iff_pairwise_ne, List.pairwise_map]
    refine hh.rowsNodup.imp_of_mem fun {a b} ha hb hne e => hne ?_
    obtain ⟨a1, a2⟩ := a
    obtain ⟨b1, b2⟩ := b
    have h1 := (hh.rowsEq _ _ ha).1
    have h2 := (hh.rowsEq _ _ hb).1
    simp only at e
    rw [h1, h2, e]
  obtain ⟨ids, h1, h2, h3⟩ := pick (P := Expected s) (l := (s.h.rows.map (·.1)).erase s.h.big) (hfst.erase _) (by
    intro b hb
    rw [hfst.mem_erase_iff] at hb
    obtain ⟨hne, hb⟩ := hb
    obtain ⟨⟨b', o⟩, hm, rfl⟩ := List.mem_map.1 hb
    dsimp only at hne
    obtain ⟨id, hi, hn⟩ := k.row b' o hm
    have hle := (hh.rowsEq _ _ hm).2
    have hbig := hh.big
    have := hi.1
    refine ⟨id, hi.1, ?_, hn⟩
    rcases k.owner id (by have := hi.2.1; omega) (by omega) with hr | ⟨hr, _⟩
    · exact hr
    · omega)
  refine ⟨ids, h1, fun id hid => (h3 id hid).1, ?_⟩
  rw [h2, List.length_erase]
  split <;> simp <;> omega

end Verif.Conn

namespace Verif.Buffer

/-- `loop` has found the row of `head`. -/
def LPc.inRow : LPc → Prop
  | .wait | .cmp | .row | .exited => False
  | _ => True

/-- Which rows are in the map. -/
structure Keep (R : Nat) (s : St) : Prop where
  low : ∀ k o, s.rows k = some o → s.idOf s.hRow ≤ k
  high : ∀ k o, s.rows k = some o → k = 0 ∨ k * R < s.tail
  near : s.head / R ≤ s.idOf s.hRow + 1
  here : s.loop.inRow → s.idOf s.hRow = s.head / R

theorem keep_init {R : Nat} : Keep R init := by
  constructor
  · intro k o h
    simp [init] at h
    simp [init, St.idOf, h]
  · intro k o h
    simp [init] at h
    simp [h]
  · simp [init]
  · intro h; cases h

theorem Keep.same {R : Nat} {s s' : St} (k : Keep R s) (h1 : s'.rows = s.rows) (h2 : s'.ids = s.ids) (h3 : s'.hRow = s.hRow)
    (h4 : s'.head = s.head) (h5 : s.tail ≤ s'.tail) (h6 : s'.loop.inRow → s.loop.inRow) : Keep R s' := by
  have e : s'.idOf s'.hRow = s.idOf s.hRow := by unfold St.idOf; rw [h2, h3]
  constructor
  · intro a b; rw [h1, e]; exact k.low a b
  · intro a b; rw [h1]; intro c; exact (k.high a b c).imp id fun h => Nat.lt_of_lt_of_le h h5
  · rw [h4, e]; exact k.near
  · intro h; rw [e, h4]; exact k.here (h6 h)

theorem keep_newRow {R : Nat} {s : St} {S : List Nat} (h : Inv R s S) (k : Keep R s) {r n : Nat} (hp : s.push r = .lookup n)
    (p : PPc) : Keep R { s with ids := s.ids ++ [n / R], rows := set s.rows (n / R) (some s.ids.length), tRow := s.ids.length,
                                push := set s.push r p } := by
  have e : ∀ t : St, t.ids = s.ids ++ [n / R] → t.hRow = s.hRow → t.idOf t.hRow = s.idOf s.hRow := by
    intro t h1 h2
    unfold St.idOf
    rw [h1, h2, List.getD_eq_getElem?_getD, List.getD_eq_getElem?_getD, List.getElem?_append_left h.hRow]
  have hn : s.head ≤ n := by
    have := h.early r n (by rw [hp]; trivial) (by rw [hp]; rfl)
    unfold St.cur at this
    omega
  have hlt : n < s.tail := by
    have := h.slotted r n (by rw [hp]; rfl)
    rw [← h.len]
    exact (List.getElem?_eq_some_iff.1 this).1
  have e' := e { s with ids := s.ids ++ [n / R], rows := set s.rows (n / R) (some s.ids.length), tRow := s.ids.length,
                        push := set s.push r p } rfl rfl
  constructor
  · intro a b hx
    rw [e']
    dsimp only at hx
    unfold set at hx
    split at hx
    · subst_vars
      exact Nat.le_trans h.hRowle (Nat.div_le_div_right hn)
    · exact k.low a b hx
  · intro a b hx
    dsimp only at hx ⊢
    unfold set at hx
    split at hx
    · subst_vars
      right
      exact Nat.lt_of_le_of_lt (Nat.div_mul_le_self ..) hlt
    · exact k.high a b hx
  · rw [e']; exact k.near
  · intro hl; rw [e']; exact k.here hl

theorem keep_push {R cap : Nat} {s s' : St} {S : List Nat} (h : Inv R s S) (k : Keep R s) {r : Nat}
    (hs : stepPush R cap s r = some s') : Keep R s' := by
  unfold stepPush at hs
  split at hs <;> rename_i hp
  case h_8 n =>
    split at hs
    · cases hs
      exact k.same rfl rfl rfl rfl (Nat.le_refl _) id
    · cases hs
      exact keep_newRow h k hp _
  all_goals first
    | (cases hs; done)
    | (cases hs; exact k.same rfl rfl rfl rfl (Nat.le_refl _) id)
    | (cases hs; exact k.same rfl rfl rfl rfl (Nat.le_succ _) id)
    | (split at hs <;> cases hs <;> exact k.same rfl rfl rfl rfl (Nat.le_refl _) id)

theorem keep_loop {R cap : Nat} {s s' : St} {S : List Nat} (h : Inv R s S) (k : Keep R s)
    (hs : stepLoop R cap s = some s') : Keep R s' := by
  unfold stepLoop at hs
  split at hs <;> rename_i hl
  · split at hs
    · cases hs
      exact k.same rfl rfl rfl rfl (Nat.le_refl _) (fun h => by cases h)
    · split at hs
      · cases hs
        exact k.same rfl rfl rfl rfl (Nat.le_refl _) (fun h => by cases h)
      · cases hs
  · cases hs
    refine k.same rfl rfl rfl rfl (Nat.le_refl _) (fun h => ?_)
    dsimp only at h
    split at h <;> cases h
  · split at hs
    · rename_i hid
      cases hs
      exact ⟨k.low, k.high, k.near, fun _ => hid⟩
    · rename_i hid
      have hlow : ∀ a b, set s.rows (s.head / R - 1) none a = some b → s.head / R ≤ a := by
        intro a b hx
        unfold set at hx
        split at hx
        · cases hx
        · have h1 := k.low a b hx
          have h2 := k.near
          have h3 := h.hRowle
          generalize s.head / R = x at *
          omega
      have hhigh : ∀ a b, set s.rows (s.head / R - 1) none a = some b → a = 0 ∨ a * R < s.tail := by
        intro a b hx
        unfold set at hx
        split at hx
        · cases hx
        · exact k.high a b hx
      simp only at hs
      split at hs
      · cases hs
        exact ⟨fun a b hx => Nat.le_trans h.hRowle (hlow a b hx), hhigh, k.near, fun h => by cases h⟩
      · rename_i o ho
        cases hs
        have := (h.rows1 _ _ ho).2
        refine ⟨fun a b hx => ?_, hhigh, ?_, fun _ => this⟩
        · show s.idOf o ≤ a
          rw [this]; exact hlow a b hx
        · show _ ≤ s.idOf o + 1
          rw [this]; exact Nat.le_succ _
  · have hin : s.loop.inRow := by rw [hl]; trivial
    split at hs <;> cases hs <;> exact k.same rfl rfl rfl rfl (Nat.le_refl _) (fun _ => hin)
  · cases hs; exact k.same rfl rfl rfl rfl (Nat.le_refl _) (fun _ => by rw [hl]; trivial)
  · cases hs; exact k.same rfl rfl rfl rfl (Nat.le_refl _) (fun _ => by rw [hl]; trivial)
  · cases hs; exact k.same rfl rfl rfl rfl (Nat.le_refl _) (fun _ => by rw [hl]; trivial)
  · cases hs; exact k.same rfl rfl rfl rfl (Nat.le_refl _) (fun _ => by rw [hl]; trivial)
  · split at hs <;> cases hs
    exact k.same rfl rfl rfl rfl (Nat.le_refl _) (fun _ => by rw [hl]; trivial)
  · cases hs
    have hx := k.here (by rw [hl]; trivial)
    refine ⟨k.low, k.high, ?_, fun h => by cases h⟩
    show (s.head + 1) / R ≤ s.idOf s.hRow + 1
    rw [hx, Nat.succ_div]
    split <;> omega
  · cases hs

theorem keep_step {R cap : Nat} {s s' : St} {S : List Nat} (h : Inv R s S) (k : Keep R s) {c : Choice}
    (hs : step R cap s c = some s') : Keep R s' := by
  cases c with
  | push r => exact keep_push h k hs
  | headFirst r =>
    simp only [step] at hs
    split at hs <;> cases hs
    exact k.same rfl rfl rfl rfl (Nat.le_refl _) id
  | loop => exact keep_loop h k hs
  | close =>
    simp only [step] at hs
    unfold stepClose at hs
    split at hs <;> cases hs <;> exact k.same rfl rfl rfl rfl (Nat.le_refl _) id
  | answer r =>
    simp only [step] at hs
    unfold stepAnswer at hs
    split at hs
    · cases hs; exact k.same rfl rfl rfl rfl (Nat.le_refl _) id
    · dsimp only at hs
      split at hs <;> cases hs <;> exact k.same rfl rfl rfl rfl (Nat.le_refl _) id
    · dsimp only at hs
      split at hs <;> cases hs <;> exact k.same rfl rfl rfl rfl (Nat.le_refl _) id
    · cases hs
  | recv =>
    simp only [step] at hs
    split at hs <;> cases hs
    exact k.same rfl rfl rfl rfl (Nat.le_refl _) id

theorem keep_run {R cap : Nat} (hR : 0 < R) {s s' : St} {S : List Nat} (h : Inv R s S) (k : Keep R s) {cs : List Choice}
    (hs : run R cap s cs = some s') : Keep R s' := by
  induction cs generalizing s S with
  | nil => cases hs; exact k
  | cons c cs ih =>
    unfold run at hs
    obtain ⟨s₁, h1, h2⟩ := Option.bind_eq_some_iff.1 hs
    obtain ⟨S₁, h'⟩ := inv_step hR h h1
    exact ih h' (keep_step h k h1) h2

/-- So many different numbers from an interval. -/
theorem interval {a b : Nat} {l : List Nat} (hl : l.Nodup) (h : ∀ x ∈ l, a ≤ x ∧ x < b) : l.length ≤ b - a := by
  have := Conn.length_le (l := l) (m := (List.range (b - a)).map (a + ·)) hl fun x hx => by
    rw [List.mem_map]
    have := h x hx
    exact ⟨x - a, by rw [List.mem_range]; omega, by omega⟩
  simpa using this

end Verif.Buffer
