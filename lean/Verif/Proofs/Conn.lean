import Verif.Spec.Conn
/-!
The request holder, as long as ids do not wrap around and responses are expected.
-/
namespace Verif.Conn

/-- The ids of row `o`. -/
def InRow (o id : Nat) : Prop := id / 256 = o ∧ id ≠ 0 ∧ id ≠ pingId

structure HInv (h : Holder) (removed : List Nat) : Prop where
  young : h.got ≤ M - 2
  cur : h.curId = h.got
  big : h.big = h.curId / 256
  made : h.made = h.big + 1
  curRow : h.cur = h.big
  fresh : ∀ o, h.made ≤ o → h.heap o = Row.new
  rowsEq : ∀ b o, (b, o) ∈ h.rows → o = b ∧ b ≤ h.big
  rowsNodup : h.rows.Nodup
  gone : ∀ b, b ≤ h.big → (b, b) ∉ h.rows → ∀ id, InRow b id → id ∈ removed
  last : h.last = h.lastBig ∧ h.lastBig ≤ h.big
  fake : ∀ o j, j < 256 → (h.heap o).fake j =
    if 1 ≤ 256 * o + j ∧ 256 * o + j ≤ h.curId ∧ 256 * o + j ∉ removed then 256 * o + j else 0
  freed : ∀ o, (h.heap o).freed = (removed.filter fun id => id / 256 = o).length
  put : h.put = removed.length
  nodup : removed.Nodup
  range : ∀ id, id ∈ removed → 1 ≤ id ∧ id ≤ h.curId

theorem hinv_init : HInv Holder.init [] := by
  constructor <;> simp [Holder.init, M, Row.new]
  intro o j _ h1 h2
  omega

theorem set_id {α : Type} {f : Nat → α} {r : Nat} {v : α} (h : f r = v) : set f r v = f := by
  funext j
  unfold set
  split
  · subst_vars; rfl
  · rfl

/-- Entering a new row when the id does. -/
def turned (h : Holder) : List (Nat × Nat) :=
  if h.curId / 256 = (h.curId + 1) / 256 then h.rows
  else Conn.put h.rows ((h.curId + 1) / 256) ((h.curId + 1) / 256)

theorem next_eq {h : Holder} {removed : List Nat} (hi : HInv h removed) (hy : h.got + 1 ≤ M - 2) :
    h.getNext = some ({ h with
      got := h.got + 1, curId := h.curId + 1, big := (h.curId + 1) / 256, cur := (h.curId + 1) / 256,
      made := (h.curId + 1) / 256 + 1, rows := turned h,
      heap := set h.heap ((h.curId + 1) / 256) { h.heap ((h.curId + 1) / 256) with
        fake := set (h.heap ((h.curId + 1) / 256)).fake ((h.curId + 1) % 256) (h.curId + 1) } },
      (h.curId + 1) / 256, (h.curId + 1) % 256) := by
  have hc := hi.cur
  have hb := hi.big
  have hm := hi.made
  have hr := hi.curRow
  have hlt : h.curId + 1 < M - 1 := by unfold M at *; omega
  have hmod : (h.curId + 1) % M = h.curId + 1 := Nat.mod_eq_of_lt (by unfold M at *; omega)
  have hne : h.curId + 1 ≠ 0 ∧ h.curId + 1 ≠ pingId := by unfold M at hlt; unfold pingId; omega
  have hf := hi.fake ((h.curId + 1) / 256) ((h.curId + 1) % 256) (by omega)
  have hid : 256 * ((h.curId + 1) / 256) + (h.curId + 1) % 256 = h.curId + 1 := by omega
  rw [hid, if_neg (by omega)] at hf
  unfold Holder.getNext Holder.rounds Holder.round Holder.turn
  simp only [hmod]
  by_cases ht : h.curId / 256 = (h.curId + 1) / 256
  · have e : ¬ h.big ≠ (h.curId + 1) / 256 := by omega
    have e2 : h.big = (h.curId + 1) / 256 := by omega
    have e3 : h.cur = (h.curId + 1) / 256 := by omega
    have e4 : h.made = (h.curId + 1) / 256 + 1 := by omega
    simp only [if_neg e]
    simp [e2, e3, e4, hne, hf, turned, ht]
  · have e : h.big ≠ (h.curId + 1) / 256 := by omega
    have e4 : h.made = (h.curId + 1) / 256 := by omega
    have e5 : h.heap ((h.curId + 1) / 256) = Row.new := hi.fresh _ (by omega)
    have e6 : set h.heap ((h.curId + 1) / 256) Row.new = h.heap := set_id e5
    simp only [if_pos e, e4, e6]
    simp [hne, hf, turned, ht]

theorem mem_put {m : List (Nat × Nat)} {k v b o : Nat} : (b, o) ∈ put m k v ↔ (b = k ∧ o = v) ∨ ((b, o) ∈ m ∧ b ≠ k) := by
  simp [put]

theorem hinv_next {h : Holder} {removed : List Nat} (hi : HInv h removed) (hy : h.got + 1 ≤ M - 2) :
    HInv { h with
      got := h.got + 1, curId := h.curId + 1, big := (h.curId + 1) / 256, cur := (h.curId + 1) / 256,
      made := (h.curId + 1) / 256 + 1, rows := turned h,
      heap := set h.heap ((h.curId + 1) / 256) { h.heap ((h.curId + 1) / 256) with
        fake := set (h.heap ((h.curId + 1) / 256)).fake ((h.curId + 1) % 256) (h.curId + 1) } } removed := by
  have hc := hi.cur
  have hb := hi.big
  have hm := hi.made
  have hr := hi.curRow
  have hrange := hi.range
  constructor <;> try simp only
  · exact hy
  · omega
  · intro o ho
    have : o ≠ (h.curId + 1) / 256 := by omega
    rw [set, if_neg this]
    exact hi.fresh o (by omega)
  · intro b o hm
    unfold turned at hm
    split at hm
    · have := hi.rowsEq b o hm
      omega
    · rcases mem_put.1 hm with h | h
      · omega
      · have := hi.rowsEq b o h.1
        omega
  · unfold turned
    split
    · exact hi.rowsNodup
    · unfold Conn.put
      rw [List.nodup_cons]
      exact ⟨by simp, hi.rowsNodup.sublist List.filter_sublist⟩
  · intro b hle hn
    unfold turned at hn
    split at hn
    · exact hi.gone b (by omega) hn
    · rw [mem_put] at hn
      by_cases hbk : b = (h.curId + 1) / 256
      · exact absurd (.inl ⟨hbk, hbk⟩) hn
      · exact hi.gone b (by omega) fun hm => hn (.inr ⟨hm, hbk⟩)
  · have := hi.last
    omega
  · intro o j hj
    have hf := hi.fake o j hj
    simp only [set]
    by_cases ho : o = (h.curId + 1) / 256
    · subst ho
      simp only [if_true]
      by_cases hjj : j = (h.curId + 1) % 256
      · have e : 256 * ((h.curId + 1) / 256) + j = h.curId + 1 := by omega
        have hnr : h.curId + 1 ∉ removed := fun hm => by have := hrange _ hm; omega
        rw [set, if_pos hjj, e, if_pos ⟨by omega, by omega, hnr⟩]
      · rw [set, if_neg hjj, hf]
        have : 256 * ((h.curId + 1) / 256) + j ≠ h.curId + 1 := by omega
        split <;> split <;> first | rfl | (exfalso; omega) | grind
    · simp only [ho, if_false]
      rw [hf]
      have : 256 * o + j ≠ h.curId + 1 := by omega
      split <;> split <;> first | rfl | (exfalso; omega) | grind
  · intro o
    simp only [set]
    split
    · subst_vars; exact hi.freed _
    · exact hi.freed _
  · exact hi.put
  · exact hi.nodup
  · intro id hm
    have := hrange id hm
    omega

/-- Taking a request out of or into a slot. -/
theorem hinv_req {h : Holder} {removed : List Nat} (hi : HInv h removed) {o : Nat} (ho : o ≤ h.big) (f : Nat → Option Nat) :
    HInv { h with heap := set h.heap o { h.heap o with req := f } } removed := by
  have e1 : ∀ o' j, (set h.heap o { h.heap o with req := f } o').fake j = (h.heap o').fake j := by
    intro o' j
    unfold set
    split
    · subst_vars; rfl
    · rfl
  have e2 : ∀ o', (set h.heap o { h.heap o with req := f } o').freed = (h.heap o').freed := by
    intro o'
    unfold set
    split
    · subst_vars; rfl
    · rfl
  refine { hi with fresh := ?_, fake := ?_, freed := ?_ }
  · intro o' ho'
    have := hi.made
    simp only at ho'
    have : o' ≠ o := by omega
    simp only [set, if_neg this]
    exact hi.fresh o' ho'
  · intro o' j hj
    rw [e1]
    exact hi.fake o' j hj
  · intro o'
    rw [e2]
    exact hi.freed o'

theorem length_le {l m : List Nat} (hl : l.Nodup) (h : ∀ x ∈ l, x ∈ m) : l.length ≤ m.length := by
  induction l generalizing m with
  | nil => exact Nat.zero_le _
  | cons a l ih =>
    rw [List.nodup_cons] at hl
    have ha : a ∈ m := h a (List.mem_cons_self ..)
    have := ih (m := m.erase a) hl.2 fun x hx => by
      have hne : x ≠ a := fun e => hl.1 (e ▸ hx)
      exact (List.mem_erase_of_ne hne).2 (h x (List.mem_cons_of_mem _ hx))
    rw [List.length_erase_of_mem ha] at this
    have : 0 < m.length := List.length_pos_of_mem ha
    simp only [List.length_cons]
    omega

/-- A list without repetition and at least as long as one that contains it has all of it. -/
theorem all_of {l m : List Nat} (hl : l.Nodup) (h : ∀ x ∈ l, x ∈ m) (hlen : m.length ≤ l.length) : ∀ x ∈ m, x ∈ l := by
  intro x hx
  apply Classical.byContradiction
  intro hn
  have := length_le (l := x :: l) (m := m) (List.nodup_cons.2 ⟨hn, hl⟩) fun y hy => by
    rcases List.mem_cons.1 hy with rfl | hy
    · exact hx
    · exact h y hy
  simp only [List.length_cons] at this
  omega

/-- The ids of a row. -/
def rowIds (o : Nat) : List Nat := ((List.range 256).map (256 * o + ·)).filter fun id => id ≠ 0 ∧ id ≠ pingId

theorem mem_rowIds {o id : Nat} : id ∈ rowIds o ↔ InRow o id := by
  unfold rowIds InRow
  simp only [List.mem_filter, List.mem_map, List.mem_range, decide_eq_true_eq]
  constructor
  · rintro ⟨⟨j, hj, rfl⟩, h⟩
    exact ⟨by omega, h⟩
  · rintro ⟨h1, h2⟩
    exact ⟨⟨id % 256, by omega, by omega⟩, h2⟩

theorem rowIds_length (o : Nat) :
    (rowIds o).length ≤ 256 ∧ (o = 0 ∨ o = pingId / 256 → (rowIds o).length ≤ 255) := by
  have h1 : (rowIds o).length ≤ 256 := by
    unfold rowIds
    exact Nat.le_trans (List.length_filter_le ..) (by simp)
  refine ⟨h1, ?_⟩
  have key : ∀ k, k < 256 → (∀ id, InRow o id → id ≠ 256 * o + k) → (rowIds o).length ≤ 255 := by
    intro k hk hne
    have hnd : (rowIds o).Nodup := by
      unfold rowIds
      apply List.Nodup.sublist List.filter_sublist
      rw [List.nodup_iff_pairwise_ne, List.pairwise_map]
      exact (List.nodup_range (n := 256)).imp fun h e => h (by omega)
    have := length_le (l := rowIds o) (m := ((List.range 256).map (256 * o + ·)).erase (256 * o + k)) hnd fun x hx => by
      have hx' := mem_rowIds.1 hx
      rw [List.mem_erase_of_ne (hne x hx')]
      unfold rowIds at hx
      exact (List.mem_filter.1 hx).1
    rw [List.length_erase_of_mem (by simp; omega)] at this
    simpa using this
  rintro (h | h)
  · apply key 0 (by omega)
    unfold InRow
    intro id h1
    omega
  · apply key 255 (by omega)
    unfold InRow pingId at *
    intro id h1
    omega

theorem get_mem {m : List (Nat × Nat)} {k o : Nat} (h : get m k = some o) : (k, o) ∈ m := by
  unfold get at h
  cases e : m.find? (·.1 = k) with
  | none => rw [e] at h; cases h
  | some p =>
    rw [e] at h
    cases h
    have h1 := List.mem_of_find?_eq_some e
    have h2 : p.1 = k := by simpa using List.find?_some e
    rw [← h2]
    exact h1

theorem get_none {m : List (Nat × Nat)} {k : Nat} (h : get m k = none) (o : Nat) : (k, o) ∉ m := by
  unfold get at h
  rw [Option.map_eq_none_iff, List.find?_eq_none] at h
  intro hm
  simpa using h _ hm

/-- `remove` of an id that is out. -/
theorem remove_eq {h : Holder} {removed : List Nat} (hi : HInv h removed) {id : Nat} (h1 : 1 ≤ id) (h2 : id ≤ h.curId)
    (h3 : id ∉ removed) : ∃ h', h.remove id = some (h', (h.heap (id / 256)).req (id % 256)) ∧ HInv h' (id :: removed) ∧
      h'.got = h.got ∧ h'.curId = h.curId ∧ (∀ o j, (h'.heap o).req j = (h.heap o).req j) := by
  have hy := hi.young
  have hcur := hi.cur
  have hin : InRow (id / 256) id := by
    refine ⟨rfl, by omega, ?_⟩
    unfold pingId M at *
    omega
  have hble : id / 256 ≤ h.big := by have := hi.big; omega
  have hrow : (id / 256, id / 256) ∈ h.rows := by
    apply Classical.byContradiction
    intro hn
    exact h3 (hi.gone _ hble hn id hin)
  have hfetch : ∃ hf, h.fetch (id / 256) = some hf ∧ hf = { h with last := id / 256, lastBig := id / 256 } := by
    unfold Holder.fetch
    split
    · cases hg : Conn.get h.rows (id / 256) with
      | none => exact absurd hrow (get_none hg _)
      | some o =>
        have := hi.rowsEq _ _ (get_mem hg)
        exact ⟨_, rfl, by rw [this.1]⟩
    · have := hi.last
      refine ⟨h, rfl, ?_⟩
      have e1 : h.lastBig = id / 256 := by omega
      have e2 : h.last = id / 256 := by omega
      cases h
      simp_all
  obtain ⟨hf, e, rfl⟩ := hfetch
  unfold Holder.remove
  rw [e]
  simp only [Option.map_some]
  refine ⟨_, rfl, ?_, rfl, rfl, ?_⟩
  · have hfr := hi.freed (id / 256)
    have hnd : (id :: removed).Nodup := List.nodup_cons.2 ⟨h3, hi.nodup⟩
    have hlen : ((id :: removed).filter fun x => x / 256 = id / 256).length = (h.heap (id / 256)).freed + 1 := by
      rw [List.filter_cons, if_pos (by simp), List.length_cons, hfr]
    have hfull : ((h.heap (id / 256)).freed + 1 = 256 ∨
        (h.heap (id / 256)).freed + 1 = 255 ∧ (id / 256 = 0 ∨ id / 256 = pingId / 256)) →
        ∀ x, InRow (id / 256) x → x ∈ id :: removed := by
      intro hc x hx
      have hl := rowIds_length (id / 256)
      have := all_of (l := (id :: removed).filter fun x => x / 256 = id / 256) (m := rowIds (id / 256))
        (hnd.sublist List.filter_sublist) (fun y hy => by
          rw [List.mem_filter] at hy
          have hy2 : y / 256 = id / 256 := by simpa using hy.2
          rw [mem_rowIds]
          rcases List.mem_cons.1 hy.1 with rfl | hm
          · exact hin
          · have := hi.range y hm
            refine ⟨hy2, by omega, ?_⟩
            unfold pingId M at *
            omega) (by
          rw [hlen]
          rcases hc with hc | hc
          · omega
          · have := hl.2 hc.2; omega) x (mem_rowIds.2 hx)
      exact (List.mem_filter.1 this).1
    constructor <;> try simp only
    · exact hy
    · exact hcur
    · exact hi.big
    · exact hi.made
    · exact hi.curRow
    · intro o ho
      have := hi.made
      rw [set, if_neg (by omega)]
      exact hi.fresh o ho
    · intro b o hm
      split at hm
      · exact hi.rowsEq b o (List.mem_filter.1 hm).1
      · exact hi.rowsEq b o hm
    · split
      · exact hi.rowsNodup.sublist List.filter_sublist
      · exact hi.rowsNodup
    · intro b hb hn x hx
      split at hn
      · rename_i hc
        by_cases hbb : b = id / 256
        · subst hbb
          exact hfull hc x hx
        · refine List.mem_cons_of_mem _ (hi.gone b hb (fun hm => hn ?_) x hx)
          rw [List.mem_filter]
          exact ⟨hm, by simpa using hbb⟩
      · exact List.mem_cons_of_mem _ (hi.gone b hb hn x hx)
    · exact ⟨trivial, hble⟩
    · intro o j hj
      have hfk := hi.fake o j hj
      simp only [set]
      by_cases ho : o = id / 256
      · subst ho
        simp only [if_true]
        by_cases hjj : j = id % 256
        · have e : 256 * (id / 256) + j = id := by omega
          rw [set, if_pos hjj, e, if_neg (by simp)]
        · have e : 256 * (id / 256) + j ≠ id := by omega
          simp only [List.mem_cons, e, false_or]
          rw [set, if_neg hjj]
          exact hfk
      · have e : 256 * o + j ≠ id := by omega
        simp only [ho, if_false, List.mem_cons, e, false_or]
        exact hfk
    · intro o
      simp only [set]
      split
      · subst_vars; exact hlen.symm
      · rename_i ho
        rw [hi.freed o, List.filter_cons, if_neg (by simpa using fun e => ho e.symm)]
    · rw [List.length_cons, hi.put]
    · exact hnd
    · intro x hx
      rcases List.mem_cons.1 hx with rfl | hx
      · exact ⟨h1, h2⟩
      · exact hi.range x hx
  · intro o j
    simp only [set]
    split
    · subst_vars; rfl
    · rfl

/-- What `getAll` finds are ids that are out; so there is room for them. -/
theorem found_mem {h : Holder} {removed : List Nat} (hi : HInv h removed) {o j : Nat} :
    (o, j) ∈ h.found ↔ j < 256 ∧ (h.heap o).fake j ≠ 0 ∧ (h.heap o).req j ≠ none := by
  unfold Holder.found
  simp only [List.mem_flatMap, List.mem_map, List.mem_filter, List.mem_range, decide_eq_true_eq, Prod.mk.injEq, Prod.exists]
  constructor
  · rintro ⟨b, o', hm, j', ⟨h1, h2⟩, rfl, rfl⟩
    exact ⟨h1, h2⟩
  · rintro ⟨h1, h2, h3⟩
    have hf := hi.fake o j h1
    refine ⟨o, o, ?_, j, ⟨h1, h2, h3⟩, rfl, rfl⟩
    apply Classical.byContradiction
    intro hn
    split at hf
    · rename_i hc
      have hb : o ≤ h.big := by have := hi.big; omega
      apply hc.2.2
      refine hi.gone o hb hn _ ⟨by omega, by omega, ?_⟩
      have := hi.young
      have := hi.cur
      unfold pingId M at *
      omega
    · exact h2 hf

theorem flat_nodup {α β : Type} {l : List α} {f : α → List β} (hl : l.Nodup) (hf : ∀ a ∈ l, (f a).Nodup)
    (hd : ∀ a ∈ l, ∀ b ∈ l, a ≠ b → ∀ x ∈ f a, x ∉ f b) : (l.flatMap f).Nodup := by
  induction l with
  | nil => simp
  | cons a l ih =>
    rw [List.nodup_cons] at hl
    rw [List.flatMap_cons, List.nodup_append]
    refine ⟨hf a (List.mem_cons_self ..), ih hl.2 (fun b hb => hf b (List.mem_cons_of_mem _ hb))
      (fun b hb c hc => hd b (List.mem_cons_of_mem _ hb) c (List.mem_cons_of_mem _ hc)), ?_⟩
    rintro x hx y hy rfl
    obtain ⟨b, hb, hy⟩ := List.mem_flatMap.1 hy
    exact hd a (List.mem_cons_self ..) b (List.mem_cons_of_mem _ hb) (fun e => hl.1 (e ▸ hb)) x hx hy

theorem found_nodup {h : Holder} {removed : List Nat} (hi : HInv h removed) : h.found.Nodup := by
  apply flat_nodup hi.rowsNodup
  · intro p _
    rw [List.nodup_iff_pairwise_ne, List.pairwise_map]
    exact ((List.nodup_range (n := 256)).sublist List.filter_sublist).imp fun hne e => hne (by simpa using e)
  · rintro ⟨b, o⟩ hm ⟨b', o'⟩ hm' hne x hx hx'
    have h1 := hi.rowsEq _ _ hm
    have h2 := hi.rowsEq _ _ hm'
    obtain ⟨j, _, rfl⟩ := List.mem_map.1 hx
    obtain ⟨j', _, e⟩ := List.mem_map.1 hx'
    simp only [Prod.mk.injEq] at e
    apply hne
    rw [Prod.mk.injEq]
    omega

theorem getAll_eq {h : Holder} {removed : List Nat} (hi : HInv h removed) : h.getAll = some h.found := by
  have hp := hi.put
  have hc := hi.cur
  have key : (h.found.map fun p : Nat × Nat => 256 * p.1 + p.2).length + removed.length ≤ h.curId := by
    have hnd : ((h.found.map fun p : Nat × Nat => 256 * p.1 + p.2) ++ removed).Nodup := by
      rw [List.nodup_append]
      refine ⟨?_, hi.nodup, ?_⟩
      · rw [List.nodup_iff_pairwise_ne, List.pairwise_map]
        refine List.Pairwise.imp_of_mem ?_ (found_nodup hi)
        rintro ⟨o, j⟩ ⟨o', j'⟩ ha hb hne e
        have h1 := ((found_mem hi).1 ha).1
        have h2 := ((found_mem hi).1 hb).1
        apply hne
        dsimp only at e
        rw [Prod.mk.injEq]
        omega
      · rintro x hx y hy rfl
        obtain ⟨⟨o, j⟩, hm, rfl⟩ := List.mem_map.1 hx
        obtain ⟨h1, h2, h3⟩ := (found_mem hi).1 hm
        have hf := hi.fake o j h1
        rw [if_neg (fun hh => hh.2.2 hy)] at hf
        exact h2 hf
    have := length_le (m := (List.range h.curId).map (· + 1)) hnd fun x hx => by
      simp only [List.mem_map, List.mem_range]
      have : 1 ≤ x ∧ x ≤ h.curId := by
        rcases List.mem_append.1 hx with hx | hx
        · obtain ⟨⟨o, j⟩, hm, rfl⟩ := List.mem_map.1 hx
          obtain ⟨h1, h2, h3⟩ := (found_mem hi).1 hm
          have hf := hi.fake o j h1
          split at hf
          · exact ⟨by omega, by omega⟩
          · exact absurd hf h2
        · exact hi.range x hx
      exact ⟨x - 1, by omega, by omega⟩
    simpa using this
  rw [List.length_map] at key
  unfold Holder.getAll
  rw [if_pos (by omega)]

end Verif.Conn
