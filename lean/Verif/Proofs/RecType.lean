import Verif.Proofs.CodecLink
import Verif.Proofs.ReflectReader
import Verif.Spec.RecType

/-! Codecs of recursive types: what the caches make of them. -/
namespace Verif.RecType
open Verif.Marshal Verif.Reflect Verif.CodecCache Verif.Spec Verif.Spec.RecType

variable {sh : Nat → Sh}

/-- What is known about the sizes, whatever was asked for first. -/
def Sane (sh : Nat → Sh) (n : Nat) (a : Att) : Prop :=
  a.sz ≠ 0 ∧ -1 ≤ a.sz ∧ (∀ k, sh n = .scal k → a.sz = width k) ∧ (Varies (sh n) = true → a.sz = -1)

theorem fillFields_dep {fs : List (Option Pfx × Nat)} {size : Int} {inc : List Bool} {got : List Att} {m : Nat}
    (h : fillFields size inc fs got = .dep m) : ∃ p, fs[got.length]? = some (p, m) := by
  induction fs generalizing size inc got with
  | nil => simp [fillFields] at h
  | cons f fs ih =>
    obtain ⟨p, k⟩ := f
    cases got with
    | nil => simp only [fillFields, Act.dep.injEq] at h; exact ⟨p, by simp [h]⟩
    | cons x got =>
      simp only [fillFields] at h
      split at h <;> simpa using ih h

theorem fillFields_done {fs : List (Option Pfx × Nat)} {size : Int} {inc : List Bool} {got : List Att} {a : Att}
    (h : fillFields size inc fs got = .done a) : fs.length ≤ got.length := by
  induction fs generalizing size inc got with
  | nil => simp
  | cons f fs ih =>
    obtain ⟨p, k⟩ := f
    cases got with
    | nil => simp [fillFields] at h
    | cons x got =>
      simp only [fillFields] at h
      split at h <;> simpa using ih h

theorem fillFields_inc {fs : List (Option Pfx × Nat)} {size : Int} {inc : List Bool} {got : List Att} {a : Att}
    (h : fillFields size inc fs got = .done a) (hz : ∀ x ∈ got, x.sz ≠ 0) : a.inc = inc ++ List.replicate fs.length true := by
  induction fs generalizing size inc got with
  | nil => simp only [fillFields, Act.done.injEq] at h; subst h; simp
  | cons f fs ih =>
    obtain ⟨p, k⟩ := f
    cases got with
    | nil => simp [fillFields] at h
    | cons x got =>
      simp only [fillFields] at h
      rw [if_neg (fun c => hz x (by simp) c.1)] at h
      rw [ih h (fun y hy => hz y (by simp [hy]))]
      simp [List.replicate_succ]

/-- The sizes of the fields read, in order. -/
def Each (sh : Nat → Sh) (fs : List (Option Pfx × Nat)) (got : List Att) : Prop :=
  ∀ (i : Nat) (p : Option Pfx) (m : Nat) (a : Att), fs[i]? = some (p, m) → got[i]? = some a → Sane sh m a

theorem Each.tail {f : Option Pfx × Nat} {fs : List (Option Pfx × Nat)} {x : Att} {got : List Att} (h : Each sh (f :: fs) (x :: got)) :
    Each sh fs got := fun i p m a h1 h2 => h (i + 1) p m a (by simpa using h1) (by simpa using h2)

theorem fillFields_neg {fs : List (Option Pfx × Nat)} {size : Int} {inc : List Bool} {got : List Att} {a : Att}
    (h : fillFields size inc fs got = .done a) (hs : size = -1) : a.sz = -1 := by
  induction fs generalizing size inc got with
  | nil => simp only [fillFields, Act.done.injEq] at h; subst h; exact hs
  | cons f fs ih =>
    obtain ⟨p, k⟩ := f
    cases got with
    | nil => simp [fillFields] at h
    | cons x got =>
      have hd : dirSize x.sz x.cnt (dir p) size = -1 := by
        subst hs
        cases p with
        | none => rfl
        | some p => cases p <;> simp [dir, dirSize]
      simp only [fillFields, hd] at h
      split at h
      · exact ih h rfl
      · exact ih h (by simp)

theorem fillFields_sz {fs : List (Option Pfx × Nat)} {size : Int} {inc : List Bool} {got : List Att} {a : Att}
    (h : fillFields size inc fs got = .done a) (he : Each sh fs got) (hs : 0 ≤ size) :
    a.sz = -1 ∨ size + (fs.map (sure sh)).sum ≤ a.sz := by
  induction fs generalizing size inc got with
  | nil => simp only [fillFields, Act.done.injEq] at h; subst h; simp
  | cons f fs ih =>
    obtain ⟨p, m⟩ := f
    cases got with
    | nil => simp [fillFields] at h
    | cons x got =>
      obtain ⟨h0, h1, h2, h3⟩ := he 0 p m x rfl rfl
      simp only [fillFields] at h
      rw [if_neg (fun c => h0 c.1)] at h
      have hx : scalLen (sh m) ≤ x.sz := by
        cases hk : sh m with
        | scal k => rw [h2 k hk]; simp [scalLen]
        | _ => exact h1
      have hd : dirSize x.sz x.cnt (dir p) size = -1 ∨
          size + countLen p ≤ dirSize x.sz x.cnt (dir p) size := by
        cases p with
        | none => right; simp [dir, dirSize, countLen]
        | some p => cases p <;> simp only [dir, dirSize, hs, if_true, countLen] <;> first | omega | (split <;> simp) | simp
      rcases hd with hd | hd
      · rw [hd] at h
        exact Or.inl (fillFields_neg h (by simp))
      · have hq : size ≤ dirSize x.sz x.cnt (dir p) size := by
          have : 0 ≤ countLen p := by unfold countLen; split <;> omega
          omega
        rw [if_pos (by omega)] at h
        by_cases c : 0 ≤ dirSize x.sz x.cnt (dir p) size + x.sz
        · rcases ih h he.tail c with k | k
          · exact Or.inl k
          · right
            simp only [List.map_cons, List.sum_cons, sure]
            omega
        · exact Or.inl (fillFields_neg h (by omega))

/-- Position by position. -/
theorem made_each {e : Env Nat Att} {P : Nat → Att → Prop} {τ : Nat → Option Nat} {n : Nat} {got : List Att} {refs : List Nat}
    (h : Made e P τ n got refs) : refs.length = got.length ∧ ∀ i a, got[i]? = some a →
      ∃ m r, e.fill n (got.take i) = .dep m ∧ P m a ∧ refs.reverse[i]? = some r ∧ τ r = some m := by
  induction h with
  | nil => simp
  | snoc got refs m a r _ h1 h2 h3 ih =>
    obtain ⟨hl, ih⟩ := ih
    refine ⟨by simp [hl], ?_⟩
    intro i b hb
    by_cases c : i < got.length
    · rw [List.getElem?_append_left c] at hb
      obtain ⟨m', r', k1, k2, k3, k4⟩ := ih i b hb
      refine ⟨m', r', ?_, k2, ?_, k4⟩
      · rw [List.take_append_of_le_length (by omega)]; exact k1
      · rw [List.reverse_cons, List.getElem?_append_left (by simp; omega)]; exact k3
    · have : i = got.length := by
        have := (List.getElem?_eq_some_iff.1 hb).1
        simp at this; omega
      subst this
      simp at hb
      subst hb
      refine ⟨m, r, by simpa using h1, h2, ?_, h3⟩
      rw [List.reverse_cons, ← hl]
      simp

/-- The types of the codecs a struct points to, and the sizes read from them. -/
theorem made_struct {rd : Bool} {τ : Nat → Option Nat} {n : Nat} {got : List Att} {refs : List Nat} {fs : List (Option Pfx × Nat)}
    {i0 : Nat → Att} (hn : sh n = .struct fs) (h : Made ⟨fun n => fill rd (sh n), i0⟩ (Sane sh) τ n got refs) :
    refs.length = got.length ∧ got.length ≤ fs.length ∧ Each sh fs got ∧
    (∀ (i : Nat) (p : Option Pfx) (m : Nat), fs[i]? = some (p, m) → i < got.length → ∃ r, refs.reverse[i]? = some r ∧ τ r = some m) := by
  obtain ⟨hl, h⟩ := made_each h
  have key : ∀ (i : Nat) (a : Att), got[i]? = some a → ∃ (p : Option Pfx) (m r : Nat), fs[i]? = some (p, m) ∧ Sane sh m a ∧ refs.reverse[i]? = some r ∧ τ r = some m := by
    intro i a ha
    obtain ⟨m, r, h1, h2, h3, h4⟩ := h i a ha
    simp only [hn, fill] at h1
    obtain ⟨p, hp⟩ := fillFields_dep h1
    have hi := (List.getElem?_eq_some_iff.1 ha).1
    rw [List.length_take, Nat.min_eq_left (by omega)] at hp
    exact ⟨p, m, r, hp, h2, h3, h4⟩
  refine ⟨hl, ?_, ?_, ?_⟩
  · cases hg : got.length with
    | zero => omega
    | succ k =>
      obtain ⟨p, m, r, h1, _⟩ := key k got[k] (List.getElem?_eq_getElem (by omega))
      have := (List.getElem?_eq_some_iff.1 h1).1
      omega
  · intro i p m a h1 h2
    obtain ⟨p', m', r, h3, h4, _⟩ := key i a h2
    rw [h1] at h3; cases h3; exact h4
  · intro i p m h1 h2
    obtain ⟨p', m', r, h3, _, h5, h6⟩ := key i got[i] (List.getElem?_eq_getElem h2)
    rw [h1] at h3; cases h3; exact ⟨r, h5, h6⟩

/-- The codec an array, slice or pointer points to. -/
theorem made_elem {rd : Bool} {τ : Nat → Option Nat} {n m : Nat} {got : List Att} {refs : List Nat} {a : Att}
    {i0 : Nat → Att} (hn : (∃ k, sh n = .arr k m) ∨ sh n = .sl m ∨ sh n = .ptr m)
    (h : Made ⟨fun n => fill rd (sh n), i0⟩ (Sane sh) τ n got refs) (hd : fill rd (sh n) got = .done a) :
    ∃ x r, got = [x] ∧ refs = [r] ∧ Sane sh m x ∧ τ r = some m := by
  obtain ⟨hl, h⟩ := made_each h
  cases got with
  | nil => rcases hn with ⟨k, hn⟩ | hn | hn <;> simp [hn, fill] at hd
  | cons x got =>
    cases got with
    | cons y got =>
      obtain ⟨m', r, h1, _⟩ := h 1 y rfl
      rcases hn with ⟨k, hn⟩ | hn | hn <;> simp [hn, fill] at h1
    | nil =>
      obtain ⟨m', r, h1, h2, h3, h4⟩ := h 0 x rfl
      have hm : m = m' := by rcases hn with ⟨k, hn⟩ | hn | hn <;> simpa [hn, fill] using h1
      subst hm
      match refs, hl with
      | [r'], _ =>
        simp at h3
        subst h3
        exact ⟨x, r', rfl, rfl, h2, h4⟩

theorem width_pos (k : Kind) : 0 < width k := by cases k <;> simp [width]

theorem sane_done (hf : Firm sh) (rd : Bool) (i0 : Nat → Att) (τ : Nat → Option Nat) (n : Nat) (got : List Att) (refs : List Nat)
    (a : Att) (h : Made ⟨fun n => fill rd (sh n), i0⟩ (Sane sh) τ n got refs) (hd : fill rd (sh n) got = .done a) : Sane sh n a := by
  have hF := hf n
  cases hn : sh n with
  | scal k =>
    simp only [hn, fill, Act.done.injEq] at hd
    subst hd
    have := width_pos k
    refine ⟨?_, ?_, ?_, ?_⟩
    · simp only [kindSz_eq]; omega
    · simp only [kindSz_eq]; omega
    · intro k' hk'; rw [hn] at hk'; cases hk'; exact kindSz_eq k
    · simp [hn, Varies]
  | str =>
    simp only [hn, fill, Act.done.injEq] at hd
    subst hd
    exact ⟨by simp, by simp, by simp [hn], by simp⟩
  | own o =>
    simp only [hn, fill, Act.done.injEq] at hd
    subst hd
    exact ⟨by simp, by simp, by simp [hn], by simp⟩
  | arr k m =>
    obtain ⟨x, r, rfl, rfl, ⟨h0, h1, _⟩, _⟩ := made_elem (m := m) (Or.inl ⟨k, hn⟩) h hd
    simp only [hn, fill, Act.done.injEq] at hd
    simp only [hn] at hF
    subst hd
    refine ⟨?_, ?_, by simp [hn], by simp [hn, Varies]⟩
    · simp only
      split
      · intro c
        rcases Int.mul_eq_zero.1 c with c | c <;> omega
      · simp
    · simp only
      split
      · have : 0 ≤ (k : Int) * x.sz := Int.mul_nonneg (by omega) (by assumption)
        omega
      · simp
  | sl m =>
    obtain ⟨x, r, rfl, rfl, ⟨h0, h1, _⟩, _⟩ := made_elem (m := m) (Or.inr (Or.inl hn)) h hd
    simp only [hn, fill, Act.done.injEq, h0, and_false, if_false] at hd
    subst hd
    exact ⟨by simp, by simp, by simp [hn], by simp⟩
  | ptr m =>
    obtain ⟨x, r, rfl, rfl, _⟩ := made_elem (m := m) (Or.inr (Or.inr hn)) h hd
    simp only [hn, fill, Act.done.injEq] at hd
    subst hd
    exact ⟨by simp, by simp, by simp [hn], by simp⟩
  | struct fs =>
    obtain ⟨_, _, he, _⟩ := made_struct hn h
    simp only [hn, fill] at hd
    simp only [hn] at hF
    have hsz : a.sz = -1 ∨ 0 < a.sz := by
      rcases hF with ⟨m, gs, rfl, hv⟩ | hF
      · left
        cases got with
        | nil => simp [fillFields] at hd
        | cons x got =>
          obtain ⟨h0, _, _, h3⟩ := he 0 none m x rfl rfl
          simp only [fillFields, dir, dirSize] at hd
          simp only [h0, false_and, if_false] at hd
          exact fillFields_neg hd (by simp [h3 hv])
      · rcases fillFields_sz hd he (by omega) with c | c
        · exact Or.inl c
        · right; omega
    exact ⟨by omega, by omega, by simp [hn], by simp [hn, Varies]⟩

theorem sane_init (rd : Bool) (n : Nat) (got : List Att) (m : Nat) (h : fill rd (sh n) got = .dep m) : Sane sh n (start (sh n)) := by
  cases hn : sh n <;> simp only [hn, fill, reduceCtorEq] at h <;>
    exact ⟨by simp [start], by simp [start], by simp [hn], by simp [start]⟩

theorem link_w (hf : Firm sh) {s : St Nat Att} (h : Reach (writers sh) s) : Link (writers sh) (Sane sh) s :=
  reach_link (fun n got m => sane_init false n got m) (fun τ n got refs a => sane_done hf false _ τ n got refs a) h

theorem link_r (hf : Firm sh) {s : St Nat Att} (h : Reach (readers sh) s) : Link (readers sh) (Sane sh) s :=
  reach_link (fun n got m => sane_init true n got m) (fun τ n got refs a => sane_done hf true _ τ n got refs a) h

/-- A codec that was published, of type `n`. -/
def Pub (s : St Nat Att) (c n : Nat) : Prop := s.maps s.ws n = some c

/-- What a published codec looks like. -/
def Looks (sh : Nat → Sh) (s : St Nat Att) (n : Nat) (x : Codec Nat Att) : Prop :=
  x.ty = n ∧ match sh n with
    | .scal _ | .str | .own _ => True
    | .arr _ m | .sl m | .ptr m => ∃ r, x.refs = [r] ∧ Pub s r m
    | .struct fs => x.att.inc = List.replicate fs.length true ∧ x.refs.length = fs.length ∧
      ∀ (i : Nat) (p : Option Pfx) (m : Nat), fs[i]? = some (p, m) → ∃ r, x.refs.reverse[i]? = some r ∧ Pub s r m

theorem looks {rd : Bool} {i0 : Nat → Att} {s : St Nat Att} (hi : Inv s) (hl : Link ⟨fun n => fill rd (sh n), i0⟩ (Sane sh) s)
    {c n : Nat} (h : Pub s c n) : ∃ x, s.cods c = some x ∧ Looks sh s n x := by
  obtain ⟨x, hx, hty, hdn, href⟩ := hi.data.pubd n c h
  have hdn := hdn.resolve_right id
  obtain ⟨got, hf, hm⟩ := hl.fin c x hx hdn
  have pub : ∀ r ∈ x.refs, ∀ m, tyOf s r = some m → Pub s r m := by
    intro r hr m hm
    obtain ⟨m', hm'⟩ := href r hr
    obtain ⟨y, hy, hyt, _⟩ := hi.data.pubd m' r hm'
    simp only [tyOf, hy, Option.map_some, Option.some.injEq] at hm
    rw [← hm, hyt]; exact hm'
  refine ⟨x, hx, hty, ?_⟩
  rw [hty] at hf hm
  have hf : fill rd (sh n) got = .done x.att := hf
  cases hn : sh n with
  | scal k => trivial
  | str => trivial
  | own o => trivial
  | arr k m =>
    obtain ⟨a, r, _, h2, _, h4⟩ := made_elem (m := m) (Or.inl ⟨k, hn⟩) hm hf
    exact ⟨r, h2, pub r (by simp [h2]) m h4⟩
  | sl m =>
    obtain ⟨a, r, _, h2, _, h4⟩ := made_elem (m := m) (Or.inr (Or.inl hn)) hm hf
    exact ⟨r, h2, pub r (by simp [h2]) m h4⟩
  | ptr m =>
    obtain ⟨a, r, _, h2, _, h4⟩ := made_elem (m := m) (Or.inr (Or.inr hn)) hm hf
    exact ⟨r, h2, pub r (by simp [h2]) m h4⟩
  | struct fs =>
    obtain ⟨h1, h2, h3, h4⟩ := made_struct hn hm
    simp only [hn, fill] at hf
    have h5 := fillFields_done hf
    refine ⟨?_, by omega, ?_⟩
    · have := fillFields_inc hf (fun a ha => by
        obtain ⟨i, hi', rfl⟩ := List.mem_iff_getElem.1 ha
        exact (h3 i (fs[i]'(by omega)).1 (fs[i]'(by omega)).2 _ (List.getElem?_eq_getElem (by omega)) (List.getElem?_eq_getElem hi')).1)
      simpa using this
    · intro i p m hi'
      have := (List.getElem?_eq_some_iff.1 hi').1
      obtain ⟨r, k1, k2⟩ := h4 i p m hi' (by omega)
      refine ⟨r, k1, pub r ?_ m k2⟩
      exact List.mem_reverse.1 (List.mem_iff_getElem?.2 ⟨i, k1⟩)

end Verif.RecType
