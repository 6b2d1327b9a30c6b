import Verif.Spec.Whole
import Verif.Props.Link
import Verif.Props.Endpoint
import Verif.Props.Served
/-!
Both ends: the projections.
-/
namespace Verif.Conn

theorem got_le {s s' : St} {c : Choice} (hs : step s c = some s') : s'.h.got ≤ s.h.got + 1 := by
  cases c <;> simp only [step] at hs
  case take r =>
    (repeat' split at hs) <;> cases hs
    · rw [got_offer]; omega
    · rw [got_offer]
      have := got_next ‹_›
      dsimp only
      omega
  case resp =>
    (repeat' split at hs) <;> cases hs
    · have := got_remove ‹_›
      dsimp only
      omega
    · dsimp only; omega
  case reply =>
    (repeat' split at hs) <;> cases hs
    · dsimp only; omega
    · dsimp only
      rw [got_respond]
      omega
  case fail => cases hs; rw [got_respondFail]; omega
  case flushOne =>
    (repeat' split at hs) <;> cases hs <;> first | (dsimp only; omega) | (dsimp only; rw [got_respondFail]; omega)
  all_goals (repeat' split at hs) <;> cases hs <;> dsimp only <;> omega

end Verif.Conn

namespace Verif.Served

/-- What connection `i` does in a step. -/
theorem conn_step {s s' : St} {c : Choice} (h : step s c = some s') (i : Nat) :
    s'.c i = s.c i ∨ ∃ x, Serv.step (s.c i) x = some (s'.c i) ∧ ∀ id, x = .recv id → c = .net i (.recv id) := by
  have hnet : ∀ (t t' : St) j x, t.net j x = some t' → t.c = s.c → (∀ id, x = .recv id → c = .net j (.recv id)) →
      t'.c i = s.c i ∨ ∃ x, Serv.step (s.c i) x = some (t'.c i) ∧ ∀ id, x = .recv id → c = .net i (.recv id) := by
    intro t t' j x hx ht hy
    unfold St.net at hx
    obtain ⟨k, hk, rfl⟩ := Option.map_eq_some_iff.1 hx
    by_cases e : i = j
    · subst e
      rw [ht] at hk
      exact .inr ⟨x, by simp only [set, if_true]; exact hk, hy⟩
    · exact .inl (by simp only [set, if_neg e]; rw [ht])
  have hent : ∀ (t : St) r ch, (t.enter r ch).c = t.c := by
    intro t r ch
    unfold St.enter
    split <;> rfl
  unfold step at h
  split at h
  · cases h
  split at h
  · split at h
    · unfold St.reg at h
      obtain ⟨t, ht, rfl⟩ := Option.map_eq_some_iff.1 h
      exact (hnet _ t _ _ ht rfl (by simp) :)
    · exact hnet _ _ _ _ h rfl (by simp)
  · split at h
    · exact hnet _ _ _ _ h rfl (by rintro _ ⟨⟩; rfl)
    · cases h
  · split at h
    · exact hnet _ _ _ _ h rfl (by simp)
    · cases h
  · split at h
    · exact hnet _ _ _ _ h rfl (by simp)
    · cases h
  · split at h
    · unfold St.cancel at h
      split at h
      · obtain ⟨p, _, h⟩ := Option.bind_eq_some_iff.1 h
        exact hnet _ _ _ _ h rfl (by simp)
      · exact hnet _ _ _ _ h rfl (by simp)
    · exact hnet _ _ _ _ h rfl (by simp)
  · cases h
  · exact hnet _ _ _ _ h rfl (by rintro _ rfl; rfl)
  · split at h
    · obtain ⟨p, _, rfl⟩ := Option.map_eq_some_iff.1 h
      exact .inl rfl
    · cases h
  · unfold St.svc at h
    split at h
    · split at h
      · obtain ⟨p, _, rfl⟩ := Option.map_eq_some_iff.1 h
        exact .inl rfl
      · split at h
        · cases h
        · obtain ⟨p, _, h⟩ := Option.bind_eq_some_iff.1 h
          split at h
          · obtain ⟨t, ht, rfl⟩ := Option.map_eq_some_iff.1 h
            rw [hent]
            exact hnet _ _ _ _ ht rfl (by simp)
          · cases h
            exact .inl rfl
    · cases h

/-- Receiving a request. -/
theorem recv_step {s s' : St} {i id : Nat} (h : step s (.net i (.recv id)) = some s') :
    Serv.step (s.c i) (.recv id) = some (s'.c i) ∧ ∀ j, j ≠ i → s'.c j = s.c j := by
  unfold step at h
  split at h
  · cases h
  simp only at h
  split at h
  · unfold St.net at h
    obtain ⟨k, hk, rfl⟩ := Option.map_eq_some_iff.1 h
    exact ⟨by simp only [set, if_true]; exact hk, fun j hj => by simp only [set, if_neg hj]⟩
  · cases h

end Verif.Served

namespace Verif.Endpoint

/-- Reading a response. -/
theorem resp_step {R cap : Nat} {s s' : St} {i id y : Nat} (h : step R cap s (.conn i (.resp id y)) = some s') :
    Conn.step (s.c i) (.resp id y) = some (s'.c i) ∧ ∀ j, j ≠ i → s'.c j = s.c j := by
  simp only [step] at h
  obtain ⟨k, hk, rfl⟩ := Option.map_eq_some_iff.1 h
  exact ⟨by simp only [Conn.set, if_true]; exact hk, fun j hj => by simp only [Conn.set, if_neg hj]⟩

theorem run_one {R cap : Nat} {s : St} {c : Choice} : run R cap s [c] = step R cap s c := by
  simp only [run]
  cases step R cap s c <;> rfl

theorem polite_append {R cap : Nat} {s s1 : St} {cs ds : List Choice} (h1 : run R cap s cs = some s1) :
    Polite R cap s (cs ++ ds) ↔ Polite R cap s cs ∧ Polite R cap s1 ds := by
  induction cs generalizing s with
  | nil => cases h1; simp [Polite]
  | cons c cs ih =>
    simp only [run] at h1
    obtain ⟨s2, h2, h3⟩ := Option.bind_eq_some_iff.1 h1
    simp only [List.cons_append, Polite]
    constructor
    · rintro ⟨p, q⟩
      have := (ih h3).1 (q _ h2)
      refine ⟨⟨p, fun s' e => ?_⟩, this.2⟩
      rw [h2] at e; cases e; exact this.1
    · rintro ⟨⟨p, q⟩, r⟩
      refine ⟨p, fun s' e => ?_⟩
      rw [h2] at e; cases e
      exact (ih h3).2 ⟨q _ h2, r⟩

end Verif.Endpoint

namespace Verif.Link

theorem run_append {l : St} {cs ds : List Choice} : run l (cs ++ ds) = (run l cs).bind fun l => run l ds := by
  induction cs generalizing l with
  | nil => rfl
  | cons c cs ih =>
    simp only [List.cons_append, run]
    cases step l c with
    | none => rfl
    | some l1 => exact ih

theorem run_snoc {l l1 l2 : St} {cs : List Choice} {c : Choice} (h : run l cs = some l1) (hs : step l1 c = some l2) :
    run l (cs ++ [c]) = some l2 := by
  rw [run_append, h]
  simp [run, hs]

theorem step_client {l : St} {c : Conn.Choice} (hc : ∀ id x, c ≠ .resp id x) :
    step l (.client c) = (Conn.step l.c c).map fun c => { l with c } := by
  cases c <;> first | rfl | exact absurd rfl (hc _ _)

theorem step_server {l : St} {c : Serv.Choice} (hc : ∀ id, c ≠ .recv id) :
    step l (.server c) = (Serv.step l.s c).map fun s => { l with s } := by
  cases c <;> first | rfl | exact absurd rfl (hc _)

end Verif.Link

namespace Verif.Whole

variable {R cap n : Nat} {own : Nat → Bool}

/-- Connection `i`. -/
def pair (w : St) (i : Nat) : Link.St := ⟨w.e.c i, w.s.c i, w.up i, w.down i⟩

/-- The three projections. -/
structure Parts (R cap n : Nat) (own : Nat → Bool) (w : St) : Prop where
  e : ∃ ds, Endpoint.run R cap Endpoint.init ds = some w.e ∧ (Endpoint.Young w.e → Endpoint.Polite R cap Endpoint.init ds)
  s : ∃ ds, Served.run (Served.init n) ds = some w.s
  l : ∀ i, own i = true → ∃ ds, Link.run Link.init ds = some (pair w i)
  o : ∀ r i, (r, some i) ∈ w.e.got → own i = true

theorem served_snoc {s0 s s' : Served.St} {ds : List Served.Choice} {c : Served.Choice} (h : Served.run s0 ds = some s)
    (hs : Served.step s c = some s') : Served.run s0 (ds ++ [c]) = some s' := by
  induction ds generalizing s0 with
  | nil => cases h; simp [Served.run, hs]
  | cons d ds ih =>
    simp only [Served.run, List.cons_append] at h ⊢
    obtain ⟨s1, h1, h2⟩ := Option.bind_eq_some_iff.1 h
    rw [h1]
    exact ih h2

theorem parts_init : Parts R cap n own (init n) :=
  ⟨⟨[], rfl, fun _ => trivial⟩, ⟨[], rfl⟩, fun _ _ => ⟨[], rfl⟩, by simp [init, Endpoint.init]⟩

theorem got_step {s s' : Endpoint.St} {c : Endpoint.Choice} (h : Endpoint.step R cap s c = some s') :
    (∀ i, c ≠ .take i) → ∀ r i, (r, some i) ∈ s'.got → (r, some i) ∈ s.got := by
  intro hc r i hm
  cases c with
  | queue x =>
    cases x <;> simp only [Endpoint.step] at h
    case recv => cases h
    case answer =>
      split at h
      · cases h
      · obtain ⟨b, _, rfl⟩ := Option.map_eq_some_iff.1 h; exact hm
    all_goals obtain ⟨b, _, rfl⟩ := Option.map_eq_some_iff.1 h; exact hm
  | fail r => cases h; exact hm
  | take j => exact absurd rfl (hc j)
  | conn j x =>
    cases x <;> simp only [Endpoint.step] at h
    case take => cases h
    case fail => cases h
    all_goals obtain ⟨b, _, rfl⟩ := Option.map_eq_some_iff.1 h; exact hm
  | drain =>
    simp only [Endpoint.step] at h
    split at h
    · cases h
      simpa using hm
    · cases h
  | ioError =>
    simp only [Endpoint.step] at h
    split at h
    · cases h; exact hm
    · cases h

theorem take_got {s s' : Endpoint.St} {j : Nat} (h : Endpoint.step R cap s (.take j) = some s') :
    ∀ r i, (r, some i) ∈ s'.got → i = j ∨ (r, some i) ∈ s.got := by
  intro r i hm
  simp only [Endpoint.step] at h
  split at h
  · cases h
  · obtain ⟨b, _, rfl⟩ := Option.map_eq_some_iff.1 h
    simp only [List.mem_cons, Prod.mk.injEq, Option.some.injEq] at hm
    rcases hm with ⟨_, rfl⟩ | hm
    · exact .inl rfl
    · exact .inr hm

theorem young_step {s s' : Endpoint.St} {c : Endpoint.Choice} (h : Endpoint.step R cap s c = some s') (hy : Endpoint.Young s') :
    Endpoint.Young s := by
  intro i
  rcases Endpoint.conn_step h i with e | ⟨x, e, _⟩
  · rw [← e]; exact hy i
  · exact Nat.le_trans (Conn.got_step e) (hy i)

/-- A step of the endpoint other than reading a response. -/
theorem parts_client {w : St} {e : Endpoint.St} {c : Endpoint.Choice} (h : Parts R cap n own w)
    (hs : Endpoint.step R cap w.e c = some e) (hc : ∀ i id y, c ≠ .conn i (.resp id y)) (ho : ∀ i, c = .take i → own i = true) :
    Parts R cap n own { w with e } := by
  obtain ⟨⟨ds, h1, h2⟩, h3, h4, h5⟩ := h
  refine ⟨⟨ds ++ [c], ?_, fun hy => ?_⟩, h3, fun i hi => ?_, fun r i hm => ?_⟩
  · rw [Endpoint.run_append, h1]; exact Endpoint.run_one.trans hs
  · rw [Endpoint.polite_append h1]
    exact ⟨h2 (young_step hs hy), fun i id x e => absurd e (hc i id x), fun _ _ => trivial⟩
  · obtain ⟨ls, hl⟩ := h4 i hi
    rcases Endpoint.conn_step hs i with e | ⟨x, e, hx⟩
    · exact ⟨ls, by rw [hl]; simp only [pair, e]⟩
    · have hn : ∀ id y, x ≠ .resp id y := fun id y hxy => hc i id y (hx id y hxy)
      exact ⟨ls ++ [.client x], Link.run_snoc hl (by rw [Link.step_client hn]; simp only [pair, e, Option.map_some])⟩
  · by_cases ht : ∃ j, c = .take j
    · obtain ⟨j, rfl⟩ := ht
      rcases take_got hs r i hm with rfl | hm
      · exact ho _ rfl
      · exact h5 r i hm
    · exact h5 r i (got_step hs (fun j e => ht ⟨j, e⟩) r i hm)

theorem parts_server {w : St} {s : Served.St} {c : Served.Choice} (h : Parts R cap n own w)
    (hs : Served.step w.s c = some s) (hc : ∀ i id, c = .net i (.recv id) → own i = false) :
    Parts R cap n own { w with s } := by
  obtain ⟨h1, ⟨ds, h3⟩, h4, h5⟩ := h
  refine ⟨h1, ⟨ds ++ [c], served_snoc h3 hs⟩, fun i hi => ?_, h5⟩
  obtain ⟨ls, hl⟩ := h4 i hi
  rcases Served.conn_step hs i with e | ⟨x, e, hx⟩
  · exact ⟨ls, by rw [hl]; simp only [pair, e]⟩
  · have hn : ∀ id, x ≠ .recv id := fun id hxy => by
      have := hc i id (hx id hxy)
      rw [hi] at this; cases this
    exact ⟨ls ++ [.server x], Link.run_snoc hl (by rw [Link.step_server hn]; simp only [pair, e, Option.map_some])⟩

theorem set_other {α : Type} {f : Nat → α} {i j : Nat} {v : α} (h : j ≠ i) : Served.set f i v j = f j := by
  simp only [Served.set, if_neg h]

theorem set_same {α : Type} {f : Nat → α} {i : Nat} {v : α} : Served.set f i v i = v := by
  simp only [Served.set, if_true]

theorem parts_step {w w' : St} {c : Choice} (h : Parts R cap n own w) (hs : step R cap own w c = some w') : Parts R cap n own w' := by
  have cl : ∀ c, (Endpoint.step R cap w.e c).map (fun e => { w with e }) = some w' → (∀ i id y, c ≠ .conn i (.resp id y)) →
      (∀ i, c = .take i → own i = true) → Parts R cap n own w' := by
    intro c hs h1 h2
    obtain ⟨e, he, rfl⟩ := Option.map_eq_some_iff.1 hs
    exact parts_client h he h1 h2
  have sv : ∀ c, (Served.step w.s c).map (fun s => { w with s }) = some w' → (∀ i id, c = .net i (.recv id) → own i = false) →
      Parts R cap n own w' := by
    intro c hs h1
    obtain ⟨e, he, rfl⟩ := Option.map_eq_some_iff.1 hs
    exact parts_server h he h1
  unfold step at hs
  split at hs
  · cases hs
  · split at hs
    · exact cl _ hs (by simp) (by rintro _ ⟨⟩; assumption)
    · cases hs
  · rename_i c h1 h2
    exact cl _ hs (fun i id y e => h1 i id y e) (fun i e => absurd e (h2 i))
  · split at hs
    · cases hs
    · exact sv _ hs (by rintro _ _ ⟨⟩; exact Bool.eq_false_iff.2 (by assumption))
  · rename_i c h1
    exact sv _ hs (fun i id e => absurd e (h1 i id))
  · -- the server reads
    split at hs
    · split at hs
      · cases hs
      · rename_i i ho _ id r f hw
        obtain ⟨s, he, rfl⟩ := Option.map_eq_some_iff.1 hs
        obtain ⟨h1, ⟨ds, h3⟩, h4, h5⟩ := h
        obtain ⟨g1, g2⟩ := Served.recv_step he
        refine ⟨h1, ⟨_, served_snoc h3 he⟩, fun j hj => ?_, h5⟩
        obtain ⟨ls, hl⟩ := h4 j hj
        by_cases e : j = i
        · subst e
          refine ⟨ls ++ [.up], Link.run_snoc hl ?_⟩
          simp only [Link.step, pair, hw, g1, Option.map_some, set_same]
        · exact ⟨ls, by rw [hl]; simp only [pair, g2 j e, set_other e]⟩
    · cases hs
  · -- the client reads
    split at hs
    · split at hs
      · cases hs
      · rename_i i ho _ _ hw
        split at hs <;> cases hs
        rename_i hr
        obtain ⟨h1, h3, h4, h5⟩ := h
        refine ⟨h1, h3, fun j hj => ?_, h5⟩
        obtain ⟨ls, hl⟩ := h4 j hj
        by_cases e : j = i
        · subst e
          refine ⟨ls ++ [.down], Link.run_snoc hl ?_⟩
          simp only [Link.step, pair, hw, hr, if_true, set_same]
        · exact ⟨ls, by rw [hl]; simp only [pair, set_other e]⟩
      · rename_i i ho _ id k hw
        obtain ⟨e', he, rfl⟩ := Option.map_eq_some_iff.1 hs
        obtain ⟨⟨ds, h1, h2⟩, h3, h4, h5⟩ := h
        obtain ⟨g1, g2⟩ := Endpoint.resp_step he
        refine ⟨⟨ds ++ [.conn i (.resp id k)], ?_, fun hy => ?_⟩, h3, fun j hj => ?_, ?_⟩
        · rw [Endpoint.run_append, h1]; exact Endpoint.run_one.trans he
        · rw [Endpoint.polite_append h1]
          have hy := young_step he hy
          refine ⟨h2 hy, ?_, fun _ _ => trivial⟩
          rintro _ _ _ ⟨⟩
          obtain ⟨ls, hl⟩ := h4 i ho
          exact Link.expected (Link.reach hl (hy i)) hw
        · obtain ⟨ls, hl⟩ := h4 j hj
          by_cases e : j = i
          · subst e
            refine ⟨ls ++ [.down], Link.run_snoc hl ?_⟩
            simp only [Link.step, pair, hw, g1, Option.map_some, set_same]
          · exact ⟨ls, by rw [hl]; simp only [pair, g2 j e, set_other e]⟩
        · exact fun r i hm => h5 r i (got_step he (by simp) r i hm)
    · cases hs

theorem parts_run {w w' : St} {cs : List Choice} (h : Parts R cap n own w) (hs : run R cap own w cs = some w') : Parts R cap n own w' := by
  induction cs generalizing w with
  | nil => cases hs; exact h
  | cons c cs ih =>
    simp only [run] at hs
    obtain ⟨w1, h1, h2⟩ := Option.bind_eq_some_iff.1 hs
    exact ih (parts_step h h1) h2

theorem reach {w : St} {cs : List Choice} (hs : run R cap own (init n) cs = some w) : Parts R cap n own w := parts_run parts_init hs

/-- Fewer ids are used than steps made. -/
theorem young_step_le {w w' : St} {c : Choice} (hs : step R cap own w c = some w') (i : Nat) : (w'.e.c i).h.got ≤ (w.e.c i).h.got + 1 := by
  have cl : ∀ c e, Endpoint.step R cap w.e c = some e → (e.c i).h.got ≤ (w.e.c i).h.got + 1 := by
    intro c e he
    rcases Endpoint.conn_step he i with e | ⟨x, e, _⟩
    · rw [e]; omega
    · exact Conn.got_le e
  unfold step at hs
  (repeat' split at hs) <;>
    first
    | (cases hs; done)
    | (cases hs; dsimp only; omega)
    | (obtain ⟨e, he, rfl⟩ := Option.map_eq_some_iff.1 hs
       first | exact cl _ _ he | exact Nat.le_succ _)

theorem young_run {w w' : St} {cs : List Choice} (hs : run R cap own w cs = some w') (i : Nat) :
    (w'.e.c i).h.got ≤ (w.e.c i).h.got + cs.length := by
  induction cs generalizing w with
  | nil => cases hs; simp
  | cons c cs ih =>
    simp only [run] at hs
    obtain ⟨w1, h1, h2⟩ := Option.bind_eq_some_iff.1 hs
    have := ih h2
    have := young_step_le h1 i
    simp only [List.length_cons]
    omega

end Verif.Whole
