import Verif.Proofs.Whole
import Verif.Proofs.ServedLive
/-!
Both ends go on: a measure that each step lowers.
-/
namespace Verif.Served

theorem all_congr {f g : Nat → Nat} {l : List Nat} (h : ∀ i, i ∈ l → f i = g i) : all f l = all g l := by
  have h1 := all_le fun i hi => Nat.le_of_eq (h i hi)
  have h2 := all_le fun i hi => Nat.le_of_eq (h i hi).symm
  omega

theorem tot_congr {f g : Nat → Nat} {m : Nat} (h : ∀ i, i < m → f i = g i) : tot f m = tot g m := by
  have h1 := tot_le fun i hi => Nat.le_of_eq (h i hi)
  have h2 := tot_le fun i hi => Nat.le_of_eq (h i hi).symm
  omega

/-- What the read loop of a connection has to do. -/
def pr : Serv.RPc → Nat
  | .reg _ => 28
  | .pong _ => 9
  | .notify => 1
  | _ => 0

/-- The read loop of a connection goes on. -/
theorem load_rl {n : Nat} {l : List Nat} {dn : Nat → Nat} {s s' : St} {i : Nat} (hn : l.Nodup) (g : Inv n s) (hd : s.dead = false)
    (hs : step s (.net i .rl) = some s') :
    load l dn s' + pr (s'.c i).rp + 1 ≤ load l dn s + pr (s.c i).rp ∧ s'.dead = false ∧ s'.p = s.p ∧ (∀ j, j ≠ i → s'.c j = s.c j) ∧
      (s'.c i).pings = (s.c i).pings ∧ (s'.c i).wp = (s.c i).wp ∧ (s'.c i).wire = (s.c i).wire ∧ s.m ≤ s'.m ∧
      ((s'.c i).rp = .notify ∨ (s'.c i).rp = .done → (s.c i).rp = .notify) := by
  have hinv := g.ci i
  have hp := g.alive hd i
  unfold step at hs
  rw [if_neg (by rw [hd]; simp)] at hs
  dsimp only at hs
  split at hs
  · rename_i id hr
    unfold St.reg St.net at hs
    simp only [Option.map_eq_some_iff] at hs
    obtain ⟨s1, ⟨x, hx, rfl⟩, rfl⟩ := hs
    have hx2 := (Serv.step1_of hx).2
    simp only [Serv.step1, Serv.stepR, hr] at hx2
    split at hx2
    case isFalse => cases hx2
    have hxp : x.panicked = false := by cases hx2; exact hp
    have hxrp : x.rp = .run := by cases hx2; rfl
    have hxrs : x.rs = Serv.set (s.c i).rs (s.c i).n .sent := by cases hx2; rfl
    have hxw : x.wp = (s.c i).wp ∧ x.out = (s.c i).out ∧ x.wire = (s.c i).wire ∧ x.pings = (s.c i).pings := by cases hx2; exact ⟨rfl, rfl, rfl, rfl⟩
    obtain ⟨w1, w2, w3, w4⟩ := hxw
    refine ⟨?_, hxp, rfl, fun j hj => by simp [set, hj], by simp [set, w4], by simp [set, w1], by simp [set, w3], by simp, by simp [set, hxrp]⟩
    have e1 : all (fun j => Serv.ww (dn j) (set s.c i x j)) l = all (fun j => Serv.ww (dn j) (s.c j)) l := by
      apply all_congr
      intro j _
      unfold set
      split
      · rename_i e; subst e; simp [Serv.ww, w1, w2, w3]
      · rfl
    have e2 : tot (fun r => Serv.rw ((set s.c i x (set s.conn s.m i r)).rs (set s.key s.m (s.c i).n r))) s.m =
        tot (fun r => Serv.rw (s.resp r)) s.m := by
      apply tot_congr
      intro r hr
      have hne : r ≠ s.m := by omega
      have := (g.lt1 r hr).1
      simp only [set, hne, if_false]
      split
      · rename_i e
        rw [e] at this
        rw [hxrs]
        simp only [Serv.set, St.resp, e]
        rw [if_neg (by omega)]
      · rfl
    have e3 : tot (fun r => if set s.rd i (some s.m) (set s.conn s.m i r) = some r then 1 else 0) s.m ≤
        tot (fun r => if s.rd (s.conn r) = some r then 1 else 0) s.m := by
      apply tot_le
      intro r hr
      have hne : r ≠ s.m := by omega
      simp only [set, hne, if_false]
      split
      · rename_i e
        rw [if_neg (by simp; omega)]
        exact Nat.zero_le _
      · exact Nat.le_refl _
    unfold load St.resp at *
    simp only [tot] at *
    rw [hr]
    have e4 : (set s.c i x i).rp = .run := by simp [set, hxrp]
    rw [e4]
    simp only [pr]
    have e5 : (if set s.rd i (some s.m) (set s.conn s.m i s.m) = some s.m then 1 else 0) = 1 := by simp [set]
    have e6 : Serv.rw ((set s.c i x (set s.conn s.m i s.m)).rs (set s.key s.m (s.c i).n s.m)) = 11 := by simp [set, hxrs, Serv.set, Serv.rw]
    have e7 : (if s.p.rs s.m = .new then 15 else 0) ≤ 15 := by split <;> omega
    rw [e5, e6]
    omega
  · rename_i hr
    unfold St.net at hs
    simp only [Option.map_eq_some_iff] at hs
    obtain ⟨x, hx, rfl⟩ := hs
    have hx2 := (Serv.step1_of hx).2
    simp only [Serv.step1, Serv.stepR] at hx2
    split at hx2
    · rename_i id hpg
      have hc : (s.c i).outClosed = false := by
        cases e : (s.c i).outClosed with
        | false => rfl
        | true =>
          have := hinv.rd1 (hinv.clo e).1
          rw [hpg] at this
          cases this
      simp only [hc, Bool.false_eq_true, if_false] at hx2
      split at hx2
      case isFalse => cases hx2
      have f1 : x.panicked = false ∧ x.rp = .run ∧ x.rs = (s.c i).rs ∧ x.wp = (s.c i).wp ∧ x.out = (s.c i).out ++ [.pong id] ∧
          x.wire = (s.c i).wire ∧ x.pings = (s.c i).pings := by cases hx2; exact ⟨hp, rfl, rfl, rfl, rfl, rfl, rfl⟩
      obtain ⟨f1, f2, f3, f4, f5, f6, f7⟩ := f1
      refine ⟨?_, f1, rfl, fun j hj => by simp [set, hj], by simp [set, f7], by simp [set, f4], by simp [set, f6], Nat.le_refl _,
        by simp [set, f2]⟩
      have e1 : all (fun j => Serv.ww (dn j) (set s.c i x j)) l ≤ all (fun j => Serv.ww (dn j) (s.c j)) l + 8 := by
        apply all_grow (x := i) hn
        · intro y hy; simp [set, hy]
        · simp [set, Serv.ww, f4, f5, f6]; omega
      have e2 : tot (fun r => Serv.rw ((set s.c i x (s.conn r)).rs (s.key r))) s.m = tot (fun r => Serv.rw (s.resp r)) s.m := by
        apply tot_congr
        intro r hr
        unfold set
        split
        · rename_i e; simp [St.resp, e, f3]
        · rfl
      have e4 : (set s.c i x i).rp = .run := by simp [set, f2]
      unfold load St.resp at *
      rw [hpg, e4]
      simp only [pr] at *
      omega
    · rename_i id hg; exact absurd hg (hr id)
    · rename_i hg
      split at hx2 <;> cases hx2
      refine ⟨?_, hp, rfl, fun j hj => by simp [set, hj], by simp [set], by simp [set], by simp [set], Nat.le_refl _, by simp [hg]⟩
      have e1 : all (fun j => Serv.ww (dn j) (set s.c i { s.c i with q := (s.c i).q ++ [.readClosed], rp := .done } j)) l =
          all (fun j => Serv.ww (dn j) (s.c j)) l := by
        apply all_congr
        intro y _
        unfold set
        split
        · rename_i e; subst e; rfl
        · rfl
      have e2 : tot (fun r => Serv.rw ((set s.c i { s.c i with q := (s.c i).q ++ [.readClosed], rp := .done } (s.conn r)).rs (s.key r))) s.m =
          tot (fun r => Serv.rw (s.resp r)) s.m := by
        apply tot_congr
        intro r hr
        unfold set
        split
        · rename_i e; simp [St.resp, e]
        · rfl
      unfold load St.resp at *
      rw [hg]
      simp only [pr, set, if_true] at *
      omega
    · cases hx2

/-- It reads a request. -/
theorem load_recv {l : List Nat} {dn : Nat → Nat} {s s' : St} {i id : Nat} (hn : ∀ j, (s.c j).panicked = false)
    (hs : step s (.net i (.recv id)) = some s') :
    load l dn s' = load l dn s ∧ (s.c i).rp = .run ∧ (s'.c i).rp = .reg id ∧ s'.dead = false ∧ s'.p = s.p ∧ (∀ j, j ≠ i → s'.c j = s.c j) ∧
      (s'.c i).pings = (s.c i).pings ∧ (s'.c i).wp = (s.c i).wp ∧ (s'.c i).n = (s.c i).n ∧ s'.m = s.m := by
  unfold step at hs
  split at hs
  · cases hs
  dsimp only at hs
  split at hs
  case isFalse => cases hs
  unfold St.net at hs
  simp only [Option.map_eq_some_iff] at hs
  obtain ⟨x, hx, rfl⟩ := hs
  have hx2 := (Serv.step1_of hx).2
  simp only [Serv.step1] at hx2
  split at hx2 <;> cases hx2
  rename_i hr
  refine ⟨?_, hr, by simp [set], hn i, rfl, fun j hj => by simp [set, hj], by simp [set], by simp [set], by simp [set], rfl⟩
  have e1 : all (fun j => Serv.ww (dn j) (set s.c i { s.c i with rp := .reg id } j)) l = all (fun j => Serv.ww (dn j) (s.c j)) l := by
    apply all_congr
    intro y _
    unfold set
    split
    · rename_i e; subst e; rfl
    · rfl
  have e2 : tot (fun r => Serv.rw ((set s.c i { s.c i with rp := .reg id } (s.conn r)).rs (s.key r))) s.m =
      tot (fun r => Serv.rw (s.resp r)) s.m := by
    apply tot_congr
    intro r hr
    unfold set
    split
    · rename_i e; simp [St.resp, e]
    · rfl
  unfold load St.resp at *
  simp only at *
  omega

end Verif.Served

namespace Verif.Conn

/-- What is left to do for the write loop with the request it has. -/
def we : WPc → Nat
  | .header _ _ _ => 31
  | .write _ _ _ => 30
  | _ => 0

def pend : WPc → Nat
  | .header _ _ _ => 1
  | .write _ _ _ => 1
  | _ => 0

/-- ... and for the read loop. -/
def wr : RPc → Nat
  | .reply _ _ _ => 1
  | _ => 0

theorem eff_header {k k' : St} (h : step k .header = some k') :
    (∃ r o j id f, k.wp = .header r o j ∧ k'.wp = .write id r f) ∧ k'.wire = k.wire ∧ k'.rp = k.rp ∧ k'.h.got = k.h.got := by
  simp only [step] at h
  split at h <;> cases h
  exact ⟨⟨_, _, _, _, _, by assumption, rfl⟩, rfl, rfl, rfl⟩

theorem eff_wrote {k k' : St} (h : step k (.wrote true) = some k') :
    (∃ r id f, k.wp = .write id r f ∧ k'.wire = k.wire ++ [(id, r, f)]) ∧ k'.wp = .loop ∧ k'.rp = k.rp ∧ k'.h.got = k.h.got := by
  simp only [step] at h
  split at h
  · rw [if_pos trivial] at h
    cases h
    exact ⟨⟨_, _, _, by assumption, rfl⟩, rfl, rfl, rfl⟩
  · cases h

theorem respond_rest (k : St) (r : Nat) (a : Ans) : (respond k r a).wire = k.wire ∧ (respond k r a).wp = k.wp := by
  unfold respond
  split
  · exact ⟨rfl, rfl⟩
  · exact ⟨rfl, rfl⟩

theorem eff_reply {k k' : St} (h : step k .reply = some k') :
    wr k.rp = 1 ∧ k'.rp = .read ∧ k'.wire = k.wire ∧ k'.wp = k.wp ∧ k'.h.got = k.h.got := by
  simp only [step] at h
  split at h <;> cases h
  · rename_i e; exact ⟨by rw [e]; rfl, rfl, rfl, rfl, rfl⟩
  · rename_i r id c e
    exact ⟨by rw [e]; rfl, rfl, (respond_rest _ _ _).1, (respond_rest _ _ _).2, got_respond _ _ _⟩

theorem eff_resp {k k' : St} {id c : Nat} (h : step k (.resp id c) = some k') :
    k.rp = .read ∧ wr k'.rp ≤ 1 ∧ k'.rp ≠ .ended ∧ k'.wire = k.wire ∧ k'.wp = k.wp ∧ k'.h.got = k.h.got := by
  simp only [step] at h
  split at h
  · rename_i hr
    split at h <;> cases h
    · rename_i e; exact ⟨hr.1, Nat.le_refl _, by simp, rfl, rfl, got_remove e⟩
    · exact ⟨hr.1, by simp [wr], by simp, rfl, rfl, rfl⟩
  · cases h

end Verif.Conn

namespace Verif.Whole
open Served (all all_le all_drop all_grow all_congr)

variable {R cap n : Nat} {own : Nat → Bool}

/-- What is left to do on connection `i` besides what the server has to do. -/
def sm (w : St) (i : Nat) : Nat :=
  29 * ((w.e.c i).wire.length - w.up i) + Conn.we (w.e.c i).wp + Conn.wr (w.e.c i).rp + Served.pr (w.s.c i).rp

def todo (l : List Nat) (w : St) : Nat := Served.load l w.down w.s + all (sm w) l

/-- What is kept up. -/
structure Go (R cap n : Nat) (own : Nat → Bool) (l : List Nat) (w : St) : Prop where
  parts : Parts R cap n own w
  young : Endpoint.Young w.e
  live : w.s.dead = false
  few : ∀ i, i ∉ l → Served.Few w.s i
  room : ∀ i, i ∈ l → (w.e.c i).wire.length + Conn.pend (w.e.c i).wp + (w.s.c i).pings.length ≤ 128
  mine : ∀ i, i ∈ l → own i = true

theorem Go.link {l : List Nat} {w : St} (g : Go R cap n own l w) {i : Nat} (hi : i ∈ l) : Link.Inv (pair w i) := by
  obtain ⟨ls, h⟩ := g.parts.l i (g.mine i hi)
  exact Link.reach h (g.young i)

theorem Go.going {l : List Nat} {w : St} (g : Go R cap n own l w) : Served.Going n w.s := by
  obtain ⟨ds, h⟩ := g.parts.s
  refine ⟨Served.inv_run (Served.inv_init n) h, Served.fresh_run (Served.inv_init n) ⟨by simp [Served.init], by simp [Served.init, Serv.init]⟩ h,
    g.live, fun i => ?_⟩
  by_cases hi : i ∈ l
  · have hl := g.link hi
    have hr := g.room i hi
    have : (w.s.c i).n ≤ (w.e.c i).wire.length := by
      apply Classical.byContradiction
      intro hn
      obtain ⟨r, f, e⟩ := hl.ids (w.e.c i).wire.length (by show _ < (w.s.c i).n; omega)
      have : (w.e.c i).wire[(w.e.c i).wire.length]? = some ((pair w i).s.idOf (w.e.c i).wire.length, r, f) := e
      simp at this
    unfold Served.Few
    omega
  · exact g.few i hi

/-- A step of one side of connection `i` of the endpoint. -/
theorem conn_eff {e e' : Endpoint.St} {i : Nat} {x : Conn.Choice} (hx : x = .header ∨ x = .wrote true ∨ x = .reply ∨ ∃ id c, x = .resp id c)
    (h : Endpoint.step R cap e (.conn i x) = some e') : ∃ k, Conn.step (e.c i) x = some k ∧ e'.c = Conn.set e.c i k := by
  rcases hx with rfl | rfl | rfl | ⟨id, c, rfl⟩ <;> simp only [Endpoint.step, Option.map_eq_some_iff] at h <;> obtain ⟨k, hk, rfl⟩ := h <;>
    exact ⟨k, hk, rfl⟩

/-- What a step does to the rest. -/
structure Eff (l : List Nat) (w w' : St) : Prop where
  low : todo l w' < todo l w
  young : Endpoint.Young w'.e
  live : w'.s.dead = false
  stop : w'.s.p.stop = .idle ↔ w.s.p.stop = .idle
  few : ∀ i, i ∉ l → (w'.s.c i).n = (w.s.c i).n
  pings : ∀ i, (w'.s.c i).pings = (w.s.c i).pings
  room : ∀ i, (w'.e.c i).wire.length + Conn.pend (w'.e.c i).wp = (w.e.c i).wire.length + Conn.pend (w.e.c i).wp
  carries : ∀ i r, Carries w i r → Carries w' i r
  opn : ∀ i, Open w i → Open w' i

theorem eff_server {l : List Nat} {w : St} {s : Served.St} {x : Served.Choice} {ret : Nat → Parallel.Outcome} (hn : l.Nodup)
    (g : Go R cap n own l w) (hf : Served.Forth ret l x) (hs : Served.step w.s x = some s) : Eff l w { w with s } := by
  obtain ⟨h1, h2, h4, h3⟩ := Served.forth_step (dn := w.down) hn g.going hf hs
  refine ⟨?_, g.young, h3.live, h4, fun i _ => (h2.same i).n, fun i => (h2.same i).pings, fun _ => rfl, fun _ _ h => h, fun i h => ?_⟩
  · unfold todo
    have : all (sm { w with s }) l = all (sm w) l := by
      apply all_congr
      intro i _
      simp only [sm, (h2.same i).rp]
    rw [this]
    show Served.load l w.down s + _ < _
    omega
  · refine ⟨h.client, ?_, ?_⟩
    · show (s.c i).rp ≠ _ ∧ (s.c i).rp ≠ _
      rw [(h2.same i).rp]
      exact h.server
    · have := (h2.same i).fail
      refine ⟨fun e => ?_, fun e => ?_⟩
      · rcases this (.inl e) with e | e
        · exact h.out.1 e
        · exact h.out.2 e
      · rcases this (.inr e) with e | e
        · exact h.out.1 e
        · exact h.out.2 e

theorem eff_rl {l : List Nat} {w : St} {s : Served.St} {i : Nat} (hn : l.Nodup) (g : Go R cap n own l w) (hi : i ∈ l)
    (hs : Served.step w.s (.net i .rl) = some s) : Eff l w { w with s } := by
  obtain ⟨h1, h2, h3, h4, h5, h6, h7, h8, h9⟩ := Served.load_rl (dn := w.down) hn g.going.inv g.live hs
  refine ⟨?_, g.young, h2, by show s.p.stop = _ ↔ _; rw [h3], fun j hj => ?_, fun j => ?_, fun _ => rfl, fun _ _ h => h, fun j h => ?_⟩
  · unfold todo
    have : all (sm { w with s }) l + Served.pr (w.s.c i).rp ≤ all (sm w) l + Served.pr (s.c i).rp := by
      have e1 : all (fun j => sm { w with s } j + (if j = i then Served.pr (w.s.c i).rp else 0)) l =
          all (fun j => sm w j + (if j = i then Served.pr (s.c i).rp else 0)) l := by
        apply all_congr
        intro j _
        by_cases e : j = i
        · subst e; simp only [sm, if_true]; omega
        · simp only [sm, e, if_false, h4 j e]
      have split : ∀ (f : Nat → Nat) (c : Nat), all (fun j => f j + (if j = i then c else 0)) l = all f l + c := by
        intro f c
        have aux : ∀ l : List Nat, l.Nodup → all (fun j => f j + (if j = i then c else 0)) l = all f l + (if i ∈ l then c else 0) := by
          intro l
          induction l with
          | nil => intro _; simp [all]
          | cons a l ih =>
            intro hn
            rw [List.nodup_cons] at hn
            have := ih hn.2
            unfold all at *
            simp only [List.map_cons, List.sum_cons, this, List.mem_cons]
            by_cases e : a = i
            · subst e; simp [hn.1]; omega
            · have : i ≠ a := fun h => e h.symm
              simp [e, this]; omega
        rw [aux l hn, if_pos hi]
      rw [split, split] at e1
      omega
    show Served.load l w.down s + _ < _
    omega
  · show (s.c j).n = _
    rw [h4 j (fun e => hj (e ▸ hi))]
  · show (s.c j).pings = _
    by_cases e : j = i
    · subst e; exact h5
    · rw [h4 j e]
  · by_cases e : j = i
    · subst e
      refine ⟨h.client, ⟨fun e => ?_, fun e => ?_⟩, ?_⟩
      · exact h.server.1 (h9 (.inl e))
      · exact h.server.1 (h9 (.inr e))
      · show (s.c j).wp ≠ _ ∧ (s.c j).wp ≠ _
        rw [h6]
        exact h.out
    · refine ⟨h.client, ?_, ?_⟩
      · show (s.c j).rp ≠ _ ∧ (s.c j).rp ≠ _
        rw [h4 j e]; exact h.server
      · show (s.c j).wp ≠ _ ∧ (s.c j).wp ≠ _
        rw [h4 j e]; exact h.out

theorem eff_up {l : List Nat} {w : St} {s : Served.St} {i id : Nat} (g : Go R cap n own l w) (hi : i ∈ l)
    (hu : w.up i < (w.e.c i).wire.length) (hs : Served.step w.s (.net i (.recv id)) = some s) :
    Eff l w { w with s, up := Served.set w.up i (w.up i + 1) } := by
  obtain ⟨h1, h2, h3, h4, h5, h6, h7, h8, h9, h10⟩ := Served.load_recv (l := l) (dn := w.down) (g.going.inv.alive g.live) hs
  refine ⟨?_, g.young, h4, by show s.p.stop = _ ↔ _; rw [h5], fun j hj => ?_, fun j => ?_, fun _ => rfl, fun _ _ h => h, fun j h => ?_⟩
  · unfold todo
    have : all (sm { w with s, up := Served.set w.up i (w.up i + 1) }) l + 1 ≤ all (sm w) l := by
      have hx : sm { w with s, up := Served.set w.up i (w.up i + 1) } i + 1 ≤ sm w i := by
        simp only [sm, set_same, h2, h3, Served.pr]
        omega
      refine all_drop (fun j _ => ?_) hi hx
      by_cases e : j = i
      · subst e; omega
      · simp only [sm, set_other e, h6 j e]; exact Nat.le_refl _
    show Served.load l w.down s + _ < _
    omega
  · show (s.c j).n = _
    rw [h6 j (fun e => hj (e ▸ hi))]
  · show (s.c j).pings = _
    by_cases e : j = i
    · subst e; exact h7
    · rw [h6 j e]
  · by_cases e : j = i
    · subst e
      refine ⟨h.client, ?_, ?_⟩
      · show (s.c j).rp ≠ _ ∧ (s.c j).rp ≠ _
        rw [h3]; simp
      · show (s.c j).wp ≠ _ ∧ (s.c j).wp ≠ _
        rw [h8]
        exact h.out
    · refine ⟨h.client, ?_, ?_⟩
      · show (s.c j).rp ≠ _ ∧ (s.c j).rp ≠ _
        rw [h6 j e]; exact h.server
      · show (s.c j).wp ≠ _ ∧ (s.c j).wp ≠ _
        rw [h6 j e]; exact h.out

/-- Steps of the client's side of connection `i`. -/
theorem eff_client {l : List Nat} {w : St} {e : Endpoint.St} {k : Conn.St} {i : Nat} {dn : Nat → Nat} (g : Go R cap n own l w)
    (he : e.c = Conn.set w.e.c i k) (hg : k.h.got = (w.e.c i).h.got) (hd : ∀ j, j ≠ i → dn j = w.down j)
    (hrm : k.wire.length + Conn.pend k.wp = (w.e.c i).wire.length + Conn.pend (w.e.c i).wp)
    (hlow : todo l { w with e, down := dn } < todo l w)
    (hc : ∀ r, Carries w i r → (∃ id f, (id, r, f) ∈ k.wire) ∨ (∃ o j, k.wp = .header r o j) ∨ ∃ id f, k.wp = .write id r f)
    (ho : (w.e.c i).rp ≠ .ended → k.rp ≠ .ended) : Eff l w { w with e, down := dn } := by
  have hsame : e.c i = k := by rw [he]; simp [Conn.set]
  have hoth : ∀ j, j ≠ i → e.c j = w.e.c j := by intro j hj; rw [he]; simp [Conn.set, hj]
  refine ⟨hlow, fun j => ?_, g.live, Iff.rfl, fun _ _ => rfl, fun _ => rfl, fun j => ?_, fun j r h => ?_, fun j h => ?_⟩
  · have := g.young j
    by_cases ej : j = i
    · subst ej; unfold Conn.Young at *; show (e.c j).h.got ≤ _; rw [hsame, hg]; exact this
    · show Conn.Young (e.c j); rw [hoth j ej]; exact this
  · by_cases ej : j = i
    · subst ej; show (e.c j).wire.length + Conn.pend (e.c j).wp = _; rw [hsame]; exact hrm
    · show (e.c j).wire.length + Conn.pend (e.c j).wp = _; rw [hoth j ej]
  · by_cases ej : j = i
    · subst ej
      have := hc r h
      unfold Carries
      show (∃ id f, (id, r, f) ∈ (e.c j).wire) ∨ (∃ o y, (e.c j).wp = .header r o y) ∨ ∃ id f, (e.c j).wp = .write id r f
      rw [hsame]
      exact this
    · unfold Carries at *
      show (∃ id f, (id, r, f) ∈ (e.c j).wire) ∨ (∃ o y, (e.c j).wp = .header r o y) ∨ ∃ id f, (e.c j).wp = .write id r f
      rw [hoth j ej]
      exact h
  · refine ⟨?_, h.server, h.out⟩
    show (e.c j).rp ≠ _
    by_cases ej : j = i
    · subst ej; rw [hsame]; exact ho h.client
    · rw [hoth j ej]; exact h.client

theorem low_client {l : List Nat} {w : St} {e : Endpoint.St} {k : Conn.St} {i : Nat} (hi : i ∈ l) (he : e.c = Conn.set w.e.c i k)
    (h : 29 * (k.wire.length - w.up i) + Conn.we k.wp + Conn.wr k.rp + 1 ≤
      29 * ((w.e.c i).wire.length - w.up i) + Conn.we (w.e.c i).wp + Conn.wr (w.e.c i).rp) : todo l { w with e } < todo l w := by
  unfold todo
  have hsame : e.c i = k := by rw [he]; simp [Conn.set]
  have hoth : ∀ j, j ≠ i → e.c j = w.e.c j := by intro j hj; rw [he]; simp [Conn.set, hj]
  have : all (sm { w with e }) l + 1 ≤ all (sm w) l := by
    have hx : sm { w with e } i + 1 ≤ sm w i := by
      simp only [sm, hsame]
      omega
    refine all_drop (fun j _ => ?_) hi hx
    by_cases e : j = i
    · subst e; omega
    · simp only [sm, hoth j e]; exact Nat.le_refl _
  show Served.load l w.down w.s + _ < _
  omega

/-- What the client has read of the responses. -/
theorem low_down {l : List Nat} {w : St} {e : Endpoint.St} {k : Conn.St} {i : Nat} (hi : i ∈ l) (he : e.c = Conn.set w.e.c i k)
    (hd : w.down i < (w.s.c i).wire.length) (hw : k.wire = (w.e.c i).wire ∧ k.wp = (w.e.c i).wp) (hr : Conn.wr k.rp ≤ Conn.wr (w.e.c i).rp + 1) :
    todo l { w with e, down := Served.set w.down i (w.down i + 1) } < todo l w := by
  have hsame : e.c i = k := by rw [he]; simp [Conn.set]
  have hoth : ∀ j, j ≠ i → e.c j = w.e.c j := by intro j hj; rw [he]; simp [Conn.set, hj]
  have key : all (fun j => sm { w with e, down := Served.set w.down i (w.down i + 1) } j +
        Serv.ww (Served.set w.down i (w.down i + 1) j) (w.s.c j)) l + 1 ≤ all (fun j => sm w j + Serv.ww (w.down j) (w.s.c j)) l := by
    have hx : sm { w with e, down := Served.set w.down i (w.down i + 1) } i + Serv.ww (Served.set w.down i (w.down i + 1) i) (w.s.c i) + 1 ≤
        sm w i + Serv.ww (w.down i) (w.s.c i) := by
      simp only [sm, hsame, hw.1, hw.2, set_same, Serv.ww]
      omega
    refine all_drop (fun j _ => ?_) hi hx
    by_cases e : j = i
    · subst e; omega
    · simp only [sm, hoth j e, set_other e]; exact Nat.le_refl _
  have add : ∀ (f g : Nat → Nat), all (fun j => f j + g j) l = all f l + all g l := by
    intro f g
    unfold all
    induction l with
    | nil => rfl
    | cons a l ih =>
      simp only [List.map_cons, List.sum_cons]
      have := fun h => ih h
      clear key
      have aux : ∀ l : List Nat, (l.map fun j => f j + g j).sum = (l.map f).sum + (l.map g).sum := by
        intro l
        induction l with
        | nil => rfl
        | cons a l ih => simp only [List.map_cons, List.sum_cons, ih]; omega
      rw [aux]; omega
  rw [add, add] at key
  unfold todo Served.load
  dsimp only at key ⊢
  omega

theorem whole_step {l : List Nat} {w w' : St} {c : Choice} {ret : Nat → Parallel.Outcome} (hn : l.Nodup) (g : Go R cap n own l w)
    (hc : Onward ret l c) (hs : step R cap own w c = some w') : Eff l w w' := by
  rcases hc with ⟨x, rfl, hf⟩ | ⟨i, hi, rfl | rfl | rfl | rfl | rfl | rfl⟩
  · have : step R cap own w (.server x) = (Served.step w.s x).map fun s => { w with s } := by
      rcases hf with ⟨i, rfl⟩ | ⟨ch, rfl, _⟩ | ⟨i, k, rfl | rfl⟩ | ⟨i, _, rfl⟩ <;> rfl
    rw [this, Option.map_eq_some_iff] at hs
    obtain ⟨s, h1, rfl⟩ := hs
    exact eff_server hn g hf h1
  · simp only [step, Option.map_eq_some_iff] at hs
    obtain ⟨s, h1, rfl⟩ := hs
    exact eff_rl hn g hi h1
  · simp only [step, g.mine i hi, if_true] at hs
    split at hs
    · cases hs
    · rename_i id r f hw
      rw [Option.map_eq_some_iff] at hs
      obtain ⟨s, h1, rfl⟩ := hs
      exact eff_up g hi (List.getElem?_eq_some_iff.1 hw).1 h1
  · simp only [step, g.mine i hi, if_true] at hs
    split at hs
    · cases hs
    · rename_i id hw
      split at hs <;> cases hs
      have hself : w.e.c = Conn.set w.e.c i (w.e.c i) := by
        funext j
        unfold Conn.set
        split
        · subst_vars; rfl
        · rfl
      exact eff_client (e := w.e) (k := w.e.c i) (i := i) g hself rfl (fun j hj => set_other hj) rfl
        (low_down hi hself (List.getElem?_eq_some_iff.1 hw).1 ⟨rfl, rfl⟩ (by omega)) (fun r h => h) (fun h => h)
    · rename_i id k hw
      rw [Option.map_eq_some_iff] at hs
      obtain ⟨e, h1, rfl⟩ := hs
      obtain ⟨y, h2, h3⟩ := conn_eff (.inr (.inr (.inr ⟨_, _, rfl⟩))) h1
      obtain ⟨a, b, c, d, f, h⟩ := Conn.eff_resp h2
      refine eff_client g h3 h (fun j hj => set_other hj) (by rw [d, f])
        (low_down hi h3 (List.getElem?_eq_some_iff.1 hw).1 ⟨d, f⟩ (by omega)) ?_ (fun _ => c)
      intro r hr
      rw [d, f]
      exact hr
  · simp only [step, Option.map_eq_some_iff] at hs
    obtain ⟨e, h1, rfl⟩ := hs
    obtain ⟨y, h2, h3⟩ := conn_eff (.inl rfl) h1
    obtain ⟨⟨r, o, j, id, f, a, b⟩, c, d, h⟩ := Conn.eff_header h2
    refine eff_client g h3 h (fun _ _ => rfl) (by rw [a, b, c]; rfl) (low_client hi h3 (by rw [a, b, c, d]; simp only [Conn.we]; omega)) ?_
      (fun ho => by rw [d]; exact ho)
    rintro r' (⟨id', f', h'⟩ | ⟨o', j', h'⟩ | ⟨id', f', h'⟩)
    · exact .inl ⟨id', f', by rw [c]; exact h'⟩
    · rw [a] at h'; cases h'; exact .inr (.inr ⟨id, f, b⟩)
    · rw [a] at h'; cases h'
  · simp only [step, Option.map_eq_some_iff] at hs
    obtain ⟨e, h1, rfl⟩ := hs
    obtain ⟨y, h2, h3⟩ := conn_eff (.inr (.inl rfl)) h1
    obtain ⟨⟨r, id, f, a, b⟩, c, d, h⟩ := Conn.eff_wrote h2
    refine eff_client g h3 h (fun _ _ => rfl) (by rw [a, b, c]; simp [Conn.pend]) (low_client hi h3 (by
      rw [a, b, c, d]; simp only [Conn.we, List.length_append, List.length_singleton]; omega)) ?_ (fun ho => by rw [d]; exact ho)
    rintro r' (⟨id', f', h'⟩ | ⟨o', j', h'⟩ | ⟨id', f', h'⟩)
    · exact .inl ⟨id', f', by rw [b]; exact List.mem_append_left _ h'⟩
    · rw [a] at h'; cases h'
    · rw [a] at h'; cases h'; exact .inl ⟨id, f, by rw [b]; simp⟩
  · simp only [step, Option.map_eq_some_iff] at hs
    obtain ⟨e, h1, rfl⟩ := hs
    obtain ⟨y, h2, h3⟩ := conn_eff (.inr (.inr (.inl rfl))) h1
    obtain ⟨a, b, c, d, h⟩ := Conn.eff_reply h2
    refine eff_client g h3 h (fun _ _ => rfl) (by rw [c, d]) (low_client hi h3 (by rw [a, b, c, d]; simp only [Conn.wr]; omega)) ?_
      (fun _ => by rw [b]; simp)
    intro r hr
    rw [c, d]
    exact hr

theorem go_step {l : List Nat} {w w' : St} {c : Choice} {ret : Nat → Parallel.Outcome} (hn : l.Nodup) (g : Go R cap n own l w)
    (hc : Onward ret l c) (hs : step R cap own w c = some w') : Go R cap n own l w' := by
  have f := whole_step hn g hc hs
  refine ⟨parts_step g.parts hs, f.young, f.live, fun i hi => ?_, fun i hi => ?_, g.mine⟩
  · unfold Served.Few
    rw [f.few i hi, f.pings i]
    exact g.few i hi
  · rw [f.room i, f.pings i]
    exact g.room i hi

theorem go_run {l : List Nat} {w w' : St} {ds : List Choice} {ret : Nat → Parallel.Outcome} (hn : l.Nodup) (g : Go R cap n own l w)
    (hc : ∀ c ∈ ds, Onward ret l c) (hs : run R cap own w ds = some w') :
    ds.length + todo l w' ≤ todo l w ∧ Go R cap n own l w' ∧ (∀ i r, Carries w i r → Carries w' i r) ∧ (∀ i, Open w i → Open w' i) ∧
      (w'.s.p.stop = .idle ↔ w.s.p.stop = .idle) := by
  induction ds generalizing w with
  | nil => cases hs; exact ⟨by simp, g, fun _ _ h => h, fun _ h => h, Iff.rfl⟩
  | cons c ds ih =>
    simp only [run, Option.bind_eq_some_iff] at hs
    obtain ⟨w1, h1, h2⟩ := hs
    have f := whole_step hn g (hc c (List.mem_cons_self ..)) h1
    have g1 := go_step hn g (hc c (List.mem_cons_self ..)) h1
    obtain ⟨a, b, d, e, st⟩ := ih g1 (fun c hm => hc c (List.mem_cons_of_mem _ hm)) h2
    have := f.low
    refine ⟨?_, b, fun i r h => d i r (f.carries i r h), fun i h => e i (f.opn i h), st.trans f.stop⟩
    rw [List.length_cons]
    omega

/-- At rest the read loop of the server has handed over everything, and everything was read. -/
theorem rest_read {l : List Nat} {w : St} {ret : Nat → Parallel.Outcome} (g : Go R cap n own l w)
    (hq : ∀ c, Onward ret l c → step R cap own w c = none) {i : Nat} (hi : i ∈ l) (ho : Open w i) :
    (w.s.c i).n = (w.e.c i).wire.length := by
  have gs := g.going
  have hs : ∀ x, Served.Forth ret l x → Served.step w.s x = none := by
    intro x hx
    have h1 := hq (.server x) (.inl ⟨x, rfl, hx⟩)
    have : step R cap own w (.server x) = (Served.step w.s x).map fun s => { w with s } := by
      rcases hx with ⟨i, rfl⟩ | ⟨ch, rfl, _⟩ | ⟨i, k, rfl | rfl⟩ | ⟨i, _, rfl⟩ <;> rfl
    rw [this, Option.map_eq_none_iff] at h1
    exact h1
  obtain ⟨cs, hc⟩ := gs.inv.con i
  have iv := Serv.inv_run Serv.inv_init hc
  have hpn := gs.inv.alive g.live i
  have hl : (w.s.c i).lock = none := by
    cases e : (w.s.c i).lock with
    | none => rfl
    | some j => exact absurd (iv.lock1 j e) (Served.rest_unlocked gs hs _ j).1
  have hrl := hq (.server (.net i .rl)) (.inr ⟨i, hi, .inl rfl⟩)
  have hrun : (w.s.c i).rp = .run := by
    cases e : (w.s.c i).rp with
    | run => rfl
    | pong id =>
      have hoc : (w.s.c i).outClosed = false := by
        cases e' : (w.s.c i).outClosed with
        | false => rfl
        | true => have := iv.rd1 (iv.clo e').1; rw [e] at this; cases this
      have hlen := Serv.len_run Serv.inv_init Serv.len_init hc
      unfold Serv.Len Serv.flow at hlen
      rw [e, hl] at hlen
      simp only [List.length_append] at hlen
      have hfew := gs.few i
      unfold Served.Few at hfew
      have hlt : (w.s.c i).out.length < Serv.cap := by unfold Serv.cap; omega
      simp [step, Served.step, g.live, e, Served.St.net, Serv.step, hpn, Serv.step1, Serv.stepR, hoc, hlt] at hrl
    | reg id => simp [step, Served.step, g.live, e, Served.St.reg, Served.St.net, Serv.step, hpn, Serv.step1, Serv.stepR, hl] at hrl
    | notify => exact absurd e ho.server.1
    | done => exact absurd e ho.server.2
  have hrd : w.s.rd i = none := by
    cases e : w.s.rd i with
    | none => rfl
    | some r =>
      have := hs (.pass i) (.inl ⟨i, rfl⟩)
      simp [Served.step, g.live, e, Parallel.step] at this
      split at this <;> cases this
  have hup : (w.e.c i).wire.length ≤ w.up i := by
    have := hq (.up i) (.inr ⟨i, hi, .inr (.inl rfl)⟩)
    simp only [step, g.mine i hi, if_true] at this
    split at this
    · rename_i h; exact List.getElem?_eq_none_iff.1 h
    · simp [Served.step, g.live, hrd, Served.St.net, Serv.step, hpn, Serv.step1, hrun] at this
  have lk := g.link hi
  have h1 : w.up i = (w.s.c i).n := lk.nreg (fun id => by show (w.s.c i).rp ≠ _; rw [hrun]; simp)
  apply Nat.le_antisymm
  · apply Classical.byContradiction
    intro hn
    obtain ⟨r, f, e⟩ := lk.ids (w.e.c i).wire.length (by show _ < (w.s.c i).n; omega)
    have : (w.e.c i).wire[(w.e.c i).wire.length]? = some ((pair w i).s.idOf (w.e.c i).wire.length, r, f) := e
    simp at this
  · omega

/-- ... and so has the client. -/
theorem rest_got {l : List Nat} {w : St} {ret : Nat → Parallel.Outcome} (g : Go R cap n own l w)
    (hq : ∀ c, Onward ret l c → step R cap own w c = none) {i : Nat} (hi : i ∈ l) (ho : Open w i) :
    (w.e.c i).rp = .read ∧ w.down i = (w.s.c i).wire.length := by
  have lk := g.link hi
  have hread : (w.e.c i).rp = .read := by
    have := hq (.client (.conn i .reply)) (.inr ⟨i, hi, .inr (.inr (.inr (.inr (.inr rfl))))⟩)
    cases e : (w.e.c i).rp with
    | read => rfl
    | reply q id k => cases q <;> simp [step, Endpoint.step, Conn.step, e] at this
    | ended => exact absurd e ho.client
    | panicked => exact absurd e lk.c.noPanic.1
  refine ⟨hread, Nat.le_antisymm lk.down ?_⟩
  have := hq (.down i) (.inr ⟨i, hi, .inr (.inr (.inl rfl))⟩)
  simp only [step, g.mine i hi, if_true] at this
  split at this
  · rename_i h; exact List.getElem?_eq_none_iff.1 h
  · rw [if_pos hread] at this; cases this
  · rename_i id k h
    obtain ⟨-, -, r, f, -, h2⟩ := Link.item_wire lk (List.mem_of_getElem? h)
    have h3 := lk.c.idRange r id h2
    have h4 := lk.c.hh.cur
    have h5 := lk.c.hh.young
    have hM : id < Conn.M := by
      simp only [pair] at h3 h4 h5
      have : Conn.M - 2 < Conn.M := by decide
      omega
    have hst : ∃ k', Conn.step (w.e.c i) (.resp id k) = some k' := by
      simp only [Conn.step, hread, hM, and_self, if_true]
      split
      · exact ⟨_, rfl⟩
      · exact ⟨_, rfl⟩
    obtain ⟨k', hk⟩ := hst
    simp [Endpoint.step, hk] at this

/-- At rest the write loop of the client has written what it had. -/
theorem rest_wrote {l : List Nat} {w : St} {ret : Nat → Parallel.Outcome}
    (hq : ∀ c, Onward ret l c → step R cap own w c = none) {i r : Nat} (hi : i ∈ l) (hc : Carries w i r) :
    ∃ id f, (id, r, f) ∈ (w.e.c i).wire := by
  rcases hc with h | ⟨o, j, h⟩ | ⟨id, f, h⟩
  · exact h
  · have := hq (.client (.conn i .header)) (.inr ⟨i, hi, .inr (.inr (.inr (.inl rfl)))⟩)
    simp [step, Endpoint.step, Conn.step, h] at this
  · have := hq (.client (.conn i (.wrote true))) (.inr ⟨i, hi, .inr (.inr (.inr (.inr (.inl rfl))))⟩)
    simp [step, Endpoint.step, Conn.step, h] at this

/-- At rest every request that was sent is answered, but for those received by the dispatcher outside of its loop. -/
theorem rest_done {l : List Nat} {w : St} {ret : Nat → Parallel.Outcome} (g : Go R cap n own l w)
    (hq : ∀ c, Onward ret l c → step R cap own w c = none) {i r : Nat} (hi : i ∈ l) (ho : Open w i) (hc : Carries w i r) :
    ∃ q, Is own w q r ∧ w.s.conn q = i ∧ (q ∈ w.s.p.drained ∨ (∃ src code, Gave w q src code) ∧
      ((∃ id, (w.e.c i).ans r = some (.response id (w.s.key q))) ∨ (w.e.c i).ans r = some .other)) := by
  have gs := g.going
  have hs : ∀ x, Served.Forth ret l x → Served.step w.s x = none := by
    intro x hx
    have h1 := hq (.server x) (.inl ⟨x, rfl, hx⟩)
    have : step R cap own w (.server x) = (Served.step w.s x).map fun s => { w with s } := by
      rcases hx with ⟨i, rfl⟩ | ⟨ch, rfl, _⟩ | ⟨i, k, rfl | rfl⟩ | ⟨i, _, rfl⟩ <;> rfl
    rw [this, Option.map_eq_none_iff] at h1
    exact h1
  obtain ⟨id, f, hm⟩ := rest_wrote hq hi hc
  obtain ⟨j, hj⟩ := List.getElem?_of_mem hm
  have hn := rest_read g hq hi ho
  have hjn : j < (w.s.c i).n := by rw [hn]; exact (List.getElem?_eq_some_iff.1 hj).1
  obtain ⟨h1, h2, h3⟩ := gs.inv.lt2 i j hjn
  obtain ⟨h4, h5⟩ := rest_got g hq hi ho
  obtain ⟨ls, hls⟩ := g.parts.l i (g.mine i hi)
  have hp : Serv.Polite (w.s.c i) := (Link.C96_in_order hls (g.young i)).2
  refine ⟨w.s.num i j, ⟨h1, by rw [h2]; exact g.mine i hi, id, f, by rw [h2, h3]; exact hj⟩, h2, ?_⟩
  by_cases hdr : w.s.num i j ∈ w.s.p.drained
  · exact .inl hdr
  right
  have hans := Served.rest_ans gs hs h1 hdr
  have hwr := Served.rest_written gs hs h1 hans (by rw [h2]; exact hi) (by rw [h2]; exact hp) (by
    unfold Served.Failed
    rw [h2]
    rintro (e | e)
    · exact ho.out.1 e
    · exact ho.out.2 e)
  unfold Served.Written at hwr
  rw [h2, h3] at hwr
  refine ⟨?_, ?_⟩
  · have := hans
    cases e : w.s.p.ans (w.s.num i j) with
    | none => exact absurd e this
    | some a => exact ⟨a.1, a.2, e⟩
  · rw [h3]
    rcases Link.read_all hls (g.young i) h5 h4 hj hwr with e | e
    · exact .inl ⟨id, e⟩
    · exact .inr e

end Verif.Whole
