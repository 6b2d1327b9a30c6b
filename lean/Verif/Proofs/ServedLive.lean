import Verif.Proofs.ServedMore
import Verif.Props.ParallelStop
/-!
A server in front of a parallel service goes on: a measure that each of its steps lowers.
-/
namespace Verif.Serv

/-- Steps of those who are in `Respond`, and of the write loop without errors. -/
def Fwd (c : Choice) : Prop := (∃ k, c = .begin k ∨ c = .send k) ∨ c = .wl

def rw : RS → Nat
  | .new => 0
  | .sent => 11
  | .called => 10
  | .busy => 9
  | .done => 0

def pw : WPc → Nat
  | .sel => 5
  | .lk => 4
  | .empty => 2
  | .flush => 3
  | .wait => 2
  | .got _ => 9
  | .fin _ => 1
  | .done _ => 0

/-- `d`: how much of what was written the other side has read. -/
def ww (d : Nat) (x : St) : Nat := pw x.wp + 8 * x.out.length + 2 * (x.wire.length - d)

structure Same (x x' : St) : Prop where
  n : x'.n = x.n
  pings : x'.pings = x.pings
  fresh : x'.fresh = x.fresh
  idOf : x'.idOf = x.idOf
  rp : x'.rp = x.rp
  fail : (x'.wp = .fin true ∨ x'.wp = .done true) → x.wp = .fin true ∨ x.wp = .done true

theorem step1_of {x x' : St} {c : Choice} (h : step x c = some x') : x.panicked = false ∧ step1 x c = some x' := by
  unfold step at h
  split at h
  · cases h
  · exact ⟨by simp_all, h⟩

theorem fwd_begin {x x' : St} {k : Nat} (h : step x (.begin k) = some x') :
    Same x x' ∧ x'.panicked = false ∧ x.rs k = .called ∧ (x'.rs k = .busy ∨ x'.rs k = .done) ∧ (∀ j, j ≠ k → x'.rs j = x.rs j) ∧
      ∀ d, ww d x' = ww d x := by
  obtain ⟨hp, h⟩ := step1_of h
  simp only [step1] at h
  split at h
  · rename_i hk
    cases h
    unfold beginRespond
    (repeat' split) <;> refine ⟨⟨rfl, rfl, rfl, rfl, rfl, id⟩, hp, hk.1, ?_, ?_, ?_⟩ <;> simp [set, ww]
    all_goals (intro j hj e; exact absurd e hj)
  · cases h

theorem fwd_send {x x' : St} {k : Nat} (i : Inv x) (h : step x (.send k) = some x') :
    Same x x' ∧ x'.panicked = false ∧ x.rs k = .busy ∧ x'.rs k = .done ∧ (∀ j, j ≠ k → x'.rs j = x.rs j) ∧ ∀ d, ww d x' = ww d x + 8 := by
  obtain ⟨hp, h⟩ := step1_of h
  simp only [step1] at h
  split at h
  · rename_i hk
    have hc : x.outClosed = false := by
      cases e : x.outClosed with
      | false => rfl
      | true => have := (i.clo e).2.2.2; rw [i.lock2 k hk] at this; cases this
    simp only [hc, Bool.false_eq_true, if_false] at h
    split at h <;> cases h
    refine ⟨⟨rfl, rfl, rfl, rfl, rfl, id⟩, hp, hk, by simp [set], ?_, ?_⟩
    · intro j hj; simp [set, hj]
    · intro d; simp [ww]; omega
  · cases h

theorem fwd_wl {x x' : St} (i : Inv x) (h : step x .wl = some x') :
    Same x x' ∧ x'.panicked = false ∧ x'.rs = x.rs ∧ ∀ d, ww d x' < ww d x := by
  obtain ⟨hp, h⟩ := step1_of h
  simp only [step1, stepW] at h
  have hb := i.buf
  cases e : x.wp <;> rw [e] at h <;> dsimp only at h <;> (repeat' split at h) <;> cases h
  all_goals try (exact absurd hb (by assumption))
  all_goals
    refine ⟨⟨rfl, rfl, rfl, rfl, rfl, ?_⟩, hp, rfl, ?_⟩
    · simp [e]
    · intro d; simp only [ww, e, pw, *, List.length_cons, List.length_nil, List.length_append]; omega

end Verif.Serv

namespace Verif.Served

def tot (f : Nat → Nat) : Nat → Nat
  | 0 => 0
  | m + 1 => tot f m + f m

theorem tot_le {f g : Nat → Nat} {m : Nat} (h : ∀ r, r < m → f r ≤ g r) : tot f m ≤ tot g m := by
  induction m with
  | zero => exact Nat.le_refl _
  | succ m ih =>
    have := ih fun r hr => h r (by omega)
    have := h m (by omega)
    simp only [tot]
    omega

theorem tot_drop {f g : Nat → Nat} {m d x : Nat} (h : ∀ r, r < m → f r ≤ g r) (hx : x < m) (hd : f x + d ≤ g x) :
    tot f m + d ≤ tot g m := by
  induction m with
  | zero => omega
  | succ m ih =>
    simp only [tot]
    have h1 := tot_le fun r (hr : r < m) => h r (by omega)
    by_cases e : x = m
    · subst e; omega
    · have := ih (fun r hr => h r (by omega)) (by omega)
      have := h m (by omega)
      omega

def all (f : Nat → Nat) (l : List Nat) : Nat := (l.map f).sum

theorem all_le {f g : Nat → Nat} {l : List Nat} (h : ∀ i, i ∈ l → f i ≤ g i) : all f l ≤ all g l := by
  induction l with
  | nil => exact Nat.le_refl _
  | cons a l ih =>
    have := ih fun i hi => h i (List.mem_cons_of_mem _ hi)
    have := h a (List.mem_cons_self ..)
    unfold all at *
    simp only [List.map_cons, List.sum_cons]
    omega

theorem all_drop {f g : Nat → Nat} {l : List Nat} {d x : Nat} (h : ∀ i, i ∈ l → f i ≤ g i) (hx : x ∈ l) (hd : f x + d ≤ g x) :
    all f l + d ≤ all g l := by
  induction l with
  | nil => cases hx
  | cons a l ih =>
    have h1 := all_le fun i hi => h i (List.mem_cons_of_mem _ hi)
    have h2 := h a (List.mem_cons_self ..)
    rcases List.mem_cons.1 hx with e | hx
    · subst e
      unfold all at *
      simp only [List.map_cons, List.sum_cons]
      omega
    · have := ih (fun i hi => h i (List.mem_cons_of_mem _ hi)) hx
      unfold all at *
      simp only [List.map_cons, List.sum_cons]
      omega

theorem all_grow {f g : Nat → Nat} {l : List Nat} {d x : Nat} (hn : l.Nodup) (h : ∀ i, i ≠ x → f i ≤ g i) (hd : f x ≤ g x + d) :
    all f l ≤ all g l + d := by
  induction l with
  | nil => exact Nat.zero_le _
  | cons a l ih =>
    rw [List.nodup_cons] at hn
    by_cases e : a = x
    · subst e
      have := all_le fun i (hi : i ∈ l) => h i fun e => hn.1 (e ▸ hi)
      unfold all at *
      simp only [List.map_cons, List.sum_cons]
      omega
    · have := ih hn.2
      have := h a e
      unfold all at *
      simp only [List.map_cons, List.sum_cons]
      omega

/-- What is left to do. -/
def load (l : List Nat) (dn : Nat → Nat) (s : St) : Nat :=
  tot (fun r => if s.p.rs r = .new then 15 else 0) s.m + tot (fun r => if s.rd (s.conn r) = some r then 1 else 0) s.m + Parallel.work2 s.p +
    tot (fun r => Serv.rw (s.resp r)) s.m + all (fun i => Serv.ww (dn i) (s.c i)) l

/-- What is kept up. -/
structure Going (n : Nat) (s : St) : Prop where
  inv : Inv n s
  fresh : Fresh s
  live : s.dead = false
  few : ∀ i, Few s i

/-- What does not change. -/
structure Kept (s s' : St) : Prop where
  m : s'.m = s.m
  conn : s'.conn = s.conn
  key : s'.key = s.key
  same : ∀ i, Serv.Same (s.c i) (s'.c i)

theorem Serv_same_refl (x : Serv.St) : Serv.Same x x := ⟨rfl, rfl, rfl, rfl, rfl, id⟩

theorem kept_refl (s : St) : Kept s s := ⟨rfl, rfl, rfl, fun _ => Serv_same_refl _⟩

theorem kept_trans {a b c : St} (h : Kept a b) (k : Kept b c) : Kept a c := by
  refine ⟨k.m.trans h.m, k.conn.trans h.conn, k.key.trans h.key, fun i => ?_⟩
  have x := h.same i
  have y := k.same i
  exact ⟨y.n.trans x.n, y.pings.trans x.pings, y.fresh.trans x.fresh, y.idOf.trans x.idOf, y.rp.trans x.rp, fun e => x.fail (y.fail e)⟩

theorem net_forth {s s' : St} {i : Nat} {ch : Serv.Choice} (hd : s.dead = false) (hs : s.net i ch = some s')
    (hx : ∀ x, Serv.step (s.c i) ch = some x → Serv.Same (s.c i) x ∧ x.panicked = false) :
    ∃ x, Serv.step (s.c i) ch = some x ∧ s' = { s with c := set s.c i x } ∧ Kept s s' ∧ s'.dead = false := by
  unfold St.net at hs
  simp only [Option.map_eq_some_iff] at hs
  obtain ⟨x, h1, rfl⟩ := hs
  obtain ⟨h2, h3⟩ := hx x h1
  refine ⟨x, h1, by rw [h3, hd], ⟨rfl, rfl, rfl, fun j => ?_⟩, h3⟩
  show Serv.Same (s.c j) (set s.c i x j)
  unfold set
  split
  · subst j; exact h2
  · exact Serv_same_refl _

theorem mul_key {n : Nat} {s : St} (h : Inv n s) {i k : Nat} (hk : (s.c i).rs k ≠ .new) :
    ∃ r, r < s.m ∧ s.conn r = i ∧ s.key r = k := by
  have hlt : k < (s.c i).n := by
    apply Classical.byContradiction
    intro hn
    exact hk ((h.ci i).new k (by omega))
  exact ⟨_, h.lt2 i k hlt⟩

/-- A connection goes on. -/
theorem load_net {n : Nat} {l : List Nat} {dn : Nat → Nat} {s s' : St} {i : Nat} {ch : Serv.Choice} (hn : l.Nodup) (g : Going n s)
    (hf : Serv.Fwd ch) (hw : ch = .wl → i ∈ l) (hs : s.net i ch = some s') :
    load l dn s' < load l dn s ∧ Kept s s' ∧ s'.dead = false ∧ s'.p = s.p := by
  have hinv := g.inv.ci i
  rcases hf with ⟨k, rfl | rfl⟩ | rfl
  · obtain ⟨x, h1, rfl, h2, h3⟩ := net_forth g.live hs fun x hx => ⟨(Serv.fwd_begin hx).1, (Serv.fwd_begin hx).2.1⟩
    refine ⟨?_, h2, h3, rfl⟩
    obtain ⟨-, -, a, b, c, d⟩ := Serv.fwd_begin h1
    obtain ⟨r, r1, r2, r3⟩ := mul_key g.inv (i := i) (k := k) (by rw [a]; simp)
    have e1 : all (fun j => Serv.ww (dn j) (set s.c i x j)) l ≤ all (fun j => Serv.ww (dn j) (s.c j)) l := by
      apply all_le
      intro y hy
      unfold set
      split
      · rename_i e; rw [d, e]; exact Nat.le_refl _
      · exact Nat.le_refl _
    have e2 : tot (fun r => Serv.rw ((set s.c i x (s.conn r)).rs (s.key r))) s.m + 1 ≤ tot (fun r => Serv.rw (s.resp r)) s.m := by
      apply tot_drop (x := r) _ r1
      · unfold St.resp set
        simp only [r2, if_true, r3]
        rw [a]
        rcases b with b | b <;> rw [b] <;> simp only [Serv.rw] <;> omega
      · intro y hy
        unfold St.resp set
        split
        · rename_i e
          rw [e]
          by_cases ek : s.key y = k
          · rw [ek, a]
            rcases b with b | b <;> rw [b] <;> simp only [Serv.rw] <;> omega
          · rw [c _ ek]; exact Nat.le_refl _
        · exact Nat.le_refl _
    unfold load
    simp only [St.resp] at *
    omega
  · obtain ⟨x, h1, rfl, h2, h3⟩ := net_forth g.live hs fun x hx => ⟨(Serv.fwd_send hinv hx).1, (Serv.fwd_send hinv hx).2.1⟩
    refine ⟨?_, h2, h3, rfl⟩
    obtain ⟨-, -, a, b, c, d⟩ := Serv.fwd_send hinv h1
    obtain ⟨r, r1, r2, r3⟩ := mul_key g.inv (i := i) (k := k) (by rw [a]; simp)
    have e1 : all (fun j => Serv.ww (dn j) (set s.c i x j)) l ≤ all (fun j => Serv.ww (dn j) (s.c j)) l + 8 := by
      apply all_grow (x := i) hn
      · intro y hy
        simp [set, hy]
      · simp [set, d]
    have e2 : tot (fun r => Serv.rw ((set s.c i x (s.conn r)).rs (s.key r))) s.m + 9 ≤
        tot (fun r => Serv.rw (s.resp r)) s.m := by
      apply tot_drop (x := r) _ r1
      · unfold St.resp set
        simp only [r2, if_true, r3]
        rw [a, b]
        simp only [Serv.rw]
        omega
      · intro y hy
        unfold St.resp set
        split
        · rename_i e
          rw [e]
          by_cases ek : s.key y = k
          · rw [ek, a, b]
            simp only [Serv.rw]
            omega
          · rw [c _ ek]; exact Nat.le_refl _
        · exact Nat.le_refl _
    unfold load
    simp only [St.resp] at *
    omega
  · obtain ⟨x, h1, rfl, h2, h3⟩ := net_forth g.live hs fun x hx => ⟨(Serv.fwd_wl hinv hx).1, (Serv.fwd_wl hinv hx).2.1⟩
    refine ⟨?_, h2, h3, rfl⟩
    obtain ⟨-, -, a, b⟩ := Serv.fwd_wl hinv h1
    have r1 := hw rfl
    have e1 : all (fun j => Serv.ww (dn j) (set s.c i x j)) l + 1 ≤ all (fun j => Serv.ww (dn j) (s.c j)) l := by
      apply all_drop (x := i) _ r1
      · simp only [set, if_true]
        have := b (dn i)
        omega
      · intro y hy
        unfold set
        split
        · rename_i e; rw [e]; have := b (dn i); omega
        · omega
    have e2 : tot (fun r => Serv.rw ((set s.c i x (s.conn r)).rs (s.key r))) s.m ≤ tot (fun r => Serv.rw (s.resp r)) s.m := by
      apply tot_le
      intro y hy
      unfold St.resp set
      split
      · rename_i e; rw [a, e]; exact Nat.le_refl _
      · exact Nat.le_refl _
    unfold load
    simp only [St.resp] at *
    omega

theorem calls_same {x x' : Serv.St} {k : Nat} (h : Serv.step x (.call k) = some x') :
    Serv.Same x x' ∧ x'.panicked = false ∧ x.rs k = .sent ∧ x'.rs = Serv.set x.rs k .called ∧ ∀ d, Serv.ww d x' = Serv.ww d x := by
  obtain ⟨hp, h⟩ := Serv.step1_of h
  simp only [Serv.step1] at h
  split at h <;> cases h
  exact ⟨⟨rfl, rfl, rfl, rfl, rfl, id⟩, hp, by assumption, rfl, fun _ => rfl⟩

theorem load_p {n : Nat} {s : St} {p : Parallel.St} {ret : Nat → Parallel.Outcome} {ch : Parallel.Choice} (g : Going n s)
    (hc : Parallel.Ending ret ch) (hp : Parallel.step s.p ch = some p) :
    tot (fun r => if p.rs r = .new then 15 else 0) s.m ≤ tot (fun r => if s.p.rs r = .new then 15 else 0) s.m ∧
      Parallel.work2 p < Parallel.work2 s.p ∧ (p.stop = .idle ↔ s.p.stop = .idle) := by
  obtain ⟨cs, hr⟩ := g.inv.par
  obtain ⟨h1, h2⟩ := Parallel.lowers2 hr hc hp
  refine ⟨tot_le fun r _ => ?_, h1, h2⟩
  have := new_back hp (x := r)
  split
  · rename_i e; rw [if_pos (this e)]; exact Nat.le_refl _
  · exact Nat.zero_le _

/-- The service goes on. -/
theorem load_svc {n : Nat} {l : List Nat} {dn : Nat → Nat} {s s' : St} {ret : Nat → Parallel.Outcome} {ch : Parallel.Choice} (g : Going n s)
    (hc : Parallel.Ending ret ch) (hs : s.svc ch = some s') : load l dn s' < load l dn s ∧ Kept s s' ∧ s'.dead = false ∧ (s'.p.stop = .idle ↔ s.p.stop = .idle) := by
  have plain : ∀ p, Parallel.step s.p ch = some p → load l dn { s with p } < load l dn s ∧ Kept s { s with p } ∧
      ({ s with p } : St).dead = false ∧ (p.stop = .idle ↔ s.p.stop = .idle) := by
    intro p hp
    obtain ⟨a, b, c⟩ := load_p g hc hp
    refine ⟨?_, ⟨rfl, rfl, rfl, fun _ => Serv_same_refl _⟩, g.live, c⟩
    unfold load St.resp at *
    dsimp only
    omega
  unfold St.svc at hs
  split at hs
  case isFalse => cases hs
  split at hs
  · simp only [Option.map_eq_some_iff] at hs
    obtain ⟨p, hp, rfl⟩ := hs
    exact plain p hp
  · rename_i r hl
    split at hs
    · cases hs
    simp only [Option.bind_eq_some_iff] at hs
    obtain ⟨p, hp, hs⟩ := hs
    split at hs
    · simp only [Option.map_eq_some_iff, St.net] at hs
      obtain ⟨s1, ⟨x, hx, rfl⟩, rfl⟩ := hs
      obtain ⟨c1, c2, c3, c4, c5⟩ := calls_same hx
      obtain ⟨a, b, c⟩ := load_p g hc hp
      have e1 : all (fun j => Serv.ww (dn j) (set s.c (s.conn r) x j)) l ≤ all (fun j => Serv.ww (dn j) (s.c j)) l := by
        apply all_le
        intro y hy
        unfold set
        split
        · rename_i e; rw [c5, e]; exact Nat.le_refl _
        · exact Nat.le_refl _
      have e2 : tot (fun y => Serv.rw ((set s.c (s.conn r) x (s.conn y)).rs (s.key y))) s.m ≤
          tot (fun r => Serv.rw (s.resp r)) s.m := by
        apply tot_le
        intro y hy
        unfold St.resp set
        split
        · rename_i e
          rw [c4, e]
          unfold Serv.set
          split
          · rename_i e2; rw [e2]; rw [c3]; simp only [Serv.rw]; omega
          · exact Nat.le_refl _
        · exact Nat.le_refl _
      have fin : ∀ t : St, t.p = p → t.m = s.m → t.conn = s.conn → t.key = s.key → t.rd = s.rd → t.c = set s.c (s.conn r) x →
          t.dead = x.panicked → load l dn t < load l dn s ∧ Kept s t ∧ t.dead = false ∧ (t.p.stop = .idle ↔ s.p.stop = .idle) := by
        intro t t1 t2 t3 t4 t5 t6 t7
        refine ⟨?_, ⟨t2, t3, t4, fun j => ?_⟩, t7.trans c2, by rw [t1]; exact c⟩
        · unfold load St.resp at *
          rw [t1, t2, t3, t4, t5, t6]
          omega
        · rw [t6]
          unfold set
          split
          · subst j; exact c1
          · exact Serv_same_refl _
      apply fin <;> unfold St.enter <;> split <;> rfl
    · cases hs
      exact plain p hp

/-- A read loop hands over what it has read. -/
theorem load_pass {n : Nat} {l : List Nat} {dn : Nat → Nat} {s : St} {p : Parallel.St} {i r : Nat} (g : Going n s) (hr : s.rd i = some r)
    (hp : Parallel.step s.p (.send r) = some p) : load l dn { s with p, rd := set s.rd i none } < load l dn s ∧ (p.stop = .idle ↔ s.p.stop = .idle) := by
  obtain ⟨h1, h2⟩ := g.inv.rd i r hr
  have e1 : tot (fun y => if set s.rd i none (s.conn y) = some y then 1 else 0) s.m + 1 ≤
      tot (fun r => if s.rd (s.conn r) = some r then 1 else 0) s.m := by
    apply tot_drop (x := r) _ h1
    · simp [set, h2, hr]
    · intro y hy
      unfold set
      split
      · simp
      · exact Nat.le_refl _
  simp only [Parallel.step] at hp
  split at hp
  · rename_i hn
    cases hp
    refine ⟨?_, Iff.rfl⟩
    have e2 : tot (fun y => if Parallel.set s.p.rs r .pending y = .new then 15 else 0) s.m + 15 ≤
        tot (fun r => if s.p.rs r = .new then 15 else 0) s.m := by
      apply tot_drop (x := r) _ h1
      · simp [Parallel.set, hn]
      · intro y hy
        unfold Parallel.set
        split
        · simp
        · exact Nat.le_refl _
    unfold load Parallel.work2 St.resp at *
    dsimp only at *
    simp only [List.length_append, List.length_singleton]
    omega
  · cases hp
    refine ⟨?_, Iff.rfl⟩
    unfold load St.resp at *
    dsimp only
    omega

theorem few_kept {s s' : St} (k : Kept s s') (h : ∀ i, Few s i) : ∀ i, Few s' i := by
  intro i
  unfold Few
  rw [(k.same i).n, (k.same i).pings]
  exact h i

/-- Each step lowers the measure. -/
theorem forth_step {n : Nat} {l : List Nat} {dn : Nat → Nat} {s s' : St} {ret : Nat → Parallel.Outcome} {c : Choice} (hn : l.Nodup)
    (g : Going n s) (hc : Forth ret l c) (hs : step s c = some s') : load l dn s' < load l dn s ∧ Kept s s' ∧ (s'.p.stop = .idle ↔ s.p.stop = .idle) ∧ Going n s' := by
  have key : load l dn s' < load l dn s ∧ Kept s s' ∧ s'.dead = false ∧ (s'.p.stop = .idle ↔ s.p.stop = .idle) := by
    unfold step at hs
    rw [if_neg (by rw [g.live]; simp)] at hs
    rcases hc with ⟨i, rfl⟩ | ⟨ch, rfl, hc⟩ | ⟨i, k, rfl | rfl⟩ | ⟨i, hi, rfl⟩
    · dsimp only at hs
      split at hs
      · rename_i r hr
        simp only [Option.map_eq_some_iff] at hs
        obtain ⟨p, hp, rfl⟩ := hs
        obtain ⟨a, b⟩ := load_pass g hr hp
        exact ⟨a, ⟨rfl, rfl, rfl, fun _ => Serv_same_refl _⟩, g.live, b⟩
      · cases hs
    · exact load_svc g hc hs
    · obtain ⟨a, b, c, d⟩ := load_net hn g (.inl ⟨k, .inl rfl⟩) (fun e => by cases e) hs
      exact ⟨a, b, c, by rw [d]⟩
    · obtain ⟨a, b, c, d⟩ := load_net hn g (.inl ⟨k, .inr rfl⟩) (fun e => by cases e) hs
      exact ⟨a, b, c, by rw [d]⟩
    · obtain ⟨a, b, c, d⟩ := load_net hn g (.inr rfl) (fun _ => hi) hs
      exact ⟨a, b, c, by rw [d]⟩
  obtain ⟨a, b, c, d⟩ := key
  exact ⟨a, b, d, inv_step g.inv hs, fresh_step g.inv g.fresh hs, c, few_kept b g.few⟩

theorem forth_run {n : Nat} {l : List Nat} {dn : Nat → Nat} {s s' : St} {ret : Nat → Parallel.Outcome} {ds : List Choice} (hn : l.Nodup)
    (g : Going n s) (hc : ∀ c ∈ ds, Forth ret l c) (hs : run s ds = some s') :
    ds.length + load l dn s' ≤ load l dn s ∧ Kept s s' ∧ (s'.p.stop = .idle ↔ s.p.stop = .idle) ∧ Going n s' := by
  induction ds generalizing s with
  | nil => cases hs; exact ⟨by simp, kept_refl _, Iff.rfl, g⟩
  | cons c ds ih =>
    simp only [run, Option.bind_eq_some_iff] at hs
    obtain ⟨s1, h1, h2⟩ := hs
    obtain ⟨a, b, e, d⟩ := forth_step (dn := dn) hn g (hc c (List.mem_cons_self ..)) h1
    obtain ⟨a', b', e', d'⟩ := ih d (fun c hm => hc c (List.mem_cons_of_mem _ hm)) h2
    refine ⟨?_, kept_trans b b', e'.trans e, d'⟩
    rw [List.length_cons]
    omega

/-- At rest nobody is in `Respond`. -/
theorem rest_unlocked {n : Nat} {l : List Nat} {s : St} {ret : Nat → Parallel.Outcome} (g : Going n s)
    (hq : ∀ c, Forth ret l c → step s c = none) (i k : Nat) : (s.c i).rs k ≠ .busy ∧ (s.c i).rs k ≠ .called := by
  obtain ⟨cs, h⟩ := g.inv.con i
  have hp := g.inv.alive g.live i
  have iv := Serv.inv_run Serv.inv_init h
  have nb : ∀ k, (s.c i).rs k ≠ .busy := by
    intro k hk
    obtain ⟨x, h1, -⟩ := Props.C58_few_partial h (g.few i) hp hk
    have := hq (.net i (.send k)) (.inr (.inr (.inl ⟨i, k, .inr rfl⟩)))
    simp [step, g.live, St.net, h1] at this
  refine ⟨nb k, fun hk => ?_⟩
  have hl : (s.c i).lock = none := by
    cases e : (s.c i).lock with
    | none => rfl
    | some j => exact absurd (iv.lock1 j e) (nb j)
  have := hq (.net i (.begin k)) (.inr (.inr (.inl ⟨i, k, .inl rfl⟩)))
  simp [step, g.live, St.net, Serv.step, hp, Serv.step1, hk, hl] at this

theorem onward_known {ret : Nat → Parallel.Outcome} {s : St} {ch : Parallel.Choice} (h : Parallel.Ending ret ch) : s.known ch = true := by
  rcases h with (rfl | rfl) | ⟨x, rfl | rfl⟩ <;> rfl

/-- When nobody is in `Respond`, what the service can do it does. -/
theorem svc_goes {n : Nat} {s : St} {ret : Nat → Parallel.Outcome} {ch : Parallel.Choice} {p : Parallel.St} (g : Going n s)
    (hu : ∀ r, s.locked r = false) (hc : Parallel.Ending ret ch) (hp : Parallel.step s.p ch = some p) : ∃ s', s.svc ch = some s' := by
  have hk := onward_known (s := s) hc
  have hi : s.inside ch = false := by
    unfold St.inside
    split
    · cases s.dis <;> simp [hu]
    · cases s.dis <;> simp [hu]
    · simp [hu]
    · rfl
  unfold St.svc
  simp only [hk, hi, Bool.not_false, Bool.and_self, if_true, hp]
  split
  · exact ⟨_, rfl⟩
  · rename_i r hl
    rw [if_neg (by rw [hu]; simp)]
    simp only [Option.bind_some]
    split
    · rename_i ha
      have hr := (g.inv.link r (locks_lt g.inv hk hl)).1 ha.1
      have hr' : (s.c (s.conn r)).rs (s.key r) = .sent := hr
      have hpn := g.inv.alive g.live (s.conn r)
      simp [St.net, Serv.step, hpn, Serv.step1, hr']
    · exact ⟨_, rfl⟩

/-- At rest the service is at rest. -/
theorem rest_par {n : Nat} {l : List Nat} {s : St} {ret : Nat → Parallel.Outcome} (g : Going n s) (hq : ∀ c, Forth ret l c → step s c = none)
    {ch : Parallel.Choice} (hc : Parallel.Ending ret ch) : Parallel.step s.p ch = none := by
  have hu := rest_unlocked g hq
  cases e : Parallel.step s.p ch with
  | none => rfl
  | some p =>
    obtain ⟨s', h3⟩ := svc_goes g (fun r => by have := hu (s.conn r) (s.key r); simp [St.locked, St.resp, this]) hc e
    have := hq (.svc ch) (.inr (.inl ⟨ch, rfl, hc⟩))
    simp [step, g.live, h3] at this

/-- At rest every request has been sent. -/
theorem rest_sent {n : Nat} {l : List Nat} {s : St} {ret : Nat → Parallel.Outcome} (g : Going n s) (hq : ∀ c, Forth ret l c → step s c = none) {r : Nat}
    (hr : r < s.m) : s.p.rs r ≠ .new := by
  intro e
  have := hq (.pass (s.conn r)) (.inl ⟨_, rfl⟩)
  have hrd := g.fresh.new r hr e
  simp [step, g.live, hrd, Parallel.step] at this
  split at this <;> cases this

/-- At rest every request is answered, but for those received by the dispatcher outside of its loop. -/
theorem rest_ans {n : Nat} {l : List Nat} {s : St} {ret : Nat → Parallel.Outcome} (g : Going n s) (hq : ∀ c, Forth ret l c → step s c = none) {r : Nat}
    (hr : r < s.m) (hd : r ∉ s.p.drained) : s.p.ans r ≠ none := by
  intro ha
  have hn := rest_sent g hq hr
  obtain ⟨cs, hp⟩ := g.inv.par
  by_cases hs : s.p.stop = .idle
  · obtain ⟨ch, p, h1, h2, -⟩ := Parallel.goes hp hs ret hn ha
    have : Parallel.Ending ret ch := by
      rcases h1 with rfl | ⟨x, h1⟩
      · exact .inl (.inl rfl)
      · exact .inr ⟨x, h1⟩
    rw [rest_par g hq this] at h2
    cases h2
  · exact Props.C136_answered (ds := []) hp hs (by simp) rfl (fun c hc => rest_par g hq hc) hn hd ha

/-- At rest `Respond` has returned for what is answered. -/
theorem rest_done {n : Nat} {l : List Nat} {s : St} {ret : Nat → Parallel.Outcome} (g : Going n s) (hq : ∀ c, Forth ret l c → step s c = none) {r : Nat}
    (hr : r < s.m) (ha : s.p.ans r ≠ none) : s.resp r = .done := by
  have hu := rest_unlocked g hq
  have h1 := fun e => ha ((g.inv.link r hr).2 e)
  have h2 := hu (s.conn r) (s.key r)
  obtain ⟨cs, hc⟩ := g.inv.con (s.conn r)
  have h3 := (Serv.full_run Serv.inv_init Serv.full_init hc).known _ (g.inv.lt1 r hr).1
  unfold St.resp at *
  cases e : (s.c (s.conn r)).rs (s.key r) with
  | new => exact absurd e h3
  | sent => exact absurd e h1
  | called => exact absurd e h2.2
  | busy => exact absurd e h2.1
  | done => rfl

/-- ... and what was answered is written. -/
theorem rest_written {n : Nat} {l : List Nat} {s : St} {ret : Nat → Parallel.Outcome} (g : Going n s)
    (hq : ∀ c, Forth ret l c → step s c = none) {r : Nat} (hr : r < s.m) (ha : s.p.ans r ≠ none) (hl : s.conn r ∈ l) (hp : Serv.Polite (s.c (s.conn r)))
    (hf : ¬ Failed s r) : Written s r := by
  have hd := rest_done g hq hr ha
  obtain ⟨cs, hc⟩ := g.inv.con (s.conn r)
  have iv := Serv.inv_run Serv.inv_init hc
  have hdn := (Serv.full_run Serv.inv_init Serv.full_init hc).dn hp (fun e => hf (.inl e)) (fun e => hf (.inr e)) _ hd
  have hpn := g.inv.alive g.live (s.conn r)
  have hst : Serv.step (s.c (s.conn r)) .wl = none := by
    have := hq (.net (s.conn r) .wl) (.inr (.inr (.inr ⟨_, hl, rfl⟩)))
    simpa [step, g.live, St.net] using this
  have hl : (s.c (s.conn r)).lock = none := by
    cases e : (s.c (s.conn r)).lock with
    | none => rfl
    | some j => exact absurd (iv.lock1 j e) (rest_unlocked g hq _ j).1
  simp only [Serv.step, hpn, Bool.false_eq_true, if_false, Serv.step1, Serv.stepW] at hst
  unfold Written
  unfold Serv.flow at hdn
  cases e : (s.c (s.conn r)).wp with
  | sel =>
    rw [e] at hst
    dsimp only at hst
    split at hst
    · cases hst
    · split at hst <;> cases hst
  | lk =>
    rw [e] at hst
    simp only [hl, if_true] at hst
    (repeat' split at hst) <;> cases hst
  | flush => rw [e] at hst; cases hst
  | got m => rw [e] at hst; cases hst
  | wait =>
    rw [e] at hst
    dsimp only at hst
    split at hst
    · cases hst
    · rename_i ho
      rw [e, ho] at hdn
      simpa [Serv.held] using hdn
  | empty =>
    rw [e, (iv.emp e).2.2.1] at hdn
    simpa [Serv.held] using hdn
  | fin b =>
    cases b with
    | true => exact absurd (.inl e) hf
    | false =>
      rw [e, (iv.fin (.inl e)).2.2.1] at hdn
      simpa [Serv.held] using hdn
  | done b =>
    cases b with
    | true => exact absurd (.inr e) hf
    | false =>
      rw [e, (iv.fin (.inr e)).2.2.1] at hdn
      simpa [Serv.held] using hdn

end Verif.Served
