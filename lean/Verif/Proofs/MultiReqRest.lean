import Verif.Proofs.MultiReqEnds
/-!
A multi-request and its requests come to rest: a measure that each step inside a method lowers.
-/
namespace Verif.MultiReq
open Verif.Request (Data Pc Ev Op setPc)

def sumTo : Nat → (Nat → Nat) → Nat
  | 0, _ => 0
  | n + 1, f => sumTo n f + f n

theorem sum_same {B : Nat} {f g : Nat → Nat} (h : ∀ j, j < B → g j = f j) : sumTo B g = sumTo B f := by
  induction B with
  | zero => rfl
  | succ n ih => simp only [sumTo]; rw [ih fun j hj => h j (by omega), h n (by omega)]

theorem sum_one {B i : Nat} {f g : Nat → Nat} (hi : i < B) (h : ∀ j, j ≠ i → g j = f j) : sumTo B g + f i = sumTo B f + g i := by
  induction B with
  | zero => omega
  | succ n ih =>
    simp only [sumTo]
    by_cases e : i = n
    · subst e
      rw [sum_same fun j hj => h j (by omega)]; omega
    · have := ih (by omega)
      rw [h n (fun e' => e e'.symm)]; omega

/-- What is left to do for a goroutine in a method of a request; the Responder is not counted. -/
def pw : Pc → Nat
  | .idle | .dead => 0
  | .leave _ => 1
  | .finish _ => 2
  | .fin _ l => 3 + l.length
  | .claimC _ => 6
  | .claimW _ => 7
  | .check _ => 17
  | .react _ l => 18 + l.length
  | .walk _ => 20
  | .mark _ => 21
  | .fill .. => 22
  | .locked _ => 23
  | .wait _ => 24

/-- ... for a `Respond` of the multi-request. -/
def rw' : Multi.RPc → Nat
  | .look => 10
  | .lock => 9
  | .check => 8
  | .add => 7
  | .miss => 7
  | .send => 6
  | .count => 5
  | .bump => 5
  | .unlock => 4
  | .close => 4
  | .remove => 3
  | .idle | .done | .sendPanic | .closePanic => 0

/-- ... for the owner, outside of the requests, with `L` requests and `R` responses waiting. -/
def ow (L R : Nat) : Multi.OPc → Nat
  | .store _ => 70
  | .chk _ => 69
  | .chkK _ => 68
  | .chkA .. => 3
  | .failW _ => 2
  | .enter _ => 40 * L + (R + 24)
  | .fail _ i n => 40 * (n - i) + (R + 20)
  | .fail2 _ i n => 40 * (n - i - 1) + (R + 59)
  | .failK _ i n => 40 * (n - i - 1) + (R + 58)
  | .failA _ i n _ => 40 * (n - i - 1) + (R + 23)
  | .failX _ i n => 40 * (n - i - 1) + (R + 22)
  | .lock _ => R + 8
  | .rCmp => 7
  | .rWait _ => 6
  | .rTake => 5
  | .eChan => R + 7
  | .eSend l => l.length + 5
  | .eCmp => 4
  | .eClose => 3
  | .eUnlock => 2
  | .idle | .fin _ | .nilPanic | .chanPanic => 0

/-- ... for a canceler, outside of the requests. -/
def cw (L : Nat) : Multi.CPc → Nat
  | .readC _ | .readR' _ => 40 * L + 4
  | .readR .. | .readC' .. => 40 * L + 3
  | .snap _ => 40 * L + 2
  | .fail _ i n => 40 * (n - i) + 1
  | .fail2 _ i n => 40 * (n - i - 1) + 40
  | .failK _ i n => 40 * (n - i - 1) + 39
  | .failA _ i n _ => 40 * (n - i - 1) + 4
  | .failX _ i n => 40 * (n - i - 1) + 3
  | .idle | .done _ | .dead => 0

/-- The cost of a call of `RespondFail`. -/
def fw : Act → Nat
  | .fail .. => 25
  | _ => 0

theorem r_le {m : Multi.St} (h : Multi.Inv m) : m.r ≤ m.len := by
  cases e : m.own
  case store i => have := h.store i e; omega
  case chk i | chkK i | chkA i _ | failW i => have := h.chk i (by rw [e]; rfl); omega
  all_goals (have := h.quiet (by rw [e]; rfl); omega)

theorem owner_less {m m' : Multi.St} (I : Multi.Inv m) (h : Multi.stepOwner m = some m') (ha : oAct m.own = .none) :
    m'.rp = m.rp ∧ m'.cp = m.cp ∧ m'.len = m.len ∧
      ow m'.len m'.responses.length m'.own + fw (oAct m'.own) < ow m.len m.responses.length m.own := by
  have hr := r_le I
  have hn := I.oN
  have hi := I.oI
  unfold Multi.stepOwner at h
  split at h <;> rename_i hp <;> rw [hp] at ha hn hi <;> (try cases ha) <;> (repeat' split at h) <;> cases h <;>
    refine ⟨rfl, rfl, rfl, ?_⟩ <;> rw [hp] <;> (try split) <;> simp only [ow, oAct, fw, List.length_cons, List.length_nil] <;>
    simp only [Multi.OPc.loop, Multi.OPc.at, Option.some.injEq, Prod.mk.injEq, and_imp] at hn hi <;> omega

theorem canc_less {m m' : Multi.St} {k : Nat} (I : Multi.Inv m) (h : Multi.stepCancel m k = some m') (ha : cAct (m.cp k) = .none) :
    m'.rp = m.rp ∧ m'.own = m.own ∧ m'.responses = m.responses ∧ m'.len = m.len ∧ m.cp k ≠ .idle ∧ (∀ j, j ≠ k → m'.cp j = m.cp j) ∧
      cw m'.len (m'.cp k) + fw (cAct (m'.cp k)) < cw m.len (m.cp k) := by
  have hr := r_le I
  have hn := I.cN k
  have hi := I.cI k
  unfold Multi.stepCancel at h
  split at h <;> rename_i hp <;> rw [hp] at ha hn hi <;> (try cases ha) <;> (repeat' split at h) <;> cases h <;>
    refine ⟨rfl, rfl, rfl, rfl, by rw [hp]; simp, fun j hj => by simp [Multi.set, hj], ?_⟩ <;> simp only [Multi.set, if_true, hp] <;> (try split) <;>
    simp only [cw, cAct, fw] <;>
    simp only [Multi.CPc.loop, Multi.CPc.at, Option.some.injEq, Prod.mk.injEq, and_imp] at hn hi <;> omega

theorem resp_less {m m' : Multi.St} {j : Nat} (h : Multi.stepResp m j = some m') :
    m'.cp = m.cp ∧ m'.len = m.len ∧ oAct m'.own = oAct m.own ∧ m.rp j ≠ .idle ∧ (∀ i, i ≠ j → m'.rp i = m.rp i) ∧
      ow m'.len m'.responses.length m'.own + rw' (m'.rp j) < ow m.len m.responses.length m.own + rw' (m.rp j) := by
  have ol : ow m.len (m.responses.length + 1) m.own ≤ ow m.len m.responses.length m.own + 1 := by
    cases m.own <;> simp only [ow] <;> omega
  unfold Multi.stepResp at h
  split at h <;> rename_i hp <;> (repeat' split at h) <;> cases h
  all_goals
    refine ⟨?_, ?_, ?_, by rw [hp]; simp, fun i hi => ?_, ?_⟩
  all_goals (try split) <;> first
    | rfl
    | (simp_all [oAct]; done)
    | (simp only [Multi.set, hi, if_false]; done)
    | (simp only [Multi.set, if_true, hp]; (try split) <;> simp only [rw', List.length_append, List.length_cons, List.length_nil] <;> first | omega | (have hw : m.own = .rWait false := ‹_ ∧ _ ∧ _›.2.2; rw [hw]; simp only [ow]; omega) | (simp only [Nat.zero_add]; omega))

/-- What is left to do in a request. -/
def qw (B : Nat) (r : Request.St) : Nat := 4 * r.d.chain.length + sumTo B fun t => pw (r.pc t)

theorem req_less {r r' : Request.St} {c : Request.Choice} {t : Nat} (h : Request.step r c = some r')
    (hc : c = .go t ∨ c = .bookmark t [] ∨ c = .responder t []) :
    ∃ p, r'.pc = setPc r.pc t p ∧ r.pc t ≠ .idle ∧ 4 * r'.d.chain.length + pw p < 4 * r.d.chain.length + pw (r.pc t) ∧
      (c = .responder t [] → 4 * r'.d.chain.length + pw p + 17 = 4 * r.d.chain.length + pw (r.pc t)) := by
  have own : ∀ o, r.ownStep t o = some r' → ∃ d p, o = some (d, p) ∧ r'.pc = setPc r.pc t p ∧ r'.d = d := by
    intro o h
    cases o with
    | none => cases h
    | some x => cases h; exact ⟨_, _, rfl, rfl, rfl⟩
  rcases hc with rfl | rfl | rfl
  · simp only [Request.step] at h
    split at h
    · rename_i op hw
      have cp : (Request.casPending r.d).chain = r.d.chain := by unfold Request.casPending; split <;> rfl
      have ci : (Request.casInFly r.d t).chain = r.d.chain := by unfold Request.casInFly; split <;> rfl
      cases op <;> simp only [Request.St.begin, Request.St.lockStep] at h <;> (try split at h) <;> cases h <;>
        refine ⟨_, rfl, by rw [hw]; simp, ?_, by simp⟩ <;> rw [hw] <;> simp only [pw, Data.note, cp, ci] <;> omega
    · rename_i hw
      obtain ⟨d, p, e, e1, e2⟩ := own _ h
      refine ⟨p, e1, ?_, ?_, by simp⟩
      · intro e'; rw [e'] at e; cases e
      · rw [e2]
        have doc : ∀ a d', Request.doAct r.d t a = some d' → d'.chain = r.d.chain := by
          intro a d' h
          cases a <;> simp only [Request.doAct, Request.casPending, Request.casInFly] at h <;> (repeat' split at h) <;> cases h <;> (try split) <;> rfl
        cases hq : r.pc t with
        | wait op => exact absurd hq (hw op)
        | locked op =>
          rw [hq] at e
          simp only [Request.own, Option.some.injEq] at e
          cases op <;> simp only [Request.lockedStep] at e <;> (try split at e) <;> cases e <;>
            simp only [pw, Data.note, List.length_cons] <;> omega
        | react op l | fin op l =>
          rw [hq] at e
          cases l with
          | nil => cases e; simp only [pw, List.length_nil]; omega
          | cons a l =>
            simp only [Request.own] at e
            split at e <;> cases e <;> simp only [pw, List.length_cons] <;> (try rw [doc _ _ ‹_›]) <;> omega
        | _ =>
          rw [hq] at e
          simp only [Request.own] at e
          (repeat' split at e) <;> cases e <;> simp_all only [pw, Data.note, List.length_cons, List.length_nil] <;> (try rw [doc _ _ ‹_›]) <;> omega
  · simp only [Request.step] at h
    obtain ⟨d, p, e, e1, e2⟩ := own _ h
    refine ⟨p, e1, ?_, ?_, by simp⟩
    · intro e'; rw [e'] at e; cases e
    · rw [e2]
      unfold Request.enterBookmark at e
      (repeat' split at e) <;> cases e
      simp_all only [pw, Data.note, List.length_cons, List.length_nil]; omega
  · simp only [Request.step] at h
    obtain ⟨d, p, e, e1, e2⟩ := own _ h
    have : r.pc t ≠ .idle ∧ 4 * r'.d.chain.length + pw p + 17 = 4 * r.d.chain.length + pw (r.pc t) := by
      refine ⟨?_, ?_⟩
      · intro e'; rw [e'] at e; cases e
      · rw [e2]
        unfold Request.enterResponder at e
        (repeat' split at e) <;> cases e
        simp_all only [pw, Data.note, List.length_nil]
    exact ⟨p, e1, this.1, by omega, fun _ => this.2⟩

/-- The call of `RespondFail` that goroutine `t` is about to make. -/
def xw (s : St) (t : Nat) : Nat :=
  if t = 0 ∨ t % 2 = 1 then
    match actOf s.m t with
    | .fail i _ => if (s.r i).pc t = .idle then 25 else 0
    | _ => 0
  else 0

def work (B : Nat) (s : St) : Nat :=
  ow s.m.len s.m.responses.length s.m.own + sumTo B (fun i => rw' (s.m.rp i)) + sumTo B (fun k => cw s.m.len (s.m.cp k)) +
    sumTo B (xw s) + sumTo B fun i => qw B (s.r i)

structure Bnd (B : Nat) (s : St) : Prop where
  pos : 0 < B
  len : s.m.len ≤ B
  canc : ∀ k, s.m.cp k ≠ .idle → 2 * k + 1 < B
  thr : ∀ i t, (s.r i).pc t ≠ .idle → t < B

theorem Bnd.mono {B B' : Nat} {s : St} (h : Bnd B s) (hb : B ≤ B') : Bnd B' s where
  pos := Nat.lt_of_lt_of_le h.pos hb
  len := Nat.le_trans h.len hb
  canc k hk := Nat.lt_of_lt_of_le (h.canc k hk) hb
  thr i t hp := Nat.lt_of_lt_of_le (h.thr i t hp) hb

/-- A request in which somebody is, is one of the multi-request's. -/
theorem pc_lt {s : St} {i t : Nat} (I : Inv s) (h : (s.r i).pc t ≠ .idle) : i < s.m.r := by
  have hr := ret_le I.multi
  by_cases ht : Ours t
  · rcases At_ours (I.act i t ht) h with ⟨x, e, _⟩ | ⟨x, e, e1, e2⟩
    · unfold actOf at e
      split at e
      · cases ho : s.m.own <;> rw [ho] at e <;> cases e
        · have := I.multi.chk i (by rw [ho]; rfl); omega
        · have h1 := I.multi.oN i _ (by rw [ho]; rfl)
          have h2 := I.multi.oI i _ (by rw [ho]; rfl)
          omega
      · cases ho : s.m.cp (t / 2) <;> rw [ho] at e <;> cases e
        have h1 := I.multi.cN (t / 2) i _ (by rw [ho]; rfl)
        have h2 := I.multi.cI (t / 2) i _ (by rw [ho]; rfl)
        omega
    · refine I.multi.lt i fun hi => ?_
      cases hp : (s.r i).pc t <;> rw [hp] at e2 <;> cases e2
      · have hH := ((I.req i).owner t ((I.req i).mutex t (by rw [hp]; rfl))).2
        rw [hp] at hH
        have := (I.multi.code i).2 hi
        rw [I.code i, hH.2.2.1] at this
        exact hH.2.2.2 this
      · rw [I.fin i t _ hp] at hi; cases hi
      · rw [(leave_facts I hp ht).1] at hi; cases hi
  · have := I.oth i t ht h; omega

theorem act_lt {s : St} {i t : Nat} {x : UInt32} (I : Inv s) (e : actOf s.m t = .fail i x) : i < s.m.r := by
  unfold actOf at e
  split at e
  · cases ho : s.m.own <;> rw [ho] at e <;> cases e
    · have := I.multi.chk i (by rw [ho]; rfl); omega
    · have h1 := I.multi.oN i _ (by rw [ho]; rfl)
      have h2 := I.multi.oI i _ (by rw [ho]; rfl)
      omega
  · cases ho : s.m.cp (t / 2) <;> rw [ho] at e <;> cases e
    have h1 := I.multi.cN (t / 2) i _ (by rw [ho]; rfl)
    have h2 := I.multi.cI (t / 2) i _ (by rw [ho]; rfl)
    omega

/-- A goroutine of request `i` has moved. -/
theorem qw_set {B t : Nat} {r r' : Request.St} {p : Pc} (ht : t < B) (hp : r'.pc = setPc r.pc t p) :
    qw B r' + (4 * r.d.chain.length + pw (r.pc t)) = qw B r + (4 * r'.d.chain.length + pw p) := by
  have := sum_one (B := B) (f := fun u => pw (r.pc u)) (g := fun u => pw (r'.pc u)) ht (fun j hj => by rw [hp]; simp [setPc, hj])
  simp only [hp, setPc, if_true] at this
  unfold qw
  simp only [hp, setPc]
  omega

theorem reqs_set {B i : Nat} {r : Nat → Request.St} {r' : Request.St} (hi : i < B) :
    sumTo B (fun j => qw B (upd r i r' j)) + qw B (r i) = sumTo B (fun j => qw B (r j)) + qw B r' := by
  have := sum_one (B := B) (f := fun j => qw B (r j)) (g := fun j => qw B (upd r i r' j)) hi (fun j hj => by rw [upd_other hj])
  simpa only [upd_same] using this

theorem xw_none {s : St} {t : Nat} (h : actOf s.m t = .none) : xw s t = 0 := by
  unfold xw; rw [h]; split <;> rfl

theorem xw_le {s : St} {t : Nat} : xw s t ≤ fw (actOf s.m t) := by
  unfold xw fw
  cases actOf s.m t <;> (repeat' split) <;> simp_all

theorem xw_busy {s : St} {i t : Nat} {x : UInt32} (h : actOf s.m t = .fail i x) (hp : (s.r i).pc t ≠ .idle) : xw s t = 0 := by
  unfold xw; rw [h]; simp [hp]

theorem xw_back {s : St} {i t : Nat} (h : actOf s.m t = .back i) : xw s t = 0 := by
  unfold xw; rw [h]; split <;> rfl

/-- Only the goroutine `t` of request `i` has moved, from a call to the same or another call, or it is not one of the multi-request. -/
theorem xw_same {s : St} {m : Multi.St} {i t u : Nat} {r' : Request.St} {p : Pc} (ha : Ours u → actOf m u = actOf s.m u) (hp : r'.pc = setPc (s.r i).pc t p)
    (hu : u = t → Ours t → (s.r i).pc t ≠ .idle ∧ p ≠ .idle) : xw { s with m := m, r := upd s.r i r' } u = xw s u := by
  unfold xw
  split
  · rename_i ho
    rw [show actOf ({ s with m := m, r := upd s.r i r' } : St).m u = actOf m u from rfl, ha ho]
    split
    · rename_i j x e
      by_cases hj : j = i
      · subst hj
        simp only [upd_same, hp, setPc]
        by_cases hut : u = t
        · subst hut
          have := hu rfl ho
          simp [this.1, this.2]
        · simp [hut]
      · simp [upd_other hj]
    · rfl
  · rfl

theorem fail_less {B : Nat} {s s' : St} {i t : Nat} {x : UInt32} (I : Inv s) (b : Bnd B s) (ht : Ours t) (hb : t < B) (ha : actOf s.m t = .fail i x)
    (h : s.fail i t x = some s') : work B s' < work B s ∧ Bnd B s' := by
  obtain ⟨r', h1, rfl⟩ := withReq_some h
  have hi : i < B := Nat.lt_of_lt_of_le (act_lt I ha) (Nat.le_trans (r_le I.multi) b.len)
  obtain ⟨hp, hpc, hd⟩ : (s.r i).pc t = .idle ∧ r'.pc = setPc (s.r i).pc t (.wait (.fail x)) ∧ r'.d = (s.r i).d := by
    simp only [Request.step] at h1
    split at h1 <;> cases h1
    exact ⟨‹_›, rfl, rfl⟩
  refine ⟨?_, ⟨b.pos, b.len, b.canc, ?_⟩⟩
  · have q1 := qw_set hb hpc
    have q2 := reqs_set (r := s.r) (r' := r') hi
    have q3 := sum_one (B := B) (f := xw s) (g := xw { s with r := upd s.r i r' }) hb (fun u hu =>
      xw_same (s := s) (m := s.m) (fun _ => rfl) hpc (fun e => absurd e hu))
    have q4 : xw s t = 25 := by unfold xw; rw [ha]; simp only [hp, if_true]; exact if_pos ht
    have q5 : xw { s with r := upd s.r i r' } t = 0 := xw_busy (i := i) (x := x) ha (by simp [upd_same, hpc, setPc])
    rw [hp, hd] at q1
    simp only [pw] at q1
    unfold work
    simp only
    omega
  · intro j u hu
    by_cases hj : j = i
    · subst hj
      simp only [upd_same, hpc, setPc] at hu
      split at hu
      · rename_i e; subst e; exact hb
      · exact b.thr j u hu
    · simp only [upd_other hj] at hu
      exact b.thr j u hu

/-- A goroutine of a request moves by itself. -/
theorem go_less {B : Nat} {s : St} {i t : Nat} {c : Request.Choice} {r' : Request.St} (I : Inv s) (b : Bnd B s) (h : Request.step (s.r i) c = some r')
    (hc : c = .go t ∨ c = .bookmark t []) (hn : ∀ op, (s.r i).pc t ≠ .leave op ∨ ¬ Ours t) : work B { s with r := upd s.r i r' } < work B s ∧ Bnd B { s with r := upd s.r i r' } := by
  obtain ⟨p, h1, h2, h3, -⟩ := req_less (t := t) h (by rcases hc with h | h <;> simp [h])
  have hi : i < B := Nat.lt_of_lt_of_le (pc_lt I h2) (Nat.le_trans (r_le I.multi) b.len)
  have hb := b.thr i t h2
  have hp : Ours t → p ≠ .idle := by
    intro ht e
    subst e
    have key : r'.pc t = .idle := by rw [h1]; simp [setPc]
    have hd := did (I.req i) h
    rcases hc with rfl | rfl
    · cases hd with
      | cas _ op a1 a2 =>
        have hx := I.act i t ht
        rcases At_ours hx h2 with ⟨x, _, e, _⟩ | ⟨x, _, e, _⟩
        all_goals
          rw [a1] at e
          cases e
          cases a2
      | go _ q a1 a2 a3 =>
        rw [a1] at key
        simp only [setPc, if_true] at key
        rw [key] at a3
        exact a3 rfl
      | leave _ op a1 =>
        rcases hn op with h | h
        · exact h a1
        · exact h ht
    · cases hd with
      | bookmark _ op _ a1 a2 =>
        rw [a2] at key
        simp [setPc] at key
  refine ⟨?_, ⟨b.pos, b.len, b.canc, ?_⟩⟩
  · have q1 := qw_set hb h1
    have q2 := reqs_set (r := s.r) (r' := r') hi
    have q3 := sum_same (B := B) (f := xw s) (g := xw { s with r := upd s.r i r' }) (fun u _ =>
      xw_same (s := s) (m := s.m) (fun _ => rfl) h1 (fun _ ht => ⟨h2, hp ht⟩))
    unfold work
    simp only
    omega
  · intro j u hu
    by_cases hj : j = i
    · subst hj
      simp only [upd_same, h1, setPc] at hu
      split at hu
      · rename_i e; subst e; exact hb
      · exact b.thr j u hu
    · simp only [upd_other hj] at hu
      exact b.thr j u hu

theorem outside_less {B : Nat} {s : St} {m : Multi.St} {c : Multi.Choice} (I : Inv s) (b : Bnd B s) (o : Outside s.m c) (h : Multi.step s.m c = some m)
    (hc : c = .owner ∨ (∃ i, c = .resp i) ∨ ∃ k, c = .canc k) : work B { s with m } < work B s ∧ Bnd B { s with m } := by
  have xs : ∀ {u}, actOf m u = actOf s.m u → xw { s with m } u = xw s u := by
    intro u e
    unfold xw
    rw [show actOf ({ s with m } : St).m u = actOf m u from rfl, e]
  rcases hc with rfl | ⟨j, rfl⟩ | ⟨k, rfl⟩
  · have ha := o.2.1 rfl
    obtain ⟨h1, h2, h3, h4⟩ := owner_less I.multi h ha
    refine ⟨?_, ⟨b.pos, by rw [show ({ s with m } : St).m.len = s.m.len from h3]; exact b.len, fun k hk => b.canc k (by rw [← h2]; exact hk), b.thr⟩⟩
    have q := sum_one (B := B) (f := xw s) (g := xw { s with m }) b.pos (fun u hu => xs (by simp [actOf, hu, h2]))
    have q1 : xw s 0 = 0 := xw_none (by simp [actOf, ha])
    have q2 : xw { s with m } 0 ≤ fw (oAct m.own) := by
      have := xw_le (s := { s with m }) (t := 0)
      simpa [actOf] using this
    unfold work
    simp only [h1, h2, h3] at h4 ⊢
    omega
  · obtain ⟨h1, h2, h3, h4, h5, h6⟩ := resp_less h
    have hj : j < B := Nat.lt_of_lt_of_le (I.multi.lt j h4) (Nat.le_trans (r_le I.multi) b.len)
    refine ⟨?_, ⟨b.pos, by rw [show ({ s with m } : St).m.len = s.m.len from h2]; exact b.len, fun k hk => b.canc k (by rw [← h1]; exact hk), b.thr⟩⟩
    have q := sum_same (B := B) (f := xw s) (g := xw { s with m }) (fun u _ => xs (by simp [actOf, h1, h3]))
    have q1 := sum_one (B := B) (f := fun i => rw' (s.m.rp i)) (g := fun i => rw' (m.rp i)) hj (fun u hu => by rw [h5 u hu])
    unfold work
    simp only [h1, h2] at h6 q1 ⊢
    omega
  · have ha := o.2.2 k rfl
    obtain ⟨h1, h2, h3, h4, h5, h6, h7⟩ := canc_less I.multi h ha
    have hk := b.canc k h5
    refine ⟨?_, ⟨b.pos, by rw [show ({ s with m } : St).m.len = s.m.len from h4]; exact b.len, fun j hj => ?_, b.thr⟩⟩
    · have q := sum_one (B := B) (f := xw s) (g := xw { s with m }) hk (fun u hu => by
        by_cases hu' : u = 2 * (u / 2) + 1
        · refine xs ?_
          simp only [actOf, h2]
          rw [h6 (u / 2) (by omega)]
        · by_cases h0 : u = 0
          · subst h0
            refine xs ?_
            simp only [actOf, h2, if_true]
          · unfold xw
            rw [if_neg (by omega), if_neg (by omega)])
      have q1 : xw s (2 * k + 1) = 0 := xw_none (by rw [actOf_odd, ha])
      have q2 : xw { s with m } (2 * k + 1) ≤ fw (cAct (m.cp k)) := by
        have := xw_le (s := { s with m }) (t := 2 * k + 1)
        rwa [actOf_odd] at this
      have q3 := sum_one (B := B) (i := k) (f := fun k => cw s.m.len (s.m.cp k)) (g := fun k => cw s.m.len (m.cp k)) (by omega) (fun u hu => by rw [h6 u hu])
      unfold work
      simp only [h1, h2, h3, h4] at h7 q3 ⊢
      omega
    · by_cases e : j = k
      · subst e; exact hk
      · exact b.canc j (by rw [← h6 j e]; exact hj)

theorem sum_le {B : Nat} {f g : Nat → Nat} (h : ∀ j, g j ≤ f j) : sumTo B g ≤ sumTo B f := by
  induction B with
  | zero => exact Nat.le_refl _
  | succ n ih => simp only [sumTo]; have := h n; omega

/-- The multi-request has not got more to do outside of its `Respond`s. -/
structure Less (m m' : Multi.St) : Prop where
  len : m'.len = m.len
  resp : m'.responses = m.responses
  own : ∀ L R, ow L R m'.own ≤ ow L R m.own
  canc : ∀ L k, cw L (m'.cp k) ≤ cw L (m.cp k)
  idle : ∀ k, m'.cp k ≠ .idle → m.cp k ≠ .idle

theorem Less.refl (m : Multi.St) : Less m m := ⟨rfl, rfl, fun _ _ => Nat.le_refl _, fun _ _ => Nat.le_refl _, fun _ h => h⟩

theorem enter_less {m m' : Multi.St} {t i : Nat} {x : UInt32} (hc : m.code i = none)
    (ht : Ours t → actOf m t = .fail i x) (h : Multi.step m (enter t i x) = some m') : Less m m' := by
  unfold enter at h
  by_cases h0 : t = 0
  · subst h0
    have ht := ht (.inl rfl)
    simp only [actOf, if_true] at ht
    simp only [if_true, Multi.step] at h
    unfold Multi.stepOwner at h
    cases hp : m.own <;> rw [hp] at ht h <;> cases ht <;> cases h
    all_goals exact ⟨by simp [answer_new hc], by simp [answer_new hc], fun L R => by rw [hp]; simp only [ow]; omega, by simp [answer_new hc], by simp [answer_new hc]⟩
  · simp only [if_neg h0] at h
    by_cases h1 : t % 2 = 1
    · have ht := ht (.inr h1)
      simp only [actOf, if_neg h0] at ht
      simp only [if_pos h1, Multi.step] at h
      unfold Multi.stepCancel at h
      cases hp : m.cp (t / 2) <;> rw [hp] at ht h <;> cases ht <;> cases h
      refine ⟨by simp [answer_new hc], by simp [answer_new hc], by simp [answer_new hc], fun L k => ?_, fun k hk => ?_⟩
      · simp only [answer_new hc, Multi.set]
        split
        · rename_i e; subst e; rw [hp]; simp only [cw]; omega
        · exact Nat.le_refl _
      · simp only [answer_new hc, Multi.set] at hk
        split at hk
        · rename_i e; subst e; rw [hp]; simp
        · exact hk
    · simp only [if_neg h1, Multi.step] at h
      split at h <;> cases h
      exact ⟨by simp [answer_new hc], by simp [answer_new hc], by simp [answer_new hc], by simp [answer_new hc], by simp [answer_new hc]⟩

theorem leave_less {m m' : Multi.St} {t i : Nat} (hc : m.code i ≠ none) (hd : m.rp i = .done)
    (ht : Ours t → (∃ x, actOf m t = .fail i x) ∨ actOf m t = .back i) (h : leave m t = some m') : Less m m' := by
  unfold leave at h
  by_cases h0 : t = 0
  · subst h0
    have ht := ht (.inl rfl)
    simp only [actOf, if_true] at ht
    rw [if_pos rfl] at h
    cases hp : m.own <;> rw [hp] at ht h <;> simp only [oAct, reduceCtorEq, exists_false, or_self, Act.fail.injEq, Act.back.injEq, exists_and_left, false_or, or_false, exists_eq', and_true] at ht
    all_goals
      subst ht
      simp only [Multi.run, Multi.step, Multi.stepOwner, hp, answer_old hc, Option.bind_some, hd, if_true] at h
      cases h
      refine ⟨rfl, rfl, fun L R => ?_, fun _ _ => Nat.le_refl _, fun _ h => h⟩
      rw [hp]; simp only [ow]; omega
  · rw [if_neg h0] at h
    by_cases h1 : t % 2 = 1
    · have ht := ht (.inr h1)
      simp only [actOf, if_neg h0] at ht
      rw [if_pos h1] at h
      cases hp : m.cp (t / 2) <;> rw [hp] at ht h <;> simp only [cAct, reduceCtorEq, exists_false, or_self, Act.fail.injEq, Act.back.injEq, exists_and_left, false_or, or_false, exists_eq', and_true] at ht
      all_goals
        subst ht
        simp only [Multi.run, Multi.step, Multi.stepCancel, hp, answer_old hc, Option.bind_some, hd, if_true, Multi.set] at h
        cases h
        refine ⟨rfl, rfl, fun _ _ => Nat.le_refl _, fun L k => ?_, fun k hk => ?_⟩
        · simp only [Multi.set]
          by_cases e : k = t / 2
          · subst e; simp only [if_true, hp, cw]; omega
          · simp only [e, if_false]; exact Nat.le_refl _
        · by_cases e : k = t / 2
          · subst e; rw [hp]; simp
          · simpa only [Multi.set, e, if_false] using hk
    · rw [if_neg h1] at h
      cases h
      exact .refl m

/-- A goroutine of a request moves with the multi-request. -/
theorem both_less {B n : Nat} {s : St} {i t : Nat} {m : Multi.St} {r' : Request.St} {p : Pc} (I : Inv s) (b : Bnd B s) (hm : Moved t s.m m) (hl : Less s.m m)
    (hp : r'.pc = setPc (s.r i).pc t p) (hne : (s.r i).pc t ≠ .idle) (ha : Ours t → actOf m t = .none ∨ actOf m t = .back i)
    (hr : sumTo B (fun j => rw' (m.rp j)) ≤ sumTo B (fun j => rw' (s.m.rp j)) + n)
    (hw : 4 * r'.d.chain.length + pw p + n < 4 * (s.r i).d.chain.length + pw ((s.r i).pc t)) :
    work B { s with m := m, r := upd s.r i r' } < work B s ∧ Bnd B { s with m := m, r := upd s.r i r' } := by
  have hi : i < B := Nat.lt_of_lt_of_le (pc_lt I hne) (Nat.le_trans (r_le I.multi) b.len)
  have hb := b.thr i t hne
  refine ⟨?_, ⟨b.pos, by rw [show ({ s with m := m, r := upd s.r i r' } : St).m.len = s.m.len from hl.len]; exact b.len, fun k hk => b.canc k (hl.idle k hk), ?_⟩⟩
  · have q1 := qw_set hb hp
    have q2 := reqs_set (r := s.r) (r' := r') hi
    have q3 := sum_le (B := B) (f := xw s) (g := xw { s with m := m, r := upd s.r i r' }) (fun u => by
      by_cases e : u = t
      · subst e
        by_cases ht : Ours u
        · rcases ha ht with h | h
          · rw [xw_none h]; exact Nat.zero_le _
          · rw [xw_back h]; exact Nat.zero_le _
        · unfold xw; rw [if_neg (show ¬ (u = 0 ∨ u % 2 = 1) from ht), if_neg (show ¬ (u = 0 ∨ u % 2 = 1) from ht)]; exact Nat.le_refl _
      · exact Nat.le_of_eq (xw_same (fun hu => hm.act hu e) hp (fun h => absurd h e)))
    have q4 := hl.own s.m.len s.m.responses.length
    have q5 := sum_le (B := B) (fun k => hl.canc s.m.len k)
    unfold work
    simp only [hl.len, hl.resp]
    omega
  · intro j u hu
    by_cases hj : j = i
    · subst hj
      simp only [upd_same, hp, setPc] at hu
      split at hu
      · rename_i e; subst e; exact hb
      · exact b.thr j u hu
    · simp only [upd_other hj] at hu
      exact b.thr j u hu

/-- Each step inside a method lowers the measure. -/
theorem work_less {B : Nat} {s s' : St} {c : Choice} (I : Inv s) (b : Bnd B s) (hc : Inner c) (h : step s c = some s') : work B s' < work B s ∧ Bnd B s' := by
  cases c with
  | multi c =>
    have out : ∀ {c}, Outside s.m c → (c = .owner ∨ (∃ i, c = .resp i) ∨ ∃ k, c = .canc k) → s.withM (Multi.step s.m c) = some s' → work B s' < work B s ∧ Bnd B s' := by
      intro c ho hc h
      obtain ⟨m, h1, rfl⟩ := withM_some h
      exact outside_less I b ho h1 hc
    simp only [step] at h
    cases c
    case owner =>
      simp only [multiStep] at h
      split at h
      · exact fail_less I b (.inl rfl) b.pos (by simp [actOf, oAct, *]) h
      · exact fail_less I b (.inl rfl) b.pos (by simp [actOf, oAct, *]) h
      · cases h
      · cases h
      · refine out ⟨by simp, fun _ => ?_, by simp⟩ (.inl rfl) h
        cases e : s.m.own <;> first | rfl | (rename_i hx; exact absurd e (by grind)) | grind
    case canc k =>
      simp only [multiStep] at h
      split at h
      · exact fail_less I b (ours_odd k) (b.canc k (by simp [*])) (by simp [actOf_odd, cAct, *]) h
      · cases h
      · refine out ⟨by simp, by simp, fun j hj => ?_⟩ (.inr (.inr ⟨k, rfl⟩)) h
        cases hj
        cases e : s.m.cp k <;> first | rfl | grind
    case resp j => exact out ⟨by simp, by simp, by simp⟩ (.inr (.inl ⟨j, rfl⟩)) h
    all_goals cases hc
  | req i c =>
    simp only [step] at h
    cases c with
    | call t op => cases hc
    | bookmark t acts =>
      simp only [reqStep] at h
      split at h
      · rename_i ha
        subst ha
        obtain ⟨r', h1, rfl⟩ := withReq_some h
        refine go_less I b h1 (.inr rfl) fun op => .inl fun e => ?_
        simp [Request.step, e, Request.enterBookmark, Request.St.ownStep] at h1
      · cases h
    | responder t acts =>
      simp only [reqStep] at h
      split at h
      · cases h
      · rename_i x hx
        split at h
        · rename_i ha
          subst ha
          cases h0 : s.withReq i (Request.step (s.r i) (.responder t [])) with
          | none => rw [h0] at h; cases h
          | some s1 =>
            rw [h0] at h
            obtain ⟨r', h1, rfl⟩ := withReq_some h0
            obtain ⟨m, h2, rfl⟩ := withM_some h
            obtain ⟨p, a1, a2, a3, a4⟩ := req_less (t := t) h1 (.inr (.inr rfl))
            cases did (I.req i) h1 with
            | responder _ op y _ hw hy hp hd hr =>
              rw [hx] at hy
              cases hy
              obtain ⟨k1, k2, k3⟩ := resp_facts I hw hx
              obtain ⟨m', e1, e2, e3, e4, e5⟩ := enter_step (t := t) I.multi k1 (fun ht => (k2 ht).1) k3
              have hl := enter_less (t := t) k1 (fun ht => (k2 ht).1) h2
              rw [e1] at h2
              cases h2
              have hi : i < B := Nat.lt_of_lt_of_le (pc_lt I a2) (Nat.le_trans (r_le I.multi) b.len)
              have q := sum_one (B := B) (f := fun j => rw' (s.m.rp j)) (g := fun j => rw' (m.rp j)) hi (fun j hj => by rw [e4]; simp [Multi.set, hj])
              have q' : rw' (m.rp i) = 10 := by rw [e4]; simp [Multi.set, rw']
              exact both_less (n := 10) I b e2 hl a1 a2 (fun ht => .inr (e5 ht)) (by omega) (by have := a4 rfl; omega)
        · cases h
    | go t =>
      simp only [reqStep] at h
      split at h
      · rename_i op hw
        split at h
        · obtain ⟨r', h1, rfl⟩ := withReq_some h
          exact go_less I b h1 (.inl rfl) fun op => .inl fun e => by rw [hw] at e; cases e
        · cases h
      · rename_i op hw
        cases h0 : s.withReq i (Request.step (s.r i) (.go t)) with
        | none => rw [h0] at h; cases h
        | some s1 =>
          rw [h0] at h
          obtain ⟨r', h1, rfl⟩ := withReq_some h0
          obtain ⟨m, h2, rfl⟩ := withM_some h
          by_cases ht : Ours t
          · obtain ⟨k1, k2, k3⟩ := leave_facts I hw ht
            have hcode : s.m.code i ≠ none := fun e => by rw [(I.multi.code i).1 e] at k1; cases k1
            obtain ⟨m', e1, e2, e3, e4, _, _, e5⟩ := leave_step (t := t) I.multi k1 (fun _ => k2)
            have hl := leave_less hcode k1 (fun _ => k2) h2
            rw [e1] at h2
            cases h2
            obtain ⟨p, a1, a2, a3, a4⟩ := req_less (t := t) h1 (.inl rfl)
            exact both_less (n := 0) I b e2 hl a1 a2 (fun ht => .inl (e5 ht)) (by rw [e4]; exact Nat.le_refl _) (by omega)
          · rw [leave_other ht] at h2
            cases h2
            exact go_less I b h1 (.inl rfl) fun op => .inr ht
      · rename_i hn1 hn2
        obtain ⟨r', h1, rfl⟩ := withReq_some h
        exact go_less I b h1 (.inl rfl) fun op => .inl fun e => hn2 op e

/-! ### Finitely many goroutines -/

theorem bnd_step {B : Nat} {s s' : St} {c : Choice} (I : Inv s) (b : Bnd B s) (h : step s c = some s') : ∃ B', Bnd B' s' := by
  by_cases hc : Inner c
  · exact ⟨B, (work_less I b hc h).2⟩
  · cases c with
    | multi c =>
      simp only [step] at h
      cases c
      case owner | resp | canc => exact absurd trivial hc
      case answer => cases h
      case cancel k e f =>
        simp only [multiStep] at h
        obtain ⟨m, h1, rfl⟩ := withM_some h
        simp only [Multi.step] at h1
        split at h1 <;> cases h1
        refine ⟨B + (2 * k + 2), ⟨by omega, ?_, fun j hj => ?_, fun i t ht => by have := b.thr i t ht; omega⟩⟩
        · have := b.len
          cases e <;> (show s.m.len ≤ _; omega)
        · by_cases e1 : j = k
          · omega
          · have := b.canc j (by cases e <;> simpa [Multi.set, e1] using hj)
            omega
      all_goals
        simp only [multiStep] at h
        obtain ⟨m, h1, rfl⟩ := withM_some h
        simp only [Multi.step] at h1
        refine ⟨B + 1, ⟨by omega, ?_, ?_, fun i t ht => by have := b.thr i t ht; omega⟩⟩
      all_goals
        have := b.len
        (repeat' split at h1) <;> cases h1 <;> first
          | (show s.m.len + 1 ≤ _; omega)
          | (show s.m.len ≤ _; omega)
          | exact fun k hk => Nat.lt_succ_of_lt (b.canc k hk)
    | req i c =>
      simp only [step] at h
      cases c with
      | call t op =>
        simp only [reqStep] at h
        split at h
        · obtain ⟨r', h1, rfl⟩ := withReq_some h
          simp only [Request.step] at h1
          split at h1 <;> cases h1
          refine ⟨B + (t + 1), ⟨by omega, by have := b.len; show s.m.len ≤ _; omega, fun k hk => by have := b.canc k hk; omega, fun j u hu => ?_⟩⟩
          by_cases hj : j = i
          · subst hj
            simp only [upd_same, setPc] at hu
            split at hu
            · omega
            · have := b.thr j u hu; omega
          · simp only [upd_other hj] at hu
            have := b.thr j u hu; omega
        · cases h
      | _ => exact absurd trivial hc

theorem bnd_run {B : Nat} {s s' : St} {cs : List Choice} (I : Inv s) (b : Bnd B s) (h : run s cs = some s') : ∃ B', Bnd B' s' := by
  induction cs generalizing s B with
  | nil => cases h; exact ⟨B, b⟩
  | cons c cs ih =>
    simp only [run] at h
    cases e : step s c with
    | none => rw [e] at h; cases h
    | some t =>
      rw [e] at h
      obtain ⟨B', b'⟩ := bnd_step I b e
      exact ih (inv_step I e) b' h

theorem bnd_init (msg : Nat → UInt32) : Bnd 1 (init msg) where
  pos := Nat.one_pos
  len := Nat.zero_le _
  canc k h := absurd rfl h
  thr i t h := absurd rfl h

theorem work_run {B : Nat} {s s' : St} {ds : List Choice} (I : Inv s) (b : Bnd B s) (hc : ∀ c ∈ ds, Inner c) (h : run s ds = some s') : ds.length + work B s' ≤ work B s := by
  induction ds generalizing s with
  | nil => cases h; simp
  | cons c ds ih =>
    simp only [run] at h
    cases e : step s c with
    | none => rw [e] at h; cases h
    | some t =>
      rw [e] at h
      obtain ⟨h1, h2⟩ := work_less I b (hc c (List.mem_cons_self ..)) e
      have := ih (inv_step I e) h2 (fun d hd => hc d (List.mem_cons_of_mem _ hd)) h
      simp only [List.length_cons]
      omega

/-- What can be reached by steps inside the methods is there when there are no such steps. -/
theorem Can.rest {s : St} {P : St → Prop} (h : Can s P) (hq : ∀ c, Inner c → MultiReq.step s c = none) : P s ∨ Multi.Panicked s.m := by
  obtain ⟨ds, s', h1, h2, h3⟩ := h
  cases ds with
  | nil => cases h2; exact h3
  | cons c ds =>
    rw [run, hq c (h1 c (List.mem_cons_self ..))] at h2
    cases h2

end Verif.MultiReq
