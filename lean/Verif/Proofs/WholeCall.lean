import Verif.Proofs.WholeLive
import Verif.Proofs.Endpoint
import Verif.Props.Buffer
/-!
Both ends go on, the queue included.
-/
namespace Verif.Conn

/-- A request that got its id was written, is being written, or writing failed. -/
def Went (s : St) : Prop := ∀ r i, s.idOf r = some i → (∃ f, (i, r, f) ∈ s.wire) ∨ (∃ f, s.wp = .write i r f) ∨ s.wp = .ended

theorem went_step {s s' : St} {c : Choice} (h : Went s) (hs : step s c = some s') : Went s' := by
  have keep : ∀ t : St, t.idOf = s.idOf → t.wire = s.wire → t.wp = s.wp → Went t := by
    intro t h1 h2 h3 r i hi
    rw [h1] at hi
    rw [h2, h3]
    exact h r i hi
  have off : ∀ (t : St) r o j, t.idOf = s.idOf → t.wire = s.wire → t.wp = s.wp → s.wp = .loop → Went (offer t r o j) := by
    intro t r o j h1 h2 h3 h4
    unfold offer
    split
    · intro r' i' hi
      have hi' : s.idOf r' = some i' := by rw [← h1]; exact hi
      rcases h r' i' hi' with ⟨f, hm⟩ | ⟨f, hm⟩ | hm
      · exact .inl ⟨f, by show _ ∈ t.wire; rw [h2]; exact hm⟩
      · rw [h4] at hm; cases hm
      · rw [h4] at hm; cases hm
    · exact keep _ h1 h2 h3
  have ans : ∀ (t : St) r a, (answer t r a).idOf = t.idOf ∧ (answer t r a).wire = t.wire ∧ (answer t r a).wp = t.wp := fun _ _ _ => ⟨rfl, rfl, rfl⟩
  cases c with
  | take r =>
    simp only [step] at hs
    split at hs
    · rename_i hw
      (repeat' split at hs) <;> cases hs
      · exact off _ _ _ _ rfl rfl rfl hw
      · exact off _ _ _ _ rfl rfl rfl hw
    · cases hs
  | header =>
    simp only [step] at hs
    split at hs <;> cases hs
    rename_i r o j hw
    intro r' i' hi
    simp only [set] at hi
    split at hi
    · rename_i e; subst e; cases hi; exact .inr (.inl ⟨_, rfl⟩)
    · rcases h r' i' hi with hm | ⟨f, hm⟩ | hm
      · exact .inl hm
      · rw [hw] at hm; cases hm
      · rw [hw] at hm; cases hm
  | wrote ok =>
    simp only [step] at hs
    split at hs
    · rename_i id r f hw
      cases ok <;> simp only [Bool.false_eq_true, if_false, if_true] at hs <;> cases hs
      · intro r' i' _; exact .inr (.inr rfl)
      · intro r' i' hi
        rcases h r' i' hi with ⟨f, hm⟩ | ⟨f, hm⟩ | hm
        · exact .inl ⟨f, List.mem_append_left _ hm⟩
        · rw [hw] at hm; cases hm; exact .inl ⟨_, List.mem_append_right _ (List.mem_singleton.2 rfl)⟩
        · rw [hw] at hm; cases hm
    · cases hs
  | endWrite b =>
    simp only [step] at hs
    split at hs <;> cases hs
    intro _ _ _; exact .inr (.inr rfl)
  | resp id x =>
    simp only [step] at hs
    (repeat' split at hs) <;> cases hs <;> exact keep _ rfl rfl rfl
  | reply =>
    simp only [step, respond] at hs
    (repeat' split at hs) <;> cases hs <;> exact keep _ rfl rfl rfl
  | endRead =>
    simp only [step] at hs
    split at hs <;> cases hs
    exact keep _ rfl rfl rfl
  | fail r =>
    simp only [step, respondFail] at hs
    split at hs <;> cases hs <;> exact keep _ rfl rfl rfl
  | flush =>
    simp only [step] at hs
    (repeat' split at hs) <;> cases hs <;> exact keep _ rfl rfl rfl
  | flushOne =>
    simp only [step, respondFail] at hs
    (repeat' split at hs) <;> cases hs <;> exact keep _ rfl rfl rfl

theorem went_run {s s' : St} {cs : List Choice} (h : Went s) (hs : run s cs = some s') : Went s' := by
  induction cs generalizing s with
  | nil => cases hs; exact h
  | cons c cs ih =>
    simp only [run, Option.bind_eq_some_iff] at hs
    obtain ⟨s1, h1, h2⟩ := hs
    exact ih (went_step h h1) h2

theorem went_init : Went init := by intro r i h; cases h

/-- What receiving a request does. -/
theorem eff_take {k k' : St} {r : Nat} (h : step k (.take r) = some k') :
    k.wp = .loop ∧ (k'.wp = .loop ∨ ∃ o j, k'.wp = .header r o j) ∧ k'.wire = k.wire ∧ k'.rp = k.rp ∧ k'.ans = k.ans := by
  simp only [step] at h
  split at h
  · rename_i hw
    (repeat' split at h) <;> cases h <;> unfold offer <;> split <;> refine ⟨hw, ?_, rfl, rfl, rfl⟩ <;>
      first | exact .inr ⟨_, _, rfl⟩ | exact .inl hw
  · cases h

end Verif.Conn

namespace Verif.Buffer
open Served (all all_le all_drop all_grow all_congr)

def pw : PPc → Nat
  | .start => 107
  | .gotTail _ => 106
  | .gotHead _ => 106
  | .direct => 105
  | .reserve => 104
  | .readRow _ => 51
  | .lookup _ => 50
  | .chain _ _ => 49
  | .markSet _ _ => 48
  | .markFree _ _ => 48
  | .signal => 47
  | _ => 0

def fw : Life → Nat
  | .live => 3
  | .prepared => 2
  | .told => 1
  | .gone => 0

def lw : LPc → Nat
  | .cmp => 45
  | .row => 44
  | .look _ => 43
  | .take _ => 42
  | .free _ _ => 41
  | .pend _ => 40
  | .send _ => 39
  | .inc => 5
  | .wait => 1
  | .exited => 0

/-- What is left to do for the queue. -/
def bw (rs : List Nat) (b : St) : Nat :=
  all (fun r => pw (b.push r) + fw (b.life r)) rs + 52 * (b.tail - b.head) + lw b.loop + (if b.sig then 46 else 0) + 33 * b.chan.length

/-- Returning from `push` is logged. -/
theorem done_step {R cap : Nat} {s s' : St} {c : Choice} (h : ∀ r, s.push r = .done → .ret r ∈ s.log) (hs : step R cap s c = some s') :
    ∀ r, s'.push r = .done → .ret r ∈ s'.log := by
  cases c with
  | push q =>
    simp only [step, stepPush] at hs
    (repeat' split at hs) <;> cases hs <;> intro r hr <;> simp only [set] at hr <;> split at hr <;>
      first
      | (have := h r hr; simp [this]; done)
      | (cases hr; done)
      | (split at hr <;> cases hr; done)
      | (rename_i e; subst e; simp; done)
  | headFirst q =>
    simp only [step] at hs
    split at hs <;> cases hs
    intro r hr
    simp only [set] at hr
    split at hr
    · cases hr
    · exact h r hr
  | loop =>
    simp only [step, stepLoop] at hs
    (repeat' split at hs) <;> cases hs <;> intro r hr <;> have := h r hr <;> simp [this]
  | close =>
    simp only [step, stepClose] at hs
    split at hs <;> cases hs <;> exact h
  | answer q =>
    simp only [step, stepAnswer] at hs
    (repeat' split at hs) <;> cases hs <;> intro r hr <;> have := h r hr <;> simp [this]
  | recv =>
    simp only [step] at hs
    split at hs <;> cases hs
    exact h

theorem done_run {R cap : Nat} {s s' : St} {cs : List Choice} (h : ∀ r, s.push r = .done → .ret r ∈ s.log) (hs : run R cap s cs = some s') :
    ∀ r, s'.push r = .done → .ret r ∈ s'.log := by
  induction cs generalizing s with
  | nil => cases hs; exact h
  | cons c cs ih =>
    simp only [run, Option.bind_eq_some_iff] at hs
    obtain ⟨s1, h1, h2⟩ := hs
    exact ih (done_step h h1) h2

theorem calls_step {R cap : Nat} {s s' : St} {c : Choice} (h : ∀ r, .call r ∈ s.log → s.push r ≠ .idle) (hs : step R cap s c = some s') :
    ∀ r, .call r ∈ s'.log → s'.push r ≠ .idle := by
  cases c with
  | push q =>
    simp only [step, stepPush] at hs
    (repeat' split at hs) <;> cases hs <;> intro r hr <;> simp only [set] <;> split <;>
      first
      | (intro e; cases e; done)
      | (split <;> (intro e; cases e); done)
      | (apply h r; simpa using hr; done)
      | (apply h r; rename_i e; simp [e] at hr; exact hr; done)
  | headFirst q =>
    simp only [step] at hs
    split at hs <;> cases hs
    intro r hr
    simp only [set]
    split
    · intro e; cases e
    · exact h r hr
  | loop =>
    simp only [step, stepLoop] at hs
    (repeat' split at hs) <;> cases hs <;> intro r hr <;> apply h r <;> simpa using hr
  | close =>
    simp only [step, stepClose] at hs
    split at hs <;> cases hs <;> exact h
  | answer q =>
    simp only [step, stepAnswer] at hs
    (repeat' split at hs) <;> cases hs <;> intro r hr <;> apply h r <;> simpa using hr
  | recv =>
    simp only [step] at hs
    split at hs <;> cases hs
    exact h

theorem calls_run {R cap : Nat} {s s' : St} {cs : List Choice} (h : ∀ r, .call r ∈ s.log → s.push r ≠ .idle) (hs : run R cap s cs = some s') :
    ∀ r, .call r ∈ s'.log → s'.push r ≠ .idle := by
  induction cs generalizing s with
  | nil => cases hs; exact h
  | cons c cs ih =>
    simp only [run, Option.bind_eq_some_iff] at hs
    obtain ⟨s1, h1, h2⟩ := hs
    exact ih (calls_step h h1) h2

theorem bw_begin (rs : List Nat) (b : St) (r : Nat) : bw rs (Endpoint.begin b r) ≤ bw rs b := by
  unfold Endpoint.begin
  split
  · rename_i h
    unfold bw
    have : all (fun x => pw (b.push x) + fw (set b.life r .prepared x)) rs ≤ all (fun x => pw (b.push x) + fw (b.life x)) rs := by
      apply all_le
      intro x _
      simp only [set]
      split
      · rename_i e; subst e; rw [h]; simp only [fw]; omega
      · exact Nat.le_refl _
    dsimp only
    omega
  · exact Nat.le_refl _

theorem bw_loop {R cap : Nat} {rs S : List Nat} {b b' : St} (i : Inv R b S) (hs : step R cap b .loop = some b') : bw rs b' < bw rs b := by
  have hb := i.busy
  have hh := i.headle
  simp only [step, stepLoop] at hs
  split at hs <;> rename_i e <;> rw [e] at hb <;> simp only [LPc.busy, forall_const, false_imp_iff] at hb <;> (repeat' split at hs) <;> cases hs <;>
    unfold bw <;> dsimp only <;> rw [e] <;> simp only [lw, List.length_append, List.length_singleton] <;>
    first
    | omega
    | (split <;> simp only [lw] <;> omega)
    | (simp_all; omega)
    | simp_all

theorem push_drop {rs : List Nat} {b : St} {q d : Nat} {x : PPc} (hq : q ∈ rs) (h : pw x + d ≤ pw (b.push q)) :
    all (fun r => pw (set b.push q x r) + fw (b.life r)) rs + d ≤ all (fun r => pw (b.push r) + fw (b.life r)) rs := by
  refine all_drop (x := q) (fun r _ => ?_) hq ?_
  · simp only [set]
    split
    · rename_i e; subst e; omega
    · exact Nat.le_refl _
  · simp only [set, if_true]
    omega

theorem life_drop {rs : List Nat} {b : St} {q : Nat} {x : Life} (hq : q ∈ rs) (h : fw x + 1 ≤ fw (b.life q)) :
    all (fun r => pw (b.push r) + fw (set b.life q x r)) rs + 1 ≤ all (fun r => pw (b.push r) + fw (b.life r)) rs := by
  refine all_drop (x := q) (fun r _ => ?_) hq ?_
  · simp only [set]
    split
    · rename_i e; subst e; omega
    · exact Nat.le_refl _
  · simp only [set, if_true]
    omega

theorem bw_push {R cap : Nat} {rs S : List Nat} {b b' : St} {q : Nat} (i : Inv R b S) (hq : q ∈ rs) (hi : b.push q ≠ .idle)
    (hs : step R cap b (.push q) = some b') : bw rs b' < bw rs b := by
  have hh := i.headle
  have go : ∀ (x : PPc) (d : Nat) (t : St), t.push = set b.push q x → t.life = b.life → t.loop = b.loop → t.head = b.head → pw x + d ≤ pw (b.push q) →
      52 * (t.tail - b.head) + (if t.sig then 46 else 0) + 33 * t.chan.length < 52 * (b.tail - b.head) + (if b.sig then 46 else 0) + 33 * b.chan.length + d →
      bw rs t < bw rs b := by
    intro x d t h1 h2 h3 h4 h5 h6
    have := push_drop (rs := rs) hq h5
    unfold bw
    rw [h1, h2, h3, h4]
    omega
  simp only [step, stepPush] at hs
  split at hs <;> rename_i e
  · exact absurd e hi
  · cases hs; exact go _ 1 _ rfl rfl rfl rfl (by rw [e]; simp [pw]) (by simp)
  · cases hs; exact go _ 1 _ rfl rfl rfl rfl (by rw [e]; split <;> simp [pw]) (by simp)
  · cases hs; exact go _ 1 _ rfl rfl rfl rfl (by rw [e]; split <;> simp [pw]) (by simp)
  · split at hs <;> cases hs
    · exact go _ 101 _ rfl rfl rfl rfl (by rw [e]; simp [pw]) (by simp only [List.length_append, List.length_singleton]; omega)
    · exact go _ 1 _ rfl rfl rfl rfl (by rw [e]; simp [pw]) (by simp)
  · cases hs; exact go _ 53 _ rfl rfl rfl rfl (by rw [e]; simp [pw]) (by dsimp only; omega)
  · cases hs; exact go _ 1 _ rfl rfl rfl rfl (by rw [e]; split <;> simp [pw]) (by simp)
  · split at hs <;> cases hs
    · exact go _ 1 _ rfl rfl rfl rfl (by rw [e]; simp [pw]) (by simp)
    · exact go _ 1 _ rfl rfl rfl rfl (by rw [e]; simp [pw]) (by simp)
  · split at hs <;> cases hs
    · exact go _ 1 _ rfl rfl rfl rfl (by rw [e]; simp [pw]) (by simp)
    · exact go _ 1 _ rfl rfl rfl rfl (by rw [e]; simp [pw]) (by simp)
  · cases hs; exact go _ 1 _ rfl rfl rfl rfl (by rw [e]; simp [pw]) (by simp)
  · cases hs; exact go _ 1 _ rfl rfl rfl rfl (by rw [e]; simp [pw]) (by simp)
  · split at hs <;> cases hs
    · exact go _ 47 _ rfl rfl rfl rfl (by rw [e]; simp [pw]) (by simp)
    · exact go _ 47 _ rfl rfl rfl rfl (by rw [e]; simp [pw]) (by simp only [if_true]; split <;> omega)
  · cases hs
  · cases hs

theorem bw_head {R cap : Nat} {rs : List Nat} {b b' : St} {q : Nat} (hq : q ∈ rs)
    (hs : step R cap b (.headFirst q) = some b') : bw rs b' < bw rs b := by
  simp only [step] at hs
  split at hs
  · rename_i e
    cases hs
    have := push_drop (rs := rs) (b := b) (d := 1) (x := .gotHead b.head) hq (by rw [e]; simp [pw])
    unfold bw
    dsimp only
    omega
  · cases hs

theorem bw_answer {R cap : Nat} {rs : List Nat} {b b' : St} {q : Nat} (hq : q ∈ rs)
    (hs : step R cap b (.answer q) = some b') : bw rs b' < bw rs b := by
  have go : ∀ (x : Life) (t : St), t.push = b.push → t.life = set b.life q x → t.loop = b.loop → t.head = b.head → t.tail = b.tail →
      t.sig = b.sig → t.chan = b.chan → fw x + 1 ≤ fw (b.life q) → bw rs t < bw rs b := by
    intro x t h1 h2 h3 h4 h5 h6 h7 h8
    have := life_drop (rs := rs) hq h8
    unfold bw
    rw [h1, h2, h3, h4, h5, h6, h7]
    omega
  simp only [step, stepAnswer] at hs
  (repeat' split at hs) <;> cases hs <;> rename_i e _ <;>
    first
    | exact go _ _ rfl rfl rfl rfl rfl rfl rfl (by simp_all [fw])

end Verif.Buffer
