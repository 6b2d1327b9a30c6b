import Verif.Props.BoxPool

/-! C160: waiting for the answer is needed. -/
namespace Verif.Box
open Verif.Marshal Verif.Reflect Verif.Spec Verif.Sbox Verif.ByteLink Verif.Props

/-- As `env1`, but nothing is found. -/
def envNone : Env := { env1 with answer := fun _ => Spec.response [] }

/-- Request 3 is written, and flushed. -/
def wrote : List Choice := storing.take 4

def stored3 : List Choice := storing.drop 4

theorem race_fits : ∀ c, Env.Fits (pick env0 envNone env2 c) := by
  have h := pool_fits
  apply pick_all (P := fun _ => Env.Fits) (h 0)
  · refine ⟨(h 1).1, fun k => ?_⟩
    show (Spec.response []).length + 4 < 2 ^ 32
    decide +kernel
  · exact fun c => h (c + 2)

/-- C160 is violated if the first request was only written, all of it, before the second: request 3 on connection 0 stores a row, then request 4 on connection 1
selects by its primary key, both are answered with code 0, nobody else touches the tuples with that key, the server is a box, and yet `ReadMany` finds nothing.
On one connection that cannot happen (C157_pipelined_partial). -/
theorem C160_written_violated : ∃ (e : Nat → Env) (cs ds : Nat → List Choice) (b b' : Nat → ByteLink.St),
    (∀ c, (e c).Fits) ∧ (∀ c, Sane (e c) true (cs c ++ ds c)) ∧
    (∀ c, ByteLink.run (e c) (init true) (cs c) = some (b c)) ∧ (∀ c, ByteLink.run (e c) (b c) (ds c) = some (b' c)) ∧
    (∀ c, Conn.Young (b' c).c) ∧ ServesAll e b b' ∧
    ((e 0).msg 3 = 13 ∧ Rpc.marshalWrite (.hook (StoreReq.write ⟨1, false, 0, .val rowTy rowVal⟩)) = some ((e 0).body 3)) ∧
    ((e 1).msg 4 = 17 ∧ Rpc.marshalWrite (.hook (SelectReq.write ⟨1, 0, 0, -1, keys7⟩)) = some ((e 1).body 4)) ∧
    (∀ c r, (c, r) ≠ (0, 3) → ¬ Touches (e c) 1 [7, 0, 0, 0] r) ∧
    (1, 3, true) ∈ (b 0).c.wire ∧ (∀ w ∈ (b 1).c.wire, w.2.1 ≠ 4) ∧
    (∃ q, (b' 0).c.ans 3 = some (.response 1 1) ∧ (b' 0).read 1 = some q ∧ q.code = 0) ∧
    ∃ q, (b' 1).c.ans 4 = some (.response 1 1) ∧ (b' 1).read 1 = some q ∧ q.code = 0 ∧ readMany rowTy q.body = some (0, 0, none, []) := by
  have hb0 : ∃ b, ByteLink.run env0 (init true) (shake ++ wrote) = some b ∧ ((1, 3, true) ∈ b.c.wire ∧ b.got = [] ∧ b.c.ans 3 = none ∧ b.c.wire.length = 1 ∧
      b.c.wire[0]?.map (·.2.1) = some 3 ∧
      ((ByteLink.run env0 b stored3).any fun b' => decide (b'.got.length = 1 ∧ b'.c.wire.length = 1 ∧
        b'.seen 0 = some ⟨13, 1, (Req.store 1 0 (fields rowTy rowVal)).body⟩ ∧ Conn.Young b'.c ∧ b'.c.ans 3 = some (.response 1 1) ∧
        b'.read 1 = some ⟨13, 1, 0, [1, 0, 0, 0]⟩)) = true) := by
    refine any_some ?_
    decide +kernel
  have hb1 : ∃ b, ByteLink.run envNone (init true) shake = some b ∧ (b.c.wire = [] ∧
      ((ByteLink.run envNone b selecting1).any fun b' => decide (b'.got.length = 1 ∧ b'.c.wire.length = 1 ∧
        b'.seen 0 = some ⟨17, 1, (Req.select 1 0 0 2147483647 [[[7, 0, 0, 0]]]).body⟩ ∧
        Conn.Young b'.c ∧ b'.c.ans 4 = some (.response 1 1) ∧ b'.read 1 = some ⟨17, 1, 0, Spec.response []⟩)) = true) := by
    refine any_some ?_
    decide +kernel
  obtain ⟨b0, p1, p2, pg, pa, pl, pw, p3⟩ := hb0
  obtain ⟨b0', o1, o2, o3, o4, o5, o6, o7⟩ := any_some p3
  obtain ⟨b1, q1, q2, q3⟩ := hb1
  obtain ⟨b1', r1, r2, r3, r4, r5, r6, r7⟩ := any_some q3
  have f0 : (Req.store 1 0 (fields rowTy rowVal)).Fits := ⟨by decide, by decide, by decide +kernel⟩
  have f1 : (Req.select 1 0 0 2147483647 [[[7, 0, 0, 0]]]).Fits := ⟨by decide, by decide, by decide, by decide, by decide, by simp⟩
  refine ⟨pick env0 envNone env2, pick (shake ++ wrote) shake [], pick stored3 selecting1 [], pick b0 b1 (init true), pick b0' b1' (init true),
    race_fits, pick_all (P := fun c x => Sane x true _) (.inl rfl) (.inl rfl) fun _ => .inl rfl, ?_, ?_, ?_, ?_, ⟨rfl, by decide +kernel⟩, ⟨rfl, by decide +kernel⟩,
    ?_, p2, ?_, ⟨_, o6, o7, rfl⟩, ⟨_, r6, r7, rfl, by decide +kernel⟩⟩
  · intro c
    match c with
    | 0 => exact p1
    | 1 => exact q1
    | c + 2 => rfl
  · intro c
    match c with
    | 0 => exact o1
    | 1 => exact r1
    | c + 2 => rfl
  · exact pick_all (P := fun _ (x : ByteLink.St) => Conn.Young x.c) o5 r5 fun _ => by decide
  · refine ⟨[], [(1, 0), (0, 0)], fun k s => if k ≤ 1 then [] else if s = 1 then [fields rowTy rowVal] else [], by decide, by simp, ?_, ?_, ?_, ?_⟩
    · intro c k hk
      have : (c = 1 ∧ k = 0) ∨ (c = 0 ∧ k = 0) := by simpa using hk
      rcases this with ⟨rfl, rfl⟩ | ⟨rfl, rfl⟩
      · show 0 < b1'.got.length
        omega
      · show 0 < b0'.got.length
        omega
    · rintro c k ⟨i, r, d, hw, ha⟩
      have hlt := (List.getElem?_eq_some_iff.mp hw).1
      match c with
      | 0 =>
        have : k < b0.c.wire.length := hlt
        obtain rfl : k = 0 := by omega
        have hw : b0.c.wire[0]? = some (i, r, true) := hw
        rw [hw] at pw
        obtain rfl : r = 3 := by simpa using pw
        exact absurd (pa.symm.trans ha) (by simp)
      | 1 =>
        have : k < b1.c.wire.length := hlt
        simp [q2] at this
      | c + 2 => exact absurd hlt (Nat.not_lt_zero _)
    · rintro c k ⟨i, r, d, hw, _⟩
      have hlt := (List.getElem?_eq_some_iff.mp hw).1
      match c with
      | 0 =>
        have : k < b0'.c.wire.length := hlt
        obtain rfl : k = 0 := by omega
        simp
      | 1 =>
        have : k < b1'.c.wire.length := hlt
        obtain rfl : k = 0 := by omega
        simp
      | c + 2 => exact absurd hlt (Nat.not_lt_zero _)
    · intro j c k q hj hq
      match j with
      | 0 =>
        obtain ⟨rfl, rfl⟩ : 1 = c ∧ 0 = k := by simpa using hj
        have hq : b1'.seen 0 = some q := hq
        rw [r4] at hq
        cases hq
        refine ⟨fun x hx hm hbd => ?_, fun hx => absurd rfl (hx _ f1 rfl)⟩
        obtain rfl := body_inj f1 hx hm hbd
        refine ⟨rfl, ?_⟩
        intro sp o l ks he
        cases he
        exact ⟨rfl, rfl⟩
      | 1 =>
        obtain ⟨rfl, rfl⟩ : 0 = c ∧ 0 = k := by simpa using hj
        have hq : b0'.seen 0 = some q := hq
        rw [o4] at hq
        cases hq
        refine ⟨fun x hx hm hbd => ?_, fun hx => absurd rfl (hx _ f0 rfl)⟩
        obtain rfl := body_inj f0 hx hm hbd
        refine ⟨?_, by simp⟩
        funext s
        by_cases hs : s = 1 <;> simp [Db.put, hs]
      | j + 2 => simp at hj
  · rintro c r hcr ht
    match c with
    | 0 =>
      have h3 : r ≠ 3 := fun h => hcr (by rw [h])
      rcases ht with hm | ⟨x, _, hm, _, _⟩
      · simp [pick, env0, h3] at hm
      · cases x <;> simp [pick, env0, h3, Req.msg] at hm
    | 1 =>
      rcases ht with hm | ⟨x, _, hm, _, hx⟩
      · by_cases h4 : r = 4 <;> simp [pick, envNone, env1, h4] at hm
      · by_cases h4 : r = 4 <;> cases x <;> simp [pick, envNone, env1, h4, Req.msg, Req.On] at hm hx
    | c + 2 =>
      rcases ht with hm | ⟨x, _, hm, _, _⟩
      · simp [pick, env2] at hm
      · cases x <;> simp [pick, env2, Req.msg] at hm
  · show ∀ w ∈ b1.c.wire, w.2.1 ≠ 4
    simp [q2]

end Verif.Box
