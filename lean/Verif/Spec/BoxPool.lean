import Verif.Spec.Box

/-! A box with several connections. Connections are numbers; `e c` and `b c` are the environment and the state of connection `c`. -/
namespace Verif.Box
open Verif.Spec Verif.Sbox

/-- The client has the answer to the `k`-th request it has written. -/
def Answered (b : ByteLink.St) (k : Nat) : Prop := ∃ i r d, b.c.wire[k]? = some (i, r, true) ∧ b.c.ans r = some (.response i d)

/-- The server is a box, and `b` comes before `b'`: it handles requests one by one, in any order; `H` are those which it has handled in `b`, and `H'` those which
it has handled since. It handles what it has received, each request once, and gives no answer before. What it has in the beginning is left open, and so are the answers
to other requests than selections by the primary key. Procedures (22) may do anything. -/
def ServesAll (e : Nat → ByteLink.Env) (b b' : Nat → ByteLink.St) : Prop :=
  ∃ (H H' : List (Nat × Nat)) (S : Nat → Db), (H ++ H').Nodup ∧
    (∀ c k, (c, k) ∈ H → k < (b c).got.length) ∧ (∀ c k, (c, k) ∈ H ++ H' → k < (b' c).got.length) ∧
    (∀ c k, Answered (b c) k → (c, k) ∈ H) ∧ (∀ c k, Answered (b' c) k → (c, k) ∈ H ++ H') ∧
    ∀ j c k q, (H ++ H')[j]? = some (c, k) → (b' c).seen k = some q →
      (∀ x : Req, x.Fits → q.msg = x.msg → q.body = x.body →
        (S j).After (S (j + 1)) x ∧
        ∀ space offset limit keys, x = .select space 0 offset limit keys →
          (e c).code k = 0 ∧ (e c).answer k = response (((S j).found space offset limit keys).map tupleBytes)) ∧
      ((∀ x : Req, x.Fits → q.msg = x.msg → q.body ≠ x.body) → q.msg ≠ 22 → S (j + 1) = S j)

end Verif.Box
