import Verif.Spec.BoxPool

/-! A box with several connections, looked at several times; and what a series of requests makes of one tuple. -/
namespace Verif.Box
open Verif.Spec Verif.Sbox

/-- The server is a box which had `D` in the beginning; `B n c` is the state of connection `c` at time `n`, and `N` is the last time. It handles requests one by one, in
the order `H`, each once; `T n` of them at time `n`. It handles what it has received, and gives no answer before. The rest is as in `ServesAll`. -/
def ServesSince (e : Nat → ByteLink.Env) (N : Nat) (B : Nat → Nat → ByteLink.St) (D : Db) : Prop :=
  ∃ (H : List (Nat × Nat)) (T : Nat → Nat) (S : Nat → Db), S 0 = D ∧ H.Nodup ∧ T N = H.length ∧ (∀ m n, m ≤ n → T m ≤ T n) ∧
    (∀ n, n ≤ N → ∀ c k, (c, k) ∈ H.take (T n) → k < (B n c).got.length) ∧
    (∀ n, n ≤ N → ∀ c k, Answered (B n c) k → (c, k) ∈ H.take (T n)) ∧
    ∀ j c k q, H[j]? = some (c, k) → (B N c).seen k = some q →
      (∀ x : Req, x.Fits → q.msg = x.msg → q.body = x.body →
        (S j).After (S (j + 1)) x ∧
        ∀ space offset limit keys, x = .select space 0 offset limit keys →
          (e c).code k = 0 ∧ (e c).answer k = response (((S j).found space offset limit keys).map tupleBytes)) ∧
      ((∀ x : Req, x.Fits → q.msg = x.msg → q.body ≠ x.body) → q.msg ≠ 22 → S (j + 1) = S j)

/-- ... which had something in the beginning. -/
def ServesLong (e : Nat → ByteLink.Env) (N : Nat) (B : Nat → Nat → ByteLink.St) : Prop := ∃ D, ServesSince e N B D

/-- What a request with the primary key of a tuple makes of it; `none`: there is no such tuple. -/
def act (cur : Option (List Bytes)) : Req → Option (List Bytes)
  | .store _ flags t =>
    if flags / 2 = 0 then some t
    else if flags / 2 = 1 then some (cur.getD t)
    else if flags / 2 = 2 then cur.map fun _ => t
    else cur
  | .delete .. => none
  | .update _ _ _ ops => cur.map (setFields ops)
  | .select .. => cur

/-- ... and a series of them. -/
def since (cur : Option (List Bytes)) (xs : List Req) : Option (List Bytes) := xs.foldl act cur

/-- ... beginning with no tuple. -/
def history (xs : List Req) : Option (List Bytes) := since none xs

/-- What comes out does not depend on what was there. -/
def Req.Fresh : Req → Prop
  | .store _ flags _ => flags / 2 = 0
  | .delete .. => True
  | _ => False

/-- If it is an update, it sets fields which the tuple has, and not the primary key. -/
def Req.Sets (cur : Option (List Bytes)) : Req → Prop
  | .update _ _ _ ops => ∀ o ∈ ops, o.2.1 = 0 ∧ o.1 ≠ 0 ∧ ∀ t, cur = some t → o.1.toNat < t.length
  | _ => True

end Verif.Box
