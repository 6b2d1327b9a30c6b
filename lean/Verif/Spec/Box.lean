import Verif.Spec.Sbox
import Verif.Spec.ByteLink

/-!
What a box (the server for which package sbox is made) does, as far as it is asked to store, to delete, to set fields and to select by the primary key: requests
as the protocol has them, and a map of tuples. Nothing of the models of sbox is used but the layout of tuples (Spec/Sbox.lean).
-/
namespace Verif.Box
open Verif.Spec Verif.Sbox

/-- A request, as the box understands it. The flags of `store` are 1 for "return the tuple" and twice the mode. An operation of an
update is the number of a field, a code and an argument. -/
inductive Req
  | store (space flags : Nat) (t : List Bytes)
  | select (space index offset limit : Nat) (keys : List (List Bytes))
  | delete (space flags : Nat) (key : List Bytes)
  | update (space flags : Nat) (key : List Bytes) (ops : List (UInt32 × UInt8 × Bytes))

def Req.msg : Req → UInt32
  | .store .. => 13
  | .select .. => 17
  | .delete .. => 21
  | .update .. => 19

def Req.body : Req → Bytes
  | .store space flags t => le 4 space ++ (le 4 flags ++ tupleBytes t)
  | .select space index offset limit keys =>
    le 4 space ++ (le 4 index ++ (le 4 offset ++ (le 4 limit ++ (le 4 keys.length ++ (keys.map tupleBytes).flatten))))
  | .delete space flags key => le 4 space ++ (le 4 flags ++ tupleBytes key)
  | .update space flags key ops => le 4 space ++ (le 4 flags ++ (tupleBytes key ++ (le 4 ops.length ++ (ops.map fun o => updBytes o.1 o.2.1 o.2.2).flatten)))

/-- All numbers fit into 32 bits. -/
def Req.Fits : Req → Prop
  | .store space flags t => space < 2 ^ 32 ∧ flags < 2 ^ 32 ∧ t.length < 2 ^ 32
  | .select space index offset limit keys =>
    space < 2 ^ 32 ∧ index < 2 ^ 32 ∧ offset < 2 ^ 32 ∧ limit < 2 ^ 32 ∧ keys.length < 2 ^ 32 ∧ ∀ k ∈ keys, k.length < 2 ^ 32
  | .delete space flags key => space < 2 ^ 32 ∧ flags < 2 ^ 32 ∧ key.length < 2 ^ 32
  | .update space flags key ops => space < 2 ^ 32 ∧ flags < 2 ^ 32 ∧ key.length < 2 ^ 32 ∧ ops.length < 2 ^ 32

/-- The tuples in each space. The first field of a tuple is its primary key. -/
abbrev Db := Nat → List (List Bytes)

def Db.has (db : Db) (space : Nat) (t : List Bytes) : Bool := (db space).any (·.head? = t.head?)

/-- The tuples with this primary key. -/
def Db.only (db : Db) (space : Nat) (key : Bytes) : List (List Bytes) := (db space).filter (·.head? = some key)

def Db.put (db : Db) (space : Nat) (t : List Bytes) : Db :=
  fun s => if s = space then (db s).filter (·.head? ≠ t.head?) ++ [t] else db s

def Db.remove (db : Db) (space : Nat) (key : Bytes) : Db :=
  fun s => if s = space then (db s).filter (·.head? ≠ some key) else db s

/-- The tuple after its fields have been set to the arguments. -/
def setFields (ops : List (UInt32 × UInt8 × Bytes)) (t : List Bytes) : List Bytes := ops.foldl (fun t o => t.set o.1.toNat o.2.2) t

/-- What a request does to the tuples: the modes are "insert or replace", "insert", "replace". An update that sets fields which are there, and not the
primary key, sets them; other updates may do anything to the tuples with the key they say. -/
def Db.After (db db' : Db) : Req → Prop
  | .store space flags t => db' =
    if flags / 2 = 0 then db.put space t
    else if flags / 2 = 1 then if db.has space t then db else db.put space t
    else if flags / 2 = 2 then if db.has space t then db.put space t else db
    else db
  | .select .. => db' = db
  | .delete space _ [key] => db' = db.remove space key
  | .delete _ _ _ => db' = db
  | .update space _ key ops => ∀ s k, (s ≠ space ∨ key ≠ [k] → db'.only s k = db.only s k) ∧
    (s = space ∧ key = [k] → (∀ o ∈ ops, o.2.1 = 0 ∧ o.1 ≠ 0 ∧ ∀ t ∈ db.only s k, o.1.toNat < t.length) →
      db'.only s k = (db.only s k).map (setFields ops))

/-- The tuples of which one of the keys is the beginning, key by key. -/
def Db.found (db : Db) (space offset limit : Nat) (keys : List (List Bytes)) : List (List Bytes) :=
  ((keys.flatMap fun k => (db space).filter (k.isPrefixOf ·)).drop offset).take limit

/-- The server is a box: it handles the requests in the order in which it has received them. What it has in the beginning is
left open, and so are the answers to other requests than selections by the primary key. Procedures (22) may do anything. -/
def Serves (e : ByteLink.Env) (b : ByteLink.St) : Prop :=
  ∃ S : Nat → Db, ∀ k q, b.seen k = some q →
    (∀ x : Req, x.Fits → q.msg = x.msg → q.body = x.body →
      (S k).After (S (k + 1)) x ∧
      ∀ space offset limit keys, x = .select space 0 offset limit keys →
        e.code k = 0 ∧ e.answer k = response (((S k).found space offset limit keys).map tupleBytes)) ∧
    ((∀ x : Req, x.Fits → q.msg = x.msg → q.body ≠ x.body) → q.msg ≠ 22 → S (k + 1) = S k)

/-- The request may change the tuples with this primary key: it stores one, or deletes or updates the one that is there. -/
def Req.On (space : Nat) (key : Bytes) : Req → Prop
  | .store s _ t => s = space ∧ t.head? = some key
  | .delete s _ k => s = space ∧ k = [key]
  | .update s _ k _ => s = space ∧ k = [key]
  | .select .. => False

/-- Request `r` does, or it is a procedure. -/
def Touches (e : ByteLink.Env) (space : Nat) (key : Bytes) (r : Nat) : Prop :=
  e.msg r = 22 ∨ ∃ x : Req, x.Fits ∧ e.msg r = x.msg ∧ e.body r = x.body ∧ x.On space key

end Verif.Box
