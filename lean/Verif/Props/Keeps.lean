import Verif.Proofs.Keeps
import Verif.Props.Conn
import Verif.Props.BufferRest
/-!
C155: what connections and queues keep is bounded by what waits in them.
-/
namespace Verif.Props
open Verif

/-- C155: the rows of 256 slots in the table of a connection are at most one more than the requests that wait for a response, for a peer that
answers only what it was asked, and once, and fewer than 2^32 - 1 requests. Missing: ids which have wrapped around (C51), other peers (C54). -/
theorem C155_connection_partial {cs : List Conn.Choice} {s : Conn.St} (h : Conn.run Conn.init cs = some s) (hp : Conn.Polite Conn.init cs)
    (hy : Conn.Young s) :
    ∃ ids : List Nat, ids.Nodup ∧ (∀ id ∈ ids, Conn.Expected s id) ∧ s.h.rows.length ≤ ids.length + 1 :=
  Conn.keep_bound (Conn.inv_run Conn.inv_init hp h hy) (Conn.keep_run Conn.inv_init Conn.keep_init hp h hy)

/-- C155: once nothing waits for a response, one row is left at most. -/
theorem C155_idle_partial {cs : List Conn.Choice} {s : Conn.St} (h : Conn.run Conn.init cs = some s) (hp : Conn.Polite Conn.init cs)
    (hy : Conn.Young s) (hn : ∀ id, ¬ Conn.Expected s id) : s.h.rows.length ≤ 1 := by
  obtain ⟨ids, -, h2, h3⟩ := C155_connection_partial h hp hy
  cases ids with
  | nil => exact h3
  | cons id ids => exact absurd (h2 id (by simp)) (hn id)

theorem div_split {x y R : Nat} (hR : 0 < R) : (x + y) / R ≤ x / R + y / R + 1 := by
  have h1 := Nat.div_add_mod x R
  have h2 := Nat.div_add_mod y R
  have h3 := Nat.mod_lt x hR
  have h4 := Nat.mod_lt y hR
  apply Nat.le_of_lt_succ
  rw [Nat.div_lt_iff_lt_mul hR, Nat.succ_mul, Nat.add_mul, Nat.add_mul, Nat.mul_comm (x / R), Nat.mul_comm (y / R)]
  omega

/-- C155: a row of the queue has a slot that was reserved, and its slots or those of the row after it have not all been passed by the
forwarding goroutine; the row made first is there from the beginning. -/
theorem C155_queue_rows {R cap : Nat} (hR : 0 < R) {cs : List Buffer.Choice} {s : Buffer.St} (h : Buffer.run R cap Buffer.init cs = some s)
    {k : Nat} (hk : s.rows k ≠ none) : (k = 0 ∨ k * R < s.tail) ∧ s.head < (k + 2) * R := by
  have hkeep := Buffer.keep_run hR Buffer.inv_init Buffer.keep_init h
  obtain ⟨o, ho⟩ := Option.ne_none_iff_exists'.1 hk
  have h1 := hkeep.low k o ho
  have h2 := hkeep.near
  refine ⟨hkeep.high k o ho, ?_⟩
  rw [← Nat.div_lt_iff_lt_mul hR]
  omega

theorem keys {R cap : Nat} (hR : 0 < R) {cs : List Buffer.Choice} {s : Buffer.St} (h : Buffer.run R cap Buffer.init cs = some s)
    {k : Nat} (hk : s.rows k ≠ none) : s.head / R - 1 ≤ k ∧ k < (s.tail - 1) / R + 1 := by
  obtain ⟨h1, h2⟩ := C155_queue_rows hR h hk
  rw [← Nat.div_lt_iff_lt_mul hR] at h2
  refine ⟨by omega, Nat.lt_succ_of_le ?_⟩
  rcases h1 with rfl | h3
  · exact Nat.zero_le _
  · rw [Nat.le_div_iff_mul_le hR]; omega

/-- C155: the number of rows in a queue is at most three more than needed for the slots that have not been passed. -/
theorem C155_queue {R cap : Nat} (hR : 0 < R) {cs : List Buffer.Choice} {s : Buffer.St} (h : Buffer.run R cap Buffer.init cs = some s)
    {ks : List Nat} (hk : ks.Nodup) (hr : ∀ k ∈ ks, s.rows k ≠ none) : ks.length ≤ (s.tail - s.head) / R + 3 := by
  obtain ⟨S, hi⟩ := Buffer.inv_run hR Buffer.inv_init h
  have hd := div_split (x := s.tail - s.head) (y := s.head) hR
  have hle := hi.headle
  rw [Nat.sub_add_cancel hle] at hd
  have hm : (s.tail - 1) / R ≤ s.tail / R := Nat.div_le_div_right (Nat.sub_le _ _)
  have := Buffer.interval hk (fun k hx => keys hR h (hr k hx))
  generalize s.head / R = a at *
  generalize s.tail / R = b at *
  generalize (s.tail - 1) / R = c at *
  generalize (s.tail - s.head) / R = d at *
  omega

/-- C155: and when the queue has come to rest, two rows are left at most. -/
theorem C155_queue_rest {R cap : Nat} (hR : 0 < R) (hcap : 0 < cap) {cs : List Buffer.Choice} {s : Buffer.St}
    (h : Buffer.run R cap Buffer.init cs = some s) (ho : s.closing = 0) (hq : ∀ c, Buffer.Begun s.log c → Buffer.step R cap s c = none)
    {ks : List Nat} (hk : ks.Nodup) (hr : ∀ k ∈ ks, s.rows k ≠ none) : ks.length ≤ 2 := by
  obtain ⟨S, hi⟩ := Buffer.inv_run hR Buffer.inv_init h
  obtain ⟨r1, r2, r3, r4, -⟩ := Buffer.Rest.at_rest hR hcap h ho hq
  have he : s.head = s.tail := by
    apply Classical.byContradiction
    intro hne
    have hlt : s.head < S.length := by have := hi.headle; have := hi.len; omega
    have hg : S[s.head]? = some S[s.head] := List.getElem?_eq_getElem hlt
    refine hi.quiet S[s.head] (by rw [r2]; trivial) r3 hg (r4 _ (hi.called _ fun hid => ?_))
    exact hi.unslotted S[s.head] (by rw [hid]; trivial) (List.getElem_mem hlt)
  have hm : (s.tail - 1) / R ≤ s.tail / R := Nat.div_le_div_right (Nat.sub_le _ _)
  have := Buffer.interval hk (fun k hx => keys hR h (hr k hx))
  rw [he] at this
  omega

/-- 257 requests are sent: two rows. The first goes when all its 255 ids are answered, and not before. -/
def some257 (l : List Nat) : List Conn.Choice := Conn.sends 257 ++ l.flatMap fun i => [.resp i 0, .reply]

example : ((Conn.run Conn.init (some257 (List.range' 1 255))).map fun s => s.h.rows.map (·.1)) = some [1] ∧
    ((Conn.run Conn.init (some257 (List.range' 2 254))).map fun s => s.h.rows.map (·.1)) = some [1, 0] := by decide +kernel

/-- The peer is polite; the last of two requests waits. -/
example : Conn.politeB 2 Conn.init (Conn.sends 2 ++ [.resp 1 0, .reply]) = true ∧
    ((Conn.run Conn.init (Conn.sends 2 ++ [.resp 1 0, .reply])).map fun s => (s.h.rows, s.removed, s.idOf 1)) =
      some ([(0, 0)], [1], some 2) := by decide +kernel

/-- Three rows of two slots while five requests wait, one row when they have been forwarded. -/
def fiveWait : List Buffer.Choice := rep 4 (.push 0) ++ [1, 2, 3, 4, 5].flatMap fun r => rep (8 + r % 2) (.push r)

example : ((Buffer.run 2 1 Buffer.init fiveWait).map fun s => (s.tail - s.head, (List.range 9).filter fun k => s.rows k ≠ none)) =
    some (5, [0, 1, 2]) := by decide +kernel

example : ((Buffer.run 2 1 Buffer.init (fiveWait ++ (List.range 48).flatMap fun i => if i % 9 = 0 then [.recv] else [.loop])).map fun s =>
    (s.tail - s.head, (List.range 9).filter fun k => s.rows k ≠ none)) = some (0, [2]) := by decide +kernel

end Verif.Props
