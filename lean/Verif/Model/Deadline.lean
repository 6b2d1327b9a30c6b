/-!
Read and write timeouts: `SliceReader.Read` (net/slice_reader.go:17-49, 71-91) and `BufWriter.write` (net/buf_writer.go:86-105) with the clock.

* The transport is a list of what its reads will return: how many bytes, and from when on they are there. A read of the transport takes the first of
  these (how the peer's writes are cut into reads is up to the network). When the list has ended nothing comes any more.
* A deadline in force ends a read at that time if there is nothing until then. If the data come at that very moment, the deadline wins.
* Contents, the buffer's memory and the end of the stream are in Model/Net.lean; here bytes are only counted.
* The code itself takes no time.
-/
namespace Verif.Deadline

/-- The connection: the time, the read deadline, and whether it has `SetReadDeadline` and `SetWriteDeadline` (net/net_conn.go:49-52; `RwcWrapper`,
net/net_conn.go:19-47, has not, whatever it wraps). -/
structure Conn where
  now : Nat
  dl : Option Nat
  hasDl : Bool
  coming : List (Nat × Nat)
deriving DecidableEq, Repr

inductive Out
  | ok (bytes : Nat)
  | timeout
  | hang
deriving DecidableEq, Repr

/-- `Read` of the transport. -/
def Conn.recv (c : Conn) : Conn × Out :=
  match c.coming with
  | [] => match c.dl with
    | none => (c, .hang)
    | some e => ({ c with now := max c.now e }, .timeout)
  | (t, k) :: rest => match c.dl with
    | none => ({ c with now := max c.now t, coming := rest }, .ok k)
    | some e =>
      if e ≤ max c.now t then ({ c with now := max c.now e }, .timeout)
      else ({ c with now := max c.now t, coming := rest }, .ok k)

/-- `SliceReader.read` (net/slice_reader.go:71-91). `sl.d` is the connection if it has the methods; it is looked for once, which makes no difference. -/
def read (timeout : Nat) (c : Conn) : Conn × Out :=
  let c := if timeout > 0 ∧ c.hasDl then { c with dl := some (c.now + timeout) } else c
  match c.recv with
  | (c, .ok k) => (if timeout > 0 ∧ c.hasDl then { c with dl := none } else c, .ok k)
  | r => r

theorem recv_coming {c c' : Conn} {k : Nat} (h : c.recv = (c', .ok k)) : c'.coming.length + 1 = c.coming.length := by
  simp only [Conn.recv] at h
  split at h
  · split at h <;> cases h
  · rename_i e
    split at h
    · cases h; simp [e]
    · split at h <;> cases h; simp [e]

theorem read_coming {timeout : Nat} {c c' : Conn} {k : Nat} (h : read timeout c = (c', .ok k)) : c'.coming.length + 1 = c.coming.length := by
  simp only [read] at h
  split at h
  · rename_i c'' k' e
    have := recv_coming e
    split at this <;> (cases h; split <;> simpa using this)
  · rename_i e
    exact (e _ _ h).elim

/-- The loop of `SliceReader.Read(n)` (net/slice_reader.go:33-38) with `l` bytes in the buffer: the bytes left over. -/
def readLoop (timeout n l : Nat) (c : Conn) : Conn × Out :=
  if n ≤ l then (c, .ok (l - n))
  else match h : read timeout c with
    | (c', .ok k) => readLoop timeout n (l + k) c'
    | r => r
termination_by c.coming.length
decreasing_by have := read_coming h; omega

/-- Calls of `Read(n)` one after the other; before each of them the caller is busy for a while. `l` bytes are in the buffer. The time each call
took. -/
def calls (timeout : Nat) : List (Nat × Nat) → Nat → Conn → List (Nat × Out)
  | [], _, _ => []
  | (idle, n) :: ns, l, c =>
    let c := { c with now := c.now + idle }
    match readLoop timeout n l c with
    | (c', .ok l') => (c'.now - c.now, .ok l') :: calls timeout ns l' c'
    | (c', o) => [(c'.now - c.now, o)]

/-- `BufWriter.write` (net/buf_writer.go:86-105), when the transport has taken all of the bytes at time `done` (or never does). -/
def write (timeout : Nat) (done : Option Nat) (c : Conn) : Conn × Out :=
  let c := if timeout > 0 ∧ c.hasDl then { c with dl := some (c.now + timeout) } else c
  match done, c.dl with
  | none, none => (c, .hang)
  | none, some e => ({ c with now := max c.now e }, .timeout)
  | some t, none => ({ c with now := max c.now t }, .ok 0)
  | some t, some e =>
    if e ≤ max c.now t then ({ c with now := max c.now e }, .timeout)
    else (if timeout > 0 ∧ c.hasDl then { c with now := max c.now t, dl := none } else { c with now := max c.now t }, .ok 0)

end Verif.Deadline
