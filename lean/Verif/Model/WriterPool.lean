import Verif.Model.Marshal

/-! Pooled writers: `marshal.Write` and `marshal.WriteTail` (marshal/marshal.go:94-114) and the writers borrowed by `TWriter.WriteWithSize`
(marshal/writer_reflect.go:269-276,312-322), used by any number of goroutines at once.

* All writers live in one heap. A call is: get a writer from the pool or make one; any writes; `Written`; put the writer back. A call made
  by the code of another call (a field with a size, a user's `IWrite` that calls `marshal.Write`) counts as a goroutine of its own.
* Every single write (`scal`, `uvar`, `bytes`, `scalSl`) is one step. The goroutines do not write to the same bytes (that is what is proved),
  so finer steps would give nothing else.
* `sync.Pool` and the channel `twriters` may give out any of the writers put back, and may forget writers at any time. One pool stands for
  both; new writers may have any `DefSize`.
* A call may panic: its writer is then never put back.
* The owner of a result may change its bytes. Results never lose their owner. -/
namespace Verif.WriterPool
open Verif.Marshal

/-- A `*Writer` without the heap. -/
structure Wtr where
  buf : Slc
  defSize : Int
deriving DecidableEq, Repr

/-- Where a goroutine is. -/
inductive PC where
  | idle
  /-- between `Get` and `Written` (marshal.go:101-103, writer_reflect.go:313-319), with what was written since the last `Written` or `Reset` -/
  | writing (w : Wtr) (log : List WOp)
  /-- between `Written` and `Put` (marshal.go:103-104, writer_reflect.go:319-322) -/
  | taken (w : Wtr)
deriving DecidableEq, Repr

/-- A slice some `Written` returned: the writes that made it, and what its owner stored in it since. -/
structure Res where
  s : Slc
  log : List WOp
  edits : List (Nat × Bytes)
deriving DecidableEq, Repr

structure St where
  mem : Mem
  pool : List Wtr
  pc : Nat → PC
  res : List Res

def init : St := ⟨Mem.empty, [], fun _ => .idle, []⟩

inductive Choice where
  /-- `&Writer{DefSize: d}` (marshal.go:96, writer_reflect.go:316) -/
  | new (g : Nat) (d : Int)
  /-- `writerPool.Get()` or `<-twriters` gives the `i`-th of the pooled writers (marshal.go:101,109, writer_reflect.go:314) -/
  | get (g i : Nat)
  /-- a write -/
  | op (g : Nat) (o : WOp)
  /-- `Written` called by the user's code in the middle of a call -/
  | written (g : Nat)
  /-- `Reset` called by the user's code -/
  | reset (g : Nat)
  /-- `Written` at the end (marshal.go:103,111, writer_reflect.go:319) -/
  | take (g : Nat)
  /-- `Put` (marshal.go:104,112, writer_reflect.go:271-276,322) -/
  | put (g : Nat)
  /-- a panic -/
  | crash (g : Nat)
  /-- the pool forgets a writer -/
  | drop (i : Nat)
  /-- the owner of result `k` stores `d` in it at `pos` -/
  | edit (k pos : Nat) (d : Bytes)

def St.go (s : St) (g : Nat) (p : PC) : St := { s with pc := fun i => if i = g then p else s.pc i }

/-- The writer of a goroutine, in the heap. -/
def St.wr (s : St) (w : Wtr) : Wr := ⟨s.mem, w.buf, w.defSize⟩

/-- `Written` (writer.go:20-25), with the slice returned. -/
def St.out (s : St) (w : Wtr) (log : List WOp) : Wtr × List Res :=
  (⟨(s.wr w).written.1.buf, w.defSize⟩, s.res ++ [⟨(s.wr w).written.2, log, []⟩])

/-- One step. -/
def step (s : St) : Choice → Option St
  | .new g d => match s.pc g with
    | .idle => some (s.go g (.writing ⟨Slc.nil, d⟩ []))
    | _ => none
  | .get g i => match s.pc g, s.pool[i]? with
    | .idle, some w => some { s.go g (.writing w []) with pool := s.pool.eraseIdx i }
    | _, _ => none
  | .op g o => match s.pc g with
    | .writing w log => match o with
      | .written | .reset => none
      | o => match o.run (s.wr w) with
        | none => none
        | some (w', _) => some { s.go g (.writing ⟨w'.buf, w'.defSize⟩ (log ++ [o])) with mem := w'.mem }
    | _ => none
  | .written g => match s.pc g with
    | .writing w log => some { s.go g (.writing (s.out w log).1 []) with res := (s.out w log).2 }
    | _ => none
  | .reset g => match s.pc g with
    | .writing w _ => some (s.go g (.writing ⟨(s.wr w).reset.buf, w.defSize⟩ []))
    | _ => none
  | .take g => match s.pc g with
    | .writing w log => some { s.go g (.taken (s.out w log).1) with res := (s.out w log).2 }
    | _ => none
  | .put g => match s.pc g with
    | .taken w => some { s.go g .idle with pool := s.pool ++ [w] }
    | _ => none
  | .crash g => some (s.go g .idle)
  | .drop i => some { s with pool := s.pool.eraseIdx i }
  | .edit k pos d => match s.res[k]? with
    | none => none
    | some r => if pos + d.length ≤ r.s.len then
        some { s with mem := s.mem.store r.s.blk (r.s.off + pos) d, res := s.res.set k { r with edits := r.edits ++ [(pos, d)] } }
      else none

/-- Any interleaving. -/
def run (s : St) : List Choice → Option St
  | [] => some s
  | c :: cs => match step s c with
    | none => none
    | some s => run s cs

end Verif.WriterPool
