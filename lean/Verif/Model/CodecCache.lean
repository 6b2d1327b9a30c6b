/-! The four caches of codecs: `marshal.WriterFor` (marshal/writer_reflect.go:225-254), `marshal.ReaderFor`
(marshal/reader_reflect.go:351-380), `sbox.writer` (sbox/writer.go:80-109) and `sbox.reader` (sbox/reader.go:49-78).
They are the same program; the text below names the first.

A type is an element of `T` (the address of its `reflect.Type`). The maps and the codecs are numbered in the order
of their creation. `ws` is the published map, `wss` the one under construction; goroutines read `ws` without the lock.
Memory is sequentially consistent here, which Go promises only for programs without data races (see `race` in
Props/CodecCache.lean); a pointer is read and written at once. -/
namespace Verif.CodecCache
variable {T A : Type}

/-- What `Fill` does next, given what it has read from the codecs of the parts so far: asks for the codec of a
part (`_writer(m)`, after which it reads that codec), panics (`log.Panicf`), or ends. -/
inductive Act (T A : Type) where
  | dep (m : T)
  | panic
  | done (a : A)

/-- The types: `fill n` is `Fill` for type `n` (writer_reflect.go:372-506,717-866), a function of the attributes of
the parts read so far; `init n` are the attributes of a codec whose `Fill` has not ended (`Sz: -1, Cnt: -1`,
writer_reflect.go:250; `Cnt = 1` in structs, :714). -/
structure Env (T A : Type) where
  fill : T → List A → Act T A
  init : T → A

/-- A codec: its type, what `Fill` computed, the codecs it points to (`Elem`, `Flds`), and whether `Fill` ended. -/
structure Codec (T A : Type) where
  ty : T
  att : A
  refs : List Nat
  done : Bool

/-- A call of `Fill` in progress: the codec being filled, its type, what it has read so far. -/
structure Frame (T A : Type) where
  cod : Nat
  ty : T
  got : List A

/-- Where a goroutine is in `WriterFor(rt)` (writer_reflect.go:229-244). -/
inductive PC (T : Type) where
  | idle
  /-- about to load `ws` (:231) -/
  | load (rt : T)
  /-- about to index the map `m` it loaded (:231) -/
  | index (rt : T) (m : Nat)
  /-- `wsL.Lock()` (:232) -/
  | lock (rt : T)
  /-- has the lock, second look (:234) -/
  | again (rt : T)
  /-- makes the copy (:235-238) -/
  | copy (rt : T)
  /-- calls `_writer(rt)` (:239) -/
  | enter (rt : T)
  /-- inside `_writer(rt)` -/
  | fill (rt : T)
  /-- `ws = wss` (:240) -/
  | publish (rt : T) (c : Nat)
  /-- the deferred `Unlock` with a result (:233) -/
  | unlock (rt : T) (c : Nat)
  /-- the deferred `Unlock` while panicking (:233) -/
  | fail (rt : T)
deriving DecidableEq, Repr

structure St (T A : Type) where
  maps : Nat → T → Option Nat
  nmap : Nat
  ws : Nat
  wss : Nat
  cods : Nat → Option (Codec T A)
  ncod : Nat
  stack : List (Frame T A)
  lock : Option Nat
  pc : Nat → PC T
  /-- what the calls returned: type and codec; `none` is a panic -/
  rets : List (T × Option Nat)

/-- `ws = make(map…)`, `wss = ws` (:225-227). -/
def init : St T A :=
  { maps := fun _ _ => none, nmap := 1, ws := 0, wss := 0, cods := fun _ => none, ncod := 0, stack := []
    lock := none, pc := fun _ => .idle, rets := [] }

def set {K B : Type} [DecidableEq K] (f : K → B) (k : K) (v : B) : K → B := fun x => if x = k then v else f x

/-- `wr = &TWriter{…}; wss[rtid] = wr; wr.Fill()` (:249-252): a new codec, put into `wss` before it is filled. -/
def St.create [DecidableEq T] (e : Env T A) (s : St T A) (rt : T) : St T A :=
  { s with
    cods := set s.cods s.ncod (some ⟨rt, e.init rt, [], false⟩)
    ncod := s.ncod + 1
    maps := set s.maps s.wss (set (s.maps s.wss) rt (some s.ncod))
    stack := ⟨s.ncod, rt, []⟩ :: s.stack }

/-- What the codec `c` looks like to a `Fill` that reads it now. -/
def St.att (e : Env T A) (s : St T A) (rt : T) (c : Nat) : A :=
  match s.cods c with
  | some x => x.att
  | none => e.init rt

inductive Choice (T : Type) where
  /-- goroutine `t` calls `WriterFor(rt)` -/
  | call (t : Nat) (rt : T)
  /-- goroutine `t` goes on -/
  | go (t : Nat)
deriving DecidableEq, Repr

/-- The topmost `Fill` goes on. -/
def fillStep [DecidableEq T] (e : Env T A) (s : St T A) (t : Nat) (rt : T) : Option (St T A) :=
  match s.stack with
  | [] => none
  | f :: rest => match e.fill f.ty f.got with
    | .dep m => match s.maps s.wss m with
      | none => some (s.create e m)
      | some c => some { s with
          cods := set s.cods f.cod ((s.cods f.cod).map fun x => { x with refs := c :: x.refs })
          stack := { f with got := f.got ++ [s.att e m c] } :: rest }
    | .panic => some { s with stack := [], pc := set s.pc t (.fail rt) }
    | .done a =>
      let s := { s with
        cods := set s.cods f.cod ((s.cods f.cod).map fun x => { x with att := a, done := true })
        stack := rest }
      match rest with
      | [] => some { s with pc := set s.pc t (.publish rt f.cod) }
      | _ => some s

def step [DecidableEq T] (e : Env T A) (s : St T A) : Choice T → Option (St T A)
  | .call t rt => match s.pc t with
    | .idle => some { s with pc := set s.pc t (.load rt) }
    | _ => none
  | .go t => match s.pc t with
    | .idle => none
    | .load rt => some { s with pc := set s.pc t (.index rt s.ws) }
    | .index rt m => match s.maps m rt with
      | some c => some { s with pc := set s.pc t .idle, rets := (rt, some c) :: s.rets }
      | none => some { s with pc := set s.pc t (.lock rt) }
    | .lock rt => match s.lock with
      | none => some { s with lock := some t, pc := set s.pc t (.again rt) }
      | some _ => none
    | .again rt => match s.maps s.ws rt with
      | some c => some { s with pc := set s.pc t (.unlock rt c) }
      | none => some { s with pc := set s.pc t (.copy rt) }
    | .copy rt => some { s with maps := set s.maps s.nmap (s.maps s.ws), wss := s.nmap, nmap := s.nmap + 1
                                pc := set s.pc t (.enter rt) }
    | .enter rt => match s.maps s.wss rt with
      | some c => some { s with pc := set s.pc t (.publish rt c) }
      | none => some { s.create e rt with pc := set s.pc t (.fill rt) }
    | .fill rt => fillStep e s t rt
    | .publish rt c => some { s with ws := s.wss, pc := set s.pc t (.unlock rt c) }
    | .unlock rt c => some { s with lock := none, pc := set s.pc t .idle, rets := (rt, some c) :: s.rets }
    | .fail rt => some { s with lock := none, pc := set s.pc t .idle, rets := (rt, none) :: s.rets }

def run [DecidableEq T] (e : Env T A) : St T A → List (Choice T) → Option (St T A)
  | s, [] => some s
  | s, c :: cs => match step e s c with
    | none => none
    | some s => run e s cs

end Verif.CodecCache
