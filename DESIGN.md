# Formal model of go-iproto in Lean 4

Source: `/repo` (funny-falcon/go-iproto at the pinned commit), read as text only.
The model is in `lean/Verif/`:

* `Model/*`  - definitions that follow the Go code function by function, each citing file and lines;
* `Spec/*`   - small independent specifications (no use of model helpers);
* `Proofs/*` - helper lemmas;
* `Props/*`  - the property theorems (one or more per property) and the non-vacuity examples.

## Trusted base

* the Lean 4.33.0 kernel; the only axioms allowed are `propext`, `Classical.choice`, `Quot.sound`
  (each `Props` file ends with `#print axioms` style checks during development; no own axioms,
  no `sorry`, no `native_decide`, no `bv_decide`);
* the faithfulness of the hand-written model to the Go text. The test vectors of the repository's own tests of `marshal` and `sbox`
  are run on the model in `Verif/Conform` (tests of the model, not proofs). Go semantics assumed:
  * `int` is 64 bit; unsigned arithmetic wraps; slice expressions outside capacity panic;
  * `sync.Mutex`, `sync/atomic`, channels and `sync.Cond` behave as in the Go memory model
    (sequentially consistent atomics; a small-step interleaving semantics is used);
  * `reflect`, `encoding/binary`, `math.Float64bits`, `sort.Sort`, `time.*`, `net.*` behave as documented.

What is not modelled: logging, statistics counters (except where a property is about them), tests and
examples (except for C139, C140), the box that package sbox talks to (C157 and C159 - C162 take its behaviour as a hypothesis, Spec/Box*.lean), real time and scheduling fairness, TCP itself, `unsafe`/GC behaviour, recursive Go types with `size`, `ber` and `no` directives in the reflective marshaller (except for their sizes, C95; the others: C153).

The types of the reflective codec (`Ty` in Model/Reflect.lean) are not defined ones (`type T []uint16`), except that struct types may be; C158 says where slices
of defined types are treated differently.

The caches of codecs (C93-C95) are modelled with sequentially consistent memory and types told apart by structure.

The models of all properties but C146 - C150 interleave memory accesses sequentially, which is what Go promises only for programs without data races.
C146 - C150 are about that: they say which fields are free of races and which are not. Their programs (`Model/RaceCode.lean`) leave out the data, so every
branch can be taken; what is proved free of races is so for the code, which takes only some of them. The executions that show races were chosen so that the
code can follow them (each theorem says which calls meet); this is by reading. Channel operations that order nothing which is claimed are left out, as are
constructors, the readers of answers that were delivered, and the order that atomic operations give. One object of each class is looked at.

## Method per property

(The status of each is in MANIFEST.json. "negated" means: the code violates the property as
stated; the model proves a concrete counterexample and a `_partial` theorem under the exact guard.)

| id | what is modelled | how |
|----|------------------|-----|
| C01 | BufWriter, HeaderWriter.WriteRequest, SliceReader, HeaderReader.ReadRequest | decoder run on any chunking of the encoder's output returns the input list; induction on list + chunk independence lemma |
| C02 | BufWriter with an abstract connection (list of bytes delivered) | invariant `delivered ++ buffered = submitted`, `wr ≤ cap`, over all op sequences |
| C03 | SliceReader over a source given by a list of chunks | refinement to `take n / drop n` on the concatenation |
| C04 | SliceReader on a heap of byte arrays with (block, off, len, cap) slices | invariant: handed-out regions are disjoint from writable region; frame |
| C05 | WriteResponse / ReadResponse with the three RC widths | RC4/RC0 without ping proved as `_partial`; RC1 and ping negated by witness |
| C06 | as C01 with a cut stream | decode of a prefix = messages wholly inside, then error |
| C07 | Connection.Respond code mapping, NewServer RCMap filling | bit-vector case analysis for all codes and maps |
| C08 | ping reply in WriteResponse, ReadPing | negated for RC1/RC4; proved for RC0 and for the handshake predicate |
| C09 | writer/reader scalar primitives | LE round trip for generic width, instantiated |
| C10 | Uint64var writer (10 branches) and reader loop | induction on length class |
| C11 | Uint64var reader on arbitrary bytes | loop invariant: accumulator = base-128 value of digits read, < 2^64 |
| C12 | varu64size/Varsize | exact characterisation (iff) + witness 128 |
| C13, C14 | all reader primitives over (body, err) | case analysis, generic in width |
| C15, C16 | Writer over a heap of blocks, ceilLog, ensure, Written, Reset | invariant/refinement to a byte list; frame for returned slices |
| C17 | typed slice readers and writers | induction on the list; Float64sl negated |
| C18, C19, C20, C21, C64 | universe `Ty` of types with tags, `Val` of values, TWriter/TReader semantics including size bookkeeping | induction on types under the exact guard; witnesses for violations |
| C22-C27, C78-C80 | sbox writer/reader/responses/requests on the same universe | induction on types and field lists, unique parsing of bodies; witnesses |
| C81-C83 | `client.Auto`: the map published by an atomic store, the lock, any number of `Get` and `Stop` calls; servers are numbers whose `Stop` returns | invariant; witnesses |
| C84, C85 | `Send` of `SimplePoint`, `SF`, `Route`, `StatService`, as a product with the model of the request | projection to the model of C28-C33, invariants |
| C86 | `BalancerPoint`: one user goroutine, the goroutine of `Loop`; children are numbers | invariant; witnesses |
| C87, C88 | the end of a client connection: the three loops, `loopNotify`, the counters `got` and `put`; requests are counted | invariant, measure; witnesses |
| C89 | the destinations of `ReadMany` | equations for all complete responses; witnesses |
| C90 | `nextHeap`, `getHeap`: the list of timer heaps and its length, loaded in either order | invariant, any number of goroutines; witness by induction over 9999 timers |
| C93, C94, C95 | the codec caches: goroutines, map objects, codecs under construction, the stack of `Fill` calls; `Fill` is an arbitrary program that asks for parts | invariant; well-founded recursion on parts; refinement to Model/Reflect.lean; witnesses |
| C96 | the client connection and the server connection with each other as peers | invariant of the product; each side's invariant discharges the assumption about the peer made by the other |
| C97, C98 | tags `sbox:"tail"`, `sbox:"tailsplit"`: the writer applies the slice's codec to its elements, the reader never sees the tag | induction on types and tails; witnesses |
| C99, C100, C101, C102 | the type switches of `Write`, `WriteTail`, `WriteWithSize`, `Read`, `ReadWithSize` on an `interface{}`; lists; user code as functions | case analysis against Model/Reflect.lean; induction on lists; witnesses |
| C103, C104 | types with `IWriter`, `IReader`, ...: the user's methods are arbitrary functions | composition lemmas of C18 applied to an abstract encoding; witnesses |
| C105 | the cache of readers of `sbox` under any interleaving; a call is an arbitrary program on its pair of readers | invariant: pairs in use are distinct and not in the cache |
| C106 | `writerPool` and `twriters` under any interleaving: one heap, any number of writers; owners change their bodies | invariant: writers and bodies own disjoint ranges |
| C107 | `SetTimeout`, `Expire` and the timer together with the request machine of C32 | invariant over both machines; concrete schedules for the violations |
| C108, C109, C110 | the context of C44 together with any number of request machines of C32: `contextBookmark.Respond` and `Cancel`, `NewRequest`, `cancelAll` | invariant over the product; a measure for the owner of a mutex gives the schedule that finishes |
| C111, C112 | the request of C32 together with its `ReqContext` and the context of C108: `Request.Context`, `ReqContext.Respond` | invariant over the product of the three levels |
| C113 | `RGenerator.Request` and `Release` step by step, any number of contexts, the cache | invariant: a generator in the cache is nobody's, generators of live contexts are different |
| C114 | client and server connection with their buffered writers and slice readers, joined by two byte streams | simulation of the byte level by the frame level (C96): what is written, has arrived, was read are prefixes of the frames; views of frames read stay what they were |
| C115 | client and server connection joined by frames, without errors | invariant over C96's: the client's read loop outlives its write loop, and at its end nothing is in flight; the end is reached stage by stage |
| C116 | deadlines of reads, the ping ticker and the way of pings and pongs, with discrete time | invariant: something that will be read in time is always on its way |
| C117, C118 | fields of type `interface{}` and `[]interface{}` (Model/IfaceField.lean), on top of Model/Reflect.lean | induction on the fields, from the lemmas behind C18; witnesses |
| C119 | `CallMsgBody`, `Request.Respond`, `Body.Read`, `marshal.Write`, `marshal.Read` on top of Model/ByteLink.lean and Model/Iface.lean | composition of C114, C99 and C18 |
| C120 | the product of Model/Multi.lean and one machine of Model/Request.lean per request: `Respond` runs while the lock of a request is held, `Cancel` of the multi-request takes the locks of the requests | refinement (every run of the product is a run of each factor), invariants, progress by measures |
| C121 | the queue (Model/Buffer.lean), any number of connections (Model/Conn.lean) that receive from its channel, and `AllDisconnected` | refinement (every run of the product is a run of each factor), an invariant that ties the places of a request together |
| C122 | the reflective reader and the type switch (Model/Reflect.lean, Model/Iface.lean) | a property of readers that is closed under sequence, counts, sizes and sub-bodies; induction over types and destinations |
| C123 | any number of connections (Model/Serv.lean) in front of one service (Model/Parallel.lean), with the lock of each request | refinement (every run of the product is a run of each factor), invariants |
| C124 | `ReadRawTuple`, `ReadSizedTuple` (Model/Sbox.lean, Model/SizedTuple.lean) | the property of readers of C122, shown closed under the ways tuples are read; induction over types; witness |
| C125 | the endpoint (Model/Endpoint.lean) and the server (Model/Served.lean), joined by the connections of Model/Link.lean; other clients do anything | refinement (every run of the whole is a run of the endpoint, of the server and of each link), which discharges the assumptions of C121 and C123 about peers |
| C126 | the dispatcher and the handlers of Model/Parallel.lean go on by themselves | a measure that every step lowers, and: while a sent request is unanswered, some step is possible |
| C127 | the composition of Model/Served.lean goes on by itself | a measure over all requests and connections that every step lowers, and: at rest nobody is in Respond, so the service is at rest too (C126) |
| C128 | the whole of Model/Whole.lean goes on by itself | the measure of C127 extended by what is under way between the ends; at rest C127 and C96 apply |
| C129 | the whole of Model/Whole.lean goes on by itself, the queue included | the measure of C128 extended by one for the queue and one for the write and control loops of broken connections; at rest C121 says where a request can be, and C128 and C53 that it is not there |
| C130 | `SetTimeout`, `Expire` and the timer together with the multi-request and its requests (Model/MultiTimer.lean) | invariant over both machines; progress by C120; concrete schedules for the violations |
| C131 | the context together with its multi-requests and their requests (Model/CtxMulti.lean) | product of the machines of C44 and C120; invariant; progress round by round of `cancelAll` |
| C132 | a tree of contexts (Model/CtxTree.lean) | product of machines of C44, one per context, with a goroutine that goes down the tree; invariant; progress by induction on the tree |
| C133 | the responses of C120 after the sorting of C63 | composition: ids are 0, 1, 2, … in the order of the requests; a sorted permutation of distinct ids is unique |
| C134 | the multi-request with its requests (C120) in any order | a measure that every step inside a method lowers; what can be reached (C120) has been reached at rest |
| C135 | the request machine (Model/Request.lean) in any order | a measure that every step inside a method lowers; at rest the lock is free or its owner is stuck; calls are matched with returns |
| C136 | the parallel service (Model/Parallel.lean) while and after it is stopped | a measure that every step of the dispatcher and of the handlers lowers; at rest the dispatcher can only be in the loop after its loop |
| C137 | the timer goroutine (Model/TimerLoop.lean) | a measure that every step of the goroutine and of the runtime timer lowers; C38 at rest |
| C138 | the queue (Model/Buffer.lean) | a measure over the calls of push, the answerings, the slots left, the signal and the channel; deadlock argument and C40 at rest |
| C139 | the example server (Model/Colander.lean), on the codec models | the loop over the answers, with the codec theorems C18, C99; permutations of the answers |
| C140 | the statistics of the benchmark (Model/Bench.lean) | the accumulator as a homomorphism from lists, invariant under permutation |
| C141 | SliceReader.Read and BufWriter.write with clock and deadlines (Model/Deadline.lean) | induction over what comes; a slow peer for every timeout and size |
| C142 | Stop in the composition of Model/Served.lean | C127 and C136 together; what was dropped stays unanswered in every continuation |
| C143 | the pool of Model/Pool.lean when nothing goes wrong any more | a measure over connections, reports and missing connections which ticks do not raise; when nothing changes any more the counters of C55 are read off |
| C144 | the reader of Model/Reflect.lean | induction over types: an error-free read takes the layout of its result |
| C145 | the write loop with its selects, buffer and pings, the read loop and the control loop of a client connection | the shape of the connection when nothing happens before the next ping; a measure; after CloseWrite something in the buffer stays there |
| C146 - C150 | all code that works on shared fields, as programs of memory accesses, locks, messages and go statements, without the data | happens-before as an inductive relation after the Go memory model; a checker for programs, proved sound for all executions: it tells for each access which mutexes are held and which messages were sent and received; accesses that the policy allows are ordered. Violations by executions in which conflicting accesses follow each other immediately |
| C151 | the caches of marshal as programs of memory accesses | as C146 - C150 |
| C152 | where the library takes mutexes, and which while it holds others: an inductive family of programs; which calls are made, how often and for what is left open | one order of all mutexes (requests as they were made, then multi-requests, then the others), kept by all code by induction; of the mutexes that are waited for one is greatest |
| C153 | the codec caches with the attributes that codecs read from each other while they are filled; the codecs that come out, executed along their pointers | invariant over all histories (what each codec points to, no size is 0); then recursion on the value |
| C154 | the shutting of sockets by client (C87) and server connections (C57 - C60) | invariants over all executions |
| C155 | the maps of rows in request_holder.go and buffer.go (models of C39, C40, C51 - C54) | invariants over all executions: every row in the map has an id that is out or unused; rows of the queue lie around head and tail |
| C156 | accepting (net/server/server.go:65-126) | invariant over all executions; what has happened to sockets is kept in a log |
| C157 | sbox (Model/Sbox.lean) on top of Model/Rpc.lean and Model/ByteLink.lean; the box is a specification | composition of C114, C72, C24 and C25; induction over the requests in between |
| C158 | `Body` and slices of defined types (Model/Body.lean), on top of Model/Iface.lean | induction on the list of values (C100); case analysis of the reader of slices |
| C159 | sbox (Model/Sbox.lean) on top of Model/Rpc.lean and Model/ByteLink.lean; the answers of the box are a specification (Spec/BoxAnswer.lean) | composition of C114, C24, C25 and C26 |
| C160 | as C157, for any number of connections; the box is a specification (Spec/BoxPool.lean) | as C157; the order of handling follows from that of answers and requests; induction over the requests handled in between |
| C161 | as C157 | as C157; by cases, whether the request lies between the other two among those written |
| C162 | as C160, looked at after every request; the box is a specification (Spec/BoxLog.lean) | as C160; every request of the series is handled in its own interval of the order of handling; induction over the series |
| C163 | the pool of Model/Pool.lean and `AnyConnected` | the counting invariants of C55; witness |
| C91, C92 | `AllDisconnected` and the end of the pool's loop: the endpoint's channel, what is behind it, the pool's counters | invariant; witnesses; a stuck queue stays stuck |
| C28-C33 | Request as small-step multi-thread machine: locked and lock-free operations, bookmark chains with arbitrary reactions | inductive invariant over all interleavings |
| C34-C37 | the linked 4-ary heap in its slot array (`up`, `down`, free list), putUnder/sort4 | representation predicate: array represents a tree; refinement to multiset of timers |
| C38 | timer goroutine + condition variable + runtime timer | negated by an explicit trace; invariant under the guard |
| C39, C40, C65 | Buffer rows, slot states, signal channel, any number of pushers | inductive invariant over all interleavings, with either order of the two reads in `b.tail == b.head` |
| C41-C43, C47, C67 | MultiRequest with responders, Results, Each, Cancel, Expire | small-step machine, invariants over all interleavings; double close, missed request and nil dereference negated |
| C44-C46, C68 | Context: registering, unregistering, Cancel/Expire, WaitAll, Child/Go | small-step machine, invariants over all interleavings; missed canceler, lost wake-up, Go and endless loop negated |
| C48-C50, C69, C70 | ParallelService dispatcher, handlers, Stop | small-step machine, invariants over all interleavings, slot conservation; swallowed RcTimeout and unanswered requests negated |
| C51-C54, C71, C72 | RequestHolder id rows, map, remove/getAll; the write, read and control loops of a client connection | small-step machine; the holder represents the set of ids out; invariants for polite peers and unconditional ones; wrap-around (by induction over 2^32 - 2 sends), unexpected ids and the lost body negated |
| C55, C73 | client.Server: counters, map, Loop, fixConnections, onConnError; of its connections what the pool sees of them | small-step machine with any number of connections; counting invariants; negated for shrink and for stop, proved without |
| C56-C58, C74-C76 | server Connection: read, write and control loop, Respond, cancelInFly, cleanBuffer | small-step machine with any number of requests and handlers; invariants; double close and deadlocks negated, exact cause of the double close proved |
| C77 | server.Server: Run, Stop, controlLoop, listenLoop | small-step machine with any number of connections |
| C59, C66 | RGenerator slabs, the generator cache | invariant over op histories |
| C60 | return codes | bit-vector case analysis; shutdown = cancel collision negated |
| C61 | SetDefaults | case analysis |
| C62 | Epoch arithmetic | BitVec/Int arithmetic |
| C63 | MultiResponse.Sort | `sort.Sort` is trusted to do swaps until `Less` holds; proved for any sorting by swaps |

## Findings (places where the code disagrees with a property)

Each is proved in the model by a concrete execution.

* `net.SliceReader.Read` line 46 (`sl.buf = buf[l:]`): when the stream ends inside a segment after at
  least one fresh byte was read in the call, `len(buf) < l`, so the slice expression panics. There is no
  `recover` in the connection read loops: a peer can crash the process (C03, C06).
* `net.BufWriter.WriteByte` advances by 4 (C05_byte_violated: after any calls three stray bytes follow the one written), `net.SliceReader.ReadByte` does not refill: RC1byte is broken in
  both directions (C05).
* `WriteResponse` for a ping writes the return code bytes but does not count them in the length (C08).
* `marshal.varu64size` is off by one at each power of 128 (C12); `Writer.Float64sl` advances by 4 bytes per
  element, overwriting half of each value and exposing stale bytes after `Reset` (C16, C17); `IntUint64` writes
  4 bytes (C09, C21); `Reader.Slice` panics on a negative size (C13).
* A server's code map entry `internal -> RcOK` is accepted by `NewServer` and then ignored (C07).
* `RcShutdown = RcCanceled` (C60). `Epoch.Time` of a time not after 2010-01-01 is the zero time (C62).
* `ReqContext.Respond` on `RcTimeout` resets and re-claims the request, so `Expire` returns without an answer (C31).
* `ResetToPending` called by the Responder (as its comment recommends) makes the request claimable after it was
  answered, and is then overwritten by `RsPerformed` (C32).
* `SetInFly(mid)` (locked read, plain write) races with `SetInFly(nil)` (CAS without the lock): two owners (C33).
* `Timer.After` on an armed timer pushes a second heap entry and forgets the first: the timer fires although it was
  stopped, or cannot be stopped any more (C36). Requests and multi-requests guard against it by `timerSet`, without
  synchronisation.
* The timer goroutine can miss its wake-up: `time.AfterFunc`'s `Signal` takes no lock and may run between `t.Reset` and
  `h.c.Wait`; it then sleeps until an even earlier timer is armed (C38).
* `Buffer.push` sends on `b.set` after `Buffer.close` closed it: a `Send` overlapping or following `Stop` panics, and its
  request is neither delivered nor answered (C65).
* `MultiRequest.Each` sets `w.ch` before it has moved the earlier responses and compared the counters, and `Respond`
  uses `w.ch` without the lock: if the last response comes in between, the channel is closed twice, or `Each` sends
  to the closed channel; both panic (C42). The condition under which this cannot happen is proved to be exact.
* `MultiRequest.Cancel` compares `w.c == w.r` without the lock. If `w.r` is read first, a request created in between
  and cancelled on creation makes them equal, and the older requests are never cancelled (C43).
* `MultiRequest.performFailAll` reads `allReqs[i]` twice without the lock; a response in between makes it nil, and
  `Cancel` dereferences it (C67; a compiler may merge the two reads, the language does not require it).
* `MultiRequest.Each`, called when all responses are there, closes the channel but does not unregister the
  multi-request from its context, so `Context.WaitAll` hangs (C47).
* A `ParallelService` handler that returns `RcTimeout` has its answer swallowed by `ReqContext.Respond`; the client gets
  `RcInternalError` (C49).
* Requests which a `ParallelService` receives after `Stop` are answered by `Respond`, which ignores requests not in
  flight: they are never answered (C50).
* `Context.AddCanceler` reads `State` under the lock, `Cancel` changes it and reads the counts without: a canceler stored
  in between is never cancelled (C44).
* `Context.RemoveCanceler` signals one waiter; a second goroutine in `WaitAll` sleeps for ever (C45).
* `Context.Child` never sets `ok`: `Go`, `GoInt`, `GoAsync`, `GoIntAsync` never start the function, and the child stays
  registered (C46). `Cancel` then loops without end (C68).
* `RequestHolder.getNext` gives out ids without regard to those in use: after 2^32 - 2 requests the id of a still
  unanswered request is given out again (C51). A response that comes before its request was sent makes it go out with id 0.
* A response with an unknown id makes the client panic, a response sent twice makes it panic when the connection is lost, and
  one sent 255 times makes it forget the requests in the same row (C54).
* A request that is cancelled after `SetInFly` and before its header is built is sent with an empty body (C71).
* A connection stopped by `fixConnections` is subtracted from `established` again when its write side reports: the pool
  keeps one connection too many for each one it has ever stopped (C55). `Stop` of a connection that is dialing, or whose
  write loop is about to look at `stopped`, never returns and hangs the pool's loop.
* After `Stop` the pool's loop ends as soon as it has told all connections to stop; their reports fill `connErr` and the
  remaining control loops, which report before they call `flushInFly`, never answer what is in flight (C73).
* The server's `controlLoop` closes `conn.out` when the read side ends with nothing in flight; a write loop that is just about to
  lock then asks for it to be closed again, which panics (C57).
* `Connection.Respond` of the server has a `select` with one case and no `default`: the buffer is never used, and a handler
  waits for room in `conn.out` with the connection's lock held. 129 answers while the write loop is about to lock deadlock the
  connection (C76); 129 requests in flight when a write fails block the control loop in `cancelInFly` for ever (C58).
* A connection reports to its server twice: at the first report, made when its write side has ended, it is taken for closed, so
  that `Running` may be closed while requests are still received; the second report may never be received (C77).
* The reflective codec adds the fields' sizes although `-1` stands for "varies": `struct { int8; string }` gets size 0 and
  is left out of an enclosing struct without a word, `struct { int32; string }` gets size 3; `cnt(i8)` is reckoned with two
  bytes (C19). Slices of such structs are written but passed over by the reader (C18).
* Pointer fields are written but not read; `ber` arrays are written with a count and read without; `size(no)` strings are
  read with a length by `Read` (C18).
* Decoding panics on negative BER or 64-bit lengths and counts, on `ReadTail` into `[]T "size(no)"` for scalar `T` other than
  `uint8`, on `ber` pointers with a prefix; it never ends on sized slices of elements that consume nothing (C20). A count is
  trusted before the data is looked at: four bytes allocate up to 32 GB (C64).
* `sbox`: a `ber` field holding a power of 128 is written with a length that is too small (C12, C22). Nil tuples, nil pointers and
  nil elements of `[]interface{}` are written as nothing although they are counted (C22, C23, C24). `CountKeys` counts the elements
  of a slice inside a `[]interface{}`, `WriteKeys` writes it as one tuple (C23); so keys of several fields
  given as nested `[]interface{}` are announced as so many keys as they have fields (C23_composite_violated).
* `ReadMany`: `oneTuple` does not return the error of the tuple, and `r[1].Err` is not reset, so that one bad tuple leaves all
  later elements zero without an error (C25). It makes as many elements as the response announces before it looks at
  the data (C80).
* `ReadFirst` takes a body shorter than the count for an empty response (C26).
* `Op.IWrite` sends every byte from 8 to 124 that is not an operator as "set" (C27).
* Decoding tuples panics on negative BER lengths, and on tuples with more fields than an array has elements (C78).
* `sbox:"tail"`: the writer applies the slice's codec to each element of the tail and panics unless the element is an empty string
  or the like; `marshal`'s reader does not fill `Tag`, so that the reader never sees the tag and takes the first element of the tail
  for the whole (C97). `sbox:"tailsplit"`: the slice's codec has no fields, so that nothing of the tail is written (C98); the loop
  would index with `i` instead of `j` (C98_index_violated). Both use the index in the list of codecs as the index of the field, which is wrong behind an
  unexported field: the field in front of the tail is taken for the tail (C97_hidden_violated).
* `Auto.Get("")` panics inside `NewServer` with the lock held: every later `Get` of a new address and `Stop` hang (C83). While `Stop`
  is at work, `Get` gives out servers that are already stopped (C82).
* `SimplePoint.Send` panics with "already sent" when a bookmark resets a cancelled request between its two looks at the state (C84).
* `BalancerPoint.AddChild` right after `Run`: the loop's goroutine finds a child that is already running and panics, which ends the
  program, or both run it and `Stop` ends only one of its two loops. A child added after `Stop` is run and never stopped (C86).
* The client's write loop keeps the id it took for a request that turned out to be cancelled; when it is stopped then, the id counts as
  outstanding for ever, `CloseRead` is not called, and the connection stays open until the peer closes it (C87).
* After a failed `WriteRequest` the connection waits for the peer to close; `DefaultReadTimeout` and `DefaultWriteTimeout` are declared but
  never used, so that by default the request is not answered as long as the peer keeps the connection open (C88). By reading only:
  `CConf.DialTimeout` is not used either, `Loop` dials with a constant.
* `ReadMany` into a `[]*T`, a `[][]T` or a `[]interface{}` panics on every response with a tuple: `readFixedArray` uses the reader of
  the whole slice for its elements, and the elements of a `[]interface{}` have a kind `readInterface` does not know. Into a single
  value it returns 1 and an error for an empty response (C89).
* `nextHeap` loads `heaps` and `heapN` without the lock: if the list grows in between, arming a timer panics (C90).
* `AllDisconnected` looks at the endpoint's channel only, not at the requests queued behind it. Since `established` is wrong by one
  for each connection the pool has stopped (C55), it is called while a connection is up, or is not called although there is none (C91).
* Requests queued when a client endpoint is stopped are neither sent nor answered; only a timeout can end them (C92).
* `WriterFor`, `ReaderFor` and the like read the variable `ws` (`rs`) without the lock while another goroutine assigns to it (C94).
* The size of a recursive type's slice depends on which codec was made first: for `type T struct { X uint32; Next []T }`, `Size` of a
  `[]T` is unknown if `T` was used before `[]T`, and `3 * len` otherwise; a `size(...)` field of that type is then
  written with a wrong size (C95; the 3 comes from C19).
* `ReadTail` into a `*[]interface{}` appends nil elements, which read nothing, for ever as soon as the body is longer than the list (C102).
* `ReadWithSize` into a scalar or a `[]byte` ignores a size that does not fit, and for all types but scalars, strings and bytes it does not
  read the size at all (C101).
* Nil elements of a `[]interface{}` are counted but not written, and `Read` into a nil panics (C100). By reading only: `Read` of a
  `reflect.Value` overwrites the value it has just taken (reader_reflect.go:158-162) and reads into the fields of `reflect.Value` itself.
* `ISetCounter` (long form) with methods of the pointer is looked for in the value type (reader_reflect.go:605) and never found: what was
  written with a count is read without it, and a `cnt` field panics (C103).
* For a pointer to a type with its own code `Fill` returns before `Elem` is set, and `Size` and `Count` follow the nil `Elem`: pointer fields
  of such a type panic with a `size` or `cnt` tag, and always if the type has `ICounter` (C104).
* `ReadFirst` and `ReadMany` load `readerCache` without `atomic` (result.go:18,45) while other goroutines store it atomically: a data race by
  the Go memory model, though harmless with sequentially consistent memory (C105).
* A request that is reset (`ResetToNew`, `ResetToPending`) after its timer fired and is sent again has no timeout any more: `timerSet` is never cleared, so `SetTimeout` does nothing (request.go:41) and nobody answers it if the service does not (C107).
* `SimplePoint.Send` may arm the timer of a request that was cancelled after `SetPending` (service.go:132-140): the timer stays armed and keeps the request in memory until it fires (C107).
* `WaitAll` may return before the response of a request is in its channel: `contextBookmark.Respond` takes the request out of the context before `chainResponse` calls the Responder (request.go:141-148, context.go:22-26), so a caller that polls the channels after `WaitAll` finds one empty (C109).
* A request that a bookmark sets back (`ResetToPending`, meant for resenders: request.go:109) while `cancelAll` cancels it lives on in a cancelled context; only the next round of `cancelAll` cancels it again (C108). No bookmark of the library does so for `RcCanceled`.
* A handler that answers its request while a child context (or multi-request) of it is open, as with `defer child.Done()`, deadlocks if the request is cancelled at that moment: `ReqContext.Respond` calls `Cancel` of the context with the mutex of the request held (request.go:141-142,196-199), `cancelAll` (context.go:107-125) goes round and round until the child is closed, and the handler waits for the mutex in `RespondBytes` (request.go:165). The loop also burns a core (C112).
* `Context.Done` gives the generator back but keeps it in `c.gen` (context.go:278-281), and `ReqContext.Respond` calls `Done` for whoever answers the request (request.go:204). A handler that goes on making requests after it has answered (or whose request somebody else fails, e.g. with `RcShutdown`) shares the generator with the next context: two callers get the same `*Request`, bodies run into each other, or `gen.req[gen.i]` panics (C113).
* After the handshake which `Loop` always makes (net/client/connection/connection.go:102-127) a client and a server with `RC4byte` misunderstand each other for good: the pong's code is not counted in its length (C08), stays in the stream, and each later response is read four bytes early, its id being the length of the body plus four. A response to one request is handed to another one with a wrong code and a wrong body (C114).
* With `RC1byte` calls over a connection of client and server fail, without handshake and pings too: the three stray bytes which `WriteByte` leaves after the code become the beginning of the caller's answer, and the client takes the end of this answer for the length of the next frame and waits for up to 4 GB (C114_rc1_violated; net/buf_writer.go:60-70).
* `RwcWrapper` closes both directions in `CloseWrite` (net/net_conn.go:23-29). A client connection over it fails all requests in flight as soon as it is stopped, although the server answers them (C115).
* `Server.Stop` closes the reading side of its connections; requests the client has written and the server has not read are failed in the client, without the server having said so (C115).
* A client that is stopped sends no pings any more while it waits for what is in flight; a response that takes longer than `ReadTimeout` is lost, although the connection is in order (C116).
* Strings and slices in a `[]interface{}` field are written without their count, unlike in a list given to `Write`: `{"ab","c"}` and `{"a","bc"}` have the same encoding (C117).
* Reading through an `interface{}` field: a slice behind a field without tag is read without the count that was written, because
  `fillautotail` overwrites `Auto` with `Fixed`; nothing is read and no error is reported. A string behind a `size` field is an error.
  Length 0 in a `size` or `cnt` field panics in `v.Set(reflect.ValueOf(nil))`, so a peer can crash the reader with one byte. A
  `[]interface{}` with another number of elements than was sent is replaced by nils, which read nothing, without an error (C118).
* By reading only: `RunWithConn` of a client connection does not initialise the reader and the writer, so that the first read or write
  calls a method of a nil interface and panics.
* `Server.Stop` sends to a channel of capacity 1 with the lock held: called a second time it may wait for the control loop, which waits for
  the lock; then the server never ends and accepts nothing (C77).
* One connection can stop a whole server. `Respond` of a server connection is called with the slot of the `ParallelService` taken; if the connection is stuck with its lock held (C58, C76), the slot never comes back. When all slots are lost this way no request of any connection is handled any more (C123_wedged_violated); with one slot, 128 pings and one request of one client are enough, sent while the write loop is between its two selects (C123_witness_violated).
* `sbox.ReadSizedTuple(r, nil)`, which skips a tuple, erases the error of a tuple that is cut short, and the reader goes on in the middle of the tuple (C124).
* One disconnected client can stop a whole server although slots are free. When writing to a connection fails, the control loop cancels the requests in flight; each `Cancel` holds the lock of its request while `Respond` sends to `conn.out`, from which nobody receives any more, and blocks for ever when 128 answers are in it. If that request still waits in the channel of the `ParallelService`, the dispatcher waits for its lock in `req.Context()` for ever, and no request of any connection is handled any more (C123_halted_violated, C123_halted_witness_violated with three slots, two of them free).
* Nobody stops the timer of a `MultiRequest` if all responses came before `Results` or `Each` was called (wait_group.go:120-168: only `Respond` calls `w.timer.Stop()`, and only if mrWait is set or the channel is made): it stays armed and keeps the multi-request with its responses in memory until it fires (C130).
* `cancelAll` calls `Cancel` of a registered `MultiRequest` again and again, without a pause, until its owner calls `Results` or `Each`, even if all of its requests are answered (context.go:107-125; only wait_group.go:163-165 and 189-191 remove it): `Cancel` of the context spins, and `WaitAll` blocks (C131).
* `cancelAll` goes down into one child and comes back only when all contexts (and multi-requests, C131) below that child are closed by their owners (context.go:107-131). Until then the other children of the context are not cancelled at all: a handler that does not close its child context keeps unrelated handlers from hearing of the cancellation, and two that wait for each other's cancellation wait for ever (C132_blocked_violated).
* The timer goroutine spins while the clock shows exactly the earliest deadline: `e >= now` (custom_timer.go:113) sets the runtime timer to zero, which wakes the goroutine at once, and so on (C137_spins_violated). With a coarse clock this burns a processor for a tick; each round also passes the window of C38.
* The example server: `sumTestService` sets `result = RcError` when a request fails, but returns 0 and the sum of what came before (examples/colander/colander.go:119-131, 151); requests of types other than 1 and 2 are dropped without an answer (colander.go:32-39); `opTestService` does not return after answering a body of wrong length with an error, and panics on less than four bytes (lines 44-47), in the goroutine that reads from the connection, where nobody recovers: one request ends the server (C139). By reading only: requests of other types are never answered (lines 32-39); in the benchmark `j%2 == 2` is never true (examples/bench/bench.go:136), so that no timeout is set.
* The read timeout is set anew for every read from the transport (net/slice_reader.go:79): a peer that sends one byte just before each deadline keeps a reader of `n` bytes for `n` times the timeout. `RwcWrapper` embeds an `io.ReadWriteCloser` (net/net_conn.go:19-21) and so hides the deadlines of what it wraps: read and write timeouts are silently without effect (C141).
* A server goes on reading requests from its open connections after `Stop` of its service; the dispatcher receives them and drops them, so these clients wait for ever, while the server looks alive (pings are answered) (C142, C50).
* `Read` accepts more than `Write` writes (C144): BER numbers with leading zero digits and BER numbers too large for their field, which are cut down to it; a `size` that is no multiple of the size of the elements, which is rounded down.
* A client connection whose peer has closed it tells its write loop only by closing its own side. The write loop notices when it writes the next ping or request; until then requests in flight are not answered, the pool counts the connection as established, and requests are still taken from the shared queue and fail. Without pings (`PingInterval < 0`) and further requests this lasts for ever (C145).
* Data races (C146 - C149), each with an execution: `Request.state` (atomic and plain accesses mixed), `Request.Body` (read by the write loop while `chainResponse` sets it to nil: what is sent may be cut off), `Bookmark.Request` (read without the mutex by `contextBookmark.Cancel`, `ReqContext.Done`, `Buffer.loop`); `MultiRequest.ch`, `c`, `r`, `kind`, `requests` and its elements; `Context.State`, `cancelsn`, `cancelsm` (a map, whose length is taken while it is written); `Connection.State`, `inFly.put` and `inFly.got` of a client; `Buffer.head`, `tail`, `tRow`, `bufBookmark.state`, `SimplePoint.stopped`; `Connection.inFly` and `buf` of a server (`closed` sets them without the mutex); `Timer.h`, `heaps`, `heapN`; `Auto.servers` (a map read without the mutex, though the code replaces it and never changes it).
* More data races (C147, C151): the generator of a request's context (`NewRequest` reads it while whoever answers the request calls `Done`: request.go:204, context.go:274-283), and the codec caches: `rs` and `ws` are published by a plain write and read without the mutex (marshal/reader_reflect.go:355-382, marshal/writer_reflect.go:229-256), so on weakly ordered machines a reader may see a map before its contents.
* A proxy deadlocks: a `Callback` runs with the mutex of its request held (request.go:148, 165-171). If it answers the request for which its own was made in the context, and that one is cancelled at the same moment, each goroutine holds the mutex the other waits for (C152_proxy_violated). A callback or `StatService` function that cancels the request it is called for waits for itself (C152_self_violated).
* What a process reads depends on what it has read before: for `type T struct { X uint8; Next []T }` and `type U struct { B []T }`, `T` gets the size 1 + -1 = 0 (a part under construction has `Sz` -1: marshal/reader_reflect.go:375,1117), and `[]T` made before `T` is done gets it too (:864-866). If `U` or `[]T` is used before `T`, the field `B` is passed over in readers (:1112) though it is written, without an error; if `T` is used first, it is read (C153_order_violated). A field of type `T` is never written at all (marshal/writer_reflect.go:807, C153_field_violated).
* After an error in writing neither end shuts its socket: both call `CloseWrite` only if `Flush` succeeded (net/server/connection.go:245-251, net/client/connection/connection.go:243-250), the control loop of the client takes the write side for closed then (connection.go:147,167), and nobody ever calls `Close` on an established connection. If a write timed out, say, the connection's loops end but the socket stays open until the garbage collector finds it: the peer is not told, requests of a client wait on it, and a server keeps its goroutines (C154).
* `listenLoop` goes round without a pause while `Accept` fails (net/server/server.go:99-112): with too many open files, say, it burns a processor and fills the log, one line each time (C156_spins_violated). A third call of `Server.Stop` may wait for ever with the lock held, and then `listenLoop` does not end either (C156_stuck_violated).
* An `iproto.Body` is written without a count (its `IWrite`), but `Read` into a `Body` reads a count: no body is ever got back. `ReadTail` into a `Body`, or into any other slice of scalars of a defined type, panics: `v.Addr().Interface().(*[]byte)` (marshal/reader.go:244) is asked of a `*Body`. `Body.Read2` and `Body.ReadTail2` (request.go:277-287) read the body into itself and return a reader that is already at its end. A slice of bytes of a defined type given as the key of a selection is taken for as many keys as it has bytes (C158).
* The answer to a `StoreReq` without `Return` is the number of tuples and nothing else. `ReadFirst` and `ReadMany` (result.go:28-37,55-59) go on to read as many tuples and report an error, although the request has been done; `ReadMany` has made the elements before. The caller must know not to read (C159).
* With several connections the order of requests is not kept: a row stored by a request that was written, but not answered yet, may be missing in the answer to a selection sent later through another connection (C160_written_violated). On one connection it cannot be missing (C157_pipelined_partial); after the answer neither on others (C160, C162).
* `Server.AnyConnected` says no although a connection is up and running, after `SetConnections` with a smaller number has stopped another one, for as long as no new one can be dialed: the stopped one was subtracted twice (C163, C55; net/client/server.go:106,176,211-213).
