import Verif.Model.Race
/-! The code of the library as programs of `Model/Race.lean`. One object of each class is looked at; what creates it is left out, since nobody else has
a pointer to it then. A variable of a struct or slice type stands for all of it. -/
namespace Verif.Race
open Prog

/-! ### Request and its bookmarks (request.go, response.go) -/

inductive ReqV where
  /-- the embedded `sync.Mutex` (request.go:34) -/
  | mu
  | state
  /-- `Response` and what it points to -/
  | response
  | chain
  | responder
  | body
  /-- `Msg` and `Id` -/
  | msg
  /-- `Bookmark.Request` (response.go:69), for all bookmarks of the request -/
  | bmReq
  /-- `Bookmark.prev` (response.go:70) -/
  | bmPrev
  deriving DecidableEq

namespace Req
open ReqV

/-- `Bookmark.setReq` (response.go:74-78). -/
def setReq : Prog ReqV := all [w bmReq, r chain, w bmPrev, w chain]

/-- `Bookmark.unchain` (response.go:81-87). -/
def unchain : Prog ReqV := all [r bmPrev, r bmReq, w chain, w bmPrev, w bmReq]

/-- What bookmarks and responders do with the request when they are called with a response: `ResetToPending` and `ResetToNew` (request.go:111-127),
`SetInFly(nil)` and `Performed`, and look at `Bookmark.Request` (request.go:196-206, stat.go:22-24). -/
def called : Prog ReqV := loop (alt (r bmReq) (alt (all [r state, w state]) (alt (aw state) (ar state))))

/-- `chainResponse` (request.go:129-153). -/
def chainResponse : Prog ReqV :=
  all [r response, r msg, w response, r response, w state, r chain, loop (all [called, r state, unchain]),
    alt (all [r responder, called, w state, w responder, w body]) (all [called, r state])]

/-- `RespondBytes` and `RespondFail` (request.go:165-179), with which also `Respond`, `Cancel`, `Expire`, `IOError` and `ShutDown` answer. -/
def respond : Prog ReqV := locked mu (all [r state, opt chainResponse])

/-- `ChainBookmark` (request.go:181-189). -/
def chainBookmark : Prog ReqV := locked mu (all [r state, opt setReq])

/-- `SetInFly` with a bookmark (request.go:89-95). -/
def setInFly : Prog ReqV := locked mu (all [r state, opt (all [w state, setReq])])

/-- `SetPending`, and `SetInFly` without a bookmark (request.go:71-78, 86-87). -/
def cas : Prog ReqV := aw state

/-- `IsPending` and `Performed` (request.go:80-82, 100-103). -/
def load : Prog ReqV := ar state

/-- `State` (request.go:67-69), and the look that `Route.Send` takes (service.go:20). -/
def look : Prog ReqV := r state

/-- The write loop of a client connection: `SetInFly`, and then `Msg` and `Body` (connection.go:281-288). -/
def write : Prog ReqV := all [setInFly, r msg, r body]

/-- Those who go from a bookmark to its request: `contextBookmark.Cancel` (context.go:28-32), `ReqContext.Done` (request.go:208-212),
`ParallelService.serv` (parallel_service.go:118-120), and `RequestHolder.remove` with `RespondBytes` (request_holder.go:95, connection.go:218-220). -/
def viaBookmark : Prog ReqV := all [r bmReq, opt respond]

/-- `Buffer.loop` (buffer.go:117-121). -/
def forward : Prog ReqV := all [r bmReq, opt load]

/-- What goroutines do with a request, each of them any number of times and in any order. -/
def menu : List (Prog ReqV) := [respond, chainBookmark, setInFly, cas, load, look, write, viaBookmark, forward]

end Req

/-! ### MultiRequest (wait_group.go) -/

inductive MultiV where
  | m
  | c
  | r
  /-- the slice `requests` -/
  | requests
  /-- its elements -/
  | elems
  | responses
  | ch
  | kind
  | timerSet
  /-- `gen` and `owngen` -/
  | gen
  | cx
  /-- `w.L` -/
  | condL
  deriving DecidableEq

namespace Multi
open MultiV

/-- `setKind` (wait_group.go:233-238). -/
def setKind : Prog MultiV := all [.r kind, loop (all [aw kind, .r kind]), aw kind]

/-- `performFail` (wait_group.go:224-231). -/
def performFail : Prog MultiV := all [.r kind, opt (.r kind)]

/-- `performFailAll` (wait_group.go:211-222). -/
def performFailAll : Prog MultiV := all [locked m (all [ar .r, .r requests]), loop (all [.r elems, opt performFail])]

/-- `Request` (wait_group.go:81-106). -/
def request : Prog MultiV :=
  all [.r gen, opt (w gen), .r requests, .r timerSet, .r requests,
    alt (locked m (all [.r requests, w requests, w elems])) (all [.r requests, w requests, w elems]),
    .r requests, aw .r, ar kind, opt performFail]

/-- The beginning of `Each` and of `Results` (wait_group.go:121-123, 144-146). -/
def failed : Prog MultiV := all [.r kind, opt (all [.r c, .r .r, opt performFailAll])]

/-- `Each` (wait_group.go:120-141). -/
def each : Prog MultiV :=
  all [failed, locked m (all [.r gen, setKind, .r .r, w ch, .r responses, loop (all [.r requests, w elems, .r ch]), w responses, .r c, .r .r, opt (.r ch)]),
    .r ch]

/-- `Results` (wait_group.go:143-168). `Wait` gives the mutex back and takes it again. -/
def results : Prog MultiV :=
  all [failed, locked m (all [.r gen, setKind, w condL, .r responses, .r requests, opt (w responses), ar c, .r .r,
    opt (all [.r condL, .op (.unlock m), .op (.lock m)]), .r responses, w responses, .r cx])]

/-- `Respond` (wait_group.go:170-193), called by whoever answers one of the requests. -/
def respond : Prog MultiV :=
  let rest := all [.r ch, aw c, .r .r, opt (all [.r ch, .r cx])]
  all [.r ch, alt (alt (locked m (all [.r ch, .r responses, w responses, .r requests, w elems, .r c, w c, .r .r, opt (.r kind)]))
    (all [locked m (.r ch), rest])) rest]

/-- `Cancel` and `Expire` (wait_group.go:195-209). -/
def fail : Prog MultiV := all [setKind, .r c, .r .r, opt performFailAll]

/-- `SetTimeout` (wait_group.go:74-79), without the timer. -/
def setTimeout : Prog MultiV := all [.r timerSet, opt (w timerSet)]

/-- Goroutine 0 has made the multi-request, sends the requests and waits; the others answer the requests, cancel, and let it expire. -/
def menu (t : Nat) : List (Prog MultiV) := if t = 0 then [request, each, results, setTimeout, fail, respond] else [respond, fail]

end Multi

/-! ### Context (context.go) -/

inductive CtxV where
  | m
  | state
  | cancels
  | cancelsn
  | cancelsm
  /-- `childCond.L` -/
  | condL
  | parent
  /-- `gen` and `owngen` -/
  | gen
  /-- `reqId` and `cancelBuf` -/
  | own
  deriving DecidableEq

namespace Ctx
open CtxV

/-- `RemoveCanceler` (context.go:61-78). -/
def remove : Prog CtxV :=
  locked m (all [loop (r cancels), opt (all [w cancels, r cancelsn, w cancelsn]), opt (all [r cancelsm, w cancelsm]), r cancelsn, r cancelsm])

/-- `AddCanceler` (context.go:80-105). -/
def add : Prog CtxV :=
  locked m (all [w condL, r state, opt (all [loop (r cancels), alt (all [w cancels, r cancelsn, w cancelsn]) (all [r cancelsm, opt (w cancelsm), w cancelsm])])])

/-- `cancelAll` (context.go:107-125). -/
def cancelAll : Prog CtxV := all [loop (all [r cancelsm, r cancelsn, locked m (all [r cancelsn, r cancels, r cancelsm])]), r cancelsm, r cancelsn]

/-- `Cancel` and `Expire` (context.go:127-137). -/
def cancel : Prog CtxV := all [aw state, opt cancelAll]

/-- `NewRequest` and `NewMulti` (context.go:139-178). -/
def newRequest : Prog CtxV := all [r own, w own, r gen, opt (w gen), ar state, opt (all [r own, w own, add])]

/-- `Alive` and `Timeout` (context.go:205-211). -/
def alive : Prog CtxV := r state

/-- `Child`, and with it `Go` (context.go:213-248). -/
def child : Prog CtxV := all [ar state, opt add]

/-- `WaitAll` (context.go:250-256). -/
def waitAll : Prog CtxV :=
  locked m (all [loop (all [r cancelsn, r cancelsm, r condL, .op (.unlock m), .op (.lock m)]), r cancelsn, r cancelsm])

/-- `Done` (context.go:274-283). -/
def done : Prog CtxV := all [r parent, opt (w parent), r gen, opt (w gen)]

/-- Goroutine 0 makes the requests, and says when it is done; all goroutines do the rest. -/
def menu (t : Nat) : List (Prog CtxV) :=
  let rest := [remove, add, cancel, alive, child, waitAll]
  if t = 0 then rest ++ [newRequest, done] else rest

/-- `Done` of the context of a request, which has no parent (context.go:274-283). -/
def reqDone : Prog CtxV := all [r parent, r gen, opt (w gen)]

/-- The context of a request: `ReqContext.Respond` (request.go:204) and `ReqContext.Done` (request.go:208-213) call `Done`, so whoever answers the
request does. -/
def reqMenu (t : Nat) : List (Prog CtxV) :=
  let rest := [remove, add, cancel, alive, child, waitAll, reqDone]
  if t = 0 then rest ++ [newRequest] else rest

end Ctx

/-! ### A connection of a client (net/client/connection) -/

inductive ConnV where
  /-- the mutex of the `RequestHolder` (request_holder.go:26) -/
  | hm
  | conn
  | reader
  | writer
  | readErr
  | shutdown
  | state
  | got
  | put
  | curId
  /-- the map `reqs` -/
  | reqs
  /-- `cur` and `big` -/
  | cur
  /-- `last` and `lastBig` -/
  | last
  | freed
  | fakeId
  /-- the message `readClosed`, and `writeClosed`, on `loopNotify` (connection.go:19-20) -/
  | cRead
  | cWrite
  /-- the message on `ConnErr` that dialing has ended (connection.go:107, 121, 125) -/
  | cDial
  deriving DecidableEq

namespace Cli
open ConnV

/-- `getNext` (request_holder.go:47-69). -/
def getNext : Prog ConnV :=
  all [r got, w got, loop (all [aw curId, r cur, opt (all [w cur, locked hm (all [r reqs, r cur, w reqs])]), r cur, opt (r fakeId)]),
    all [aw curId, r cur, opt (all [w cur, locked hm (all [r reqs, r cur, w reqs])]), r cur, r fakeId, w fakeId]]

/-- `remove` (request_holder.go:71-98). -/
def remove : Prog ConnV :=
  all [r last, opt (locked hm (all [r reqs, w last])), r last, r freed, w freed, opt (locked hm (w reqs)), w fakeId, r put, w put]

/-- `count` (request_holder.go:118-122). -/
def count : Prog ConnV := all [ar put, ar got]

/-- `Loop` (connection.go:103-130). Goroutines 1, 2 and 3 are the read, the write and the control loop. -/
def dial : Prog ConnV :=
  all [w state, alt (all [.op (.send cDial), w state])
    (all [w conn, w reader, w writer, r conn, r writer, r reader,
      alt (all [r conn, .op (.send cDial), w state]) (all [.op (.send cDial), w state, .op (.fork 1), .op (.fork 2), .op (.fork 3)])])]

/-- `readLoop` (connection.go:204-226). The messages `readEmpty` are left out. -/
def readLoop : Prog ConnV :=
  all [r reader, r conn, loop (all [w readErr, r readErr, opt (all [remove, r state, opt (all [r put, r got])])]), w readErr, r readErr, .op (.send cRead)]

/-- `writeLoop` (connection.go:230-305). -/
def writeLoop : Prog ConnV :=
  all [r writer, r conn, loop (opt getNext), opt (w shutdown), opt (r conn), .op (.send cWrite)]

/-- `controlLoopExit` and `flushInFly` (connection.go:146-152, 185-198), with `getAll` (request_holder.go:100-116). -/
def exit : Prog ConnV :=
  all [r state, opt (r conn), r readErr, locked hm (all [r got, r put, r reqs, loop (r fakeId)]),
    w got, w put, w curId, w reqs, w cur, w last, r shutdown]

/-- One round of `controlLoop` after the message was handled and the write loop has ended (connection.go:173-181). -/
def round : Prog ConnV := all [r state, opt (all [count, opt (r conn)]), r state]

/-- `controlLoop` (connection.go:154-183): either of the two messages may come first. While the write loop goes on, a round does no more than look at the
state. -/
def controlLoop : Prog ConnV :=
  let read := all [.op (.recv cRead), r state, w state, w state, r state, opt (r conn)]
  let write := all [.op (.recv cWrite), r state, w state, w state]
  alt (all [loop (r state), read, loop (r state), write, round, exit]) (all [loop (r state), write, round, loop round, read, round, exit])

/-- The pool: `fixConnections` looks at the state (net/client/server.go:99), `onConnError` at the addresses of a connection that was established
(net/client/server.go:158). -/
def pool : Prog ConnV := all [loop (r state), .op (.recv cDial), r conn, loop (r state)]

/-- Goroutines 0 to 4 of a connection; only `Loop` and the pool are there at the beginning. -/
def start : St ConnV where
  k := fun t => match t with
    | 0 => push dial []
    | 1 => push readLoop []
    | 2 => push writeLoop []
    | 3 => push controlLoop []
    | 4 => push pool []
    | _ => []
  on := fun t => t = 0 || t = 4

end Cli

/-! ### The queue of a client (buffer.go) and its end point (service.go) -/

inductive BufV where
  | m
  | head
  | tail
  | rows
  | hRow
  | tRow
  /-- `bufBookmark.state` -/
  | slot
  /-- `SimplePoint.stopped` -/
  | stopped
  deriving DecidableEq

namespace Buf
open BufV

/-- `push` (buffer.go:52-85). -/
def push : Prog BufV :=
  all [r tail, r head, opt (all [aw tail, r tRow, opt (locked m (all [r rows, opt (all [w rows, w tRow])])), w slot])]

/-- `bufBookmark.Respond` (buffer.go:16-18), called by whoever answers a request in the queue. -/
def respond : Prog BufV := w slot

/-- One round of `loop` (buffer.go:98-124). -/
def round : Prog BufV := all [r head, ar tail, opt (all [r head, r hRow, opt (all [locked m (all [r rows, w rows]), opt (w hRow)]), opt (all [r slot, opt (w slot), w head])])]

/-- `SimplePoint.Stop` (service.go:150-156) and `Stopped` (service.go:158-160). -/
def stop : Prog BufV := w stopped
def looks : Prog BufV := r stopped

/-- Goroutine 0 is `loop`; the others send and answer requests, stop the end point, and look whether it is stopped. -/
def menu (t : Nat) : List (Prog BufV) := if t = 0 then [round] else [push, respond, stop, looks]

end Buf

/-! ### A connection of a server (net/server/connection.go) -/

inductive SrvV where
  /-- the mutex of the connection -/
  | mu
  | inFly
  | buf
  | bufRealCap
  | state
  /-- the messages `readClosed` and `writeClosed` on `loopNotify` -/
  | cRead
  | cWrite
  deriving DecidableEq

namespace Srv
open SrvV

/-- `Respond` (connection.go:84-100), called by whoever answers a request. -/
def respond : Prog SrvV := locked mu (all [r inFly, opt (all [w inFly, r buf, opt (all [w buf, w bufRealCap])])])

/-- `readLoop` (connection.go:159-205). -/
def readLoop : Prog SrvV := all [loop (locked mu (all [r inFly, w inFly])), .op (.send cRead)]

/-- `cleanBuffer` (connection.go:207-237). -/
def cleanBuffer : Prog SrvV := all [loop (all [r buf, w buf]), opt (all [w buf, r buf, opt (all [r bufRealCap, w bufRealCap, w buf])])]

/-- `writeLoop` (connection.go:239-290). -/
def writeLoop : Prog SrvV :=
  all [loop (locked mu (all [r buf, alt cleanBuffer (all [r state, opt (r inFly)])])), .op (.send cWrite)]

/-- `controlLoop` (connection.go:125-153) with `cancelInFly` (:103-111) and `closed` (:119-121): either of the two messages may come first. -/
def controlLoop : Prog SrvV :=
  let read := all [.op (.recv cRead), locked mu (all [r state, w state, w state, r inFly, r buf])]
  let write := all [.op (.recv cWrite), r state, w state, w state, locked mu (r inFly), r state]
  let closed := all [w buf, w inFly]
  alt (all [read, r state, loop (r state), write, r state, closed]) (all [write, r state, loop (r state), read, r state, closed])

/-- Goroutines 1, 2 and 3 are the control, the read and the write loop; the others answer requests. -/
def start : St SrvV where
  k := fun t => match t with
    | 1 => Race.push controlLoop []
    | 2 => Race.push readLoop []
    | 3 => Race.push writeLoop []
    | _ => []
  on := fun _ => true

def menu (t : Nat) : List (Prog SrvV) := if t = 1 ∨ t = 2 ∨ t = 3 then [] else [respond]

end Srv

/-! ### A server (net/server/server.go) -/

inductive SvV where
  | mu
  | closing
  | conns
  | currentId
  | listener
  deriving DecidableEq

namespace Sv
open SvV

/-- Any number of calls of `Stop` (server.go:65-71). -/
def stop : Prog SvV := loop (all [locked mu (w closing), r listener])

/-- `Run` (server.go:51-63), and after it `Stop`, by the same goroutine and by one that it starts. -/
def user : Prog SvV := all [w listener, r listener, .op (.fork 1), .op (.fork 2), .op (.fork 3), stop]

/-- `listenLoop` (server.go:99-126). -/
def listenLoop : Prog SvV :=
  all [loop (all [r listener, alt (locked mu (r closing)) (locked mu (all [r closing, r currentId, w currentId, r currentId, r currentId, r conns, w conns]))]),
    r listener, locked mu (r closing)]

/-- `controlLoop` (server.go:73-97). -/
def controlLoop : Prog SvV := loop (alt (locked mu (all [r conns, w conns, r closing, opt (r conns)])) (locked mu (all [r conns, r conns])))

def start : St SvV where
  k := fun t => match t with
    | 0 => Race.push user []
    | 1 => Race.push listenLoop []
    | 2 => Race.push controlLoop []
    | 3 => Race.push stop []
    | _ => []
  on := fun t => t = 0

end Sv

/-! ### Timers (custom_timer.go) and Auto (net/client/auto.go) -/

inductive TimV where
  /-- the mutex of a heap, and all that it holds: `len`, `top`, `size`, `free`, `h`, and `Timer.i` of the timers in it -/
  | hm
  | heap
  /-- `Timer.h` -/
  | th
  | heapM
  | heaps
  | heapN
  | heapI
  /-- `Auto.Mutex` and `Auto.servers` -/
  | am
  | servers
  deriving DecidableEq

namespace Tim
open TimV

/-- `nextHeap` (custom_timer.go:55-72). -/
def nextHeap : Prog TimV := all [aw heapI, opt (locked heapM (all [loop (all [r heaps, w heaps]), r heaps, w heapN])), r heaps, r heapN]

/-- `After` (custom_timer.go:23-37), with `push` (:137-163). -/
def after : Prog TimV := all [r th, alt (all [nextHeap, w th]) (all [r th, r heaps]), locked hm (all [r heap, w heap])]

/-- `Stop` (custom_timer.go:39-48), with `remove` (:165-241). -/
def stop : Prog TimV := all [r th, opt (all [r heaps, locked hm (all [r heap, opt (w heap)])])]

/-- `loop` of the heap (custom_timer.go:106-135): it holds the mutex except while it expires a timer and while it waits. -/
def loop : Prog TimV := all [.op (.lock hm), .loop (all [r heap, opt (w heap), .op (.unlock hm), .op (.lock hm), r heap]), .op (.unlock hm)]

/-- `Auto.Get` (auto.go:15-40). -/
def get : Prog TimV :=
  all [r servers, opt (locked am (all [r servers, opt (w servers)])), r servers, opt (locked am (all [r servers, opt (all [r servers, w servers])]))]

/-- `Auto.Stop` (auto.go:42-51). -/
def stopAuto : Prog TimV := locked am (all [r servers, opt (all [r servers, w servers])])

def menu : List (Prog TimV) := [after, stop, loop, get, stopAuto]

end Tim

/-! ### The caches of codecs (marshal/reader_reflect.go, marshal/writer_reflect.go) -/

inductive CacheV where
  | rsL
  | wsL
  /-- the pointers to the maps that are used -/
  | rs
  | ws
  /-- the pointers to the maps that are made -/
  | rss
  | wss
  /-- the readers and writers, and the maps that hold them -/
  | readers
  | writers
  deriving DecidableEq

namespace Cache
open CacheV

/-- `ReaderFor` and `_reader` (marshal/reader_reflect.go:355-382), and a use of the reader. `len(ws)` is a slip in the code. -/
def readerFor : Prog CacheV :=
  all [r rs, r readers,
    opt (locked rsL (all [r rs, r readers, opt (all [r ws, r writers, w rss, r rs, r readers, w readers, loop (all [r rss, r readers, w readers]), r rss, w rs])])),
    r readers]

/-- `WriterFor` and `_writer` (marshal/writer_reflect.go:229-256), and a use of the writer. -/
def writerFor : Prog CacheV :=
  all [r ws, r writers,
    opt (locked wsL (all [r ws, r writers, opt (all [r ws, r writers, w wss, r ws, r writers, w writers, loop (all [r wss, r writers, w writers]), r wss, w ws])])),
    r writers]

def menu : List (Prog CacheV) := [readerFor, writerFor]

end Cache

end Verif.Race
