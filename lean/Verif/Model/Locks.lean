import Verif.Model.Race
/-! Which mutexes the library takes, and which of them while it has others. All code is nondeterministic: what is called, how often and in which order is
left open; only which mutex may be locked where is said. -/
namespace Verif.Locks
open Verif.Race Prog

/-- Requests, contexts and multi-requests are numbered in the order in which they were made. -/
inductive Mx where
  /-- `Request.Mutex` (request.go:35) -/
  | req (i : Nat)
  /-- `MultiRequest.m` (wait_group.go:53), and the mutexes of the caches of sbox (sbox/reader.go:51, sbox/writer.go:82) -/
  | multi (m : Nat)
  /-- `Context.m` (context.go:50) -/
  | cx (c : Nat)
  /-- the mutexes with which no other is taken: of timer heaps and `heapM` (custom_timer.go:51, 88), generators (generator.go:17), queues (buffer.go:39),
  request holders (net/client/connection/request_holder.go:29), server connections and servers (net/server/connection.go:42, net/server/server.go:23), `Auto` (net/client/auto.go:12), and the caches of
  marshal (reader_reflect.go:353, writer_reflect.go:227) -/
  | leaf (n : Nat)
  deriving DecidableEq

/-- What was made for what, and which requests are answered when others are. -/
structure World where
  /-- `made a b`: `a` was made for `b`: the context of a request (request.go:215-221), a request, multi-request or child context made in a context
  (context.go:139-178, 213-222), a request of a multi-request (wait_group.go:81-106) -/
  made : Nat → Nat → Prop
  /-- `answers j i`: the responder of `j`, or a bookmark in its chain, answers request `i`. No responder and no bookmark of the library does that; a `Callback`
  (response.go:50-54) or the function of a `StatService` (stat.go:22-24) may. -/
  answers : Nat → Nat → Prop
  later : ∀ a b, made a b → b < a

/-- Where code runs. -/
inductive Where where
  /-- no mutex is held -/
  | top
  /-- under the mutex of request `i`: in `chainResponse`, `ChainBookmark`, `SetInFly` -/
  | inner (i : Nat)
  /-- cancelling context or multi-request `c` -/
  | cancel (c : Nat)
  /-- under the mutex of a multi-request -/
  | multi

/-- The code of the library that takes mutexes. -/
inductive Code (W : World) : Where → Prog Mx → Prop
  | skip {x} : Code W x .skip
  | seq {x p q} : Code W x p → Code W x q → Code W x (.seq p q)
  | alt {x p q} : Code W x p → Code W x q → Code W x (.alt p q)
  | loop {x p} : Code W x p → Code W x (.loop p)
  /-- `Timer.After` and `Timer.Stop`, `RGenerator.Release`, `Buffer.push`, `Connection.Respond` of a server, `ReaderFor`, and so on -/
  | leaf {x} n : Code W x (locked (.leaf n) .skip)
  /-- `AddCanceler`, `RemoveCanceler`, `WaitAll` (context.go:61-105, 250-256), and the copying in `cancelAll` (context.go:109-119) -/
  | cx {x} c : Code W x (locked (.cx c) .skip)
  /-- `MultiRequest.Respond`, `Results`, `Each`, `Request` and the copying in `performFailAll` (wait_group.go:81-193, 211-215): with the mutex held timers are
  stopped, generators released, and `RemoveCanceler` is called -/
  | multi {x} m {p} : x ≠ .multi → Code W .multi p → Code W x (locked (.multi m) p)
  /-- `RespondBytes`, `RespondFail`, `ChainBookmark`, `SetInFly` (request.go:85-98, 165-189), with what bookmarks and responder do -/
  | respond {i p} : Code W (.inner i) p → Code W .top (locked (.req i) p)
  /-- `Context.Cancel` and `Expire`, `MultiRequest.Cancel` and `Expire` (context.go:127-137, wait_group.go:195-209) -/
  | cancel {c p} : Code W (.cancel c) p → Code W .top p
  /-- `ReqContext.Respond` (request.go:196-206): the request is cancelled, and so its context -/
  | reqContext {c i p} : W.made c i → Code W (.cancel c) p → Code W (.inner i) p
  /-- `contextBookmark.Cancel` (context.go:28-32) and `performFail` (wait_group.go:224-231): a request made in the context is cancelled -/
  | cancelReq {c i p} : W.made i c → Code W (.inner i) p → Code W (.cancel c) (locked (.req i) p)
  /-- `cancelAll` (context.go:107-125): a multi-request or a child context is cancelled -/
  | cancelIn {c c' p} : W.made c' c → Code W (.cancel c') p → Code W (.cancel c) p
  /-- a responder or bookmark that answers another request -/
  | answer {j i p} : W.answers j i → Code W (.inner i) p → Code W (.inner j) (locked (.req i) p)

end Verif.Locks
