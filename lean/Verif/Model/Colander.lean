import Verif.Model.Rpc
/-!
The example server, examples/colander/colander.go. It answers two types of requests: an echo of four bytes, and the sum of the squares of the
numbers below 32, which are sent to a second server one by one.

Left out: the counters and log lines (colander.go:94-97, 144-149); how the requests get to the second server and back (other models); the body of an
answer is what `Body.Read` gets. `cap(sums)` is 1, so that the outer loop (colander.go:99-135) is run once with `beg = 0`, `end = 32`, and one
number goes through the channel `sums`.
-/
namespace Verif.Colander
open Verif.Marshal Verif.Reflect

/-- `CHKNUM` (colander.go:25). -/
def chknum : Nat := 32

inductive Handler
  | opTest | sumTest
deriving DecidableEq

/-- `rootService` (colander.go:32-39): `OP_TEST` is 2, `OP_SUMTEST` is 1 (colander.go:23). `none`: nothing is done with the request. -/
def rootService (msg : UInt32) : Option Handler :=
  if msg = 2 then some .opTest else if msg = 1 then some .sumTest else none

/-- `opTestService` (colander.go:43-51): the calls of `Respond` in order, and whether the function returns (`le.Uint32` panics on less than four
bytes). There is no `return` after the first `Respond`. -/
def opTest (body : Bytes) : List (UInt32 × Bytes) × Bool :=
  let first := if body.length ≠ 4 then [(1, [])] else []
  match body with
  | a :: b :: c :: d :: _ => (first ++ [(0, [a, b, c, d])], true)
  | _ => (first, false)

/-- The request goes to `RootService` with `conn.EndPoint.Send` (net/server/connection.go:203), and from there on in the same goroutine
(service.go:18-22, 35-39). The answer is the first call of `Respond`, which takes the request out of the state in which the others answer it
(request.go:165-171). -/
def echoAnswer (body : Bytes) : Option (UInt32 × Bytes) := (opTest body).1.head?

/-- `OpTestReq` and `Res` (colander.go:56-58, 71-73). -/
def numTy : Ty := .struct (.cons (.use false .none) (.scal .u32) .nil)

/-- The body of the request for number `i` (colander.go:109-113, wait_group.go:74-80, 114-118): `&OpTestReq{i*i}`. -/
def askBody (i : UInt32) : Option Bytes := Rpc.marshalWrite (.val (.ptr numTy) (.ref (.seq [.scal (.u32 (i * i))])))

/-- The field `J`. -/
def fieldJ : Val → UInt32
  | .seq [.scal (.u32 x)] => x
  | _ => 0

/-- The loop over the results (colander.go:117-132): the sum so far and whether it was broken off. `none`: panic. -/
def sumLoop : List (UInt32 × Bytes) → UInt32 → Option (UInt32 × Bool)
  | [], s => some (s, false)
  | (code, body) :: rs, s =>
    if code ≠ 0 then some (s, true)
    else match Rpc.marshalRead numTy body with
      | none => none
      | some (err, v) => if err ≠ none then some (s, true) else sumLoop rs (s + fieldJ v)

/-- `sumTestService` (colander.go:86-152), given the results: the return code is 0 whatever `result` is; the body is made by `Respond`
(parallel_service.go:119, request.go:155-163). -/
def sumTest (rs : List (UInt32 × Bytes)) : Option (UInt32 × Bytes) :=
  match sumLoop rs 0 with
  | none => none
  | some (s, _) => (Rpc.toBody (.val (.scal .u32) (.scal (.u32 s)))).map fun b => (0, b)

/-- `IMsg` of `OpTestReq` (colander.go:60-62): the type of the requests for the second server. -/
def askMsg : UInt32 := 2

/-- The answer of the server to a request (colander.go:30-39); `rs` are the results of the requests to the second server, if it makes any. `none`: it is never answered, or
the process ends. -/
def answer (msg : UInt32) (body : Bytes) (rs : List (UInt32 × Bytes)) : Option (UInt32 × Bytes) :=
  match rootService msg with
  | some .opTest => echoAnswer body
  | some .sumTest => sumTest rs
  | none => none

end Verif.Colander
