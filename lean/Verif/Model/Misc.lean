/-!
Small decision procedures: return codes (response.go), the server's code mapping
(net/server/server.go, net/server/connection.go), client configuration defaults
(net/client/config.go), Epoch (epoch.go), MultiResponse sorting (wait_group.go).
-/
namespace Verif.Misc

/-! ### Return codes (response.go:12-29) -/

def RcOK : UInt32 := 0
def RcTemporary : UInt32 := 1
def RcFatal : UInt32 := 2
def RcInternal : UInt32 := 3
def RcKindMask : UInt32 := 7
def RcShutdown : UInt32 := 0xff03
def RcProtocolError : UInt32 := 0x0302
def RcInternalError : UInt32 := 0xfc02
def RcCanceled : UInt32 := 0xff03
def RcIOError : UInt32 := 0xfe03
def RcTimeout : UInt32 := 0xfd03

/-- `Response.Valid` (response.go:38-40). -/
def valid (c : UInt32) : Bool := c &&& RcKindMask == 0
/-- `Response.Restartable` (response.go:42-44). -/
def restartable (c : UInt32) : Bool := c &&& RcKindMask == RcTemporary

/-! ### Server side code mapping -/

/-- A Go `map[RetCode]RetCode` as an association list; the keys of a Go map are distinct, lookup takes the
first match. -/
abbrev RCMap := List (UInt32 × UInt32)

/-- `m[k]`: the zero value when absent. -/
def RCMap.get (m : RCMap) (k : UInt32) : UInt32 := (m.lookup k).getD 0

/-- `NewServer` (net/server/server.go:32-41): `false` means `log.Panicf`. -/
def newServerAccepts (m : RCMap) : Bool :=
  m.all fun kv => kv.1 &&& RcKindMask == RcInternal && !(kv.2 &&& RcKindMask == RcInternal)

/-- The code part of `Connection.Respond` (net/server/connection.go:75-84). `none` is a nil map. -/
def wireCode (m : Option RCMap) (c : UInt32) : UInt32 :=
  if c &&& RcKindMask == RcInternal then
    match m with
    | some m =>
      if m.get c ≠ 0 then m.get c else (c &&& ~~~RcKindMask) ||| RcFatal
    | none => (c &&& ~~~RcKindMask) ||| RcFatal
  else c

/-! ### Client configuration -/

/-- `ServerConfig` (net/client/config.go:11-27); durations in nanoseconds. -/
structure Cfg where
  network : String
  address : String
  name : String
  connections : Int
  dialTimeout : Int
  readTimeout : Int
  writeTimeout : Int
  pingInterval : Int
  rcType : Nat
  timeout : Int
deriving Repr, DecidableEq

/-- `SetDefaults` (net/client/config.go:33-64), `none` is the panic on an empty address. `dp` is the
package variable `DefaultPingInterval` (one second unless changed by the user). -/
def setDefaults (dp : Int) (c : Cfg) : Option Cfg :=
  if c.address = "" then none else
  let c := if c.network = "" then
      if ':' ∈ c.address.toList then { c with network := "tcp" } else { c with network := "unix" }
    else c
  let c := if c.name = "" then { c with name := c.network ++ ":" ++ c.address } else c
  let c := if c.connections ≤ 0 then { c with connections := 1 } else c
  let c := if c.pingInterval = 0 then { c with pingInterval := dp } else c
  let c := if c.dialTimeout = 0 then { c with dialTimeout := 5000000000 } else c
  some c

/-! ### Epoch -/

/-- `time.Time` as exact nanoseconds since 2010-01-01 UTC (the variable `epoch`, epoch.go:9). Monotonic clock
readings are not modelled. -/
abbrev Time := Int

/-- The zero `time.Time{}`: 0001-01-01, which is 733772 days earlier. -/
def zeroTime : Time := -(733772 * 86400 * 1000000000)

/-- `tm.Sub(epoch)`: saturates at the limits of `time.Duration` (documented behaviour of `Time.Sub`). -/
def subEpoch (tm : Time) : Int64 :=
  Int64.ofInt (max (-(2 ^ 63)) (min (2 ^ 63 - 1) tm))

/-- `NewEpoch` (epoch.go:11-13). -/
def newEpoch (tm : Time) : Int64 := subEpoch tm
/-- `Before` (epoch.go:19-21). -/
def before (e o : Int64) : Bool := e < o
/-- `Sub` (epoch.go:23-25). -/
def esub (e o : Int64) : Int64 := e - o
/-- `Add` (epoch.go:27-29). -/
def eadd (e d : Int64) : Int64 := e + d
/-- `SubTime` (epoch.go:31-33). -/
def subTime (e : Int64) (tm : Time) : Int64 := e - subEpoch tm
/-- `Time` (epoch.go:35-41). -/
def etime (e : Int64) : Time := if e > 0 then e.toInt else zeroTime
/-- `Zero` (epoch.go:43-45). -/
def ezero (e : Int64) : Bool := e == 0
/-- `WillExpire` (epoch.go:47-49), with the value of `NowEpoch()` as an argument. -/
def willExpire (e after now : Int64) : Bool := e > 0 && e - after < now
/-- `Remains` (epoch.go:55-57). -/
def remains (e now : Int64) : Int64 := e - now
/-- `Elapsed` (epoch.go:59-61). -/
def elapsed (e now : Int64) : Int64 := now - e

/-! ### MultiResponse sorting -/

/-- The part of a response sorting looks at, plus everything else as an opaque payload. -/
structure MResp where
  id : UInt32
  payload : Nat
deriving Repr, DecidableEq

/-- `Less` (wait_group.go:33-35). -/
def less (m : Array MResp) (i j : Nat) : Bool :=
  match m[i]?, m[j]? with
  | some a, some b => a.id < b.id
  | _, _ => false

/-- `Swap` (wait_group.go:37-39). Indices outside the slice panic in Go; `sort.Sort` never uses such. -/
def swap (m : Array MResp) (i j : Nat) : Array MResp := m.swapIfInBounds i j

/-- A run of `sort.Sort`: it changes the data by `Swap` calls only. -/
def swaps (m : Array MResp) : List (Nat × Nat) → Array MResp
  | [] => m
  | (i, j) :: r => swaps (swap m i j) r

end Verif.Misc
