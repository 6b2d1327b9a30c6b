import Verif.Props.Wire
import Verif.Props.Marshal
import Verif.Props.Misc
import Verif.Props.Request
import Verif.Props.Timer
import Verif.Props.Generator
import Verif.Props.Buffer
import Verif.Props.Multi
import Verif.Props.Context
import Verif.Props.Parallel
import Verif.Props.Conn
import Verif.Props.Pool
import Verif.Props.Serv
import Verif.Props.ServStop
import Verif.Props.Reflect
import Verif.Props.Sbox
import Verif.Props.Auto
import Verif.Props.Send
import Verif.Props.Balancer
import Verif.Props.ConnClose
import Verif.Props.SboxDest
import Verif.Props.Heaps
import Verif.Props.ClientQueue
import Verif.Props.CodecCache
import Verif.Props.Link
import Verif.Props.SboxTail
import Verif.Props.Iface
import Verif.Props.User
import Verif.Props.ReaderCache
import Verif.Props.WriterPool
import Verif.Props.ReqTimer
import Verif.Props.CtxReq
import Verif.Props.ReqCtx
import Verif.Props.GenShare
import Verif.Props.ByteLink
import Verif.Props.Graceful
import Verif.Props.KeepAlive
import Verif.Props.IfaceField
import Verif.Conform.Marshal
import Verif.Conform.Sbox
import Verif.Conform.Iface
import Verif.Props.Rpc
import Verif.Props.MultiReq
import Verif.Props.Endpoint
import Verif.Props.Delim
import Verif.Props.Served
import Verif.Props.SizedTuple
import Verif.Props.Whole
import Verif.Props.ParallelLive
import Verif.Props.ServedLive
import Verif.Props.WholeLive
import Verif.Props.WholeCall
import Verif.Props.MultiTimer
import Verif.Props.CtxMulti
import Verif.Props.CtxTree
import Verif.Props.Ordered
import Verif.Props.MultiReqRest
import Verif.Props.RequestRest
import Verif.Props.ParallelStop
import Verif.Props.TimerRest
import Verif.Props.BufferRest
import Verif.Props.Colander
import Verif.Props.Bench
import Verif.Props.Deadline
import Verif.Props.ServedStop
import Verif.Props.PoolLive
import Verif.Props.Canon
import Verif.Props.Lost
import Verif.Props.Race
import Verif.Props.Locks
import Verif.Props.RecType
import Verif.Props.Sock
import Verif.Props.Keeps
import Verif.Props.Listen
import Verif.Props.Box
import Verif.Props.Body
import Verif.Props.BoxAnswer
import Verif.Props.BoxKeys
import Verif.Props.BoxPool
import Verif.Props.BoxAtomic
import Verif.Props.BoxRace
import Verif.Props.BoxLog
import Verif.Props.PoolAny
