{"id": "C01", "title": "Request frames survive any network chunking", "statement": "Whatever sequence of requests is written through HeaderWriter.WriteRequest and flushed, a peer calling HeaderReader.ReadRequest gets exactly the same (Msg, Id, Body) sequence, in order, and then EOF, no matter how the transport splits the bytes into reads.", "quantifier": "all request sequences with bodies below 2^32 bytes, all splits of the byte stream into read chunks", "why_tests_cant": "the set of chunkings and of message sequences is infinite; a test samples a handful of split points", "anchors": ["net/header.go:HeaderWriter.WriteRequest", "net/header.go:HeaderReader.ReadRequest", "net/buf_writer.go:BufWriter", "net/slice_reader.go:SliceReader.Read"]}
{"id": "C02", "title": "Buffered writer is transparent", "statement": "For any sequence of Write / WriteUint32 / Write3Uint32 / Flush calls on BufWriter, the bytes already handed to the connection followed by the bytes still buffered are exactly the bytes submitted, in order; after a successful Flush nothing is left in the buffer; no call indexes outside the buffer.", "quantifier": "all sequences of writer calls with arbitrary payload sizes", "why_tests_cant": "the buffer has several size-dependent paths (flush, bypass, copy) whose interleavings are unbounded", "anchors": ["net/buf_writer.go:BufWriter.Write", "net/buf_writer.go:BufWriter.Write3Uint32", "net/buf_writer.go:BufWriter.WriteUint32", "net/buf_writer.go:BufWriter.Flush"]}
{"id": "C03", "title": "Slice reader is independent of chunking", "statement": "A sequence of SliceReader.Read(n) calls returns the successive n-byte segments of the incoming stream, for every split of the stream into chunks; when the stream ends first the call reports EOF (nothing left) or ErrUnexpectedEOF (a partial segment), never a full segment with wrong bytes.", "quantifier": "all byte streams, all chunkings including empty reads, all sequences of sizes n", "why_tests_cant": "buffer carry-over between reads depends on chunk boundaries relative to sizes; cannot be enumerated", "anchors": ["net/slice_reader.go:SliceReader.Read", "net/slice_reader.go:SliceReader.read"]}
{"id": "C04", "title": "A slice handed out by the slice reader never changes afterwards", "statement": "Once SliceReader.Read has returned a slice (a message body the user may keep), no later Read on the same reader alters any byte of it, although reader and result share backing arrays.", "quantifier": "all histories of Read calls, all chunkings, all buffer-reuse decisions", "why_tests_cant": "aliasing corruption appears only for particular size/chunk histories", "anchors": ["net/slice_reader.go:SliceReader.Read"]}
{"id": "C05", "title": "Response frames survive encode/decode for every return-code width", "statement": "A sequence of responses written by HeaderWriter.WriteResponse with a given RCType is read back by HeaderReader.ReadResponse with the same RCType as the same sequence of (Msg, Id, Code, Body), with Code reduced to the bits the RCType can carry (none for RC0byte, 8 for RC1byte, 32 for RC4byte), for every chunking.", "quantifier": "all response sequences, all three return-code widths, all chunkings", "why_tests_cant": "every width times every message mix (including ping replies) times every chunk boundary", "anchors": ["net/header.go:HeaderWriter.WriteResponse", "net/header.go:HeaderReader.ReadResponse", "net/buf_writer.go:BufWriter.WriteByte", "net/slice_reader.go:SliceReader.ReadByte"]}
{"id": "C06", "title": "A truncated stream never yields a wrong message", "statement": "If a stream of frames is cut at any byte, the reader returns exactly the messages that lie entirely before the cut and then an error; it never returns a message that was not written and never reports success for a partial one.", "quantifier": "all message sequences, all cut points, all chunkings", "why_tests_cant": "crash/cut points are unbounded", "anchors": ["net/header.go:HeaderReader.ReadRequest", "net/header.go:HeaderReader.ReadResponse", "net/slice_reader.go:SliceReader.Read"]}
{"id": "C07", "title": "Internal return codes never reach a remote client", "statement": "Whatever code a handler answers with, the code a server connection puts on the wire is not of the internal kind: codes of internal kind are replaced by the configured replacement when there is one and otherwise become the fatal code with the same detail bits; all other codes pass unchanged.", "quantifier": "all 2^32 return codes, all RCMap configurations accepted by NewServer", "why_tests_cant": "code space times configuration space", "anchors": ["net/server/connection.go:Connection.Respond", "net/server/server.go:Config.NewServer", "response.go:RcKindMask"]}
{"id": "C08", "title": "A ping reply leaves the response stream synchronised", "statement": "After a server answers a ping, the responses it sends next are decoded by the client as the responses that were sent, and the client-side handshake accepts a reply exactly when its type is Ping and its id is the ping id.", "quantifier": "all responses following a ping reply, all return-code widths, all 12-byte handshake replies", "why_tests_cant": "a desynchronised stream is only visible in what follows", "anchors": ["net/header.go:HeaderWriter.WriteResponse", "net/header.go:HeaderReader.ReadPing", "net/header.go:HeaderWriter.Ping", "net/server/connection.go:readLoop"]}
{"id": "C09", "title": "Fixed-width scalars round-trip in little-endian", "statement": "Writing any 8/16/32/64-bit signed or unsigned integer or 32/64-bit float with marshal.Writer appends exactly width/8 bytes whose little-endian value is the two's-complement/IEEE bit pattern, and reading them back with marshal.Reader returns the same value and leaves exactly the bytes that followed.", "quantifier": "all values of all widths and all following bytes", "why_tests_cant": "2^64 values", "anchors": ["marshal/writer_any.go", "marshal/reader_any.go", "marshal/writer.go:Uint8", "marshal/reader.go:Uint8"]}
{"id": "C10", "title": "BER integers round-trip for every uint64", "statement": "For every uint64 x and every following bytes, Reader.Uint64var after Writer.Uint64var(x) returns x and leaves exactly the following bytes; the encoding has between 1 and 10 bytes and is the shortest.", "quantifier": "all 2^64 values and all following bytes", "why_tests_cant": "2^64 values; the encoder has a separate branch per length", "anchors": ["marshal/writer.go:Writer.Uint64var", "marshal/reader.go:Reader.Uint64var"]}
{"id": "C11", "title": "BER decoding never silently wraps", "statement": "On any input bytes, Reader.Uint64var either returns the exact base-128 value of the digits up to the first byte below 0x80, which is then below 2^64, and consumes exactly those bytes, or it sets an error: too big when that value does not fit 64 bits, not enough data when no terminating byte exists.", "quantifier": "all byte strings of all lengths", "why_tests_cant": "unbounded malformed inputs, overflow boundary cases", "anchors": ["marshal/reader.go:Reader.Uint64var"]}
{"id": "C12", "title": "Predicted BER size equals encoded BER size", "statement": "The size computed for a BER integer (used as length prefix for size(...),ber fields and in struct sizes) equals the number of bytes actually written for it.", "quantifier": "all uint64 values", "why_tests_cant": "boundary values of every length class", "anchors": ["marshal/writer.go:varu64size", "marshal/marshal.go:Varsize", "marshal/writer_reflect.go:BerWriter", "marshal/writer_reflect.go:BerSlWriter"]}
{"id": "C13", "title": "Decode errors are sticky", "statement": "Once a Reader has recorded an error, every further primitive read returns the zero value, consumes nothing and keeps the first error.", "quantifier": "all reader states with an error, all sequences of further primitive reads", "why_tests_cant": "every primitive after every failure history", "anchors": ["marshal/reader.go", "marshal/reader_any.go"]}
{"id": "C14", "title": "Primitive reads consume exactly what they decode and never pass the end", "statement": "A primitive read of n bytes succeeds exactly when at least n bytes are left, then consumes exactly n of them and returns a value determined by those n bytes; otherwise it records an error and consumes nothing.", "quantifier": "all reader states and all primitives", "why_tests_cant": "all input lengths", "anchors": ["marshal/reader.go", "marshal/reader_any.go"]}
{"id": "C15", "title": "Writer output is the concatenation of what was written and growth never panics", "statement": "For any sequence of writes on a marshal.Writer (any DefSize, any sizes, including after Written/Reset), the buffer growth logic always provides enough capacity and Written returns exactly the bytes written since the previous Written or Reset, in order.", "quantifier": "all sequences of writer operations, all sizes, all DefSize settings", "why_tests_cant": "capacity rounding is size-dependent bit arithmetic", "anchors": ["marshal/writer.go:Writer.ensure", "marshal/writer.go:ceilLog", "marshal/writer.go:Writer.Written", "marshal/writer.go:Writer.Reset", "marshal/writer.go:Writer.Need"]}
{"id": "C16", "title": "Bytes returned by Written are never overwritten by later use of the writer", "statement": "A body obtained from Written stays unchanged by any later operation on the same (pooled, reused) Writer, although they share a backing array.", "quantifier": "all histories of writer operations after Written", "why_tests_cant": "aliasing through pooled writers depends on the history", "anchors": ["marshal/writer.go:Writer.Written", "marshal/writer.go:Writer.ensure", "marshal/marshal.go:Write", "generator.go:RGenerator.Request"]}
{"id": "C17", "title": "Typed slices round-trip", "statement": "Writing a slice of any supported scalar type and reading back the same number of elements returns the same elements and consumes exactly the bytes written.", "quantifier": "all element types, all lengths, all element values", "why_tests_cant": "lengths and contents unbounded", "anchors": ["marshal/writer_any.go:Uint16sl..Float64sl", "marshal/reader_any.go:Uint16sl..Float64sl", "marshal/writer.go:Int8sl", "marshal/reader.go:Int8sl"]}
{"id": "C18", "title": "Structured values round-trip through Write/Read", "statement": "For every Go type built from scalars, strings, arrays, slices and structs with iproto tags, marshal.Read of marshal.Write(v) into a fresh variable of the type returns v and consumes everything.", "quantifier": "all types of the supported universe (unbounded nesting, tags), all values of each type", "why_tests_cant": "infinitely many types; a test instantiates a few structs", "anchors": ["marshal/writer_reflect.go", "marshal/reader_reflect.go"]}
{"id": "C19", "title": "Declared fixed sizes are correct and no field is dropped", "statement": "When the codec treats a type as having a fixed encoded size n, every value of the type encodes to exactly n bytes; in particular a struct field is left out of the encoding only if every value of it encodes to zero bytes.", "quantifier": "all types and values of the universe", "why_tests_cant": "size bookkeeping errors show only for particular field combinations", "anchors": ["marshal/writer_reflect.go:TWriter.FillStruct", "marshal/writer_reflect.go:TWriter.FillArray", "marshal/reader_reflect.go:TReader.FillStruct"]}
{"id": "C20", "title": "Decoding untrusted bytes never panics", "statement": "marshal.Read into a fresh variable of a supported type returns a value or an error for every input; it never panics.", "quantifier": "all byte strings, all types of the universe", "why_tests_cant": "fuzzing samples; negative sizes need specific long BER prefixes", "anchors": ["marshal/reader_reflect.go", "marshal/reader.go:Reader.Slice", "marshal/reader.go:Reader.Intvar"]}
{"id": "C21", "title": "Length prefixes of every width round-trip", "statement": "A length written with a size()/cnt() prefix of kind ber, i8, i16, i32 or i64 is read back as the same length, for every length the prefix width can represent.", "quantifier": "all prefix kinds and lengths", "why_tests_cant": "boundary lengths per width", "anchors": ["marshal/writer.go:IntUint64", "marshal/writer.go:IntUint8", "marshal/reader.go:IntUint64", "marshal/writer.go:Intvar"]}
{"id": "C22", "title": "Tuples round-trip", "statement": "A scalar, string, byte string, flat slice or flat struct written with sbox.WriteTuple and read with ReadRawTuple into a fresh variable of the same type gives back the value and consumes exactly the tuple.", "quantifier": "all values and all flat tuple types", "why_tests_cant": "unbounded field lists and contents", "anchors": ["sbox/writer.go:WriteTuple", "sbox/writer.go:TWriter.Fill", "sbox/reader.go:ReadRawTuple", "sbox/reader.go:TReader.Fill"]}
{"id": "C23", "title": "Select announces as many keys as it sends", "statement": "The key count in an encoded SelectReq equals the number of key tuples that follow it, for every accepted Keys value.", "quantifier": "all Keys values (nested to any depth)", "why_tests_cant": "key shapes are unbounded", "anchors": ["sbox/select.go:CountKeys", "sbox/select.go:WriteKeys", "sbox/select.go:SelectReq.IWrite"]}
{"id": "C24", "title": "Request bodies determine the request", "statement": "StoreReq, DeleteReq, SelectReq header, UpdateReq header and RPCReq bodies decode back, by the documented layout, to the fields they were built from, so two different requests never have the same body.", "quantifier": "all field values", "why_tests_cant": "field value space", "anchors": ["sbox/modify.go", "sbox/select.go", "sbox/rpc.go"]}
{"id": "C25", "title": "ReadMany decodes every tuple or reports an error", "statement": "When ReadMany reports n tuples read without error, each of the n destination elements holds the decoding of the corresponding tuple of the body.", "quantifier": "all response bodies", "why_tests_cant": "a bad tuple in the middle of a long response", "anchors": ["sbox/result.go:ReadMany", "sbox/result.go:oneTuple", "sbox/result.go:readSlice"]}
{"id": "C26", "title": "ReadFirst reports truncated responses", "statement": "ReadFirst returns an error whenever the body is too short to contain the announced count or the first announced tuple.", "quantifier": "all response bodies", "why_tests_cant": "all truncation points", "anchors": ["sbox/result.go:ReadFirst"]}
{"id": "C27", "title": "Update operations are encoded with the operator the user asked for", "statement": "Each update operator constant is encoded as its protocol code 0..7, numeric codes pass unchanged, and anything else is rejected rather than encoded as a different operator.", "quantifier": "all 256 operator bytes, all fields", "why_tests_cant": "operator table holes", "anchors": ["sbox/modify.go:Op.IWrite", "sbox/modify.go:opmap"]}
{"id": "C28", "title": "At most one response per request", "statement": "However many goroutines concurrently send, claim, answer, cancel, expire or fail the same Request, and whatever bookmarks are chained on it, its Responder is invoked at most once.", "quantifier": "all interleavings of any number of goroutines, all operation mixes, all bookmark reactions", "why_tests_cant": "schedules are unbounded; races appear only in specific interleavings", "anchors": ["request.go:Request.chainResponse", "request.go:Request.RespondBytes", "request.go:Request.RespondFail", "request.go:Request.SetInFly", "request.go:Request.SetPending"]}
{"id": "C29", "title": "The delivered response is the one that was accepted, with the request's own Id and Msg", "statement": "The response the Responder gets carries the request's Id and Msg and the code and body of one answering call; a body answer is delivered only if the request had been claimed for work; a failure answer carries no body.", "quantifier": "all interleavings, all requests", "why_tests_cant": "as C28", "anchors": ["request.go:Request.chainResponse", "request.go:Request.RespondBytes", "request.go:Request.RespondFail"]}
{"id": "C30", "title": "Bookmarks unwind in reverse order, each once, before the Responder", "statement": "When a request is answered its chained bookmarks are notified latest-first, each exactly once, all before the Responder, and afterwards the request has no bookmarks.", "quantifier": "all chains of any length, all interleavings", "why_tests_cant": "chain depth unbounded", "anchors": ["request.go:Request.chainResponse", "response.go:Bookmark.setReq", "response.go:Bookmark.unchain"]}
{"id": "C31", "title": "Cancel, timeout and I/O failure always answer the request", "statement": "When Cancel, Expire, IOError or ShutDown returns, the request has been answered.", "quantifier": "all request states, all chained bookmarks", "why_tests_cant": "depends on which bookmark is on top when the timeout fires", "anchors": ["request.go:Request.RespondFail", "request.go:ReqContext.Respond", "parallel_service.go:serv"]}
{"id": "C32", "title": "No work starts on an answered request", "statement": "SetInFly returns true only when the request was sent and not yet answered at that moment, and a request which is answered before being claimed is never claimed later.", "quantifier": "all interleavings", "why_tests_cant": "races between claim and cancel", "anchors": ["request.go:Request.SetInFly", "service.go:SF.Send"]}
{"id": "C33", "title": "A sent request is claimed by at most one worker", "statement": "Between being sent and being answered a request is successfully claimed with SetInFly at most once.", "quantifier": "all interleavings of any number of claimants", "why_tests_cant": "race window of a few instructions", "anchors": ["request.go:Request.SetInFly"]}
{"id": "C34", "title": "The earliest deadline is always on top of the timer heap", "statement": "After any history of arming and stopping timers, the heap's top entry has a deadline not later than any other armed timer.", "quantifier": "all histories of push/remove, any number of timers", "why_tests_cant": "heap shapes unbounded", "anchors": ["custom_timer.go:tHeap.push", "custom_timer.go:tHeap.remove", "custom_timer.go:tHeap.putUnder", "custom_timer.go:tHeap.sort4"]}
{"id": "C35", "title": "No timer is lost or duplicated", "statement": "After any history, the heap holds exactly the timers that were armed and neither stopped nor expired, each once with its own deadline, and its size counter is their number.", "quantifier": "all histories of push/remove", "why_tests_cant": "heap shapes unbounded", "anchors": ["custom_timer.go:tHeap.push", "custom_timer.go:tHeap.remove"]}
{"id": "C36", "title": "Stop removes exactly its own timer", "statement": "Timer.Stop on an armed timer removes that timer and no other; on an unarmed, stopped or expired one it changes nothing; slot reuse never makes one timer's Stop hit another timer.", "quantifier": "all histories", "why_tests_cant": "slot reuse patterns", "anchors": ["custom_timer.go:Timer.Stop", "custom_timer.go:tHeap.remove", "custom_timer.go:tHeap.push"]}
{"id": "C37", "title": "Timers never fire early and fire in deadline order", "statement": "Every expiration happens when its deadline is in the past, and one scan of the heap expires timers in non-decreasing deadline order until the earliest remaining deadline is not in the past.", "quantifier": "all heap states, all clock values", "why_tests_cant": "clock/heap combinations", "anchors": ["custom_timer.go:tHeap.loop"]}
{"id": "C38", "title": "The timer goroutine is never asleep past an armed deadline", "statement": "Whenever the timer goroutine sleeps while a timer is armed, a wake-up for the earliest deadline is still to come.", "quantifier": "all interleavings of arming, clock ticks and the timer goroutine", "why_tests_cant": "a lost wake-up needs one particular interleaving", "anchors": ["custom_timer.go:tHeap.loop", "custom_timer.go:Timer.After"]}
{"id": "C39", "title": "Queued requests are delivered in order, each at most once", "statement": "Requests pushed into an endpoint's buffer reach the endpoint's channel in the order in which their slots were reserved, none twice.", "quantifier": "all interleavings of any number of senders with the forwarding goroutine", "why_tests_cant": "schedules unbounded, row boundaries every 1024 entries", "anchors": ["buffer.go:Buffer.push", "buffer.go:Buffer.loop"]}
{"id": "C40", "title": "No pending request is forgotten in the queue", "statement": "When the forwarding goroutine is waiting for a signal with none outstanding, every request whose push has completed has been forwarded, or was already answered, or sits behind a push that has not completed yet.", "quantifier": "all interleavings", "why_tests_cant": "lost wake-ups", "anchors": ["buffer.go:Buffer.push", "buffer.go:Buffer.loop"]}
{"id": "C41", "title": "Results returns one response per request", "statement": "After any number of sub-requests has been created and however their answers interleave, MultiRequest.Results returns exactly one response for each of them (ids 0..n-1, each once).", "quantifier": "all interleavings of responders with Results, any number of requests", "why_tests_cant": "schedules unbounded", "anchors": ["wait_group.go:MultiRequest.Respond", "wait_group.go:MultiRequest.Results", "wait_group.go:MultiRequest.Request"]}
{"id": "C42", "title": "Each yields every response and closes its channel exactly once", "statement": "The channel returned by Each carries one response per request and is closed exactly once after the last, with no send after close.", "quantifier": "all interleavings of responders with Each", "why_tests_cant": "double close needs one interleaving", "anchors": ["wait_group.go:MultiRequest.Each", "wait_group.go:MultiRequest.Respond"]}
{"id": "C43", "title": "Cancelling or expiring a multi-request answers all of its requests", "statement": "After Cancel or Expire, every existing request of the multi-request and every request created later is answered with the corresponding code unless it was answered already.", "quantifier": "all creation/cancel interleavings at call granularity", "why_tests_cant": "histories unbounded", "anchors": ["wait_group.go:MultiRequest.Cancel", "wait_group.go:MultiRequest.Expire", "wait_group.go:MultiRequest.performFailAll", "wait_group.go:MultiRequest.Request"]}
{"id": "C44", "title": "Context cancellation reaches everything registered, now or later", "statement": "After Cancel or Expire has begun, every canceler registered in the context and every canceler registered later gets its Cancel called.", "quantifier": "all register/unregister/cancel histories", "why_tests_cant": "histories unbounded; two-slot + map storage", "anchors": ["context.go:Context.AddCanceler", "context.go:Context.cancelAll", "context.go:Context.RemoveCanceler"]}
{"id": "C45", "title": "WaitAll returns exactly when nothing is registered", "statement": "The context's count of outstanding children equals the number of registered and not yet removed ones in every reachable state, so WaitAll proceeds exactly when all are done.", "quantifier": "all register/unregister histories", "why_tests_cant": "counter drift over long histories", "anchors": ["context.go:Context.WaitAll", "context.go:Context.AddCanceler", "context.go:Context.RemoveCanceler"]}
{"id": "C46", "title": "Context.Go runs the function", "statement": "On a live context, Go/GoInt/GoAsync start the given function with a child context.", "quantifier": "all live contexts", "why_tests_cant": "(found by reading: the success flag is never set)", "anchors": ["context.go:Context.Child", "context.go:Context.Go"]}
{"id": "C47", "title": "A finished multi-request does not block its context", "statement": "When all responses of a context's multi-request have been consumed through Results or Each, it is no longer registered in the context.", "quantifier": "all interleavings of responses with Results/Each", "why_tests_cant": "depends on whether answers arrive before or after Each", "anchors": ["wait_group.go:MultiRequest.Each", "wait_group.go:MultiRequest.Results", "context.go:Context.NewMulti"]}
{"id": "C48", "title": "A parallel service runs at most N handlers at once and never loses a slot", "statement": "In every reachable state the number of running handlers plus the free slots (plus the slot held by the dispatcher) is N.", "quantifier": "all interleavings, all request histories including cancelled ones and panicking handlers", "why_tests_cant": "schedules unbounded", "anchors": ["parallel_service.go:ParallelService.Loop", "parallel_service.go:ParallelService.inc", "parallel_service.go:BF.New"]}
{"id": "C49", "title": "Every dispatched request is answered even if the handler panics", "statement": "When a handler goroutine finishes, by return or by panic, its request has been answered: with the handler's result, with the code that answered it earlier, or with RcInternalError after a panic.", "quantifier": "all handler outcomes, all concurrent cancels/timeouts", "why_tests_cant": "panic/cancel interleavings", "anchors": ["parallel_service.go:ParallelService.serv", "parallel_service.go:ParallelService.inc", "request.go:ReqContext.Done"]}
{"id": "C50", "title": "Requests still queued at shutdown are answered", "statement": "Every request the service receives from its queue after Stop is answered with RcShutdown.", "quantifier": "all requests received during shutdown", "why_tests_cant": "(found by reading: the answer is refused in the pending state)", "anchors": ["parallel_service.go:ParallelService.Loop", "request.go:Request.RespondBytes"]}
{"id": "C51", "title": "Wire ids are unique among outstanding requests and never reserved values", "statement": "A client connection never gives two outstanding requests the same wire id, and never uses 0 or the ping id.", "quantifier": "all histories of sends, answers, cancels of a connection", "why_tests_cant": "id wrap-around after 2^32 requests", "anchors": ["net/client/connection/request_holder.go:RequestHolder.getNext", "net/client/connection/request_holder.go:RequestHolder.remove"]}
{"id": "C52", "title": "A response is delivered to the request that was sent with its id", "statement": "When a response with wire id i arrives, the request that gets answered is the one sent with id i if it is still unanswered, and no request otherwise; responses to cancelled requests are discarded.", "quantifier": "all histories with at most 2^32-2 ids used, all response orders", "why_tests_cant": "late responses vs id reuse", "anchors": ["net/client/connection/request_holder.go:RequestHolder", "net/client/connection/connection.go:readLoop"]}
{"id": "C53", "title": "Losing the connection fails every outstanding request", "statement": "When the connection's control loop ends, every request that was sent and not answered is answered with RcIOError, or RcShutdown if the connection was being stopped; none is left hanging.", "quantifier": "all histories of sends and answers before the loss", "why_tests_cant": "which row of the id table the request is in", "anchors": ["net/client/connection/connection.go:flushInFly", "net/client/connection/request_holder.go:getAll"]}
{"id": "C54", "title": "Unexpected response ids do not crash the client or lose requests", "statement": "A response with an id that is not outstanding is ignored and does not affect other requests.", "quantifier": "all response ids", "why_tests_cant": "malicious or duplicate ids", "anchors": ["net/client/connection/request_holder.go:RequestHolder.remove"]}
{"id": "C55", "title": "The connection pool keeps the configured number of connections", "statement": "The pool's dialing and established counters equal the numbers of dialing and established connections, so that after any sequence of dial results, closes and SetConnections it opens exactly the missing and stops exactly the surplus ones.", "quantifier": "all event histories", "why_tests_cant": "histories of shrink/close events", "anchors": ["net/client/server.go:Server.fixConnections", "net/client/server.go:Server.onConnError", "net/client/server.go:Server.onAction"]}
{"id": "C56", "title": "A server connection answers each request once and only requests it received", "statement": "For every request received with an id not currently outstanding on the connection, at most one response with that id is written; nothing is written for ids never received.", "quantifier": "all histories of received requests and handler answers", "why_tests_cant": "histories unbounded", "anchors": ["net/server/connection.go:Connection.Respond", "net/server/connection.go:readLoop"]}
{"id": "C57", "title": "Closing a server connection never closes its output channel twice", "statement": "Whatever the order of read-side closing, draining and the write loop's own check, the output channel is closed at most once.", "quantifier": "all interleavings of read loop, write loop and control loop", "why_tests_cant": "double close panics in one interleaving", "anchors": ["net/server/connection.go:controlLoop", "net/server/connection.go:writeLoop"]}
{"id": "C58", "title": "A failed write side does not block handlers forever", "statement": "After the write loop has ended, a handler answering a request on the connection does not block forever while holding the connection lock.", "quantifier": "all interleavings, any number of late answers", "why_tests_cant": "needs more than 128 late answers", "anchors": ["net/server/connection.go:Connection.Respond", "net/server/connection.go:cancelInFly"]}
{"id": "C59", "title": "A request generator never hands out the same Request or Response twice", "statement": "All requests produced by one RGenerator are distinct objects, each paired with its own response object.", "quantifier": "all generation histories", "why_tests_cant": "slab reuse every 32 requests", "anchors": ["generator.go:RGenerator.Request"]}
{"id": "C60", "title": "Return codes classify into disjoint kinds and the library's failure codes are distinguishable", "statement": "Valid, Restartable, fatal and internal kinds are mutually exclusive; shutdown, cancel, I/O error and timeout codes are pairwise different and internal.", "quantifier": "all 2^32 codes", "why_tests_cant": "code space", "anchors": ["response.go"]}
{"id": "C61", "title": "Client configuration defaults are completed consistently", "statement": "SetDefaults rejects an empty address, never overrides a value the user set, results in a usable configuration (positive connection count, network and name set) and applying it twice is the same as once.", "quantifier": "all configurations", "why_tests_cant": "configuration space", "anchors": ["net/client/config.go:ServerConfig.SetDefaults"]}
{"id": "C62", "title": "Deadline arithmetic is exact", "statement": "Converting a time to an Epoch and back, adding a duration and comparing agree with exact integer arithmetic as long as nothing overflows 64 bits; in general they are exact modulo 2^64.", "quantifier": "all 64-bit epochs and durations", "why_tests_cant": "2^128 pairs", "anchors": ["epoch.go"]}
{"id": "C63", "title": "Sorting a multi-response orders it by request id without losing anything", "statement": "MultiResponse.Sort returns a permutation of the responses ordered by Id.", "quantifier": "all response lists", "why_tests_cant": "all permutations", "anchors": ["wait_group.go:MultiResponse.Sort"]}
{"id": "C66", "title": "A generator is used by one holder at a time", "statement": "However often and by whomever Release is called, GetGenerator does not hand out a generator again before its Release was called, and hands it out at most twice in all.", "quantifier": "all histories of GetGenerator, Request and Release over any number of generators", "why_tests_cant": "double releases interleaved with reuse", "anchors": ["generator.go:RGenerator.Release", "generator.go:generators.Get"]}
{"id": "C65", "title": "Sending to an endpoint while it is stopped does not panic", "statement": "A Send that overlaps or follows Stop of the endpoint returns normally and its request is delivered or answered.", "quantifier": "all interleavings of Send, Stop and the forwarding goroutine", "why_tests_cant": "a window of a few instructions in push", "anchors": ["buffer.go:Buffer.push", "buffer.go:Buffer.close", "service.go:SimplePoint.Stop"]}
{"id": "C67", "title": "Cancelling a multi-request does not panic while answers arrive", "statement": "Cancel, Expire, Request, Each, Results and the arrival of responses of a multi-request never panic, however they interleave.", "quantifier": "all interleavings of creating, answering, collecting and cancelling", "why_tests_cant": "needs an answer between two adjacent reads", "anchors": ["wait_group.go:MultiRequest.performFailAll", "wait_group.go:MultiRequest.Respond", "wait_group.go:MultiRequest.Each"]}
{"id": "C68", "title": "Cancelling a context returns", "statement": "Cancel and Expire of a context return once they have called Cancel of everything that is registered.", "quantifier": "all register/unregister/cancel histories", "why_tests_cant": "a busy loop shows up only when some canceler is never unregistered", "anchors": ["context.go:Context.cancelAll", "context.go:Context.Child", "context.go:Context.Done"]}
{"id": "C69", "title": "A timeout while a request is being served expires its context", "statement": "When the timer of a request fires while a ParallelService handler works on it, the context given to the handler is expired and the request stays open for the handler's answer; when it fires before, the request is answered with RcTimeout.", "quantifier": "all reachable states, all interleavings", "why_tests_cant": "the moment at which the timer fires relative to dispatch and handler is not under a test's control", "anchors": ["request.go:ReqContext.Respond", "request.go:Request.Context", "parallel_service.go:ParallelService.Loop"]}
{"id": "C70", "title": "Stop of a parallel service stops dispatching", "statement": "After Stop was called at most one more handler is started, after it has returned none; and Stop returns after at most four steps of the dispatcher whatever the handlers do.", "quantifier": "all interleavings", "why_tests_cant": "schedules unbounded", "anchors": ["parallel_service.go:ParallelService.Loop", "service.go:SimplePoint.Stop"]}
{"id": "C71", "title": "Every request that is written carries its body", "statement": "A request written by a client connection has the message type and the whole body which it had when the connection took it.", "quantifier": "all interleavings of sending and cancelling", "why_tests_cant": "the cancel has to fall between claiming the request and building its header", "anchors": ["net/client/connection/connection.go:writeLoop", "request.go:Request.chainResponse"]}
{"id": "C72", "title": "A request is written at most once, and not after it was answered", "statement": "A client connection writes no request twice, and does not write a request which was cancelled or expired before the connection took it.", "quantifier": "all interleavings, all peers", "why_tests_cant": "cancel against send is a race", "anchors": ["net/client/connection/connection.go:writeLoop", "request.go:Request.SetInFly"]}
{"id": "C73", "title": "Stopping a client endpoint answers what is in flight", "statement": "After Stop of a client endpoint every connection, once both of its sides have ended, answers all requests still in flight on it.", "quantifier": "all interleavings, any number of connections", "why_tests_cant": "the reports of the connections have to outnumber the channel's buffer after the pool's loop has ended", "anchors": ["net/client/connection/connection.go:controlLoopExit", "net/client/server.go:Server.Loop"]}
{"id": "C74", "title": "A server connection that ends without an error has answered everything", "statement": "When the write loop of a server connection ends without an error, every request received on the connection was answered and its response written.", "quantifier": "all interleavings of the connection's loops and handlers, any number of requests", "why_tests_cant": "the read side must close at any point of the handling", "anchors": ["net/server/connection.go:writeLoop", "net/server/connection.go:controlLoop"]}
{"id": "C75", "title": "The write loop of a server connection does not miss the end", "statement": "When the peer has closed its side, all requests were answered and the responses are queued, the write loop writes all of them and ends; it never waits for something that will not come.", "quantifier": "all interleavings", "why_tests_cant": "a lost wake-up shows only as a leaked goroutine", "anchors": ["net/server/connection.go:writeLoop", "net/server/connection.go:controlLoop"]}
{"id": "C76", "title": "A full output queue does not deadlock a server connection", "statement": "While the write side works, handlers that answer when the output queue is full are delayed at most until the write loop has made room; what does not fit goes to the buffer.", "quantifier": "all interleavings, any number of responses", "why_tests_cant": "needs 129 answers between two instructions of the write loop", "anchors": ["net/server/connection.go:Connection.Respond", "net/server/connection.go:writeLoop"]}
{"id": "C77", "title": "A server is stopped when its connections have ended", "statement": "After Stop, Running is closed exactly when all connections have ended; no connection keeps receiving requests after that, and no goroutine of a connection is left.", "quantifier": "all interleavings, any number of connections", "why_tests_cant": "orders of the ends of the two sides of several connections", "anchors": ["net/server/server.go:Server.controlLoop", "net/server/server.go:Server.Stop", "net/server/connection.go:cancelInFly"]}
{"id": "C64", "title": "Decoding allocates no more than the input can hold", "statement": "When the bytes cannot hold the announced number of elements, Read reports an error without having allocated room for them.", "quantifier": "all byte strings", "why_tests_cant": "a test would have to provoke an allocation of gigabytes", "anchors": ["marshal/reader_reflect.go:TReader.FillSlice", "marshal/reader_reflect.go:TReader.SetCount"]}
{"id": "C78", "title": "Decoding a response returns", "statement": "ReadRawTuple, ReadFirst and ReadMany return, with or without an error, whatever the bytes of the response are.", "quantifier": "all response bodies, all destination types", "why_tests_cant": "needs lengths which no well-behaved server sends", "anchors": ["sbox/reader.go:ReadRawTuple", "sbox/reader.go:TReader.string", "sbox/reader.go:TReader.sliceFixed", "sbox/result.go:oneTuple"]}
{"id": "C79", "title": "Tuples of another length can be read into a struct", "statement": "A struct read from a tuple with fewer fields gets the fields that are there and zero for the others; from a tuple with more fields it gets its own and the others are ignored.", "quantifier": "all structs, all numbers of fields", "why_tests_cant": "schema changes multiply the combinations", "anchors": ["sbox/reader.go:TReader.structRead"]}
{"id": "C80", "title": "ReadMany allocates no more than the response can hold", "statement": "The number of elements ReadMany makes is bounded by the number of bytes of the response.", "quantifier": "all response bodies", "why_tests_cant": "a test would have to provoke an allocation of gigabytes", "anchors": ["sbox/result.go:readSlice"]}
{"id": "C81", "title": "One server for each address", "statement": "However calls of Auto.Get and Auto.Stop overlap, there are never two running servers for one address; Get returns a server made for the address it was given, and as long as nothing was stopped all callers get the same one.", "quantifier": "all interleavings of any number of Get and Stop calls", "why_tests_cant": "the check without the lock makes it a race between several goroutines", "anchors": ["net/client/auto.go:Auto.Get"]}
{"id": "C82", "title": "Auto.Stop stops every server once", "statement": "When Auto.Stop returns, every server made before was stopped, none of them twice, and Get does not return a server that was stopped.", "quantifier": "all interleavings of any number of Get and Stop calls", "why_tests_cant": "Get must fall between the stops of two servers", "anchors": ["net/client/auto.go:Auto.Stop", "net/client/auto.go:Auto.Get"]}
{"id": "C83", "title": "The lock of Auto is released", "statement": "Whoever has the lock of Auto releases it after a bounded number of its own steps, whatever addresses are asked for.", "quantifier": "all interleavings, all addresses", "why_tests_cant": "a lock that is left behind shows up only as a hang of somebody else", "anchors": ["net/client/auto.go:Auto.Get", "net/client/auto.go:Auto.Stop"]}
{"id": "C84", "title": "Send hands a request over once, or it is answered", "statement": "However many goroutines send a request through whatever services, it is queued, or given to a function, no more often than it became pending; a single Send that overlaps with cancelling, expiring and answering hands it over or it has been answered; Send panics only if the request was sent before.", "quantifier": "all interleavings, all stacks of wrappers", "why_tests_cant": "cancel against send is a race of a few instructions", "anchors": ["service.go:SimplePoint.Send", "service.go:SF.Send", "service.go:Route.Send", "stat.go:StatService.Send"]}
{"id": "C85", "title": "Statistics count each request exactly once", "statement": "When the response of a request sent through StatWrap is delivered, the statistics function was called exactly once for each wrapper it passed, and before the delivery.", "quantifier": "all interleavings, all stacks of wrappers", "why_tests_cant": "needs every order of cancel, answer and chaining", "anchors": ["stat.go:StatService.Send", "stat.go:StatBookmark.Respond"]}
{"id": "C86", "title": "A balancer runs and stops each of its children once", "statement": "Each child of a BalancerPoint is run exactly once, whether it is added before or after Run, and stopped exactly once by Stop, which returns.", "quantifier": "all interleavings of Loop with a sequence of AddChild, Run and Stop, any number of children", "why_tests_cant": "the start of the loop's goroutine must fall into AddChild", "anchors": ["balancer.go:BalancerPoint.AddChild", "balancer.go:BalancerPoint.Loop", "service.go:SimplePoint.RunChild"]}
{"id": "C87", "title": "A stopped client connection is closed when everything is answered", "statement": "After a client connection was stopped and the peer has answered everything that was written, the connection closes its read side and ends by itself.", "quantifier": "all interleavings of the connection's loops with the peer", "why_tests_cant": "a lost wake-up or a miscounted id shows only as a connection that stays open", "anchors": ["net/client/connection/connection.go:Connection.controlLoop", "net/client/connection/connection.go:Connection.readLoop", "net/client/connection/request_holder.go:RequestHolder.count"]}
{"id": "C88", "title": "A client connection that cannot write is given up", "statement": "When writing fails, the connection ends and the requests in flight are answered, whether or not the peer closes its side.", "quantifier": "all interleavings of the connection's loops with the peer", "why_tests_cant": "needs a peer that neither reads nor closes", "anchors": ["net/client/connection/connection.go:Connection.writeLoop", "net/client/connection/connection.go:Connection.controlLoop"]}
{"id": "C89", "title": "ReadMany fills every kind of destination it accepts", "statement": "ReadMany(b, v) for a pointer to a value, to an array or to a slice, for a slice of pointers or of slices, and for a []interface{}: reads as many tuples as the destination has room for and the response holds, in order, returns that number, leaves the other places alone, and returns no error for a complete response.", "quantifier": "all complete responses, all destinations of modelled types", "why_tests_cant": "most kinds of destination are not used by any test or example", "anchors": ["sbox/result.go:ReadMany", "sbox/result.go:readInterface", "sbox/result.go:readArray", "sbox/result.go:readFixedArray", "sbox/result.go:readInterfaceArray"]}
{"id": "C90", "title": "Every timer has a heap", "statement": "Arming or stopping a timer never indexes the list of heaps out of range, also while another goroutine makes the list longer.", "quantifier": "all interleavings, any number of goroutines and timers, any GOMAXPROCS", "why_tests_cant": "the list grows at every ten thousandth timer only, in a window of two loads", "anchors": ["custom_timer.go:nextHeap", "custom_timer.go:getHeap", "custom_timer.go:Timer.After", "custom_timer.go:Timer.Stop"]}
{"id": "C91", "title": "Queued requests fail when, and only when, there is no connection", "statement": "When a standalone client endpoint notices the loss of its last connection, or a failed dial while it has none, every request then queued is answered with RcIOError or sent by a new connection; no request is failed in this way while a connection is up.", "quantifier": "all interleavings of senders, connections and the pool's loop", "why_tests_cant": "needs more requests queued than the channel holds, or connections stopped before", "anchors": ["net/client/server.go:Server.AllDisconnected", "net/client/server.go:Server.onConnError"]}
{"id": "C92", "title": "Stopping a client endpoint answers what is queued", "statement": "After Stop of a client endpoint every request that was sent to it before and not yet handed to a connection is answered by it.", "quantifier": "all interleavings", "why_tests_cant": "a request has to be queued at the moment of Stop", "anchors": ["net/client/server.go:Server.Loop", "service.go:SimplePoint.Stop"]}
{"id": "C93", "title": "Codec caches return complete codecs", "statement": "Concurrent calls of WriterFor/ReaderFor (and their sbox counterparts) for one type all return the same codec; it and every codec it can use are completely filled and never change afterwards; published maps are never written again; a panic while a codec is being made publishes nothing and releases the lock; the lock holder always finishes, also for recursive types.", "quantifier": "all interleavings of any number of goroutines, all types", "why_tests_cant": "needs goroutines that ask for types while others are being built, and panics in between", "anchors": ["marshal/writer_reflect.go:WriterFor", "marshal/writer_reflect.go:_writer", "marshal/reader_reflect.go:ReaderFor", "marshal/reader_reflect.go:_reader", "sbox/writer.go:writer", "sbox/reader.go:reader"]}
{"id": "C94", "title": "Codec caches are free of data races", "statement": "No goroutine reads memory of a codec cache (the map, the codecs, the variable that holds the map) that another goroutine may be writing at that moment.", "quantifier": "all interleavings of any number of goroutines", "why_tests_cant": "a race shows only under the race detector or on weakly ordered processors", "anchors": ["marshal/writer_reflect.go:WriterFor", "marshal/reader_reflect.go:ReaderFor", "sbox/writer.go:writer", "sbox/reader.go:reader"]}
{"id": "C95", "title": "A type's codec does not depend on history", "statement": "Which codec a type gets (its size information, its functions, or the panic) is determined by the type, not by which codecs were asked for before or concurrently.", "quantifier": "all types, all orders and interleavings of requests", "why_tests_cant": "needs a comparison of two processes with different first uses of a recursive type", "anchors": ["marshal/writer_reflect.go:TWriter.Fill", "marshal/writer_reflect.go:TWriter.FillStruct", "marshal/writer_reflect.go:TWriter.FillSlice", "marshal/reader_reflect.go:TReader.Fill"]}
{"id": "C96", "title": "A client and a server of this library understand each other", "statement": "If the peer of a client connection is a server connection of this library and fewer than 2^32 - 1 ids are used, no response makes the client panic; the server gets the requests in the order they were written, each at most once; a request answered with a response gets the one the handler gave for this very request; and when the server has ended without an error and the client has read everything, every request the server received is answered.", "quantifier": "all interleavings of the goroutines of both sides, any number of requests and handlers, any moment of losing the connection", "why_tests_cant": "both programs have to be run against each other in all interleavings", "anchors": ["net/client/connection/connection.go:readLoop", "net/client/connection/connection.go:writeLoop", "net/server/connection.go:readLoop", "net/server/connection.go:Respond", "net/client/connection/request_holder.go:remove"]}
{"id": "C97", "title": "A struct with sbox:\"tail\" is a tuple of its fields and the elements of its tail", "statement": "Writing a struct whose last field is a slice tagged sbox:\"tail\" gives a tuple with the other fields and then one field for each element of the slice; reading that tuple gives the struct back.", "quantifier": "all field lists, element types, values of the other fields and tails", "why_tests_cant": "The tests of the package have no tagged struct; the failure depends on whether the elements are empty and how many there are, over all element types.", "anchors": ["sbox/writer.go:structWriter", "sbox/writer.go:structCnt", "sbox/writer.go:FillStruct", "sbox/reader.go:structAuto", "sbox/reader.go:structRead", "marshal/reader_reflect.go:FillStruct"]}
{"id": "C98", "title": "A struct with sbox:\"tailsplit\" is a tuple of its fields and the fields of the elements of its tail", "statement": "Writing a struct whose last field is a slice of structs tagged sbox:\"tailsplit\" gives a tuple with the other fields and then the fields of each element in turn; reading that tuple gives the struct back.", "quantifier": "all field lists, element structs, values and tails", "why_tests_cant": "The tests of the package have no tagged struct; the loss is silent.", "anchors": ["sbox/writer.go:structWriter", "sbox/writer.go:structCnt", "sbox/writer.go:FillStruct", "sbox/reader.go:structAuto", "sbox/reader.go:structRead", "marshal/reader_reflect.go:FillStruct"]}
{"id": "C99", "title": "The special cases of Write and Read agree with the reflective codec", "statement": "For every type and value, Write, WriteTail and WriteWithSize append what the reflective writer of the type appends, and Read leaves the reader and the variable as the reflective reader does, whether or not the type switch has a case of its own for the type.", "quantifier": "all types, values, writers, bodies, and prior contents of the variable", "why_tests_cant": "There are some seventy cases in five type switches, each a copy of code that exists a second time behind reflection; a test compares them on the values it was given.", "anchors": ["marshal/writer_reflect.go:Write", "marshal/writer_reflect.go:WriteTail", "marshal/writer_reflect.go:WriteWithSize", "marshal/reader_reflect.go:Read"]}
{"id": "C100", "title": "Lists are written and read element by element", "statement": "Write of a []interface{}, nested to any depth, writes the number of its elements and then each; Read into a []interface{} of pointers to variables of the same types gives the values back and consumes exactly the encoding. Another count is an error, after an error nothing more is read into.", "quantifier": "all lists of values of all types, nested to any depth, all writers and rests", "why_tests_cant": "Lists nest to any depth and mix types; tests have single lists.", "anchors": ["marshal/writer_reflect.go:Write", "marshal/reader_reflect.go:Read"]}
{"id": "C101", "title": "ReadWithSize reads what WriteWithSize wrote", "statement": "WriteWithSize writes the size of the value and then the value; ReadWithSize with the corresponding size function gives the value back, and reports a size that does not fit.", "quantifier": "all types, values and sizes", "why_tests_cant": "A wrong size is passed over in silence, so that the reader continues in the middle of the data; tests use right sizes.", "anchors": ["marshal/writer_reflect.go:WriteWithSize", "marshal/reader_reflect.go:ReadWithSize"]}
{"id": "C102", "title": "ReadTail into a list reads its elements", "statement": "ReadTail into a []interface{} of pointers reads the elements one after the other, and reports what is left over.", "quantifier": "all lists, bodies", "why_tests_cant": "The failure is a loop without end that allocates; a test would have to run out of memory.", "anchors": ["marshal/reader_reflect.go:ReadTail", "marshal/reader_reflect.go:FillSlice"]}
{"id": "C103", "title": "Types with code of their own are written and read by it", "statement": "If the methods IWrite, ISize, ICount, IRead, IReadTail, ISetSize, ISetCount (long or short form, of the value or of the pointer) write and read some encoding of the values of a type, then Write and Read, fields with a size or a count, and slices of the type write and read that encoding.", "quantifier": "all such types, all encodings, values, writers and rests", "why_tests_cant": "There are four forms of each interface, looked up by reflection; the package has no test with a type of its own that has a count.", "anchors": ["marshal/writer_reflect.go:Fill", "marshal/reader_reflect.go:Fill", "marshal/reader_reflect.go:fillautotail", "marshal/writer_reflect.go:fillauto"]}
{"id": "C104", "title": "A pointer to a type with code of its own is written as what it points to", "statement": "Writing a non-nil pointer to a type with methods of its own, in a field with or without a size or a count, gives the encoding of the value it points to.", "quantifier": "all such types and values, all writers", "why_tests_cant": "The panic needs a pointer field with a size, or a type with ICounter; the tests have neither.", "anchors": ["marshal/writer_reflect.go:Fill", "marshal/writer_reflect.go:Size", "marshal/writer_reflect.go:Count"]}
{"id": "C105", "title": "Concurrent calls of ReadFirst and ReadMany do not disturb each other", "statement": "However many goroutines call ReadFirst and ReadMany at the same time, with whatever bodies and destinations, and whichever of them panic, each call that returns gives the result it would have given alone; no two calls work with the same readers at the same time.", "quantifier": "all numbers of goroutines, all calls, all interleavings", "why_tests_cant": "The cache of readers is taken without a lock by a compare-and-swap and put back by a plain store; a mistake shows only in rare interleavings.", "anchors": ["sbox/result.go:ReadFirst", "sbox/result.go:ReadMany"]}
{"id": "C106", "title": "Bodies made with pooled writers belong to their callers", "statement": "However many goroutines call marshal.Write and WriteTail (or write fields with a size) at the same time, with writers the pools hand out in any order, forget at any time, or lose in a panic: every slice returned by Written holds what its own call wrote, shares no byte with any other slice returned or with any writer, and changes only when its owner changes it.", "quantifier": "all numbers of goroutines, all sequences of writes, all interleavings, all behaviours of the pools", "why_tests_cant": "Consecutive bodies share one array and the writer goes back to the pool still pointing into it; a mistake corrupts a body only under load, when the writer is reused.", "anchors": ["marshal/marshal.go:Write", "marshal/marshal.go:WriteTail", "marshal/writer_reflect.go:puttwriter", "marshal/writer.go:Written"]}
{"id": "C107", "title": "A request with a timeout is answered", "statement": "Once the timer of a request has fired and its Expire has run, the request is answered, whatever else happened to it at the same time; and once a request is answered, its timer is no longer armed.", "quantifier": "all interleavings of SetTimeout, the timer and every other method of Request, all bookmarks and Responders", "why_tests_cant": "The timer, the answer and a reset of the request race with each other; a lost timeout leaves a caller waiting for ever, and only in rare schedules.", "anchors": ["request.go:SetTimeout", "request.go:Expire", "request.go:chainResponse", "service.go:Send"]}
{"id": "C108", "title": "Cancelling a context answers its requests", "statement": "When Cancel or Expire of a context has done its work, every request made from the context is answered; a request made from a context that is cancelled already is answered before NewRequest hands it out; and with requests only one round of calls is enough.", "quantifier": "all interleavings of NewRequest, AddCanceler, RemoveCanceler, cancelAll and every method of any number of requests", "why_tests_cant": "The context and each of its requests have mutexes of their own and call each other in both directions; which requests are missed depends on the schedule.", "anchors": ["context.go:NewRequest", "context.go:contextBookmark.Cancel", "context.go:contextBookmark.Respond", "context.go:cancelAll", "request.go:Cancel"]}
{"id": "C109", "title": "WaitAll waits for the requests", "statement": "When WaitAll of a context returns, every request made from the context is answered and its response is in its channel.", "quantifier": "all interleavings of WaitAll with the context and every method of any number of requests", "why_tests_cant": "The window between the reaction of the context's bookmark and the delivery is a few instructions long.", "anchors": ["context.go:WaitAll", "context.go:contextBookmark.Respond", "request.go:chainResponse"]}
{"id": "C110", "title": "Cancelling a context does not deadlock", "statement": "Whatever goroutines are doing with a context and its requests, the goroutine that cancels the context can go on to the end, and the mutexes of the context and of the requests are never in each other's way.", "quantifier": "all reachable states of a context with any number of requests, any number of goroutines", "why_tests_cant": "The mutex of a request is held while that of the context is taken; a deadlock would need an unlucky schedule of three goroutines.", "anchors": ["context.go:cancelAll", "context.go:AddCanceler", "context.go:RemoveCanceler", "request.go:chainResponse"]}
{"id": "C111", "title": "Cancelling a served request cancels what its handler started", "statement": "When a request that is served with a context is cancelled or its time is over, the context is cancelled, and when the cancelling call has returned every request made from the context is answered; nothing else cancels the context; and a timeout is kept from the Responder, so the handler can still answer.", "quantifier": "all interleavings of the methods of the served request, of the context and of any number of requests made from it", "why_tests_cant": "Two levels of requests with mutexes of their own and a context between them; the order of cancelAll, makers and answers decides what is missed.", "anchors": ["request.go:ReqContext.Respond", "request.go:Request.Context", "context.go:Cancel", "context.go:Expire", "context.go:cancelAll", "request.go:chainResponse"]}
{"id": "C112", "title": "Cancelling a served request returns", "statement": "Cancelling a request that is served with a context returns, and the handler that answers it at the same time gets its mutex.", "quantifier": "all reachable states of a served request, its context and what was made from it; all continuations", "why_tests_cant": "The deadlock needs a cancellation during the last instructions of a handler.", "anchors": ["request.go:ReqContext.Respond", "context.go:cancelAll", "request.go:RespondBytes", "context.go:Child", "context.go:Context.Done"]}
{"id": "C113", "title": "Requests made from contexts at the same time are kept apart", "statement": "All requests that contexts and multi-requests hand out are different objects, each has the body it was asked for, and making a request never panics, whatever the goroutines of the contexts are doing at the same time.", "quantifier": "all interleavings of NewRequest (its steps inside RGenerator.Request too) and Done of any number of contexts, any size of the cache", "why_tests_cant": "A generator given back too early is used by two goroutines only if the next context starts within the lifetime of the first handler; the colliding steps are a few instructions long.", "anchors": ["generator.go:RGenerator.Request", "generator.go:RGenerator.Release", "generator.go:generators.Get", "context.go:NewRequest", "context.go:Context.Done", "request.go:ReqContext.Respond", "parallel_service.go:inc"]}
{"id": "C114", "title": "A call comes back with its own answer, byte by byte", "statement": "Over a connection between this library's client and server, whatever pieces the bytes arrive in and wherever writing stops: the handler sees the type and the body of the requests as written, in their order; a request answered with a response was seen by the handler with its whole body, and the response read by the client has the type, code and body which the handler gave for that very request; no response answers two requests; the client never panics; when the streams are idle every request written was received, and every one received is answered.", "quantifier": "all schedules of both connections, all requests, answers and codes, all cuts of both streams into pieces, writes failing after any number of bytes", "why_tests_cant": "A wrong byte in the stream shifts everything after it: the client still finds well-formed frames and hands them to other requests; a test sees one shift in one place.", "anchors": ["net/client/connection/connection.go:Loop", "net/client/connection/connection.go:readLoop", "net/client/connection/connection.go:writeLoop", "net/server/connection.go:readLoop", "net/server/connection.go:writeLoop", "net/server/connection.go:Respond", "net/header.go:HeaderWriter.WriteRequest", "net/header.go:HeaderReader.ReadResponse"]}
{"id": "C115", "title": "Ending a connection gracefully loses no request", "statement": "When the client stops a connection to this library's server and nothing goes wrong (no read or write fails, the server is not stopped), every request which the connection had accepted is answered with what the server's handler gave for it, unless its owner gave up; none is failed because of the end. Wherever both sides are, they can go on to the end.", "quantifier": "all schedules of both connections and all numbers of requests", "why_tests_cant": "Which of the two directions is closed first, and what is still in channels, buffers and handlers then, depends on the schedule; a test ends a connection at a few moments only.", "anchors": ["net/client/connection/connection.go:controlLoop", "net/client/connection/connection.go:readLoop", "net/client/connection/connection.go:writeLoop", "net/server/connection.go:controlLoop", "net/server/connection.go:writeLoop", "net/server/connection.go:Stop", "net/net_conn.go:CloseWrite"]}
{"id": "C116", "title": "Pings keep a connection from being cut by read timeouts", "statement": "If the client's read timeout is longer than the ping interval plus the time a ping and its answer take, and the server's is longer than the interval plus the time a ping takes, then neither side's read ever times out, however long handlers need and however idle the connection is, and no request is failed by a timeout.", "quantifier": "all intervals, timeouts and delays, all schedules", "why_tests_cant": "A timeout shows only under the worst delays, after waiting in real time; a test waits for one schedule with one configuration.", "anchors": ["net/slice_reader.go:read", "net/client/connection/connection.go:writeLoop", "net/client/connection/connection.go:Loop", "net/server/connection.go:readLoop", "net/client/config.go:SetDefaults"]}
{"id": "C117", "title": "A struct field of type interface{} is encoded like a field of the type of its value", "statement": "Write of a struct appends the bytes of its fields in order. A field of type interface{} gives the bytes that a field with the same tag and the type of the held value would give (a pointer is followed, a nil has length 0), and a []interface{} field gives its length prefix and its elements, each as a field without tag.", "quantifier": "all lists of fields and tags, all values", "why_tests_cant": "The dynamic types inside interfaces are unbounded, and each combines with every tag.", "anchors": ["marshal/writer_reflect.go:WriteValue", "marshal/writer_reflect.go:FillStruct", "marshal/writer_reflect.go:_fillParts", "marshal/writer_reflect.go:WithSize"]}
{"id": "C118", "title": "Structs with interface{} fields are read back", "statement": "Reading what Write appended for such a struct, in front of any other data, into a struct whose interfaces hold pointers to variables of the types that were written, yields the values and consumes exactly the encoding.", "quantifier": "all lists of fields and tags, all values, all further data", "why_tests_cant": "Depends on the kind of value behind the interface for each of the tags, on emptiness and on the number of elements.", "anchors": ["marshal/reader_reflect.go:ReadValue", "marshal/reader_reflect.go:FillStruct", "marshal/reader_reflect.go:Fill", "marshal/reader_reflect.go:fillautotail"]}
{"id": "C119", "title": "A typed call over a connection returns the function of its argument", "statement": "If the client makes a request with Call and a value x, and the server's handler reads its argument with Body.Read and answers with Respond(RcOK, f(x)), then a response that reaches the caller has code 0, and Body.Read gives exactly f(x) for the x of this call: whatever other calls are in flight, in whatever order handlers answer and however the bytes are cut on the way.", "quantifier": "all types, values, functions, numbers of concurrent calls, schedules of both sides, and divisions of the streams", "why_tests_cant": "Combines the codec for all types with all interleavings of two processes and all ways in which TCP may cut the stream.", "anchors": ["request.go:CallMsgBody", "request.go:Respond", "request.go:Read", "marshal/marshal.go:Write", "marshal/marshal.go:Read"]}
{"id": "C120", "title": "A multi-request and its requests work together without loss or deadlock", "statement": "With the requests as they are (any number of goroutines answering, cancelling or expiring each of them), Results returns each request of the multi-request once, each with exactly one response that has the id and message of the request and the code of a call that answered it or of the cancellation. When Cancel or Expire has returned, every request has got its response. Request, Each, Cancel, Expire and all calls on the requests return, whatever locks the others hold, and Results returns once every request has its response; a Cancel that has returned ends Results.", "quantifier": "all schedules of the owner, any number of cancelers and any number of goroutines using the requests", "why_tests_cant": "The locks of the requests and that of the multi-request are taken in both orders through Respond; a deadlock or lost answer needs a particular interleaving of three goroutines.", "anchors": ["wait_group.go:Request", "wait_group.go:Results", "wait_group.go:Each", "wait_group.go:Respond", "wait_group.go:Cancel", "wait_group.go:Expire", "wait_group.go:performFail", "wait_group.go:performFailAll", "request.go:RespondFail", "request.go:chainResponse"]}
{"id": "C121", "title": "Each request sent to a client endpoint has one place", "statement": "With any number of connections receiving from the queue of a client endpoint: a request is written on at most one connection and at most once; at any time it is in the channel, in the hands of AllDisconnected, outstanding at one connection, or answered, and never at two of these places; when the queue is at rest every request whose Send has returned is at one of them or waits behind a Send that has not returned; a response comes from the connection that has sent the request, with the id it had there; one connection that goes on receiving empties queue and channel; and when all connections have ended and AllDisconnected has answered what it received, every request is answered.", "quantifier": "all schedules of any number of senders, connections, peers, cancellations and time-outs", "why_tests_cant": "Loss or duplication needs a particular interleaving of the forwarding goroutine, several write loops and the end of connections.", "anchors": ["buffer.go:push", "buffer.go:loop", "service.go:Run", "service.go:RunChild", "net/client/server.go:fixConnections", "net/client/server.go:AllDisconnected", "net/client/connection/connection.go:writeLoop", "net/client/connection/connection.go:readLoop", "net/client/connection/connection.go:flushInFly"]}
{"id": "C122", "title": "A value cut short is never read as a value", "statement": "Read into any destination (pointers to any type, slices to be filled, []interface{} and *[]interface{}, nested, and reading methods of the user that do the same), if it succeeds, has taken a prefix of the bytes that alone decides the value: with any other bytes behind this prefix it succeeds with the same value and leaves exactly those bytes. So it does not succeed on a proper prefix of what it takes; in particular no proper prefix of what marshal.Write made of a value is read by marshal.Read without an error.", "quantifier": "all types, destinations and byte strings", "why_tests_cant": "A reader that looks at bytes beyond the value, or that takes a missing byte for a value, shows it only for particular cut points of particular types.", "anchors": ["marshal/reader.go", "marshal/reader_reflect.go", "marshal/marshal.go:Read"]}
{"id": "C123", "title": "A server answers the requests of all its connections through the parallel service", "statement": "With any number of connections served by one ParallelService: every response written to a connection is the answer the service gave to a request received on it with that id, and what the handler returned for it if the handler answered; no request has two responses; a request received is, until it is answered, about to be handed over, waiting, or with a handler; a connection that ends without an error has written the answers to all its requests; and a handler that was started gives its slot back, so that requests of other connections are served.", "quantifier": "all schedules of any number of connections, requests, handlers, cancellations and failures", "why_tests_cant": "Handlers of different connections share slots, and each waits for locks of its connection; a stuck connection shows in the service only under particular interleavings.", "anchors": ["net/server/connection.go:Respond", "net/server/connection.go:readLoop", "net/server/connection.go:cancelInFly", "parallel_service.go:Loop", "parallel_service.go:serv", "parallel_service.go:inc", "request.go:RespondBytes", "request.go:RespondFail"]}
{"id": "C124", "title": "A body with several tuples is read tuple by tuple", "statement": "ReadRawTuple and ReadSizedTuple take exactly the bytes of their tuple: what stands behind it changes neither the value nor the error and is left for the next read. A tuple or a size that is cut short is an error, never a value.", "quantifier": "for all types of the destination, all bodies, all tuples (written ones: the types and values of C22), all ways to cut them, all lists of tuples", "why_tests_cant": "A test reads complete tuples; the claim is about every body, every type and every place where it can be cut.", "anchors": ["sbox/reader.go:29-36", "sbox/reader.go:38-47", "sbox/reader.go:80-193", "sbox/reader.go:221-265"]}
{"id": "C125", "title": "A call through both ends gets the answer to itself", "statement": "With a client endpoint (queue and any number of connections) talking to a server (connections and ParallelService) that also has other clients: the server gets each request of the endpoint at most once, on whichever connection, and nothing else on the endpoint's connections, and starts at most one handler for it; what the caller gets as a response is what the server answered to this very request, which was sent with its body, and what the handler returned for it if the handler answered; two calls never get the same response; no response makes a connection of the endpoint panic; when the endpoint's connections have ended and its queue is at rest, every call is answered; and when the server's side of a connection ends without an error and the client reads everything, each request received on it has been answered to its caller, unless the caller had given up.", "quantifier": "all schedules of both ends and of the other clients, any number of connections, requests and slots, up to 2^32 - 2 ids per connection", "why_tests_cant": "Both ends number requests on their own, share queues and reuse ids; a mix-up needs a particular interleaving of several connections, cancellations and handlers.", "anchors": ["net/client/connection/connection.go:readLoop", "net/client/connection/connection.go:writeLoop", "net/client/connection/request_holder.go:getNext", "net/server/connection.go:readLoop", "net/server/connection.go:Respond", "service.go:Send", "buffer.go:loop", "parallel_service.go:Loop", "parallel_service.go:serv"]}
{"id": "C126", "title": "ParallelService answers every request it was sent", "statement": "A parallel service that is not stopped answers every request that was sent to it: left alone (the dispatcher and the handlers go on, and the handlers return or panic at some time), it comes to rest after a bounded number of steps, in whatever order the goroutines run; at rest every request that was sent is answered; and no schedule leads to a state from which a request could not be answered any more.", "quantifier": "all schedules up to any point, then all schedules of the dispatcher and the handlers; any number of slots (at least one) and requests; whatever each handler does when it ends", "why_tests_cant": "A lost slot, a dispatcher that waits for ever or a request that is dropped shows only under particular interleavings, as a hang; tests wait for a while and have few requests.", "anchors": ["parallel_service.go:Loop", "parallel_service.go:serv", "service.go:Send"]}
{"id": "C127", "title": "A server answers every request it has received", "statement": "A server in front of a ParallelService, as long as no connection has received more than 128 requests and pings: left alone it comes to rest after a bounded number of steps, in whatever order its goroutines run; at rest every request received before, on whichever connection, but for those dropped by a stopped service, is answered and Respond has returned for it; and its response is written to its connection, unless writing to it failed or the client used an id twice. No schedule, disconnects and cancellations included, leads to a state from which this could not happen any more.", "quantifier": "all schedules up to any point, then all schedules of the read loops, dispatcher, handlers and write loops; any number of connections, requests, slots", "why_tests_cant": "The waits for locks, slots and room in channels cross connections; a cycle among them needs a particular schedule, and beyond 128 requests there is one (C123).", "anchors": ["net/server/connection.go:readLoop", "net/server/connection.go:Respond", "net/server/connection.go:writeLoop", "net/server/connection.go:controlLoop", "parallel_service.go:Loop", "parallel_service.go:serv", "service.go:Send"]}
{"id": "C128", "title": "Every call that was sent is answered, through both ends", "statement": "A client endpoint and a server in front of a ParallelService: left alone, both ends come to rest after a bounded number of steps, in whatever order their goroutines run; at rest, every request which a connection of the endpoint had taken from the queue before has been received by the server, which has answered it, and its caller has got this answer, or had given up, unless the connection was closed on either side. No schedule leads to a state in which a call on an open connection could not be answered any more.", "quantifier": "all schedules of both ends and of other clients up to any point, then all schedules of the read and write loops, dispatcher and handlers; any number of connections, requests and slots; fewer than 128 requests and pings per connection", "why_tests_cant": "This is the liveness of the whole: it fails if any of the waits on the way can be for ever; a test sees a hang only for the schedules it happens to meet.", "anchors": ["net/client/connection/connection.go:readLoop", "net/client/connection/connection.go:writeLoop", "net/client/connection/request_holder.go:remove", "net/server/connection.go:readLoop", "net/server/connection.go:Respond", "net/server/connection.go:writeLoop", "parallel_service.go:Loop", "parallel_service.go:serv", "service.go:Send"]}
{"id": "C129", "title": "Every call of Send is answered, through the queue and both ends", "statement": "A client endpoint with its queue, and a server in front of a ParallelService. Left alone, the calls of Send, the forwarding goroutine of the queue, the connections and the server come to rest after a bounded number of steps, in whatever order their goroutines run. At rest every request for which Send was called has been answered, also those on connections that broke off and those taken by AllDisconnected; and if it had not been cancelled or failed before, and was not on such a connection, then with the response which the server gave to it, and if the handler gave it, with the code that the handler returned. No schedule leads to a state in which a call could not be answered any more.", "quantifier": "all schedules of both ends, of callers and other clients up to any point, then all schedules of all goroutines that go on; any number of connections, open or ended, requests, slots, queue rows and any capacity of the channel; open connections have room for what waits, the endpoint is not closed, the service not stopped", "why_tests_cant": "This is the promise of the library as a whole: it fails if a request can be forgotten in the queue, on a connection or at the server, or if any of the waits on the way can be for ever; a test sees a hang only for the schedules it happens to meet.", "anchors": ["buffer.go:push", "buffer.go:loop", "service.go:Send", "net/client/connection/connection.go:readLoop", "net/client/connection/connection.go:writeLoop", "net/server/connection.go:readLoop", "net/server/connection.go:Respond", "net/server/connection.go:writeLoop", "parallel_service.go:Loop", "parallel_service.go:serv"]}
{"id": "C130", "title": "A multi-request with a timeout is answered", "statement": "Once SetTimeout was called for a MultiRequest, its timer is armed, or has fired, or every request has got its response. When Expire that the timer called returns, every request has got exactly one response; RcTimeout comes only from Expire or from whoever answered the request. So with a timeout every request gets a response whatever servers do, and Results returns. The timer is stopped when Results, which had to wait, has returned, and when the channel of Each is closed after Each returned.", "quantifier": "all schedules of the owner, of servers, of cancelers, of the timer; any number of requests, answered, cancelled, or not answered at all, at any time", "why_tests_cant": "A timeout is the last resort against servers that never answer; that nothing is left without an answer in any interleaving of the firing with Request, Results, Each and Respond cannot be seen from some of them.", "anchors": ["wait_group.go:SetTimeout", "wait_group.go:Expire", "wait_group.go:Respond", "wait_group.go:Results", "wait_group.go:Each"]}
{"id": "C131", "title": "Cancelling a context answers its multi-requests", "statement": "After a Context is cancelled, every Request of every MultiRequest made from it gets exactly one response, whatever servers do, and Results returns: once cancelAll (or NewMulti on a cancelled context) has called Cancel of the MultiRequest, when cancelAll has ended, when WaitAll has returned. cancelAll and WaitAll return once all requests are answered.", "quantifier": "all schedules of the owners, of servers, of other cancelers, of the goroutines in NewMulti, Cancel and WaitAll; any number of multi-requests and requests", "why_tests_cant": "The list of cancelers is copied and called outside the lock while multi-requests are made, answered, collected and removed; only a proof over all interleavings shows that none is left without its answers.", "anchors": ["context.go:cancelAll", "context.go:NewMulti", "context.go:AddCanceler", "context.go:RemoveCanceler", "context.go:WaitAll", "wait_group.go:Cancel", "wait_group.go:Results", "wait_group.go:Respond"]}
{"id": "C132", "title": "Cancelling a context cancels every context below it", "statement": "After a Context is cancelled or expires, the contexts made from it with Child, those made from them, and so on, that were not closed with Done, can all become cancelled, and all calls of Cancel end, with nothing more from their owners than Done of contexts which are cancelled already. Once cancelAll of a context was through with its list, each of its open children is cancelled; when it has ended each has been closed. A context made from a cancelled one is cancelled when Child returns. Only Expire of a context itself makes its Timeout true.", "quantifier": "all trees of contexts of any size and depth; all schedules of the goroutines in Child, Done, Cancel, Expire", "why_tests_cant": "The tree grows and shrinks while Cancel goes down it, one goroutine walks a part of it while others walk other parts; only an induction over the tree and over schedules covers all shapes.", "anchors": ["context.go:Child", "context.go:Cancel", "context.go:Expire", "context.go:cancelAll", "context.go:AddCanceler", "context.go:RemoveCanceler", "context.go:Done", "context.go:Alive", "context.go:Timeout"]}
{"id": "C133", "title": "The sorted responses of a multi-request are in the order of its requests", "statement": "After MultiRequest.Results and Sort on what it returned, entry i of the list is the response delivered for the i-th request: one entry for each Request call that returned, with the id i and the message of that request, in whatever order the requests were answered, cancelled or expired.", "quantifier": "all schedules of the multi-request, its requests and everybody who answers them; all sequences of Swap that end with no neighbours out of order; at most 2^32 requests", "why_tests_cant": "The order in which answers arrive is decided by the scheduler; tests see a few orders.", "anchors": ["wait_group.go:Results", "wait_group.go:Request", "wait_group.go:Respond", "wait_group.go:Sort", "wait_group.go:Less", "wait_group.go:Swap"]}
{"id": "C134", "title": "A multi-request comes to rest, with all calls returned", "statement": "Left alone (nobody calls anything anew), the goroutines inside the methods of a multi-request and of its requests come to rest after a bounded number of steps, in whatever order they run. At rest, unless somebody has panicked, all calls that answer, cancel or expire a request have returned, Cancel and Expire of the multi-request, Request and Each have returned, and Results has returned unless one of the requests has got no response.", "quantifier": "all reachable states; all numbers of requests, cancelers and goroutines answering; all schedules", "why_tests_cant": "That no schedule goes on for ever or gets stuck needs a measure over all goroutines and a deadlock argument; tests run a few schedules.", "anchors": ["wait_group.go:Request", "wait_group.go:Respond", "wait_group.go:Each", "wait_group.go:Results", "wait_group.go:Cancel", "wait_group.go:Expire", "wait_group.go:performFailAll", "request.go:RespondFail", "request.go:RespondBytes", "request.go:chainResponse"]}
{"id": "C135", "title": "All calls on a request return, in any order", "statement": "Left alone (nobody calls anything anew), the goroutines inside the methods of a request come to rest after a bounded number of steps, in whatever order they run, also if bookmarks reset the request. At rest every call that was made has returned, unless a bookmark or the Responder got stuck with the lock of the request. If user code neither gets stuck nor resets the request, then at rest all calls have returned, and after a failure call the request has been answered.", "quantifier": "all reachable states, all numbers of goroutines, bookmarks and calls, all schedules, user code that does up to any given number of things each time", "why_tests_cant": "Which goroutine gets the lock, and what bookmarks do while they hold it, is open; tests run a few schedules.", "anchors": ["request.go:SetPending", "request.go:SetInFly", "request.go:ResetToPending", "request.go:ResetToNew", "request.go:chainResponse", "request.go:RespondBytes", "request.go:RespondFail", "request.go:ChainBookmark"]}
{"id": "C136", "title": "Stop of a parallel service ends it", "statement": "Left alone, a parallel service comes to rest after a bounded number of steps, also while it is being stopped, in whatever order the dispatcher and the handlers run and whatever the handlers do when they end. When a service on which Stop was called has come to rest, Stop has returned, the channel is empty, no handler is left and all slots are free; every request that was sent is answered, but for those the dispatcher received after it had left its loop (C50); and every request a handler was started for is answered.", "quantifier": "all reachable states, all numbers of slots and requests, all schedules, all outcomes of handlers", "why_tests_cant": "Where Stop finds the dispatcher and the handlers is up to the schedule.", "anchors": ["parallel_service.go:Loop", "parallel_service.go:serv", "service.go:Stop"]}
{"id": "C137", "title": "Timers that are due expire", "statement": "While nobody arms or stops timers and the clock stands still, the timer goroutine and its runtime timer come to rest after a bounded number of steps. At rest every timer that was armed and whose deadline has passed (by more than the time between reading the clock and setting the runtime timer) has expired, and no other one was lost.", "quantifier": "all reachable states, all numbers of timers, all deadlines, all schedules", "why_tests_cant": "When the runtime timer fires, and where the goroutine is then, cannot be chosen by a test.", "anchors": ["custom_timer.go:loop"]}
{"id": "C138", "title": "The queue in front of an endpoint comes to rest", "statement": "While nobody pushes or answers a further request and nobody closes the queue, the pushes that were called, the answerings that have begun, the forwarding goroutine and the receivers from the channel take only a bounded number of further steps. When none of them can go on, the channel is empty, and every push that was called has returned, its request having been put into the channel or answered.", "quantifier": "all reachable states, all numbers of requests, all positive row lengths and channel capacities, all schedules", "why_tests_cant": "Which pushes overlap, and where the forwarding goroutine is when the signal arrives, cannot be chosen by a test.", "anchors": ["buffer.go:push", "buffer.go:loop", "buffer.go:Respond"]}
{"id": "C139", "title": "The example server answers with the sum, and reports failures", "statement": "A sum request to the example server is answered with the sum of the squares of the numbers below 32 if the second server answers all the requests that are made for it, in whatever order the answers come, and with an error otherwise. An echo request is answered with its four bytes, and one with another length with an error. Requests of other types are answered with an error.", "quantifier": "all orders of the answers, all numbers in them, all bodies", "why_tests_cant": "A test cannot choose in which order 32 answers come, nor which of them fail.", "anchors": ["examples/colander/colander.go:sumTestService", "examples/colander/colander.go:opTestService"]}
{"id": "C140", "title": "The benchmark prints the statistics of all measurements", "statement": "However the measurements are distributed over the goroutines of the benchmark, and in whatever order these deliver their results, the printed count, number of failures, sum, minimum and maximum are those of all measurements together.", "quantifier": "all lists of measurements, all distributions over goroutines, all orders of delivery", "why_tests_cant": "A test sees one distribution and one order.", "anchors": ["examples/bench/bench.go:Epoch", "examples/bench/bench.go:Accum"]}
{"id": "C141", "title": "A read or write timeout fires exactly when the peer stalls for that long", "statement": "With a read timeout a call of `SliceReader.Read` fails exactly when nothing comes for the timeout, counted from the call or from the last bytes, and at that moment; otherwise it succeeds as soon as its bytes are there. Pauses of the caller between calls do not count, and no deadline is left on the connection afterwards. A write fails at the timeout if the bytes are not taken by then. The call is over within the timeout.", "quantifier": "all timeouts, sizes, arrival times, divisions of the stream, pauses", "why_tests_cant": "A test would have to wait, and can try only a few arrival patterns.", "anchors": ["net/slice_reader.go:SliceReader.Read", "net/slice_reader.go:SliceReader.read", "net/buf_writer.go:BufWriter.write", "net/net_conn.go:SetDeadliner"]}
{"id": "C142", "title": "Stopping the service behind a server ends it and answers what it has accepted", "statement": "When Stop of a ParallelService behind a server is called, then, left alone, it returns: no handler is left, the channel is empty and all slots are free, whatever the connections and their clients do. Every request for which a handler was started is answered, and its response written. Every other request that the server has received, before or after Stop, is answered too.", "quantifier": "all schedules of any number of connections, requests and slots up to any point, then all schedules of the read loops, dispatcher, handlers and write loops; at most 128 requests and pings per connection", "why_tests_cant": "Stop waits for handlers, which wait in Respond for the connections; a cycle needs particular timing.", "anchors": ["service.go:Stop", "parallel_service.go:Loop", "parallel_service.go:serv", "net/server/connection.go:Respond", "net/server/connection.go:readLoop"]}
{"id": "C143", "title": "A connection pool gets its connections back", "statement": "Whatever has happened to a client endpoint before (dials failed, connections broke on either side, SetConnections asked for more), as long as it was not stopped and never asked for fewer connections: it never has more connections than it should; when nothing goes wrong any more, only a bounded number of things happen, however often its ticker ticks; then it has exactly the number of connections it should have, all alive on both sides, and its counters say so. This can always be reached. (Pings are sent or requests come, so that write loops do not wait for ever: C145.)", "quantifier": "all schedules of the loop of the pool and of all loops of all connections, any number of connections, any failures before", "why_tests_cant": "Reconnecting depends on the order in which reports of several connections, ticks and SetConnections meet.", "anchors": ["net/client/server.go:fixConnections", "net/client/server.go:Loop", "net/client/server.go:onConnError", "net/client/server.go:SetConnections", "net/client/connection/connection.go:Loop", "net/client/connection/connection.go:controlLoop"]}
{"id": "C144", "title": "What Read accepts is what Write writes", "statement": "If Read into a pointer succeeds, the bytes it took are exactly the layout of the value it stored, whatever the destination held before. So two messages that are read to the same value are the same message, and writing the value again gives back the bytes.", "quantifier": "all types, values, destinations and bodies", "why_tests_cant": "Property tests check that what was written can be read; bodies nobody wrote are infinitely many, and accepting a second form of a value shows in no value.", "anchors": ["marshal/reader_reflect.go:Auto", "marshal/reader_reflect.go:WithSize", "marshal/reader_reflect.go:WithCount", "marshal/reader_reflect.go:FillStruct", "marshal/reader.go:Uint64var"]}
{"id": "C145", "title": "The loss of a connection is noticed", "statement": "When the peer has closed a client connection, every request that was taken by it is answered, once, without anybody having to send another request or to stop the connection; no request is taken any more once the control loop knows. If pings are sent this takes one ping interval at most.", "quantifier": "all schedules of the three loops of a connection, any number of requests, with pings or without, whatever the peer does, requests cancelled or not, writes failing or not", "why_tests_cant": "Which of the loops is waiting for what when the connection breaks is a matter of timing; tests close connections while they are busy.", "anchors": ["net/client/connection/connection.go:writeLoop", "net/client/connection/connection.go:readLoop", "net/client/connection/connection.go:controlLoop", "net/client/connection/connection.go:flushInFly", "net/buf_writer.go:Flush", "net/client/config.go:SetDefaults"]}
{"id": "C146", "title": "Requests are free of data races", "statement": "Two goroutines that answer, cancel, forward or write the same request never access one of its fields, or a bookmark of it, at the same time without synchronisation when one of them writes it.", "quantifier": "all executions of any number of goroutines which call the methods of one object in any order, any number of times, with every interleaving of their memory accesses", "why_tests_cant": "A data race needs two accesses within nanoseconds of each other; the race detector sees only the races of the executions it watches, and the project has no tests that run under it.", "anchors": ["request.go:chainResponse", "request.go:RespondBytes", "request.go:RespondFail", "request.go:ChainBookmark", "request.go:SetInFly", "request.go:SetPending", "response.go:setReq", "response.go:unchain", "context.go:contextBookmark.Cancel", "net/client/connection/connection.go:writeLoop"]}
{"id": "C147", "title": "Multi-requests and contexts are free of data races", "statement": "The goroutine that makes a multi-request or works with a context, those that answer the requests and those that cancel or let expire never access a field at the same time without synchronisation when one of them writes it.", "quantifier": "all executions of any number of goroutines which call the methods of one object in any order, any number of times, with every interleaving of their memory accesses", "why_tests_cant": "A data race needs two accesses within nanoseconds of each other; the race detector sees only the races of the executions it watches, and the project has no tests that run under it.", "anchors": ["wait_group.go:Request", "wait_group.go:Each", "wait_group.go:Results", "wait_group.go:Respond", "wait_group.go:Cancel", "wait_group.go:performFailAll", "wait_group.go:setKind", "context.go:AddCanceler", "context.go:RemoveCanceler", "context.go:cancelAll", "context.go:Alive", "context.go:Done"]}
{"id": "C148", "title": "Client connections and queues are free of data races", "statement": "Dialing, the three loops of a client connection and the pool never access what they share at the same time without synchronisation when one of them writes it; nor do those who send to the queue of a client, its loop, and those who stop the client.", "quantifier": "all executions of any number of goroutines of a connection, or of the users of a queue, with every interleaving of their memory accesses", "why_tests_cant": "A data race needs two accesses within nanoseconds of each other; the race detector sees only the races of the executions it watches, and the project has no tests that run under it.", "anchors": ["net/client/connection/connection.go:Loop", "net/client/connection/connection.go:readLoop", "net/client/connection/connection.go:writeLoop", "net/client/connection/connection.go:controlLoop", "net/client/connection/connection.go:flushInFly", "net/client/connection/request_holder.go:getNext", "net/client/connection/request_holder.go:remove", "net/client/connection/request_holder.go:getAll", "net/client/connection/request_holder.go:count", "net/client/server.go:fixConnections", "buffer.go:push", "buffer.go:loop", "service.go:Stop"]}
{"id": "C149", "title": "Server connections, timers and Auto are free of data races", "statement": "The three loops of a server connection and the handlers that answer its requests never access what they share at the same time without synchronisation when one of them writes it; nor do those who set, stop and expire timers, or who get servers from an Auto and stop it.", "quantifier": "all executions of any number of goroutines of a connection with its handlers, or of users of timers and of an Auto, with every interleaving of their memory accesses", "why_tests_cant": "A data race needs two accesses within nanoseconds of each other; the race detector sees only the races of the executions it watches, and the project has no tests that run under it.", "anchors": ["net/server/connection.go:Respond", "net/server/connection.go:readLoop", "net/server/connection.go:writeLoop", "net/server/connection.go:cleanBuffer", "net/server/connection.go:controlLoop", "net/server/connection.go:closed", "custom_timer.go:After", "custom_timer.go:Stop", "custom_timer.go:nextHeap", "custom_timer.go:loop", "net/client/auto.go:Get", "net/client/auto.go:Stop"]}
{"id": "C150", "title": "Servers are free of data races", "statement": "A server that is run, accepts connections, learns that they are closed, and is stopped by any number of goroutines never accesses its connections, its listener, its counter or its closing flag at the same time without synchronisation when one of the accesses is a write.", "quantifier": "all executions of the listening loop, the control loop, the goroutine that runs the server and one that it starts, any number of connections and stops, with every interleaving of their memory accesses", "why_tests_cant": "A data race needs two accesses within nanoseconds of each other; the race detector sees only the races of the executions it watches, and the project has no tests that run under it.", "anchors": ["net/server/server.go:Run", "net/server/server.go:Stop", "net/server/server.go:listenLoop", "net/server/server.go:controlLoop"]}
{"id": "C151", "title": "What is put into the codec caches happens before it is used", "statement": "When goroutines encode and decode values of any types at the same time, what one puts into the caches of readers and writers, and the codecs themselves, are written before others read them in the order of the Go memory model, so that no machine or compiler can show them a map or codec that is not yet complete.", "quantifier": "all executions of any number of goroutines that ask for readers and writers any number of times, with every interleaving of their memory accesses", "why_tests_cant": "A data race needs two accesses within nanoseconds of each other; the race detector sees only the races of the executions it watches, and the project has no tests that run under it.", "anchors": ["marshal/reader_reflect.go:ReaderFor", "marshal/reader_reflect.go:_reader", "marshal/writer_reflect.go:WriterFor", "marshal/writer_reflect.go:_writer"]}
{"id": "C152", "title": "Mutexes never deadlock", "statement": "Goroutines that answer, cancel, let expire and forward requests, work with contexts, child contexts and multi-requests, set timers, and send to queues and connections never wait for each other (or for themselves) to give back mutexes.", "quantifier": "all numbers of requests, contexts and multi-requests made for each other in any way, all numbers of goroutines, all sequences of calls, all interleavings", "why_tests_cant": "A deadlock needs two goroutines that take two mutexes in opposite order within the same moment; tests with one caller per request never have it.", "anchors": ["request.go:RespondBytes", "request.go:RespondFail", "request.go:ChainBookmark", "request.go:SetInFly", "request.go:ReqContext.Respond", "context.go:contextBookmark.Respond", "context.go:contextBookmark.Cancel", "context.go:cancelAll", "wait_group.go:Respond", "wait_group.go:Results", "wait_group.go:performFailAll", "response.go:Callback", "stat.go:statBookmark.Respond", "custom_timer.go:Stop", "net/server/connection.go:Respond"]}
{"id": "C153", "title": "Values of recursive types are read back, whatever was encoded before", "statement": "A value of a recursive Go type (a tree of slices, a list of pointers with cnt(..)) that one process writes is read back by another one as the same value, consuming exactly its bytes, whatever types each of the processes has encoded or decoded before and by however many goroutines.", "quantifier": "all systems of (mutually) recursive types of scalars, strings, arrays, slices, pointers, types with encoding methods of their own, and structs whose fields carry no directive or cnt(..), all values, all histories of both codec caches with any number of goroutines", "why_tests_cant": "Codecs are made once per process and depend on the order in which types are first used; a test that uses its types in one order sees one of the possible codecs only.", "anchors": ["marshal/writer_reflect.go:_writer", "marshal/writer_reflect.go:FillStruct", "marshal/writer_reflect.go:FillSlice", "marshal/writer_reflect.go:FillPtr", "marshal/reader_reflect.go:_reader", "marshal/reader_reflect.go:FillStruct", "marshal/reader_reflect.go:FillSlice", "marshal/reader_reflect.go:FillPtr"]}
{"id": "C154", "title": "The other end learns that a connection has ended", "statement": "When all loops of a connection have ended on one side, its socket has been shut for writing there, so that the other side reads the end of the stream and does not wait for ever.", "quantifier": "all executions of client and server connections: all orders of their loops, reads and writes that fail at any time, stopping", "why_tests_cant": "The other side notices only by waiting; which of four goroutines shuts the socket depends on which of them ends first and how.", "anchors": ["net/server/connection.go:writeLoop", "net/server/connection.go:controlLoop", "net/client/connection/connection.go:writeLoop", "net/client/connection/connection.go:controlLoop", "net/client/connection/connection.go:controlLoopExit"]}
{"id": "C155", "title": "What connections and queues keep is bounded by what waits in them", "statement": "The rows of 256 slots which a client connection keeps are at most one more than the requests for which no response has come; once nothing waits, one row is left at most. The rows of 1024 slots in the queue before an endpoint are at most three more than those that the slots not yet passed on fill; when the queue has come to rest, two are left at most.", "quantifier": "all executions of a connection with a peer that answers what it was asked, once; all executions of a queue, any number of goroutines, any length of rows", "why_tests_cant": "A leak of one row in a rare order of events shows only after long runs; tests with few requests never leave the first row.", "anchors": ["net/client/connection/request_holder.go:getNext", "net/client/connection/request_holder.go:remove", "buffer.go:push", "buffer.go:loop"]}
{"id": "C156", "title": "Sockets accepted by a server are served or closed", "statement": "Every socket that Accept returns is either served, under an id of its own, or closed, and never both. No connection is started once Stop has set closing; when the control loop has handled Stop, every connection ever started was told to stop or has ended; Running is closed only when all of them have reported. After Stop the accepting loop makes at most two more steps and ends.", "quantifier": "all executions of listenLoop, controlLoop and any number of calls of Stop: any number of sockets, failures of Accept at any time", "why_tests_cant": "A socket that is neither served nor closed, or a connection started behind the back of Stop, needs Accept to return between the lines of Stop; tests stop idle servers.", "anchors": ["net/server/server.go:listenLoop", "net/server/server.go:controlLoop", "net/server/server.go:Stop"]}
{"id": "C157", "title": "What was stored in a box is selected from it, as it was updated, and what was deleted is not", "statement": "If a StoreReq (mode insert or replace) was answered before a SelectReq by the primary key of its tuple is written to the same connection, and no other request touches the tuples with that key, then ReadMany of the response to the selection gives back the value that was stored; a selection by several keys gives back the values of several StoreReqs in the order of the keys; after an UpdateReq by the key that sets fields other than the first it gives back the value with these fields; after a DeleteReq by the key it gives back nothing; requests are received by the server in that order. It is enough that the first was written before the second.", "quantifier": "all executions of a client and a server connection joined by byte streams, all pieces in which bytes arrive, all other requests on the connection; all row types and values that C22 covers, all spaces, limits and ways to give the key", "why_tests_cant": "Needs a running box; the way goes through every layer: the encoding of tuples and keys, frames, ids, two connections, and the decoding of responses.", "anchors": ["sbox/modify.go:StoreReq.IWrite", "sbox/modify.go:UpdateReq.IWrite", "sbox/modify.go:DeleteReq.IWrite", "sbox/select.go:SelectReq.IWrite", "sbox/result.go:ReadMany", "examples/sbox/sbox.go:main", "net/client/connection/connection.go:writeLoop"]}
{"id": "C158", "title": "Bodies are read back, through readers of their own and into variables of defined types", "statement": "What marshal.Write and WriteTail make of an iproto.Body is read back into a Body by Read and ReadTail; the readers that Body.Reader, Read2 and ReadTail2 return start at the beginning of the body; a slice of scalars of a defined type is written and read by WriteTail and ReadTail as a slice of an undefined type is, and is the same keys of a SelectReq.", "quantifier": "all bodies, all values in the variables before, all lists of values that C18 covers, all kinds of scalars", "why_tests_cant": "Tests use []byte and other types without a name, for which the type switches have cases of their own.", "anchors": ["request.go:Body", "request.go:Body.Read2", "request.go:Body.ReadTail2", "marshal/reader.go:Uint8slValTail", "marshal/reader_reflect.go:ReadTail", "sbox/select.go:CountKeysValues"]}
{"id": "C159", "title": "The answer to a stored tuple is read without an error", "statement": "When a StoreReq (mode insert or replace) is answered with code 0 by a box, ReadFirst and ReadMany of the answer return no error; with Return they give back the value that was stored.", "quantifier": "all executions of a client and a server connection joined by byte streams; all row types and values that C22 covers, all spaces, all types of destinations", "why_tests_cant": "Needs a running box and reads of answers to requests without Return, which no test has.", "anchors": ["sbox/modify.go:StoreReq.IWrite", "sbox/result.go:ReadFirst", "sbox/result.go:ReadMany", "sbox/result.go:oneTuple"]}
{"id": "C160", "title": "What was stored in a box through one connection is selected through another", "statement": "If a StoreReq (mode insert or replace) on one connection was answered before a SelectReq by the primary key of its tuple is written to the same or another connection, and no other request touches the tuples with that key, then ReadMany of the response to the selection gives back the value that was stored; after a DeleteReq by the key it gives back nothing.", "quantifier": "all executions of any number of pairs of a client and a server connection joined by byte streams; all orders in which the box handles what it has received; all row types and values that C22 covers, all spaces, limits and ways to give the key", "why_tests_cant": "Needs a running box and several connections at different speeds.", "anchors": ["sbox/modify.go:StoreReq.IWrite", "sbox/modify.go:DeleteReq.IWrite", "sbox/select.go:SelectReq.IWrite", "sbox/result.go:ReadMany", "net/client/connection/connection.go:writeLoop", "net/client/connection/connection.go:readLoop"]}
{"id": "C161", "title": "A StoreReq that fails is done wholly or not at all, and no request twice", "statement": "Whatever becomes of requests at the client (answered, cancelled, timed out, failed with the connection), the server receives none of them twice; after a StoreReq for a key of which the outcome is not known, a selection by that key gives back the value that was there before or the new one.", "quantifier": "all executions of a client and a server connection joined by byte streams, with cancellations, timeouts and failures at any moment; all row types and values that C22 covers, all spaces, limits and ways to give the key", "why_tests_cant": "Needs a running box and failures at every moment between Send and the answer.", "anchors": ["net/client/connection/connection.go:writeLoop", "net/client/connection/connection.go:readLoop", "sbox/modify.go:StoreReq.IWrite", "sbox/select.go:SelectReq.IWrite", "sbox/result.go:ReadMany", "request.go:SetInFly"]}
{"id": "C162", "title": "Requests made one after another through any connections are done in that order", "statement": "If StoreReqs (all modes), DeleteReqs and UpdateReqs (which set fields) for one primary key are made one after another, on any connections to a box, each written after the one before was answered, the first of them being an insert-or-replace or a deletion (or any, if the box has had one known tuple or none with the key in the beginning), and no other request written until then touches the tuples with that key, then ReadMany and ReadFirst of the response to a selection by that key, written after the last was answered, give back exactly what the requests make of the tuple when done in this order. If more such requests are under way meanwhile, it is what they and then some of these, each once, make of it, whatever becomes of them.", "quantifier": "all executions of any number of client and server connections joined by byte streams; all series of requests of any length; all row types and values that C22 covers, all spaces, limits and ways to give the key", "why_tests_cant": "Needs a running box with several connections, and every series of requests on every distribution over the connections.", "anchors": ["sbox/modify.go:StoreReq.IWrite", "sbox/modify.go:DeleteReq.IWrite", "sbox/modify.go:UpdateReq.IWrite", "sbox/modify.go:Op.IWrite", "sbox/select.go:SelectReq.IWrite", "sbox/result.go:ReadMany", "net/client/connection/connection.go:writeLoop", "net/server/connection.go:readLoop"]}
{"id": "C163", "title": "AnyConnected says whether a connection is up", "statement": "If AnyConnected of a client endpoint says yes, there is a connection that was established and whose end the endpoint has not been told of; when no report is on its way, it says yes exactly if some connection is established and its write loop has not ended.", "quantifier": "all schedules of the loop of the pool and of all loops of all connections, any number of connections, any failures", "why_tests_cant": "The answer is a counter kept by another goroutine from reports that may be late; a wrong count shows only after connections were stopped, when no other one can be dialed.", "anchors": ["net/client/server.go:AnyConnected", "net/client/server.go:onConnError", "net/client/server.go:fixConnections"]}
