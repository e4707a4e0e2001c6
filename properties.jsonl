{"id": "C01", "title": "Serialization round trip", "statement": "For every value of every supported type (numbers, enums, strings, raw/smart pointers, sequence containers, sets, maps, pairs, tuples/structs, variants, arbitrarily nested), deserializing the bytes produced by serialize into a fresh object reports success and yields an equal value.", "quantifier": "all type expressions built from the supported constructors, all values whose container/string lengths fit in 32 bits", "why_tests_cant": "The set of types and values is infinite and nested arbitrarily; a test fixes a handful of literals.", "anchors": ["include/maf/utils/serialization/Serializer.h: Serializer::serialize/deserialize", "include/maf/utils/serialization/VariantSerializer.h: _serialize/_deserialize"]}
{"id": "C02", "title": "Serialized values are self-delimiting", "statement": "Deserializing consumes exactly the bytes that serializing that value wrote, whatever bytes follow; hence several values written back to back to one stream are read back, in order, as the same values.", "quantifier": "all types, all values, all following byte sequences, all sequences of values", "why_tests_cant": "Needs every suffix and every sequence length.", "anchors": ["include/maf/utils/serialization/Serializer.h: SR::operator<<, DSR::operator>>, serializeBatch", "include/maf/utils/serialization/IByteStream.h: BasicIByteStream::read"]}
{"id": "C03", "title": "Encodings are unambiguous", "statement": "Two different values of one type never produce the same bytes, and no encoding of one value is a proper prefix of the encoding of another value of that type.", "quantifier": "all types, all pairs of values", "why_tests_cant": "A collision can be anywhere in an infinite product space.", "anchors": ["include/maf/utils/serialization/Serializer.h: serialize", "include/maf/utils/serialization/VariantSerializer.h"]}
{"id": "C04", "title": "serializedSize agrees with serialize", "statement": "serializedSize(v) is the number of bytes serialize(v) writes (as a 32-bit number).", "quantifier": "all types for which serializedSize is defined, all values of any length", "why_tests_cant": "Unbounded nesting and lengths, including those that overflow 32 bits.", "anchors": ["include/maf/utils/serialization/Serializer.h: serializedSize"]}
{"id": "C05", "title": "Truncated input is detected", "statement": "If the bytes of a serialized value are cut short anywhere, deserializing them does not pass unnoticed: the stream is left in the failed state, and deserialize returns false.", "quantifier": "all types, all values, all cut points", "why_tests_cant": "Every cut point of every value of every type.", "anchors": ["include/maf/utils/serialization/Serializer.h: deserialize (success |=)", "include/maf/utils/serialization/IByteStream.h: fail"]}
{"id": "C06", "title": "Arbitrary input never makes the reader leave its buffer", "statement": "Deserializing any type from any byte string, however malformed, never reads outside the buffer, never modifies it, never moves the read position backwards or past its end, and once a stream has failed it stays failed and stops advancing.", "quantifier": "all types, all byte strings, all starting positions and target objects", "why_tests_cant": "The malformed inputs are all byte strings.", "anchors": ["include/maf/utils/serialization/IByteStream.h: BasicIByteStream::read, good, fail, eof"]}
{"id": "C07", "title": "Reading a payload through a view is repeatable", "statement": "Deserializing through an IByteStreamView leaves the underlying IByteStream as it was, so reading the same incoming payload any number of times, as any types in any order, gives the same result each time as the first read of it would have given.", "quantifier": "all streams, all histories of reads by any types", "why_tests_cant": "All histories of reads.", "anchors": ["include/maf/utils/serialization/IByteStream.h: IByteStreamView", "include/maf/messaging/client-server/ipc/local/ParamTrait.h: translate"]}
{"id": "C08", "title": "Variants decode to the alternative that was named", "statement": "A variant decodes only when its index names one of its alternatives; then the decoded value holds exactly that alternative; otherwise deserialize returns false and the target variant is left unchanged.", "quantifier": "all variant types, all byte strings, all previous contents of the target", "why_tests_cant": "All 2^32 indexes, all alternative lists and all inputs.", "anchors": ["include/maf/utils/serialization/VariantSerializer.h: _deserialize"]}
{"id": "C09", "title": "Output stream is the concatenation of its writes", "statement": "After any sequence of write and reset calls, bytes() is the concatenation of the blocks written since the last reset, and the stream never reports failure.", "quantifier": "all sequences of writes (any block sizes) and resets", "why_tests_cant": "Unbounded histories.", "anchors": ["include/maf/utils/serialization/OByteStream.h: write, prepareNextWrite, reset, bytes"]}
{"id": "C10", "title": "Size of decoded data is bounded by the input", "statement": "A byte string cannot make deserialize build a container with more elements than the bytes it consumed can encode.", "quantifier": "all byte strings, all element types with a non-empty encoding", "why_tests_cant": "Hostile inputs are all byte strings.", "anchors": ["include/maf/utils/serialization/Serializer.h: deserialize of iterable containers"]}
{"id": "C11", "title": "IPC message round trip", "statement": "A client-server message sent over local IPC (service id, operation id, operation code, request id, source address and payload or error) decodes at the receiver to the same message.", "quantifier": "all messages whose strings fit in 32-bit lengths, all payload bytes", "why_tests_cant": "All strings, ids, addresses and payloads.", "anchors": ["src/common/maf/messaging/client-server/ipc/LocalIPCMessage.cpp: toBytes, fromBytes"]}
{"id": "C12", "title": "Damaged IPC messages are rejected", "statement": "A message whose bytes were cut anywhere inside its header (or inside the error record it carries) is rejected by the receiver; it is never delivered as a different message.", "quantifier": "all messages, all cut points in the header or error part", "why_tests_cant": "Every cut point of every message.", "anchors": ["src/common/maf/messaging/client-server/ipc/LocalIPCMessage.cpp: fromBytes"]}
{"id": "C13", "title": "Local socket framing reassembles messages", "statement": "However the operating system splits the byte stream into reads, the receiver delivers to its observer exactly the buffer the sender passed to send, once.", "quantifier": "all buffers shorter than 2^32 bytes, all ways of chunking reads and writes", "why_tests_cant": "The kernel may split reads in exponentially many ways.", "anchors": ["src/platforms/unix/maf/messaging/client-server/ipc/LocalIPCBufferSenderImpl.cpp: send", "src/platforms/unix/maf/messaging/client-server/ipc/LocalIPCBufferReceiverImpl.cpp: start loop"]}
{"id": "C14", "title": "send reports success only if the bytes were written", "statement": "The local IPC sender returns Success only when the whole buffer was handed to the socket.", "quantifier": "all buffers, all sequences of write results including errors", "why_tests_cant": "Failures at every possible write.", "anchors": ["src/platforms/unix/maf/messaging/client-server/ipc/LocalIPCBufferSenderImpl.cpp: send"]}
{"id": "C15", "title": "Thread-safe queue is FIFO without loss or duplication", "statement": "Under any interleaving of any number of producers and consumers, every element accepted by the queue is handed to at most one consumer, elements leave in the order in which they entered, and everything not yet handed out or discarded by clear is still queued.", "quantifier": "all numbers of threads, all programs of push/wait/tryPop/clear/close/reOpen, all schedules", "why_tests_cant": "The schedules are infinitely many; tests see a few.", "anchors": ["include/maf/threading/ThreadSafeQueue.h: push, wait, waitUntil, tryPop, clear, close"]}
{"id": "C16", "title": "Queue waits return correctly", "statement": "A wait on the queue returns true only together with an element that was pushed, and returns false only if the queue had been closed (or, for a timed wait, the deadline passed); no wait ever takes an element from an empty queue.", "quantifier": "all schedules of all programs using the queue", "why_tests_cant": "Depends on every interleaving of close and reOpen with waiters.", "anchors": ["include/maf/threading/ThreadSafeQueue.h: wait, waitUntil, waitFor, tryPop"]}
{"id": "C17", "title": "close releases every waiting consumer", "statement": "When the queue is closed, every consumer blocked in wait (and every one that calls wait later) returns without further pushes.", "quantifier": "all schedules of any number of waiters against close", "why_tests_cant": "A lost wake-up needs one precise interleaving.", "anchors": ["include/maf/threading/ThreadSafeQueue.h: close, wait"]}
{"id": "C18", "title": "Processor runs accepted work in order, exactly once", "statement": "Executions and messages accepted by a running processor are executed on the processor's thread one at a time, in the order in which they were accepted, each exactly once, until the processor is stopped.", "quantifier": "all histories of posts and executes from any threads, all schedules", "why_tests_cant": "All interleavings and lengths of posts.", "anchors": ["src/common/maf/messaging/Processor.cpp: post, executeAsync, run, runUntil, processMessage"]}
{"id": "C19", "title": "Stopped processor executes nothing more", "statement": "After stop, nothing that was pending is executed, post/executeAsync return false, and a true result from executeAsync/post means that the work will run unless a stop happens.", "quantifier": "all histories and schedules with stop at any point", "why_tests_cant": "stop may hit between any two steps of a concurrent post.", "anchors": ["src/common/maf/messaging/Processor.cpp: stop, stopped, executeAsync, AsyncExecution::addExecution"]}
{"id": "C20", "title": "Message dispatch reaches exactly the connected handlers", "statement": "A posted message is handled by every handler connected for exactly its type when it is processed, in connection order, each once, and by no other handler; post returns false exactly when the processor is stopped or no handler is connected.", "quantifier": "all sequences of connect, disconnect, post and processing steps", "why_tests_cant": "Unbounded histories of connects and disconnects between posts.", "anchors": ["src/common/maf/messaging/Processor.cpp: connect, disconnect, post, processMessage, msgConnected"]}
{"id": "C21", "title": "Processor ids are unique", "statement": "At any time at most one joined processor has a given id: creating a processor with an id in use yields null; anonymous processors get pairwise different ids and are never reachable by routing.", "quantifier": "all histories of create/stop by any threads", "why_tests_cant": "Needs all histories and schedules of concurrent creates.", "anchors": ["src/common/maf/messaging/Processor.cpp: ProcessorInstance::create", "src/common/maf/messaging/Router.cpp: addProcessor, removeProcessor, findProcessor"]}
{"id": "C22", "title": "Routing delivers to the named processor and announces membership", "statement": "routing::post(id, m) returns true only if it handed m to the processor joined under id; postToAll hands m to every joined processor with a handler for it and to no other; when a processor joins, it is told about every processor already joined and each of them is told about it once; when it leaves every remaining one is told once.", "quantifier": "all histories of join, leave and post", "why_tests_cant": "All membership histories.", "anchors": ["src/common/maf/messaging/Router.cpp: post, postToAll, addProcessor, removeProcessor"]}
{"id": "C23", "title": "A signal calls exactly its connected slots in order", "statement": "Emitting a signal invokes each slot that is connected when the emission reaches it exactly once, in connection order, with the emitted arguments, and no other slot.", "quantifier": "all histories of connect, disconnect, reconnect and emit, including connects and disconnects made by slots during emission", "why_tests_cant": "Slots may change the connections at any point of an emission.", "anchors": ["include/maf/utils/SignalSlots.h: MultiSlotKeeper::notify/add/remove, SingleSlotKeeper"]}
{"id": "C24", "title": "A disconnected slot is not called", "statement": "After disconnect returns, the slot is not invoked again until it is reconnected, even if the disconnect was done by another slot in the middle of an emission.", "quantifier": "all histories, including disconnection from inside slots", "why_tests_cant": "All nesting of emission and disconnection.", "anchors": ["include/maf/utils/SignalSlots.h: MultiSlotKeeper::remove/notify, Connection::disconnect"]}
{"id": "C25", "title": "Connection handles tell the truth", "statement": "connected() holds exactly while the slot is in the signal's list and the signal is alive; disconnect returns true exactly when it removed the slot; reconnect re-adds the same slot (at the end), never twice.", "quantifier": "all histories of disconnect, reconnect and destruction of the signal over any number of connections", "why_tests_cant": "Unbounded histories over many handles.", "anchors": ["include/maf/utils/SignalSlots.h: Connection::disconnect/reconnect/connected"]}
{"id": "C26", "title": "Observers are notified exactly on change", "statement": "Setting an observable notifies each observer exactly once with the new value if the new value differs from the current one, and not at all otherwise; silentSet never notifies; get returns the last value set.", "quantifier": "all histories of set/silentSet/get/mutable_/connect, all values", "why_tests_cant": "All histories and values.", "anchors": ["include/maf/utils/Observable.h: set, silentSet, get, mutable_"]}
{"id": "C27", "title": "A new observer immediately sees the current state", "statement": "Connecting to an observable calls the new observer at once with the current state, so after any history without silent sets the last value an observer received is the current state.", "quantifier": "all histories", "why_tests_cant": "All histories.", "anchors": ["include/maf/utils/Observable.h: connect_, notifyOne"]}
{"id": "C28", "title": "Compound observables mirror their sources", "statement": "A compound observable's state always equals the tuple of its source observables' current states, and its observers are notified exactly when it changes.", "quantifier": "any number of sources, all histories of source updates without silent sets", "why_tests_cant": "All histories over any number of sources.", "anchors": ["include/maf/utils/Observable.h: CompoundObservable"]}
{"id": "C29", "title": "Timers do not fire early", "statement": "A timer's callback is never invoked before the duration given to start/restart has elapsed since that call.", "quantifier": "all histories of start/restart/stop of any number of timers, all clock advances and schedules of the processor", "why_tests_cant": "All interleavings of timers and clock values.", "anchors": ["src/common/maf/messaging/Timer.cpp: TimerMgr::start/restart/checkAllTimers/onShortestTimerExpired"]}
{"id": "C30", "title": "One-shot timers fire at most once per start, cyclic ones without drift", "statement": "A non-cyclic timer fires at most once per start/restart and is then not running; the k-th expiry of a cyclic timer has deadline start + k*duration.", "quantifier": "all histories and clock advances", "why_tests_cant": "All histories.", "anchors": ["src/common/maf/messaging/Timer.cpp: onShortestTimerExpired, updateShortestTimer, removeShortestTimer"]}
{"id": "C31", "title": "Stopped timers do not fire", "statement": "After stop returns, the timer's callback is not invoked until the timer is started again, and stopping or starting one timer does not affect whether and when others fire.", "quantifier": "all histories", "why_tests_cant": "All histories over any number of timers.", "anchors": ["src/common/maf/messaging/Timer.cpp: stop, checkAllTimers"]}
{"id": "C32", "title": "The next timer to expire is always served first", "statement": "The timer queue always yields the running timer with the earliest deadline, and contains exactly the running timers, once each.", "quantifier": "all histories of start/restart/stop/expiry", "why_tests_cant": "Heap invariants over all histories.", "anchors": ["src/common/maf/messaging/Timer.cpp: TimerMgr records_ heap"]}
{"id": "C33", "title": "Request and registration ids are unique", "statement": "Ids handed out by one id manager are pairwise distinct and never the invalid id, for up to 2^N-1 allocations of an N-bit id, under any interleaving of threads.", "quantifier": "all numbers of allocations below the width, all schedules", "why_tests_cant": "2^64 allocations.", "anchors": ["include/maf/utils/IDManager.h: IDManager::allocateNewID", "include/maf/messaging/client-server/RegID.h"]}
{"id": "C34", "title": "A request is answered at most once", "statement": "Each asynchronous request's callback is invoked for any number of partial updates while the request is pending, then for at most one final response, and never after it; a response for one request never reaches another request's callback.", "quantifier": "all histories of requests, responses (in any order, duplicated, unknown ids), aborts and availability changes", "why_tests_cant": "All orders of responses.", "anchors": ["src/common/maf/messaging/client-server/ServiceRequester.cpp: sendRequestAsync, onRequestResult"]}
{"id": "C35", "title": "An aborted request is never answered", "statement": "After abortRequest the request's callback is never invoked, and the provider is sent exactly one Abort carrying that request's id iff the request was still pending.", "quantifier": "all histories", "why_tests_cant": "All histories.", "anchors": ["src/common/maf/messaging/client-server/ServiceRequester.cpp: abortRequest"]}
{"id": "C36", "title": "Responses go to the client that asked", "statement": "When a provider serves several clients, replying to a request completes that request and no other, and the reply is addressed to the client that sent it.", "quantifier": "all histories of requests from any number of clients, whose request ids are chosen independently", "why_tests_cant": "Collisions of ids need particular histories.", "anchors": ["src/common/maf/messaging/client-server/ServiceProvider.cpp: saveRequestInfo, getRequestInfo, respondToRequest"]}
{"id": "C37", "title": "A provider-side request is completed at most once", "statement": "Each request accepts at most one final reply, further replies return InvalidCall, partial replies are only accepted before it, and no sequence or interleaving of replies and aborts crashes.", "quantifier": "all histories and interleavings of reply/abort/stop", "why_tests_cant": "Race between two replies.", "anchors": ["src/common/maf/messaging/client-server/Request.cpp: reply, invalidate, onAborted", "src/common/maf/messaging/client-server/ServiceProvider.cpp: respondToRequest, onRequestAborted"]}
{"id": "C38", "title": "Status changes are broadcast exactly when the value changes", "statement": "setStatus sends a status update iff the property was absent or the new value differs from the stored one; afterwards getStatus returns the new value; unchanged values return NoAction and send nothing.", "quantifier": "all histories of setStatus/removeProperty, all values", "why_tests_cant": "All histories.", "anchors": ["src/common/maf/messaging/client-server/ServiceProvider.cpp: setStatus, getStatus, removeProperty"]}
{"id": "C39", "title": "Broadcasts reach exactly the registered clients", "statement": "A status or signal broadcast is sent once to every client currently registered for that operation and to no other; clients that cannot be reached are forgotten, busy ones are retried once and kept; the result tells whether any client could be reached.", "quantifier": "all registration histories, all send outcomes", "why_tests_cant": "All subsets of clients failing.", "anchors": ["src/common/maf/messaging/client-server/ServiceProvider.cpp: broadcast, broadcastToClients, saveRegisterInfo, removeRegisterInfo"]}
{"id": "C40", "title": "Subscribers see the latest status", "statement": "A client registered for a status is called with every status update after registration, and a late second subscriber of the same requester immediately gets the value most recently received; getStatus while subscribed returns that value.", "quantifier": "all histories of registrations, updates and unregistrations", "why_tests_cant": "All histories.", "anchors": ["src/common/maf/messaging/client-server/ServiceRequester.cpp: registerStatus, onRegistersUpdated, cachePropertyStatus, getStatus"]}
{"id": "C41", "title": "Server-side registration mirrors client-side registration", "statement": "A requester asks the server to register an operation exactly when its first callback for it is added and to unregister exactly when its last is removed, so the server has the client registered iff the client has at least one callback.", "quantifier": "all histories of register/unregister on any operations", "why_tests_cant": "All histories.", "anchors": ["src/common/maf/messaging/client-server/ServiceRequester.cpp: registerNotification, unregisterBroadcast, storeRegEntry, removeRegEntry"]}
{"id": "C42", "title": "Loss of a service drops everything that depended on it", "statement": "When the service becomes unavailable, all pending requests and registrations are dropped and their callbacks never invoked for them again; status observers are told of every change of availability exactly once, in order, and never of a non-change.", "quantifier": "all histories of availability notifications", "why_tests_cant": "All histories.", "anchors": ["src/common/maf/messaging/client-server/ServiceRequester.cpp: onServiceStatusChanged, registerServiceStatusObserver", "src/common/maf/messaging/client-server/ClientBase.cpp: onServerStatusChanged, onServiceStatusChanged"]}
{"id": "C43", "title": "One provider and one requester per service", "statement": "A server returns the same provider, and a client the same requester, for every call with the same service id; messages are dispatched to exactly the provider/requester of their service id and are refused if there is none.", "quantifier": "all histories of lookups and messages over all service ids", "why_tests_cant": "All histories.", "anchors": ["src/common/maf/messaging/client-server/ServerBase.cpp: getServiceProvider, onIncomingMessage", "src/common/maf/messaging/client-server/ClientBase.cpp: getServiceRequester, onIncomingMessage"]}
{"id": "C44", "title": "Client addresses are ordered consistently", "statement": "Address comparison is a strict weak ordering compatible with ==, so that ordered sets and maps keyed by address find exactly what was inserted.", "quantifier": "all triples of addresses", "why_tests_cant": "All triples of (string, port) pairs.", "anchors": ["src/common/maf/messaging/client-server/Address.cpp: operator<, operator==", "include/maf/messaging/client-server/RegID.h: operator<"]}
{"id": "C45", "title": "Synchronous requests return what the service answered or why not", "statement": "A synchronous request returns the payload of the final response, or a null payload with status Timeout if none came in time, ActionBroken if the service went away, or the send failure status; after a timeout the request is no longer pending.", "quantifier": "all relative orders of response, timeout and service loss", "why_tests_cant": "All schedules of three racing events.", "anchors": ["src/common/maf/messaging/client-server/ServiceRequester.cpp: sendMessageSync, sendRequest"]}
{"id": "C46", "title": "Thread pools run every task exactly once within their thread budget", "statement": "Each task submitted before shutdown is run by exactly one worker or, at shutdown, finished without being run, never both and never lost; the pool never has more than the maximum number of worker threads.", "quantifier": "all numbers of workers and tasks, all schedules", "why_tests_cant": "All schedules.", "anchors": ["include/maf/threading/ThreadPoolImplBase.h: run, tryLaunchNewThread, stopThePool, coptRun"]}
{"id": "C47", "title": "Priority pool serves the most urgent task first", "statement": "Whenever a worker takes a task, no queued task has a higher priority than the one taken.", "quantifier": "all histories of submissions with any priorities", "why_tests_cant": "All histories.", "anchors": ["src/common/maf/threading/threadpool/PriorityThreadPool.cpp", "include/maf/threading/Queue.h: PriorityQueue"]}
{"id": "C48", "title": "tuple_diff reports exactly the differing positions", "statement": "tuple_diff(a, b) has bit i set iff the i-th elements differ; it is zero iff the tuples are equal.", "quantifier": "all tuple lengths and contents", "why_tests_cant": "All lengths and all values.", "anchors": ["include/maf/utils/cppextension/TupleDiff.h: tuple_diff"]}
{"id": "C49", "title": "Scope guards and time measurements fire exactly once", "statement": "CallOnExit runs its function exactly once when its owner goes out of scope, even after moves; a TimeMeasurement reports at most once, exactly once unless aborted.", "quantifier": "all sequences of moves/stop/abort/destroy", "why_tests_cant": "All sequences.", "anchors": ["include/maf/utils/CallOnExit.h", "include/maf/utils/TimeMeasurement.h"]}
{"id": "C50", "title": "A damaged payload is never translated as success", "statement": "When the payload of a received inter-process message was cut short, translating it to the expected type never reports Success.", "quantifier": "all content types, all contents, all cut positions", "why_tests_cant": "Every cut position of every content.", "anchors": ["src/common/maf/messaging/client-server/ipc/IncomingPayload.h", "include/maf/messaging/client-server/ipc/ParamTrait.h: translate"]}
{"id": "C51", "title": "The buffer receiver stays inside its buffer", "statement": "Whatever bytes a peer sends to a local-socket receiver, in whatever chunks, the receiver never writes outside the buffer it reserved for the message.", "quantifier": "all byte streams a peer may send, all read chunkings", "why_tests_cant": "The peer is arbitrary; the sizes of reads are chosen by the kernel.", "anchors": ["src/platforms/unix/maf/messaging/client-server/ipc/LocalIPCBufferReceiverImpl.cpp: startListening"]}
{"id": "C52", "title": "A peer dying in mid-message does no harm", "statement": "If a peer stops before its message is complete, nothing is delivered for that message and the receiver goes on serving other peers.", "quantifier": "all messages, all crash points of the peer, all read chunkings", "why_tests_cant": "Every crash point and chunking.", "anchors": ["src/platforms/unix/maf/messaging/client-server/ipc/LocalIPCBufferReceiverImpl.cpp: startListening"]}
{"id": "C53", "title": "Decoded sets and maps are well formed", "statement": "Whatever bytes a set or map is decoded from, the result is strictly ordered by (key) comparison: no duplicate element or key can be smuggled in.", "quantifier": "all element types with a transitive order, all byte strings, all previous contents", "why_tests_cant": "The input is arbitrary.", "anchors": ["include/maf/utils/serialization/Serializer.h: deserialize (containers)"]}
{"id": "C54", "title": "No consumer sleeps while there is work", "statement": "As long as the queue is not closed, whenever elements are queued while consumers are blocked in wait, at least as many other consumers are awake and about to look at the queue as there are elements; no wake-up is lost.", "quantifier": "any number of threads, all programs of push/wait/tryPop/clear, all schedules including spurious wake-ups and timeouts", "why_tests_cant": "Lost wake-ups need one particular interleaving.", "anchors": ["include/maf/threading/ThreadSafeQueue.h: push, wait, waitUntil, waitFor"]}
{"id": "C55", "title": "Shutting down a pool leaves no thread behind", "statement": "After shutdown of a thread pool has returned, every thread it launched has been joined, so destroying the pool never terminates the program.", "quantifier": "all pool kinds, sizes, task histories and interleavings of submissions and shutdown", "why_tests_cant": "depends on the interleaving of submissions and shutdown", "anchors": ["include/maf/threading/ThreadPoolImplBase.h: shutdown, waitForThreadsExited, tryLaunchNewThread", "src/common/maf/threading/threadpool/DynamicCountThreadPool.cpp: VaryCountThreadPool::run"]}
{"id": "C56", "title": "Shutdown asks exactly the running tasks to stop", "statement": "Shutdown calls stop once on every task being run at that moment and on no other; in particular never on a task that was already finished (and possibly deleted).", "quantifier": "all histories and interleavings of workers and shutdown", "why_tests_cant": "depends on the interleaving of workers finishing and shutdown", "anchors": ["include/maf/threading/ThreadPoolImplBase.h: stopRunningTasks, addToRunningTasks, removeFromRunningTasks, coptRun"]}
{"id": "C57", "title": "Slots may change the signal they are called by", "statement": "A slot may, while it is being called, connect, disconnect (itself or others) and reconnect slots of the same signal, disconnect all, emit it again or destroy it, without the program running into undefined behaviour; in particular a connection-aware slot may disconnect itself through the connection it is given.", "quantifier": "all histories of connects, disconnects, reconnects, emissions and calls made by slots", "why_tests_cant": "depends on what the slots do and on who owns a slot at that moment; use after free often goes unnoticed", "anchors": ["include/maf/utils/SignalSlots.h: MultiSlotKeeper::notify, MultiSlotKeeper::remove, BasicSignal_::connect(ConnectionAwareSlotType), Connection"]}
{"id": "C58", "title": "Scoped connections end with their scope", "statement": "When a ScopedConnection is destroyed its slot is no longer connected, and no other slot is affected.", "quantifier": "all histories before the end of the scope, including ends of scope inside an emission", "why_tests_cant": "depends on the history of disconnects and reconnects", "anchors": ["include/maf/utils/SignalSlots.h: ScopedConnection"]}
{"id": "C59", "title": "Executor-bound compounds catch up", "statement": "A compound observable built with an executor holds the tuple of its sources' current states as soon as the executor has executed everything posted to it and no source is being changed.", "quantifier": "all interleavings of changes of the sources, construction of the compound and execution, for every executor", "why_tests_cant": "depends on the interleaving of several threads and the executor's order", "anchors": ["include/maf/utils/Observable.h: BasicCompoundObservable_(executor, ...)", "include/maf/utils/SignalSlots.h: combineSlotWithExecutor"]}
{"id": "C60", "title": "No deadlock among calls on a processor", "statement": "Whatever calls threads make on one processor, including from handlers and queued executions, no set of threads ends up waiting for each other's locks: a call that waits for a lock waits for a thread that can go on.", "quantifier": "all schedules of post, connect, disconnect, executeAsync and dispatches by any threads, including calls made from handlers", "why_tests_cant": "A deadlock needs one particular interleaving of lock acquisitions in two threads.", "anchors": ["src/common/maf/messaging/Processor.cpp: post, msgConnected, connect, disconnect, cleanupUnconnectedMsgHandlers, processMessage", "include/maf/utils/SignalSlots.h: notify, connected"]}
{"id": "C61", "title": "Calls on the router are never stuck", "statement": "Whatever threads create and stop processors, post by id and post to all at the same time, a thread in the middle of such a call can go on, or it waits for another thread that holds the router's lock and can go on.", "quantifier": "all histories of create, stop, post and postToAll by any number of threads, at every point of each call", "why_tests_cant": "All interleavings of any number of threads with the router's lock.", "anchors": ["src/common/maf/messaging/Router.cpp: addProcessor, removeProcessor, post, postToAll, findProcessor"]}
{"id": "C62", "title": "Running timers are not forgotten", "statement": "While its processor has not been stopped, a timer that was started and neither stopped nor fired stays under watch: the processor has a check of the timers queued or in progress, it never waits past the earliest deadline, and once a timer is due the processor's thread can go on by itself until a callback is called.", "quantifier": "all histories of start/restart/stop of any number of timers, jobs posted, nested processing loops and clock advances", "why_tests_cant": "A liveness statement about every reachable state of the loop.", "anchors": ["src/common/maf/messaging/Timer.cpp: TimerMgr::checkAllTimers, onTimerModified, interruptCurrentTimer", "src/common/maf/messaging/Processor.cpp: runOnceUntil"]}
{"id": "C63", "title": "Aborted requests are made known to their handler, once", "statement": "If a request is aborted by its client or by the end of the provider, the callback given with onAborted is called, however giving it races with the abort; it is called once, and not for a request that was answered.", "quantifier": "all interleavings of onAborted, client aborts, replies and deinit/destruction", "why_tests_cant": "A callback given just while the abort is delivered can be missed or doubled in one interleaving only.", "anchors": ["src/common/maf/messaging/client-server/Request.cpp: onAborted, invalidate, getAbortCallback", "src/common/maf/messaging/client-server/ServiceProvider.cpp: onRequestAborted, invalidateAndRemoveAllRequests"]}
{"id": "C64", "title": "Every incoming request is handled exactly once", "statement": "A request for an operation with a handler is given to that handler exactly once, as a new valid request carrying the client's message; a request for an operation without one is answered with an error; the first handler registered for an operation is kept until it is unregistered.", "quantifier": "all histories and interleavings of requests and registrations of handlers", "why_tests_cant": "All interleavings of registration, removal and requests.", "anchors": ["src/common/maf/messaging/client-server/ServiceProvider.cpp: onActionRequest, registerRequestHandler, unregisterRequestHandler"]}
{"id": "C65", "title": "A new subscriber misses no value", "statement": "A client that registers for a property is sent its current value, a client that asks for it gets it, and a value that is set while the client registers is sent to the client by the set or was set before the value the registration sends was read.", "quantifier": "all interleavings of registrations with setStatus", "why_tests_cant": "The window between registering and reading the value is open in few interleavings.", "anchors": ["src/common/maf/messaging/client-server/ServiceProvider.cpp: onStatusChangeRegister, updateLatestStatus, onStatusGetRequest, setStatus"]}
{"id": "C66", "title": "Provider-side listeners hear every broadcast", "statement": "Every broadcast calls all listeners registered for its operation at that time, in the order of their registration, each with the value broadcast; nothing else calls them, and the notifications of two broadcasts are never interleaved.", "quantifier": "all interleavings of broadcasts and registrations of listeners", "why_tests_cant": "All interleavings of any number of broadcasts.", "anchors": ["src/common/maf/messaging/client-server/ServiceProvider.cpp: broadcastServerSide, registerNotification"]}
{"id": "C67", "title": "Registered clients end up with the current value", "statement": "When all calls have returned, the last value of a property that was sent to a registered client is the value of the property.", "quantifier": "all histories of setStatus, removeProperty, registrations and send outcomes", "why_tests_cant": "The order in which concurrent sets are sent depends on the schedule.", "anchors": ["src/common/maf/messaging/client-server/ServiceProvider.cpp: setStatus, broadcast, updateLatestStatus"]}
{"id": "C68", "title": "Requester and client agree on a service's availability", "statement": "When all news about services (status messages, found or lost server) have been worked off, serviceStatus() of every requester returns what getServiceStatus() of the client returns for its service, also for requesters that were asked for while the news were being worked off.", "quantifier": "all histories of status messages, server monitoring and getServiceRequester calls, in all interleavings", "why_tests_cant": "The window in which a requester is created between the update of the client and that of the requesters is open in few interleavings.", "anchors": ["src/common/maf/messaging/client-server/ClientBase.cpp: onServerStatusChanged, onServiceStatusChanged, getServiceRequester, getServiceStatus, deinit", "src/common/maf/messaging/client-server/ServiceRequester.cpp: onServiceStatusChanged, serviceStatus"]}
{"id": "C69", "title": "A client that takes its server to be available has registered with it", "statement": "The client considers the server available only after it has successfully sent its registration for service statuses since the server was last lost; as long as it could not, every further finding that the server is there sends it again, and when it has it is not sent again.", "quantifier": "all histories of found and lost servers and of send outcomes", "why_tests_cant": "All histories of failures.", "anchors": ["src/common/maf/messaging/client-server/ipc/LocalIPCClient.cpp: onServerStatusChanged, monitorServerStatus"]}
{"id": "C70", "title": "A registered client knows which services are available", "statement": "A client that has registered with a server is told of every service that is available, whether the service starts before, while or after it registers; when all calls have returned, what the client was last told of a service since it registered is whether the service's provider serves.", "quantifier": "all histories and interleavings of startServing, stopServing, registrations, lost clients, provider lookups and the server's shutdown", "why_tests_cant": "Registration, the start of a service and its stop can be interleaved at every lock; the windows between adding an address, reading the providers and telling the change are hit by few schedules.", "anchors": ["src/common/maf/messaging/client-server/ServiceProvider.cpp: startServing, stopServing", "src/common/maf/messaging/client-server/ServerBase.cpp: onServiceStatusChanged, deinit", "src/common/maf/messaging/client-server/ipc/LocalIPCServer.cpp: notifyServiceStatusToClient, onIncomingMessage"]}
{"id": "C71", "title": "Every change of a service is told once to exactly the registered clients", "statement": "A startServing or stopServing that has returned has told the change to every client that was registered when the telling began, once, and to nobody else; all clients are told of changes in the same order; a client that cannot be reached is forgotten, and no other is; a client that has unregistered or was forgotten is told nothing until it registers again.", "quantifier": "all histories and interleavings of changes, registrations, unregistrations and send outcomes", "why_tests_cant": "All interleavings of concurrent changes, and all send outcomes.", "anchors": ["src/common/maf/messaging/client-server/ipc/LocalIPCServer.cpp: notifyServiceStatusToClient, onIncomingMessage", "src/common/maf/messaging/client-server/ServerBase.cpp: onServiceStatusChanged", "src/common/maf/messaging/client-server/ServiceProvider.cpp: startServing, stopServing"]}
{"id": "C72", "title": "Ending, unregistering and asking a server is complete", "statement": "Ending a local server takes away all its providers at one moment, stops each of them exactly once, and only when all are stopped deinitialises each of them exactly once; it starts none. A client's unregistration for all services is answered true; the client is forgotten, and then every provider there is at that moment, and nobody else, is given the unregistration for its own service exactly once. startServing starts exactly its own provider once, stopServing stops it; availability answers whether the last of these done to the provider was a start.", "quantifier": "all interleavings of all calls on a server and all messages arriving at it, from any number of threads and clients", "why_tests_cant": "The set of providers changes concurrently; a test sees a few sets, orders and schedules.", "anchors": ["src/common/maf/messaging/client-server/ServerBase.cpp: ServerBase::deinit", "src/common/maf/messaging/client-server/ipc/LocalIPCServer.cpp: LocalIPCServer::onIncomingMessage", "src/common/maf/messaging/client-server/ServiceProvider.cpp: ServiceProvider::startServing, stopServing, availability, deinit"]}
{"id": "C73", "title": "Waiting for the status of a service tells the truth and misses no wake-up", "statement": "waitIfNot of a service status signal returns Ready only if at that moment the status last told to the signal is the expected one and nobody has stopped the signal; Interrupted exactly if it has been stopped; TimeOut only if neither holds and at least the interval has passed since the call. Every wait returns at most once. Whenever the status is the expected one, or the signal is stopped, every wait that has not returned can go on and returns with its next step; a timed wait whose interval has passed returns within three steps of its own. currentStatus returns the status last told.", "quantifier": "all numbers of waiting threads, intervals, histories of status changes and stops, and interleavings, including spurious wake-ups", "why_tests_cant": "A missed wake-up needs a status change in a window of nanoseconds between evaluating the condition and going to sleep; all interleavings have to be covered.", "anchors": ["include/maf/messaging/client-server/ServiceStatusSignal.h: ServiceStatusSignal::waitIfNot, stop, onServiceStatusChanged, currentStatus"]}
{"id": "C74", "title": "The synchronous timer calls back on time, and stop ends it", "statement": "SyncTimer::start blocks its caller and calls the callback (or gives it to the executor) not earlier than one interval after the call and one interval after the previous callback; a one-shot timer calls it at most once per start; a cyclic one calls it again only if at the return of the callback the timer is still cyclic; start returns only when the timer is stopped or the callback has been called, and one that nobody stops has called its callback. After stop, the callback is not called until the timer is started again; a stop from another thread does not overlap with the callback, and lets the blocked start return. Starting a running timer ends its former run; restart begins the interval anew; what is called is always the callback that was given.", "quantifier": "all threads that use one timer, all intervals, callbacks that use the timer themselves, and all interleavings, spurious wake-ups and delays", "why_tests_cant": "Windows between waking up and taking the mutex are too small to be hit; delays are unbounded.", "anchors": ["src/common/maf/messaging/SyncTimer.cpp: SyncTimer::start, restart, stop, setCyclic"]}
{"id": "C75", "title": "What is sent to a listening receiver arrives, once, in order", "statement": "Every message a peer has written to a receiver that is started and not stopped is given to the receive callback, exactly once and unchanged; nothing else is given to it. A message that was written before another connection was made is given before what arrives on that connection. Whatever other peers do (staying silent, hanging up, connecting in any number), the listening thread never stops making progress, and it drops a connection only when its peer hung up without a message.", "quantifier": "all numbers of peers, interleavings of their connecting, writing and hanging up with the listening thread and with any number of stop calls", "why_tests_cant": "Arrival orders, sets of readable sockets and numbers of simultaneously open connections are unbounded; the limits show only with dozens of idle peers.", "anchors": ["src/platforms/unix/maf/messaging/client-server/ipc/LocalIPCBufferReceiverImpl.cpp: LocalIPCBufferReceiverImpl::waitAndProcessConnections, start", "src/platforms/unix/maf/messaging/client-server/ipc/LocalIPCBufferSenderImpl.cpp: LocalIPCBufferSenderImpl::send"]}
{"id": "C76", "title": "Stopping a receiver ends it", "statement": "After stop of a receiver has been called, its listening thread ends in a bounded number of its own steps, and stop returns. When stop has returned, the receive callback is not called any more. The listening thread ends only if somebody called stop (or accept failed).", "quantifier": "all moments at which stop is called, any number of concurrent stop calls, and all interleavings with peers", "why_tests_cant": "The window between the creation of the thread and its first look at the state, and a full queue of waiting connections, are practically never hit by a test.", "anchors": ["src/platforms/unix/maf/messaging/client-server/ipc/LocalIPCBufferReceiverImpl.cpp: LocalIPCBufferReceiverImpl::stop, changeCurrentStateAndInterruptIfStop, waitAndProcessConnections", "src/common/maf/messaging/client-server/ipc/LocalIPCServer.cpp: LocalIPCServer::start, stop", "src/common/maf/messaging/client-server/ipc/LocalIPCClient.cpp: LocalIPCClient::start, stop"]}
{"id": "C77", "title": "What is sent to an address reaches the receiver given this address", "statement": "Giving a receiver an address succeeds iff its name is at most 107 bytes long and no receiver of a live process has this address; what is sent to an address reaches the receiver that was given this address and nobody else, and reaches nobody if there is none; a client sees its server iff there is a receiver at the server's address. A process can always make a client of a server it has none of. No address makes the code write beyond its buffers. A stopped server can be made again.", "quantifier": "all processes, addresses (names and ports) and histories of making servers and clients, stopping, sending, looking and exiting", "why_tests_cant": "Clashes depend on particular combinations of names, ports and process ids among unboundedly many.", "anchors": ["src/platforms/unix/maf/messaging/client-server/ipc/SocketShared.h: isValidSocketPath, createUnixAbstractSocketAddr, connectToSocket", "src/platforms/unix/maf/messaging/client-server/ipc/LocalIPCBufferReceiverImpl.cpp: LocalIPCBufferReceiverImpl::init", "src/platforms/unix/maf/messaging/client-server/ipc/LocalIPCBufferSenderImpl.cpp: LocalIPCBufferSenderImpl::send, checkReceiverStatus", "src/common/maf/messaging/client-server/ipc/LocalIPCClient.cpp: LocalIPCClient::init"]}
{"id": "C78", "title": "One client and one server per connection type and address", "statement": "Asking for the client (or server) of a connection type and an address gives one that was initialised with exactly this address and then started, or null; null only if the type is unknown or the initialisation just failed; asking again gives the same one, other addresses get other ones, each is initialised once. Closing stops all that were given and then shuts all of them down, each exactly once; what was closed is not given any more, and can be made anew.", "quantifier": "all connection types, addresses, orders of the calls, outcomes of initialisation, closes in between", "why_tests_cant": "Failures depend on the order in which particular addresses were asked for before, of unboundedly many.", "anchors": ["src/common/maf/messaging/client-server/ClientFactory.cpp: ClientFactory::getClient, ClientFactory::close", "src/common/maf/messaging/client-server/ServerFactory.cpp: ServerFactory::getServer, ServerFactory::close", "include/maf/utils/containers/Map2D.h: find"]}
{"id": "C79", "title": "A processor with its own thread has one, and is over when the wait returns", "statement": "Launching a processor makes exactly one thread that runs it; a processor never has two such threads; launching makes none iff one is there. When stopAndWait (or wait) returns other than by its timeout, the thread is over: nothing of the processor is executed by it any more. stopAndWait has stopped the processor when it returns, even by its timeout, and it always returns unless a function being executed does not. running says whether there is a thread. A processor that was stopped can be launched again.", "quantifier": "all schedules, users of the processor and of the wrapper, functions executed, calls from inside the executed functions, timeouts", "why_tests_cant": "Which thread is where when the stop comes in is a matter of the schedule.", "anchors": ["include/maf/messaging/ProcessorEx.h: AsyncProcessor::launch, AsyncProcessor::stopAndWait, AsyncProcessor::wait, AsyncProcessor::running", "src/common/maf/messaging/Processor.cpp: Processor::run, Processor::stop"]}
{"id": "C80", "title": "Every typed request is answered once, to its client", "statement": "The handler of typed requests is called at most once for each request, in the order of arrival. Whatever the handler does with its request object - answer, error, updates, move it into other variables, keep it, drop it - the request gets exactly one final answer, which goes to the client that sent it: the handler's, or, if the object is destroyed without one, the error ResponseIgnored; none after the client aborted it or the provider ended. respond, error and update return success iff they sent the answer, InvalidCall iff the request is over; they never crash.", "quantifier": "all requests, clients and ids chosen by them, all programs using request objects, aborts, ends of the provider, executors", "why_tests_cant": "Depends on all ways to move, overwrite and drop request objects and on ids chosen by different processes.", "anchors": ["include/maf/messaging/client-server/RequestT.h: RequestT, ~RequestT, respond, update, error", "include/maf/messaging/client-server/BasicStub.h: registerRequestHandler", "src/common/maf/messaging/client-server/Request.cpp: Request::reply, Request::invalidate", "src/common/maf/messaging/client-server/ServiceProvider.cpp: respondToRequest, getRequestInfo, onRequestAborted, invalidateAndRemoveAllRequests"]}
{"id": "C81", "title": "Typed values arrive as they were given", "statement": "What a service answers, sets as status or sends with a signal is what the client's callback or call gets: the same value (for every supported type), null for null or for an answer without value, and an error as an error with the same description and code; what a client sends as input is what the handler reads. The answer carries the operation and request id of the request. A synchronous call without success gives an error. A payload that can not be translated is handed out as null, never as another value, and never crashes; the kind of connection makes no difference.", "quantifier": "all types and values in the limits of the format, all answers, all ways a socket splits the data, all payloads of misbehaving or differently built peers", "why_tests_cant": "Unboundedly many types, values and splittings of the stream.", "anchors": ["include/maf/messaging/client-server/BasicProxy.h: getResposne, convert, makeError, sendRequest_, createUpdateMsgHandlerCallback", "include/maf/messaging/client-server/ResponseT.h: ResponseT", "include/maf/messaging/client-server/RequestT.h: getInput, respond, update, error", "include/maf/messaging/client-server/ipc/local/ParamTrait.h: translate", "include/maf/messaging/client-server/itc/ParamTrait.h: translate"]}
{"id": "C82", "title": "A status is the value that was set", "statement": "A status is a value: getStatus gives the value of the last setStatus; setStatus stores and sends it iff the value differs from the last one (null is always sent); the clients' callbacks are called with the values that were sent, in this order and all of them; cloneStatus gives a new object with the status' value. What the program does to its objects before or after, or a client does to what its callback got, has no influence on this.", "quantifier": "all histories of making, changing, setting and reading status objects by the service and its clients, both kinds of connection", "why_tests_cant": "The status depends on all objects that were ever handed over and are changed later by anybody who has a pointer.", "anchors": ["include/maf/messaging/client-server/BasicStub.h: setStatus, getStatus, cloneStatus", "include/maf/messaging/client-server/ipc/local/OutgoingPayload.h: equal, clone, serialize", "include/maf/messaging/client-server/itc/Payload.h: equal, clone", "src/common/maf/messaging/client-server/ServiceProvider.cpp: setStatus"]}
{"id": "C83", "title": "Typed callbacks run on the user's executor", "statement": "A function registered with registerStatus, registerSignal, sendRequestAsync or registerRequestHandler is called for every status, signal, answer or request that comes in for it while it is registered: with what came in, on the executor the user gave, in the order things came in; functions for the same thing in the order of registration. It is never called for anything else, no other function is called in its place, and no empty function is called however often it is used. After unregister has returned it is not called.", "quantifier": "all histories of registrations, unregistrations, requests, answers, notifications and incoming requests interleaved with the executor's steps, and the executor closing at any point", "why_tests_cant": "The lambdas move the user's function out when called; whether a call finds it depends on how often each stored function object was called and copied before.", "anchors": ["include/maf/messaging/client-server/BasicProxy.h: createResponseMsgHandlerCallback, createUpdateMsgHandlerCallback, registerStatus, registerSignal", "include/maf/messaging/client-server/BasicStub.h: registerRequestHandler", "src/common/maf/messaging/client-server/ServiceRequester.cpp: registerNotification, onRegistersUpdated, onRequestResult", "src/common/maf/messaging/client-server/ServiceProvider.cpp: onActionRequest, registerRequestHandler"]}
{"id": "C84", "title": "Calls from callbacks and from any thread do not deadlock", "statement": "The functions of proxies, stubs and request handles can be called from any thread and from callbacks; no thread waits for ever for a lock inside the library: no thread waits for itself, directly or through others. Callbacks (of requests, statuses, signals, request handlers, aborts) are called without any lock of the library held, and after every call has returned no lock is held.", "quantifier": "every number of threads, every schedule, every program (what each kind of callback calls), in-process and inter-process connections, any nesting of callbacks", "why_tests_cant": "A deadlock needs a particular interleaving or a callback that calls back at a particular moment; tests run a few of each.", "anchors": ["src/common/maf/messaging/client-server/ClientBase.cpp", "src/common/maf/messaging/client-server/ServerBase.cpp", "src/common/maf/messaging/client-server/ServiceRequester.cpp", "src/common/maf/messaging/client-server/ServiceProvider.cpp", "src/common/maf/messaging/client-server/Request.cpp", "src/common/maf/messaging/client-server/itc/Client.cpp", "src/common/maf/messaging/client-server/itc/Server.cpp", "src/common/maf/messaging/client-server/ipc/LocalIPCServer.cpp"]}
{"id": "C85", "title": "Log messages are written once, to the right function, exactly when their level is allowed", "statement": "A message is given to a logging function at most once, with its level's head and its pieces in order, to the first function for information, debug and verbose messages and to the second for all others; only if its level was allowed at some moment of the call, and certainly if it was allowed during the whole call. init, changeLogLevels, stopLogging, disable and enable allow exactly the levels they say; after stopLogging nothing is logged. The macros compile exactly the levels from the minimum upward; file names are shortened to what follows the last slash.", "quantifier": "every history of init, enable, disable, change, stop and log calls from any number of threads, every interleaving of the checks and writes, every mask, every message", "why_tests_cant": "Levels change between the two checks of a macro and the write; the masks and interleavings are too many.", "anchors": ["src/common/maf/logging/Logger.cpp", "include/maf/logging/Logger.h: log, MAF_LOGGER_WRITE, MAF_MIN_ALLOWED_LOG_LEVEL, constexprPastLastSlash"]}
{"id": "C86", "title": "A request gets its own answer, from end to end", "statement": "With any number of clients: what a request's callback is called with is what the service answered to this very request, whose handler was given the input the client had sent, or the error that there is no handler; the callback is called neither after the final answer nor after the abort. Requests of one client arrive in the order sent, each once. If nothing is on its way, each request has been finally answered, or aborted, or is open at the service, which can still answer it; whoever answers a request for the first time, unless aborted, succeeds, and his answer arrives. An abort callback is called exactly for requests their own client has aborted before they were answered.", "quantifier": "every number of clients, every history of sending, aborting, arriving, answering, updating, registering and unregistering handlers, every order of arrivals", "why_tests_cant": "The property joins tables of all clients and of the service over every order of messages; tests see a few.", "anchors": ["src/common/maf/messaging/client-server/ServiceRequester.cpp: sendRequestAsync, abortRequest, onRequestResult", "src/common/maf/messaging/client-server/ServiceProvider.cpp: onActionRequest, onRequestAborted, respondToRequest, getRequestInfo", "src/common/maf/messaging/client-server/Request.cpp: respond, update"]}
{"id": "C87", "title": "Statuses and signals reach every registered callback, from end to end", "statement": "With any number of clients: a callback is called only with values that were set (signals that were broadcast) for its operation, while it is registered, and never with an older value after a newer one; signals never twice. Every value set and every signal broadcast while the service has a client registered is told to each callback this client has, unless it is unregistered before. When nothing is on its way the service has exactly those clients registered that have a callback, each callback was last called with the current value, and getStatus gives the current value at once. A client without a callback that asks for a status gets exactly one answer, not older than what was set before it asked.", "quantifier": "every number of clients and operations, every history of setting, removing, broadcasting, registering, unregistering, asking and arriving, every order of arrivals", "why_tests_cant": "It joins the registrations and stores of all clients and of the service with the messages on their way; tests see a few orders.", "anchors": ["src/common/maf/messaging/client-server/ServiceRequester.cpp: registerNotification, unregister, unregisterAll, getStatus, onRegistersUpdated, cachePropertyStatus", "src/common/maf/messaging/client-server/ServiceProvider.cpp: setStatus, broadcastToClients, onStatusChangeRegister, updateLatestStatus, onStatusGetRequest"]}
{"id": "C88", "title": "Waiting for work given to a processor tells the truth and ends", "statement": "A function given to waitableExecute is run at most once, by a thread that runs the processor it was given to, or at once when called on such a thread; the signal is invalid exactly if the processor was stopped when it was called. get gives what the function returned or threw, and a broken promise only if the function is never run; the variant that returns a value returns what the function returned; nothing runs any more once the outcome was taken. A thread waits only for a function that is in its processor's queue or being run; stopping a processor releases all who wait for what is still in its queue. If threads that run processors wait only for processors of lower rank, each run by a thread, somebody always goes on.", "quantifier": "any number of processors and threads, every history of giving, running, returning, throwing, waiting, stopping and reusing, every interleaving of the steps of the calls", "why_tests_cant": "Whether a waiter is released depends on how stop interleaves with the steps of the calls, and deadlocks on what all threads do; tests see few schedules.", "anchors": ["src/common/maf/messaging/Processor.cpp: waitableExecute, executeAsync, addExecution, run, runUntil, stop, reuse", "include/maf/messaging/Processor.h: waitableExecute", "include/maf/threading/Upcoming.h: UpcomingBase"]}
{"id": "C89", "title": "Processes chained to an upcoming result run once, in order, when asked for", "statement": "get on a chain of processes made with then blocks until the source is resolved, and then gives the composition of all the processes on the source's result: each process is called with the result of the one before, in the order of attachment, and the first exception ends the chain; a missing result (broken promise, nothing there) is nullopt for a value and an exception for void. wait runs the chain and keeps the result, so that a later get runs nothing again. Whatever is moved, dropped, waited for or taken, a process is called at most once per attachment, and none is called by attaching, moving, dropping, resolving or polling. then, move, get leave the source object empty. Polling should report ready once the source is resolved.", "quantifier": "any number of promises and variables, every chain length, every process, every history of fetch, then, move, drop, get, wait, poll and resolution", "why_tests_cant": "Chains of every length, every placement of wait among the thens and every interleaving with the producers: tests see a few chains.", "anchors": ["include/maf/threading/Upcoming.h: Upcoming::then, Upcoming::get, UpcomingBase::wait, waitFor, waitUntil"]}
{"id": "C90", "title": "Sessions on a protected object exclude each other and lose no update", "statement": "Whenever a thread opens, uses or ends a session on an AtomicObject or Lockable (operator->, operator*, atomic(), operator=), no other thread is in a session on it or on an object sharing its mutex. A read gives the last value written. What a thread does in one session is not interrupted by others, so that read-modify-write in one session never loses an update. A session can be opened exactly if nobody is in one under the same mutex (for a recursive mutex: nobody else); a session that was moved from gives nothing back. If nested sessions follow one order of the mutexes, some thread in a session can always go on.", "quantifier": "any number of threads, objects, shared or own, plain or recursive mutexes, every history of opening, moving, using and destroying sessions, every schedule", "why_tests_cant": "Mutual exclusion and lost updates depend on the schedule.", "anchors": ["include/maf/threading/AtomicObject.h: AtomicRefBase_, atomic, operator->, operator=", "include/maf/threading/Lockable.h: AtomicRef, atomic, operator=", "include/maf/threading/MutexRef.h: MutexReference"]}
{"id": "C91", "title": "What handing a function to an executor promises", "statement": "When execute() of an executor returns true the function has been run or will be; when it returns false it was not run and never will be. A function is run at most once per call, on a thread of the processor it was handed to, while that processor exists and is not stopped. What is handed to a running processor is run, or still queued, or was dropped by a later stop or destruction; what is handed to a stopped or destroyed processor is never run, not even after reuse(). The blocking executor does not return before its function was run, or the processor stopped. An exception leaves a processor's loop only because a function threw. A function made by willExecuteOnThis and its variants hands over its function at most once however often it is called.", "quantifier": "any number of processors and functions, throwing or not, every interleaving of handing over, running, stopping, reusing, destroying, of making, copying and calling will-functions, from any thread", "why_tests_cant": "Whether a task is lost depends on when the processor is stopped or destroyed relative to the call.", "anchors": ["src/common/maf/messaging/Processor.cpp: AsyncExecutor, DefaultExecutor, WaitableExecutor, Processor::execute, executeAsync, waitableExecute, willExecuteOnThis, willAsyncExecuteOnThis, willBlockingExecuteOnThis", "src/common/maf/utils/DirectExecutor.cpp: DirectExecutor::execute", "include/maf/utils/ExecutorIF.h: ExecutorIF"]}
{"id": "C92", "title": "A string buffer is an in-memory file", "statement": "A BasicStringBuf behaves as a text with a place to read at and a place to write at: every result of putting, getting, peeking, putting back, ungetting, seeking (relative or absolute), str() and str(s) is that of this text, for each of the open modes, and whatever was written is what str() gives and what is read back. No character outside the allocated array, and none that was never written, is ever touched, and the array handed back has the size it was allocated with. Construction from a string is refused exactly when it is longer than INT_MAX.", "quantifier": "every sequence of operations with 64-bit offsets, every open mode, every initial text, of any length", "why_tests_cant": "The pointers, the high-water mark and the capacity drift apart only after particular sequences of growth, seeks and put-backs.", "anchors": ["include/maf/utils/serialization/BasicStreamBuf.h: BasicStringBuf, overflow, pbackfail, underflow, seekoff, seekpos, init, tidy, str"]}
{"id": "C93", "title": "A write-only stream buffer holds what was written", "statement": "The text of a BasicStreamBuf is the concatenation of everything written to it since it was last set. sputn returns the number of characters written, all of them; sputc succeeds and returns the character it wrote; flushing without a character succeeds and changes nothing.", "quantifier": "every sequence of writes, flushes and resets", "why_tests_cant": "It must hold for every character and sequence; tests look at the text, not at the values returned.", "anchors": ["include/maf/utils/serialization/BasicStreamBuf.h: BasicStreamBuf::xsputn, overflow, str"]}
{"id": "C94", "title": "Over named pipes, what was sent is delivered, once and intact", "statement": "On Windows, every buffer the receiver hands over is one a program sent, whole and unchanged; one call of send leads to at most one delivery; if send does not return Success, the buffer is not delivered; if it returns Success, it is delivered; and no interleaving of slow clients and the listening thread corrupts memory.", "quantifier": "every number of sending threads and processes, every schedule of their steps with those of the listening thread, every buffer", "why_tests_cant": "Whether a header or body arrives before or after the receiver looks at the pipe depends on the scheduler; the failures need a client delayed between connecting and writing.", "anchors": ["src/platforms/windows/maf/messaging/client-server/ipc/LocalIPCBufferReceiverImpl.cpp: fillbuffer, startListening, readOnPipe, disconnectAndReconnect", "src/platforms/windows/maf/messaging/client-server/ipc/LocalIPCBufferSenderImpl.cpp: send, sendImpl, openPipe, writeToPipe"]}
{"id": "C95", "title": "Named pipe senders and receivers end, and fail only for a reason", "statement": "On Windows, send gives up after at most 100 tries when the receiver is busy; the receiver is not brought to a halt by anything a client writes; it initialises also when clients are already waiting; it can be stopped at any moment and started again; and it is reported available while it is listening.", "quantifier": "every schedule of clients, other programs, and stop; every log level", "why_tests_cant": "The number of retries depends on the log level and on timing; the halts need foreign clients or a stop in the middle of a step.", "anchors": ["src/platforms/windows/maf/messaging/client-server/ipc/LocalIPCBufferReceiverImpl.cpp: initPipes, stop, startListening, fillbuffer", "src/platforms/windows/maf/messaging/client-server/ipc/LocalIPCBufferSenderImpl.cpp: send, sendImpl", "src/platforms/windows/maf/messaging/client-server/ipc/NamedPipeSenderBase.h: checkReceiverStatus"]}
{"id": "C96", "title": "A connection handle controls exactly its own handler", "statement": "No two handles refer to the same connection; making, moving, assigning and destroying handles and putting them into groups does not change which handlers a message calls; disconnect takes away exactly the handler the handle refers to, a group exactly those of its members, the processor's disconnect(msgid) exactly those for that message; reconnect makes the handler be called again; connected() tells the truth; no connection is used after it was deleted or deleted twice, and none is leaked.", "quantifier": "every sequence of calls on any number of processors, messages, handles and groups", "why_tests_cant": "The faults need particular interleavings of disconnects through different ways, or assignments onto handles in use; leaks are not visible to tests.", "anchors": ["src/common/maf/messaging/Processor.cpp: cleanupUnconnectedMsgHandlers, connect, disconnect, MsgConnection", "include/maf/messaging/MsgConnectionGroup.h", "include/maf/utils/SignalSlots.h: Connection"]}
{"id": "C97", "title": "Callbacks for the status of a service hear every change, on their executor", "statement": "A callback given to a proxy's onServiceStatusChanged is called with every change of the service's availability from then on, each once, in order, by the executor of the proxy, and first with Available if the service is available; it is not called after it was unregistered; trouble with one callback or its processor ends neither the others nor the program.", "quantifier": "every schedule of changes, registrations, processors' threads, stops and ends of processors; every executor; callbacks that throw or not", "why_tests_cant": "Needs changes that arrive between the steps of a registration, while a processor is stopped or going, or with several tasks in its queue.", "anchors": ["include/maf/messaging/client-server/BasicProxy.h: onServiceStatusChanged", "include/maf/messaging/client-server/ServiceStatusObserverDelegater.h", "src/common/maf/messaging/client-server/ServiceRequester.cpp: registerServiceStatusObserver, unregisterServiceStatusObserver, forwardServiceStatusToObservers", "src/common/maf/messaging/Processor.cpp: AsyncExecutor, DefaultExecutor"]}
{"id": "C98", "title": "Operation ids tell the operations of a service apart", "statement": "Two operations have the same id only if they are the same operation: operations of a contract if prefix, name and kind agree, simple requests if name, input and output agree; a handler therefore gets what was sent, as an object of the class it expects; a pointer to a message answers with the id of the message.", "quantifier": "all prefixes, names, kinds and classes", "why_tests_cant": "The set of names is unbounded: a test can only show that the ids of its own operations differ.", "anchors": ["include/maf/messaging/client-server/CSContractDefinesBegin.mc.h: mc_maf_csc_declare_feature", "include/maf/messaging/client-server/itc/TypeIDParamTrait.h: MAF_CS_SIMPLE_REQUEST, getOperationID, translate", "include/maf/messaging/client-server/ParamTraitBase.h: getOperationID, isSameOpID"]}
{"id": "C99", "title": "Equal texts mean equal values", "statement": "Two values of one type that dump or toString write as the same text at the same level are equal; a compact text (negative level) is one line; an indented text keeps the indentation of its level; brackets are nested; texts of a value at two levels differ in blanks and new lines only.", "quantifier": "all types built from booleans, integers, enumerations, strings, containers, maps, pairs, tuples, pointers, variants and generated objects; all values; all levels", "why_tests_cant": "The project's own tests compare texts to compare values: whether that is sound is a statement about all pairs of values of unboundedly nested types.", "anchors": ["include/maf/utils/serialization/Dumper.h: dump, toString, DumperSFINAE, Packager, writeIndent", "include/maf/utils/serialization/VariantDump.h", "include/maf/utils/serialization/Internal/SerializableObjectImpl.mc.h: mc_maf_sb_define_dump_functions", "test/serialization_test.cpp: serializationTest"]}
{"id": "C100", "title": "Loading an object from JSON sets what the JSON says and nothing else", "statement": "Loading the JSON of an object gives that object, to any depth; a member the JSON does not mention, or mentions with another kind of value, keeps its value, whatever the others are; a JSON that is no object, or a text that is no JSON, changes nothing.", "quantifier": "all generated classes with members of boolean, integer, string, vector, map and object types, nested to any depth; all JSON values; all previous contents", "why_tests_cant": "Classes and JSON values are nested without bound, and the effect must be shown for every previous content.", "anchors": ["include/maf/utils/serialization/Internal/SerializableObjectImpl.mc.h: load_from_json, load_from_json_str", "include/maf/utils/serialization/3rdparty/Json11Trait.h: J11TraitImpl, JsonTrait<json11::Json>"]}
{"id": "C101", "title": "Generated objects compare, copy and order by their members", "statement": "An object made with arguments has them in order, and declared values or zero for the rest; setting a member changes it alone; == holds just if all members are equal; < is a strict order in which objects neither of which is less are equal, the member declared first deciding; an object that is sent arrives as it was.", "quantifier": "all classes, all member values, all lawful orders on them", "why_tests_cant": "Order laws and equality are statements about all pairs and triples of objects of classes with any number of members.", "anchors": ["include/maf/utils/serialization/Internal/SerializableObjectImpl.mc.h: mc_maf_sb_endobject, mc_maf_sb_define_constructors, mc_maf_sb_define_get_set_funcs, mc_maf_sb_object_ex", "include/maf/utils/serialization/Tuplizable.h: MC_MAF_GENERATE_AS_TUPLE_METHOD"]}
{"id": "C102", "title": "Messages from other processes do what their code names, and nothing else", "statement": "Whatever bytes a server or client receives, it does exactly what the message's operation code names, at the service the message names, and reports whether it did; bytes that are no message, codes meant for the other side and codes that are not declared do nothing and are never undefined behaviour. Codes print as their names, no two alike.", "quantifier": "all byte sequences received, all sets of provided services and of requesters, all log levels, all enumerations declared with the macro", "why_tests_cant": "Any process may connect and send any bytes; the claim is about all of them, at all log levels.", "anchors": ["include/maf/utils/StringifyableEnum.h: MC_MAF_STRINGIFYABLE_ENUM", "src/common/maf/messaging/client-server/ServiceProvider.cpp: onIncomingMessage", "src/common/maf/messaging/client-server/ServiceRequester.cpp: onIncomingMessage", "src/common/maf/messaging/client-server/ServerBase.cpp: onIncomingMessage", "src/common/maf/messaging/client-server/ClientBase.cpp: onIncomingMessage", "src/common/maf/messaging/client-server/ipc/LocalIPCServer.cpp: onIncomingMessage, onBytesCome", "src/common/maf/messaging/client-server/ipc/LocalIPCClient.cpp: onBytesCome"]}
{"id": "C103", "title": "A chain of processors applies its functions in order", "statement": "Calling a ProcessorChain applies the functions added with then on the way to it, each once and in the order they were added, and returns what comes out; adding to a chain leaves the chain it was added to usable; connected() and valid() say whether it has a function.", "quantifier": "all programs that make, copy and extend chain objects, all functions, all inputs", "why_tests_cant": "Programs build chains of any length from any earlier object.", "anchors": ["include/maf/utils/ProcessorChain.h: ProcessorBase_, ProcessorChainBase_::then, ProcessorChain"]}
{"id": "C104", "title": "No member of an aggregate is ever skipped", "statement": "In a program that compiles, tuple_view of an aggregate holds every member once, in order, and for_each_field visits exactly them; aggregates of up to 100 members that are no C arrays do compile, larger ones do not.", "quantifier": "all aggregate types (any number of members, nested aggregates, std::array and C array members)", "why_tests_cant": "The number of members is guessed by trying initialisers; the types are the user's.", "anchors": ["include/maf/utils/cppextension/Aggregate.h: tuple_view, for_each_field", "include/maf/utils/cppextension/TypeTraits.h: is_n_args_braces_constructible", "include/maf/utils/cppextension/TupleManip.h: tuple_for_each"]}
{"id": "C105", "title": "Aggregates are compared member by member", "statement": "Two values of one aggregate type compare equal exactly when all their members, at every level, do; < is decided by the first member that differs; != > >= <= agree with == and <; the order is a strict weak order when the members' are.", "quantifier": "all aggregate types, all values, all member comparisons", "why_tests_cant": "Types nest to any depth and the leaves' operators are the user's.", "anchors": ["include/maf/utils/cppextension/AggregateCompare.h: flaten, operator==, operator<, MC_MAF_MAKE_COMPARABLE"]}
{"id": "C106", "title": "Stream objects do not disturb each other", "statement": "The reads through an input stream, a copy of it or a view of it return the bytes it was made from, from where it stood, in order and without gaps, whatever is done with other streams, copies and views; they succeed while no more is asked than there is, and from the first one that asks for more all are refused.", "quantifier": "all programs that make, copy, move, view, read, clear, reset and destroy streams, all contents", "why_tests_cant": "Any number of objects over one buffer, used in any order.", "anchors": ["include/maf/utils/serialization/IByteStream.h: BasicIByteStream, IByteStream, IByteStreamView"]}
{"id": "C107", "title": "Every recipient decodes the whole payload", "statement": "Any number of recipients of one incoming payload decode it at the same time, each read of each in any order: each gets the result it would get alone on the payload as it came in, and the payload stays as it was.", "quantifier": "all payloads, all decoders (each read may depend on the earlier ones), all numbers of recipients, all interleavings", "why_tests_cant": "Recipients run on different threads; schedules are unbounded.", "anchors": ["include/maf/messaging/client-server/ipc/local/IncomingPayload.h: streamView, clone", "include/maf/messaging/client-server/ipc/local/ParamTrait.h: translate", "src/common/maf/messaging/client-server/ServiceRequester.cpp: onRegistersUpdated"]}
{"id": "C108", "title": "Errors are values", "statement": "Error objects are independent values: a clone or copy of an error is equal to it and is not affected by what happens to the other; equal tells whether code and text are equal; making, copying, changing and destroying errors in any order is safe as long as none is used after its destruction.", "quantifier": "all programs that make, clone, copy, assign, change, read, compare and destroy errors", "why_tests_cant": "Object lifetimes interleave in unboundedly many ways.", "anchors": ["include/maf/messaging/client-server/CSError.h: CSError", "src/common/maf/messaging/client-server/CSError.cpp: CSError::clone, equal, setCode, setDescription, ~CSError"]}
{"id": "C109", "title": "Objects given to a thread pool are used while they live and deleted if asked for", "statement": "A pool runs, stops and finishes a Runnable only while it is alive; it deletes exactly those objects with autoDelete set that it has finished with, each once, and no others; after shutdown all of them are deleted.", "quantifier": "all pool kinds and sizes, all schedules of submissions, workers and shutdown, all flags", "why_tests_cant": "Use after free and double deletion depend on the interleaving of workers and shutdown.", "anchors": ["include/maf/threading/Runnable.h: Runnable, run, stop, done", "include/maf/threading/ThreadPoolImplBase.h: coptRun, stopThePool", "src/common/maf/threading/threadpool/StableThreadPool.cpp", "src/common/maf/threading/threadpool/DynamicCountThreadPool.cpp", "src/common/maf/threading/threadpool/PriorityThreadPool.cpp"]}
{"id": "C110", "title": "The thread that serves local IPC handles every message and keeps looking at the servers", "statement": "In a process that uses local IPC, the messages that come in for its clients and servers are handled one after the other in the order in which they came in, each once, and every one of them is handled; a started client keeps looking whether its server is there, at intervals of 5 to 500 milliseconds that grow by 5 while nothing changes and are 500 after a change; stopping or destroying a client affects this client only.", "quantifier": "all numbers of clients and servers, all schedules of starts, stops, destructions, arrivals, clock changes and steps of the thread, all answers of the looks", "why_tests_cant": "Whether a look or a message is lost depends on which job arrives while the thread waits for a timer and on when another thread stops a client; a test sees one such schedule.", "anchors": ["src/common/maf/messaging/client-server/SingleThreadPool.cpp: submit, ThreadPool", "src/common/maf/messaging/client-server/ipc/LocalIPCClient.cpp: start, stop, monitorServerStatus, onBytesCome", "src/common/maf/messaging/client-server/ipc/LocalIPCServer.cpp: onBytesCome", "src/common/maf/messaging/Timer.cpp: mgr, TimerMgr::stop, checkAllTimers"]}
{"id": "C111", "title": "A timer calls the function it was last given and keeps it while it is needed", "statement": "When a timer expires it calls the function it was given by the last start (or by timeoutAfter), never an empty or destroyed one and never one of a destroyed Timer; a function is destroyed exactly once, not before the timer is given another one or the Timer object is gone, not while it is executed, and no function is leaked once its timer is gone and has nothing left to do.", "quantifier": "all timers, all schedules of starts, stops, restarts, destructions, timeoutAfter calls, jobs and expirations, including those made from within callbacks", "why_tests_cant": "Which of the shared pointers to a timer's data is released last, and what a callback does to its own timer while it is executed, depends on the schedule; a test sees one.", "anchors": ["src/common/maf/messaging/Timer.cpp: TimerData::reset, TimerData::onExpired, Timer::~Timer, Timer::timeoutAfter, checkAllTimers, onShortestTimerExpired"]}
{"id": "C112", "title": "After a failed read nothing more is decoded", "statement": "Once reading from a byte stream has failed, whatever is deserialized from that stream afterwards fails as well: deserialize returns false, and the target and the stream stay as they were; a number, a variant or a smart pointer that cannot be decoded keeps its value.", "quantifier": "all types, all target values, all streams and places of the failure", "why_tests_cant": "It concerns every type and every place at which the data can end, followed by any further reads.", "anchors": ["include/maf/utils/serialization/Serializer.h: deserialize", "include/maf/utils/serialization/VariantSerializer.h: deserialize", "include/maf/utils/serialization/IByteStream.h: read"]}
{"id": "C113", "title": "Functions connected with an object or an executor run exactly when they may", "statement": "In any network of signals, a function connected with an object (connect(object, function)) runs whenever the signal's emission reaches its slot, on the emitting thread and with the emitted arguments, while the object exists, and never afterwards; the object is not destroyed while the function runs, and a dead object's slot disappears quietly. A function connected with an executor is handed to the executor exactly once per emission and is called at most once for each, and not after its object has been destroyed or it has been disconnected.", "quantifier": "all networks of signals, objects, executors and threads, all schedules", "why_tests_cant": "Whether an object dies before, during or after a call, and when executors run their functions, depends on the schedule.", "anchors": ["include/maf/utils/SignalSlots.h: BasicSignal_::connect (TrackableObjPtr, executor), combineSlotWithExecutor"]}
{"id": "C114", "title": "A signal connected to a signal forwards every emission", "statement": "When a signal is connected to another signal, each call of that slot emits the other signal on the same thread with the same arguments and returns when that emission has ended, i.e. all slots of the other signal have been called; if the other signal has been destroyed, the slot disappears quietly. Emissions of connected signals by several threads always come to an end.", "quantifier": "all networks of signals, any number of threads, all schedules", "why_tests_cant": "The signals lock each other's slot lists in the order of the connections, so that outcomes depend on the network's shape and on the schedule.", "anchors": ["include/maf/utils/SignalSlots.h: BasicSignal_::connect (otherSignal), BasicSignal_::notify, MyKeeper_"]}
{"id": "C115", "title": "A single-connection signal has one connection at a time and tells truthfully which", "statement": "A signal that takes one connection connects a function exactly if no other is connected; the connection returned, connected(), disconnect() and reconnect() tell truthfully whether the function is connected; every emission calls the connected function once with the emitted arguments, and nothing if there is none, also when functions connect, disconnect or reconnect during the call; a disconnected function is not called before it is reconnected, a scoped connection that ends disconnects its function and no other, and a function is never destroyed while it is being called. A failed reconnect leaves the connection as it was.", "quantifier": "all histories of connect, disconnect, reconnect, destruction of connections, clear, emissions and destruction of the signal, also from within the function being called", "why_tests_cant": "Which function an emission calls depends on the whole history of connections, including those made during calls.", "anchors": ["include/maf/utils/SignalSlots.h: SingleSlotKeeper, Connection, ScopedConnection, BasicSignal_::saveSlot, SCSignal"]}
{"id": "C116", "title": "Waiting for a signal gets the first emission, and always ends once it cannot get one", "statement": "waitableConnect returns a valid object exactly while its slot is connected; the slot receives the first emission that ends after it was connected, and no other; wait() returns true after having called the function exactly once, on the waiting thread, with that emission's arguments; it returns false only if the slot can receive no emission any more, and it does return once the emission has been received or the slot has been disconnected or its signal destroyed, also by cancel(). No emission that comes after waitableConnect has begun to connect is lost, and none of this corrupts memory.", "quantifier": "all schedules of emissions, waits, cancellations, destruction of the signal and of the waiting object by any number of threads", "why_tests_cant": "An emission can fall between any two steps of connecting, checking, cancelling and waiting.", "anchors": ["include/maf/utils/SignalSlots.h: waitableConnect, FutureInvocation, BasicSignal_::connect (ConnectionAwareSlotType)"]}
{"id": "C117", "title": "Sending to all processors asks each joined one once, and its signal tells when all have handled the message", "statement": "sendToAll gives the message to every processor that has joined, is not stopped and has a handler for it, each exactly once, in the order of the identifiers, while nobody can join or leave; its signal is valid exactly if somebody took the message. Each handler is called at most once, with the message. get() of the signal returns only when all those processors are done with the message: without an exception if all have handled it, with an exception if one failed; it does return once they are all done. The router stays usable meanwhile.", "quantifier": "all schedules of broadcasts, joins, leaves, stops, handler registrations, handlers (returning, throwing, using the router themselves) and waits by any number of threads", "why_tests_cant": "Which processors are asked, when their handlers run and what the handlers do is up to the schedule and to user code.", "anchors": ["src/common/maf/messaging/Router.cpp: sendToAll, askThenSend", "src/common/maf/messaging/Processor.cpp: waitablePost, connected, processMessage", "include/maf/threading/Upcoming.h: get"]}
{"id": "C118", "title": "The sender closes its sockets exactly once, and nobody else's", "statement": "Every socket that is opened to send a message or to look for a receiver is closed exactly once, not while a handle still holds it, and not later than its last handle ends; sending never closes a descriptor that the rest of the process has opened, although descriptor numbers are used again.", "quantifier": "all histories of handles being made, moved, assigned, reset and destroyed, interleaved with any other opening and closing of descriptors in the process", "why_tests_cant": "Which numbers the kernel hands out and what lies in uninitialised memory differs from run to run.", "anchors": ["src/platforms/unix/maf/messaging/client-server/ipc/SocketShared.h: AutoCloseFD, connectToSocket", "src/platforms/unix/maf/messaging/client-server/ipc/LocalIPCBufferSenderImpl.cpp: connectable, send"]}
{"id": "C119", "title": "The result of an asynchronous call tells whether its callback will be called", "statement": "sendRequestAsync returns a valid id and Success exactly if the request was handed to the transport successfully; then the callback waits for the answer until the answer has come, the request is aborted or the service is lost. Otherwise it returns an invalid id and the reason, and no answer is matched to the request afterwards. getStatus with a callback returns Success exactly if it has called the callback with the known value (once) or the callback waits for the service's answer.", "quantifier": "all interleavings of calls on a requester, incoming messages and changes of availability, and all results of the transport", "why_tests_cant": "The result must be right for every moment at which the transport fails, the answer comes in (even before send returns) or the service is lost.", "anchors": ["src/common/maf/messaging/client-server/ServiceRequester.cpp: sendRequestAsync, getStatus, sendMessageAsync, storeAndSendRequestToServer, removeRegEntry"]}
{"id": "C120", "title": "What a queued function owns is released once, and its destructors may use the processor", "statement": "Every function handed to a processor is called at most once, never after it was destroyed, and destroyed exactly once, never while it runs: when no thread is in the processor's code any more, each function handed over is destroyed or still in the queue. The destructors of what it owns may call the processor like any other code, and nobody waits for ever because of it.", "quantifier": "all interleavings of any number of threads that hand over functions, run the processor (run, runFor, runOnce, nested), stop, reuse and ask for the number of pending functions, from functions and from destructors", "why_tests_cant": "Destructors run at moments the caller does not see (in the next wait, in stop, at the end of the loop); whether they find the queue's mutex locked depends on the schedule and on what else is queued.", "anchors": ["src/common/maf/messaging/Processor.cpp: run, runUntil, runOnceUntil, stop, addExecution, pendingCout", "include/maf/threading/ThreadSafeQueue.h: push, wait, waitUntil, clear, size"]}
{"id": "C121", "title": "Timers may be used from any thread", "statement": "Timers of different processors do not disturb each other. A Timer may be started, restarted, stopped and destroyed on any thread: after it is stopped or destroyed its callback is not invoked, a start or restart takes effect, and the processor it was started on goes on with its other timers and jobs.", "quantifier": "all interleavings of any number of processors and other threads operating on timers, and all clock readings", "why_tests_cant": "The managers of timers are per thread while the data of a timer are shared; whether a call on another thread is harmless depends on where the other threads are and on the clock.", "anchors": ["src/common/maf/messaging/Timer.cpp: mgr, Timer::~Timer, Timer::stop, Timer::start, Timer::restart, TimerMgr::checkAllTimers, TimerMgr::stop, TimerMgr::remove"]}
{"id": "C122", "title": "this_processor and the thread hooks survive exceptions", "statement": "this_processor::instance() is the processor of the outermost of the loops (run, runFor, runUntil, runOnceFor, runOnceUntil) the calling thread is in, for functions, thread hooks and the destructors of what functions own alike, and null outside of any loop, however the loops were left. In run, functions are executed only after threadInit has returned and before threadDeinit is called, and threadDeinit is called exactly once before run is left, whether it returns or a function throws.", "quantifier": "all nestings of loops of any processors on a thread, all sequences of functions, and every point at which threadInit, threadDeinit, a function or a destructor throws", "why_tests_cant": "An exception may leave at any point of any nesting of loops; tests do not exercise throwing hooks or look at the thread-local pointer from destructors.", "anchors": ["src/common/maf/messaging/Processor.cpp: Processor::run, Processor::runUntil, Processor::runOnceUntil, testAndSetThreadLocalInstance, clearTLInstanceIfSet, this_processor::instance", "include/maf/utils/CallOnExit.h: CallOnExit"]}
{"id": "C123", "title": "Enumerators are written as their names", "statement": "Every enumerator of an enumeration declared with MC_MAF_STRINGIFYABLE_ENUM is written to a stream as its own name, and declarations for which this would not hold (custom values) do not compile, as the header promises.", "quantifier": "all enumerations: any number and names of enumerators, any initialisers, any underlying type", "why_tests_cant": "The macro is instantiated for arbitrary lists of enumerators; tests print a handful of values of a few enumerations and none with initialisers that slip through the check.", "anchors": ["include/maf/utils/StringifyableEnum.h: MC_MAF_STRINGIFYABLE_ENUM, MC_MAF_STRINGIFY, operator<<", "include/maf/utils/cppextension/Macros.h: mc_maf_for_each"]}
{"id": "C124", "title": "A SignalTimer calls the slots connected to it at every expiry, and only then", "statement": "Each time a SignalTimer expires, every slot connected to its timeoutSignal is called once, in the order of connection; slots are called at no other time and never before the time given to start has passed. After stop has returned no slot is called until the timer is started again. Slots may use the SignalTimer freely, also stop or destroy it, and once it is destroyed no slot is called and nothing of it is used.", "quantifier": "all histories of any number of SignalTimers of a processor: starts, stops, restarts, connects, disconnects, destructions by jobs and by slots, clock readings, nested loops", "why_tests_cant": "The number of timers, slots and interleavings of expiries with calls made by slots is unbounded; no test stops or destroys a SignalTimer from one of its slots or runs the processor's loop there.", "anchors": ["include/maf/messaging/SignalTimer.h: SignalTimer", "src/common/maf/messaging/Timer.cpp: Timer::~Timer, TimerMgr::checkAllTimers, TimerMgr::onShortestTimerExpired", "include/maf/utils/SignalSlots.h: MultiSlotKeeper::notify"]}
{"id": "C125", "title": "Each change of a service's status is posted once to the processor of every observer registered with it", "statement": "When a requester tells a change of the status, every observer made by asyncServiceStatusObserver and registered then posts exactly one status message to its processor, in the order of registration; observers can neither register nor unregister meanwhile. A registration posts one message of its own iff the service was available then. Nothing else posts status messages. Messages of changes are queued, and dispatched by a thread, in the order in which the changes were told, each at most once and by one thread, and a handler is called with a status message only by such a dispatch. A message that its post has not queued is never queued later. Every message reaches the handlers of the processor, and handlers may register and unregister observers.", "quantifier": "all interleavings of any number of threads that change the status, register and unregister observers, post, connect, disconnect, run, stop and restart the processor or give it up", "why_tests_cant": "The number of observers, changes, threads and interleavings of a walk with posts, dispatches, stops and registrations is unbounded; no test connects a handler late, registers from a handler, or stops the processor between a change and its dispatch.", "anchors": ["include/maf/messaging/client-server/AsyncServiceStatusObserver.h: asyncServiceStatusObserver, AsyncServiceStatusObserver::notifyServiceStatusChange", "src/common/maf/messaging/client-server/ServiceRequester.cpp: registerServiceStatusObserver, unregisterServiceStatusObserver, forwardServiceStatusToObservers", "src/common/maf/messaging/Processor.cpp: Processor::post"]}
{"id": "C126", "title": "A signal stays right when its slots throw, and when a slot is connected more than once", "statement": "An emission calls the connected slots in order of connection, one call per connection, up to the first that throws; the exception goes to the emitter. After any history, also with exceptions, connecting, disconnecting and reconnecting a slot, asking a connection whether it is connected, connectionCount, connected and the next emissions give what they should for the list of connections: disconnecting a slot removes its oldest connection, reconnecting connects it only if it is not connected. A single-connection signal is such a list of at most one connection; connecting fails while there is one.", "quantifier": "all histories of calls on a signal, all slots that throw in any emissions, with asserts compiled in or out", "why_tests_cant": "Histories and the places where exceptions come out are unbounded; the tests have no slot that throws and connect no slot twice.", "anchors": ["include/maf/utils/SignalSlots.h: MultiSlotKeeper::add, addUnique, notify, remove, has, size, valid, clear", "include/maf/utils/SignalSlots.h: BasicSignal_::connect(SlotPtrType), disconnect, connected, connectionCount", "include/maf/utils/SignalSlots.h: SingleSlotKeeper"]}
{"id": "C127", "title": "An observable stays right when its observers throw", "statement": "set stores the value and tells the observers in order, up to the first that throws; the exception goes to whoever sets the value, and so it does when a mutable_() reference is let go. After a set that returns normally every observer has been told the value. A connect whose function throws when it is called the first time has connected nothing. After any history, also with exceptions, every call gives what it should for the value and the list of observers.", "quantifier": "all histories of calls on an observable, all observers that throw at any calls", "why_tests_cant": "Histories and the places where exceptions come out are unbounded; the tests have no observer that throws.", "anchors": ["include/maf/utils/Observable.h: StateBasedSlotKeeper::set, silentSet, notifyOne, notifyState", "include/maf/utils/Observable.h: ObservableBasic_::connect_, silentlyConnect_, ~SubStateRefBase_"]}
{"id": "C128", "title": "An exception on a thread does not stop its timers", "statement": "When a function or a timer's callback executed by a processor throws, and the user catches the exception and runs the processor again, every timer of that thread that is running will still be called once its time has come, and so will those started later. Whatever exceptions come out, a timer is not called after it was stopped until it is started again, and a timer that is not cyclic is called at most once for each start.", "quantifier": "all histories of functions and callbacks that start and stop timers, return or throw, with timers falling due at any time", "why_tests_cant": "The histories, the number of timers and the places where exceptions come out are unbounded; the tests have no function and no callback that throws while timers run.", "anchors": ["src/common/maf/messaging/Timer.cpp: TimerMgr::checkAllTimers, start, stop, onTimerModified, onShortestTimerExpired, checkRecordListEmpty", "src/common/maf/messaging/Processor.cpp: run, runUntil, runOnceUntil"]}
{"id": "C129", "title": "Message dispatch stays right when handlers throw", "statement": "A dispatched message reaches the handlers connected for its type, in order of connection, up to the first that throws. After any history, also with exceptions that the user catches, connecting and disconnecting handlers and the next messages, of this type and others, do what they should, and post accepts a message on a running processor iff a handler is connected for its type.", "quantifier": "all histories of connecting, disconnecting, posting and dispatching messages of any types, all handlers that throw at any calls, with asserts compiled in or out", "why_tests_cant": "Histories and the places where exceptions come out are unbounded; the tests have no handler that throws.", "anchors": ["src/common/maf/messaging/Processor.cpp: ProcessorDataPrv::processMessage, msgConnected, cleanupUnconnectedMsgHandlers, Processor::post, connect, disconnect", "include/maf/utils/SignalSlots.h: MultiSlotKeeper::notify, remove"]}
