# Formal model of sepcon/maf in Lean 4 — design

The model lives in `lean/Verif/`. It is written function by function after the C++ in `/repo` (read as text, never built).

| directory | content |
|---|---|
| `Verif/Model/*` | transcription of the code; every definition cites file and lines, the header of each file lists the simplifications |
| `Verif/Spec/*` | small specifications in terms of observable events; they do not use the model's helpers |
| `Verif/Lemmas/*` | helper lemmas, invariants |
| `Verif/Props/*` | the property theorems, each with an `example` that meets its hypotheses, and the witnesses of refuted claims |
| `tools/claims.txt` | property → status, theorems, note; `tools/mkmanifest.py` makes `MANIFEST.json` and `lean/Verif.lean` from it |
| `tools/mutate.py` | seeded bugs: edits one definition in a scratch copy, rebuilds, appends the outcome to `seeded/LOG.jsonl` |

## Trusted base

* Lean 4.33.0's kernel.
* Axioms: every theorem depends on at most `propext`, `Classical.choice` and `Quot.sound` (see "Axioms"). None of our own; no compiled-code tactics, no placeholder proofs.
* The transcription of the C++ into Lean definitions (that the model is what the code says).
* The C++ standard library (mutex, condition_variable, atomic, function, promise/future, vector, list, map, set, heap algorithms) is modelled by its specification. The memory model is sequentially consistent
  (shared variables in the code are mutex-protected or seq_cst atomics, except where a definition says otherwise).
* Little-endian target with 8-bit bytes.

## How the models are made

Four styles, chosen by what a property quantifies over.

1. **Functions** (serialization, messages, framing, addresses, tuple_diff): the C++ function is a total Lean function, with streams and out-parameters as explicit state; undefined behaviour is an outcome of its own.
   Proofs by induction over types, values, bytes or chunk schedules.
2. **Transition systems** (queue, pools, processor, router, timers, requester): the steps are the code's atomic actions (an atomic load, a critical section, a block, a wake-up); any number of threads; user code is arbitrary.
   Proofs by invariants over all reachable states; histories are logged, and a `Hist` predicate says what may follow what.
3. **Action sequences** (signals, observables, compounds, guards): a recursive mutex makes the calls atomic; slots are arbitrary programs, so calls made within a slot come between its call and return.
4. **Programs of atomic operations** (provider, client, server; `Model/Calls.lean`): each call is a tree of atomic operations written with `do`, so it reads like the C++ function; calls are interleaved arbitrarily and the environment
   chooses the outcome of sends and callbacks. `Lemmas/Calls.lean` shows that what each call does in a run is a path of its program; `Lemmas/Section.lean` has monitors for critical sections and for calls made one after the other.

Witnesses of refutations are concrete runs of the same models, evaluated by the kernel (`rfl`, `decide`). "Refuted" = the code violates the English property: a theorem proves the negation on a concrete run, a `_partial` theorem
states what does hold, and the property's claim is `partial`.

## Properties

### Serialization — `Model/Stream`, `Model/Serialize`
Universe of types `Ty` (numbers of any width, strings of any character width, pointers, sequences, sets, maps, pairs, tuples, variants, nested), its denotation, `serialize`, `deserialize` (with the out-parameter's old value as an argument,
as in C++), `serializedSize`; input/output byte streams.
* C01, C02: induction over the type universe, for every suffix. Fresh target; recorded exclusions: a stale target is appended to, an empty tuple never succeeds. C03: corollary of C02. C04: induction; equality modulo 2^32.
* C05: the failed stream state is proved for every type and cut; "returns false" is refuted for containers, tuples, pointers (`success |=`).
* C06: induction over types for any stream state. C07: reading through a view is a function of a copy; histories by induction. C08: decision logic of variant decoding for every input. C09: histories of writes and resets.
* C10: refuted (`hostile_size_accepted`: 4 bytes make a 2^32-1 element container); bounded whenever the stream is not failed afterwards.
* C53: decoded sets and maps are strictly ordered, by induction over the insertions.

### Local IPC — `Model/IPCMessage`, `Model/Framing`
* C11, C12, C50: header/payload layout over the serializer model.
* C13: receiver loop against an arbitrary schedule of chunk sizes; refuted when the 4-byte prefix is split (`split_length_prefix_dropped`).
* C14: refuted (`failed_write_reported_as_success`). C51: refuted for a peer that sends more than announced (`overlong_peer_overflows`). C52: never delivered is proved; refuted: the receiver spins at end of file (`dead_peer_spins`).

### Threading — `Model/Queue`, `Model/ThreadPool`
* C15, C54: invariants; the history of pushes and pops. C16: "never from an empty queue" refuted with reOpen (`reopen_pops_empty`). C17: refuted (`close_loses_wakeup`: `close` notifies without the mutex).
* C46: never twice, never both run and dropped; refuted: `late_push_lost` (submission overlapping shutdown), `dynamic_pool_exceeds_max`. C55: fixed pools proved, dynamic pool refuted (`dynamic_pool_terminates`: std::terminate). C47, C56: invariants.

### Processor — `Model/Processor`, `Model/Async`
* C18, C20: invariants tying the queue, the taken execution and the log; signals move only by `Maf.Sig.step`. Refuted part of C20: `post_true_no_handler`, `disconnect_during_dispatch`.
* C19: refuted in three ways (`true_though_dropped`, `taken_runs_after_stop`, `late_push_runs_after_reuse`); `true_means_queued_partial` etc.
* C60: lock chains (`lock_chains_partial`), progress (`can_go_on`: every activation has its next step enabled unless it waits for a lock or for work); refuted (`post_connect_deadlock`: a handler that connects while another thread posts).
* C79: the wrapper's calls around steps of `Model/Processor` (the events of the processor are those of a run of it, `is_processor`); launched threads are identified with the odd thread ids. Invariant ties the future, the launched threads' stacks and the log. Refuted: `stop_in_function`, `launch_again_idle`, `launch_ignored`, `stop_lost`.

### Routing — `Model/Router`
* C21: refuted parts `create_race`, `anonymous_ids_repeat` (32-bit counter), `stop_evicts_other`. C22: refuted part `new_not_told`. C61: the router's lock is always released.

### Waiting for work — `Model/Waitable`
Any number of processors and threads; tasks with their signals; the steps of a call (test, two halves of the push), of `stop` (close, clear) and of the loops interleave. C88: each task is at one place (`Place`: on one thread's stack, in one queue, or over), from which follow what `get` may give and whom a waiter waits for; deadlock freedom by induction on the rank.

### Timers — `Model/Timer`
* C29–C32, C62: clock may jump; heap algorithms by specification (the action carries the new order). Refuted: `drift`, `lost_timer_spins`, `restart_not_recorded`, `restart_undefined`, `reuse_forgets`; `_partial` theorems hold for calm histories (defined in `Spec/Timer`).

### Signals and observables — `Model/Signal`, `Model/Observable`, `Model/Compound`
* C23–C25, C58: tickets for insertions, invariants over action sequences. C57: refuted parts `self_disconnect_undefined`, `nested_emit_undefined`.
* C26: proved. C27: refuted parts `reconnect_stale`, `nested_reference_stale`; the overload `connect(std::function)` does not notify. C28: refuted `compound_lags` (a source in change). C59: refuted for executors that reorder (`reordering_executor_stale`).

### Client side of services — `Model/Requester`, `Model/Client`, `Model/IDManager`
* C33: fetch-and-add loop; the exact period after which ids recur.
* C34: refuted `partial_after_final`. C35: refuted `answered_after_abort`. C40: refuted `late_subscriber_stale`, `stale_after_loss`, `null_status_undefined`. C41: refuted `registrations_cross`, `failed_register_strands`, `unregister_unknown_asks`.
* C42: refuted `callback_after_loss`, `request_survives_loss`, `told_twice`, `stale_greeting`, `lookup_blocks`, `throwing_observer`; observers otherwise proved for all schedules. C45: refuted `partial_update_returned`.
* C43 (client half), C69: all schedules. C68: refuted `overlap_disagrees`, `end_disagrees`; proved when news come one after the other.

### Server side of services — `Model/Provider`, `Model/Server`, `Model/Handle`
* C36: refuted `wrong_completed` (requests are found by operation and id only). C37: refuted `racing_replies_crash`, `abort_reply_crash`, `update_after_final`. C38: refuted `same_object_broadcast`, `null_broadcast`. C39: refuted `result_inverted`, `result_inverted_busy`.
* C63: refuted `aborted_twice`, `called_though_answered`, `callback_blocks`; proved when exactly it is called again (`aborted_again_partial`) and that a completed request is silent (`answered_silent_partial`). C64, C65, C66: all schedules (C66 with `listener_blocks`). C67: refuted `crossed_values`, `crossed_registration`.
* C43 (server half): all schedules. C70: `learns` for all schedules; refuted: `crossed_changes`, `deinit_untold` (`deinit_silent`: always), `busy_untold`; `status_known_partial` by positions in the history: the last registration, the last change, the last message.
* C71: all schedules and send outcomes, by the monitor `rnd` of the section in which clients are told.
* C72: all schedules; by the path of operations of the call (`Props/ServerCalls`), which the log contains in order.
* C80: the variables of type `RequestT` of the user's program, with all ways to make, move, overwrite and destroy them, on top of requests and the provider's map; calls one at a time (overlapping replies: C37). Invariant: under `Separate` the valid requests are exactly those that are in the map and not ended, and every request whose handler was called is held by a variable, overwritten or over. Refuted: `overwritten_unanswered`, `refused_unanswered`, `collision`, `moved_from_crash`.

### Requests from end to end — `Model/EndToEnd`
Composition of client and server tables with messages on their way between any number of clients and one service; each library function is one step (their interleavings are in the models above). C86: invariants on what is sent, on its way, handled, open and pending (`Lemmas/EndToEnd`); a second layer of invariants for histories in which ids of two clients do not collide (`Apart`), and witnesses that collisions lose answers and abort foreign requests.

### Statuses and signals from end to end — `Model/News`
Composition of the clients' registrations and stores and the service's properties and registrations, with messages on their way; a delivery is two steps (callbacks, then store). Values carry a ghost number. C87: invariants over an intermediate `Move` relation (`Lemmas/News`): what is on its way is in order, what the server will think of a client once its messages have arrived is what the client has (`Agree`), the current value is stored or on its way (`Curr`), and told to each callback unless one was registered during a delivery (`Told`, `Calm`).

### Chains on an upcoming result — `Model/Upcoming`
Futures are move-only, so a chain is a tree with one source at the bottom; `eval` is `future::get` on it. C89: `Chain acts x c b ps k` is read off the user's actions alone and shown to agree with the state (`chain_state`), for every valid variable (`valid_chain`); the calls and the result follow by induction on the chain; `called_once` by a weight (calls made + processes still held) that only `then` increases.

### Sessions — `Model/Atomic`
Threads, objects, mutexes (own, shared, recursive) and session objects that are made, moved and destroyed. C90: the mutex's owner and depth agree with the live sessions and with the sessions opened and ended in the log (`Inv`), from which follows a rule for every event of the log (`Rule`); atomicity and the absence of lost updates are consequences over the log alone.

### Executors — `Model/Executor`
Processors with a queue, `stop`, `reuse` and destruction; the three executors, the direct executor, and the mutable lambdas of `will...OnThis`. C91: state invariant (`Inv`: call numbers, queue against log, stopped and destroyed flags as functions of the log), then what must precede each event (`Rule`, `Back`) and what becomes of each call (`Fate`), each by cases over the kinds of step (`Case`).

### String buffers — `Model/StringBuf`
`BasicStringBuf` with pointers as offsets into an array of cells that may be unwritten; touching an unwritten or absent cell, or freeing another size than was allocated, is `ub`. C92: simulation relation `Rel` with the file of `Props/StringBufSpec`, kept by every operation. C93: `BasicStreamBuf`, by computation and induction over the run.

### Windows transport — `Model/NamedPipe`
The pipes are modelled by their specification (see the head of the file); the receiver thread, any number of `send` calls and foreign programs interleave step by step. A relation `Case` lists the kinds of steps; the invariants `Inv` (what is in a pipe is what its client wrote and the receiver has not read), `LogInv`, `StopInv`, `InitInv`, `TryInv` are kept by each kind. C94, C95 as above; the refutations are concrete runs, `never_gives_up` and `retries_for_ever` for any number of rounds.

### Connection handles — `Model/MsgConnection`
Processors' maps of signals, signals' slots, heap objects behind handles with the variant weak/own/empty, variables and groups. Invariant `Inv` = `Core` (slots and connections fit) and `Own` (each undeleted connection has exactly one handle, or one was overwritten); each action keeps it (`inv_step`). C96 follows from the invariant and the effect of `cut`/`relink` on `called`; the two refutations are concrete runs.

### Status callbacks — `Model/StatusCallback`
The walk over the locked list (one observer per step), registrations with the greeting as a separate step, processors' queues. The invariant has the history's rules, the list and the walk as functions of the history, and for each callback: called ++ queued ++ lost is a permutation of what was given (`Served`), a sublist for direct and asynchronous executors. C97.

### Operation ids — `Model/OperationId`
The macros' string literals as lists of characters; the cast without check as a distinct outcome. Proof by splitting at the last dot. C98.

### Texts of values — `Model/Dumper`
A universe of types (mutual inductive `Ty`/`Flds`) with their values (`Val : Ty → Type`) and `dump` by recursion on the type, in the order of the code (objects: every member with a comma, then the last comma made a blank). Proof: every text is self-delimiting (`Reads`: what follows a value begins with a delimiter or is empty, and both are determined), by mutual induction on types; the other shapes by one induction over properties closed under side-by-side, brackets and new lines (`Kept`). Floating point, wide strings and JSON values are not modelled. C99.

### JSON loading — `Model/JsonLoad`
Member types and their values as a universe (like C99), scalars as cells that may be indeterminate, conversions beyond a type's range as undefined behaviour; json11 by what its accessors answer. `toJson` is the specification. C100.

### Generated objects — `Model/GeneratedObject`
Own and inherited members apart; comparisons as std::tuple defines them. C101.

### Codes from the wire — `Model/WireCodes`
The receipt of bytes up to the choice by operation code, on both sides, over `Model/IPCMessage`; printing of an enumeration as an access to the array of its names, out of bounds as undefined behaviour, reached only if the log level is allowed (Model/Logger). The specification goes by the printed names of the codes. C102.

### Processor chains — `Model/ProcessorChain`
Chain objects as closures over the (moved) function they were made from, programs as lists of new/copy/then. A `std::function` moved from is empty, as in libstdc++. The void specialisations do not compile when used and are not modelled. C103.

### Aggregates — `Model/Aggregate`
Values with their structure (leaf, aggregate class, `std::array`, C array), the search for the number of members by `T{any, …}`, the structured binding (with "does not compile" as an outcome), flattening and the six operators. That each of the 2×100 generated rows binds and uses `a1 … an` in order was checked with a script on the text; the model has one row for all `n`. Base classes, bit fields, reference members and `std::array` of length 0 are not modelled. C104, C105.

### Stream objects — `Model/StreamObj`
Programs over a heap of streams and views; recipients of a payload as decoders over views of one shared buffer, interleaved read by read. Moving an `IByteStream` copies it (no move constructor). C106, C107.

### Errors — `Model/ErrorObj`
`CSError` objects as pointers to heap cells, with the compiler-generated copy operations; double deletion and use after deletion are undefined behaviour. C108.

### Runnable objects — `Model/Runnable`
What `run`, `stop` and `done` do with the object behind a task, replayed over the log of the pool model; using a deleted object and reading a flag that was never set are undefined behaviour. C109.

### The IPC thread — `Model/Monitor`
The single thread behind all local IPC of a process, built on the timer model: works queued by clients and servers, the clients' monitor timers, `stop` and destruction by threads of the user (whose timer manager is another one, so that only `running` is cleared). Order, intervals and the structural invariant are proved for all runs, progress for runs without stops by a lexicographic measure; the timers' theorems are used through a refinement (`timers`). C110 is partial: `stop_freezes` shows that stopping a client freezes the whole thread.

### Callbacks of timers — `Model/TimerCallback`
A layer over the timer model: every step is a step of `Model/Timer`; on top, the function of each timer, the shared pointers to its data (the `Timer` object, the records, the loops of `checkAllTimers`, a callback that is executed) and the destruction of the function with the last of them or when it is replaced. Invariant by induction over runs (`Lemmas/TimerCallbackInv`). C111 is partial: re-arming a timer from its own callback destroys the executing function.

### Decoding after a failure — `Props/SerializeFailed`
On the serializer model: structural induction over types shows that a failed stream decodes nothing and does not change (C112). Pointers are the exception: their flag byte is initialised to null and the result to success, so that a failed read passes for a null pointer.

### Networks of signals — `Model/Network`, `Spec/Network`, `Props/Network`
Any number of signals (each moves by `Model/Signal`), threads with stacks of frames, objects with reference counts (the user's pointer and the locked weak pointers of running slots) and executors' jobs. Each signal's recursive mutex is held during its emission. The invariant relates the network's history to each signal's own log (so that C23–C25, C57 apply to each of them), every slot's kind to the event after its call, every forwarding frame to the emission it has begun, and frames to mutex owners (C113, C114).

### Single-connection signals — `Model/SingleSlot`, `Spec/SingleSlot`, `Props/SingleSlot`
One keeper with one place, connections as in `Model/Signal`. The specification folds the history to the connected function and to the function being called; the invariant ties them to the state (C115).

### Waiting for a signal — `Model/Invocation`, `Spec/Invocation`, `Props/Invocation`
One `FutureInvocation` and its slot, any number of threads, with the keeper's mutex, the temporary references that `connected` and `disconnect` hold, promise and future. The specification folds the history to the slot's fate and to the emission in progress (C116).

### Sending to all — `Model/SendToAll`, `Spec/SendToAll`, `Props/SendToAll`
The router's mutex, the loop over the joined processors, inline and queued tasks, promises, `get`; any number of threads, whose user code may call the router from within a handler. Processors are seen through their interface only (stopped, handler known, handler present). The specification reads off the history who was asked, which tasks a broadcast has, and which broadcast is on its way (C117).

### Self-closing descriptors — `Model/AutoClose`, `Spec/AutoClose`, `Props/AutoClose`
Handles of type `AutoCloseFD` as variables, the process's descriptor table with numbers that are used again, other code that opens and closes its own. The history records which socket (not number) is opened and closed by whom (C118).

### Results of asynchronous calls — `Props/AsyncCalls`
Uses `Model/Requester`: what `sendRequestAsync` and `getStatus` with a callback return, against what was stored, sent and answered (C119). `getStatus` drops the status of its send, so the model has a mode of its own for it (`How.get`).

### Release of functions — `Props/Release`
`Model/Release` gives each thread a stack of activations (user code, destructors, run loops, queue operations) and the queue's mutex an owner where user destructors run with it locked (C120). One invariant for the life of functions (each is in the queue, in one frame, or destroyed), one for the mutex (one owner, with one frame that has it locked).

### Timers on several threads — `Props/TimerThreads`
`Model/TimerThreads` puts any number of threads, each with the manager, processor and stack of `Model/Timer`, over common timer data; plus `stop`/`~Timer` on threads without a processor (C121). Proof: a simulation of each thread by a run of `Model/Timer` when timers are confined to their thread; `step_agree` says that a step does not look at other timers' data.

### The processor of a thread — `Props/ThisProcessor`
`Model/ThisProcessor` is one thread's stack of loops and user code with exceptions, in the order in which `run`, `runUntil` and `runOnceUntil` set the pointer, build the guard and destroy their locals (C122). Proof: an invariant relating the frames of the stack to the history (`Lemmas/ThisProcessor`); the stale pointer by a second invariant kept by every step.

### Enumerations — `Props/EnumText`
`Model/EnumText`: the macro's expansion for a list of enumerators with optional initialisers, C++'s values of enumerators, the static assertion and the access to the array of names (C123). Proof: induction over the list.

### Timers with a signal — `Props/SignalTimer`
`Model/SignalTimer` joins the models of timers and of signals: every step of either is a step, an expiry emits the signal of its timer, an emission keeps the processor's thread until its slots have returned (C124). Each expiry has a number, which is the argument of its emission in the model. Proof: the parts are runs of their own models (`parts`), an invariant on the joint log ties each emission to the expiry before it; the rest follows from C23, C29 and C31.

### Observers that post the status — `Props/StatusPost`
`Model/StatusPost` puts the requester's list of observers on top of the model of a processor: every step of the processor is a step, a notification is the call of `post` by the thread that makes it (C125). Each notification has a number, carried by its message in the model. Proof: the processor's part is a run of its own model (`parts`); one lemma says what any step of the processor does to a `post` under way and to the queue (`post_step`); an invariant on the joint log ties posts to notifications; order in dispatch and results come from C18 and C19, the deadlock from the lock rules of C60.

### Slots that throw — `Props/SignalThrow`
`Model/SignalThrow`: the keeper's list with its null pointers and `notifying_`, one emission with any of its slots throwing, in both builds (asserts in or out); slots may be connected by pointer any number of times (C126). Specification: a plain list of slots. Proof: the list without null pointers is the specification's list in every state (`step_live`); null pointers are there only while `notifying_` is set (`step_clean`). `Model/SingleThrow` is the same for single-connection signals (`Props/SingleThrow`). Slots that use the signal while called are in `Model/Signal` (they do not throw there).

### Observers that throw — `Props/ObsThrow`
`Model/ObsThrow` puts the value on top of `Model/SignalThrow` (C127). Proof: value and list without null pointers agree with the specification after every step of a tame history (`tame_step`, `tame_run`); the refutations hold for every history before them.

### Timers and exceptions — `Props/TimerThrow`
`Model/TimerThrow`: the thread's stack of functions, callbacks and `checkAllTimers`, the running timers, `state_` and the queued checks; deadlines are abstracted to 'any running timer may be due' (C128). Proof: an invariant (a state Waiting belongs to a wait on the stack; running timers have a check on the stack or queued) and induction on the stack for the way to the next call; for the refutations, invariants that nothing but stopping (starting) a timer leaves.

### Handlers that throw — `Props/MsgThrow`
`Model/MsgThrow`: the map from message types to signals, each as in `Model/SignalThrow` (C129); where the exception goes is C122. Proof: as for C126, type by type.

### Typed layer — `Model/Typed`, `Model/Shared`, `Model/Closure`
* C81: the translation functions of proxy, stub and parameter traits on top of `Model/IPCMessage`, `Model/Framing`; composition of C11, C13 and C01. Refuted: `corrupt_delivered`, `error_input_crash`, `bare_differs`.
* C82: heap of status objects shared by the service, the provider and clients of the same process (the other models take payloads as values). Invariant under `Untouched`: what pointers lead to is what was set. Refuted: `changed_unseen`, `stale_call`, `client_changes`.
* C83: function objects as values that are used up by a call, the tables that hold them, the executor's queue. Invariant: every stored function object still holds the user's function; submitted tasks = calls made ++ queue. Refuted: `called_after_unregister`, `refused_lost`.

### Mutexes of the client-server layer — `Model/Reentry`
* C84 (partial): every function of the layer is a skeleton of lock, unlock, choice, loop and calls of the user's code; conditions are free choices, so all executions of the code are among the model's. `Ok` types a skeleton with the mutexes held before and after, under an order of the mutexes; `body_ok` types every function; invariant over all interleavings. `no_deadlock_partial`, `progress_partial`, `called_without_mutex_partial`, `exclusive`, `released`. Refuted for observers, listeners, destructors of callbacks and abort callbacks at the end of a provider (called with a mutex held): `observer_registers`, `observer_creates`, `listener_broadcasts`, `drop_answers`, `late_abort_asks`, `end_answers`, `crossing`.

### Waiting for a service — `Model/StatusSignal`
* C73: transition system (mutex sections atomic, condition variable by specification); one invariant; wake-ups: `asleep → predicate false` is invariant because both writers notify under the mutex.

### Synchronous timer — `Model/SyncTimer`
* C74: transition system with threads, nested `start`s, the recursive mutex and the condition variable; one invariant over all runs (`Inv`) gives the rules every log obeys (`EvOk`); a second one (`Solo`) for runs in which threads use the timer one after the other. Refuted: `restart_ignored`, `both_run`, `empty_called`, `nested_unstoppable`.

### Listening, endpoints and factories — `Model/Receiver`, `Model/Endpoint`, `Model/Factory`
* C75, C76: transition system of the listening thread (every access to the atomic state, every system call, every slot of the select loop is one step), any number of peers and of `stop` calls; the kernel by its specification. One invariant (`Inv`) gives the rules every log obeys; a rank function of the loop position gives the bounds on the number of steps. Refuted: `message_leaked`, `sent_to_stopped`, `stop_lost`, `stop_blocks`.
* C77: socket names as functions of address names; invariant: the live sockets are those of the live receivers. Refuted: `wrong_port`, `client_clash`, `no_restart`.
* C78: the factories on top of the search trees of `Model/Address` (so the broken order of `Address` is seen). Invariant: what is stored is what was initialised with that address. Refuted: `not_given_again`, `stopped_given`, `no_server_again`.

### Values — `Model/Address`, `Model/Guards`
* C44: refuted `order_broken`, `regid_order_broken`, `set_loses` (`<` is not an order); exact characterisation of when it is one. C48: induction over tuples. C49: refuted `exit_copied_twice`, `exit_assigned_lost`, `time_twice`, `time_lost`.

### Logging — `Model/Logger`
* C85 (partial): the levels are an atomic byte; a call is a sequence of steps (two checks, the look at the debug level, the write) between which others' steps come. Invariant over all histories: `once`, `only_calls`, `to_function`; induction over the call: `logged_allowed`, `allowed_logged`, `none_after_stop`; `levels_change`, `init_functions`, `file_name`. Refuted: `enable_allows_nothing`, `enable_forbids` (`enable` is `&=`), `after_stop`, `init_loses_err`, `debug_compiled`, `verbose_compiled`, `verbose_compiles`, `silence_compiles`.

## What is not modelled

* The kernel's sockets (modelled by their specification), failures of `socket`, `listen` and `setsockopt`, the Windows implementations other than the named pipes (`Model/NamedPipe`), directory and console helpers, `BusyTimer`.
* itc `Server`/`Client`: same bases as the ipc ones (ServerBase, ClientBase are modelled); their transport is a direct call (its locking is modelled in `Model/Reentry`, C84).
* Exceptions other than where stated (observers, deserialization), allocation failure, destruction order of static objects.
* Progress (liveness) is stated as "a step is always possible" or "no circular wait", not under a fairness assumption.

## Axioms

`vcheck` replays all modules and reports no other axioms than the three above. To list them for one theorem: `#print axioms Maf.Srv.change_told` etc. in a scratch file; the union over all theorems of MANIFEST.json is
{`propext`, `Classical.choice`, `Quot.sound`}. `Classical.choice` comes in through `by_cases`, `omega`, `simp`; `Quot.sound` through function extensionality.
