/-
The mutexes of the client-server layer, for calls from any number of threads and from callbacks.

Models the order in which src/common/maf/messaging/client-server/{ClientBase,ServerBase,ServiceRequester,ServiceProvider,Request}.cpp,
itc/{Client,Server}.cpp and ipc/{LocalIPCClient,LocalIPCServer}.cpp lock and unlock their mutexes (`Lockable` maps and `Request::_mutex`,
all of them `std::mutex`: a thread that locks one it holds already waits for ever) and where they call the user's code. Each function
is a skeleton: what it locks, what it calls; conditions on data are free choices, so the skeletons have all executions of the code and
more. Connections are numbered: 0 is the one inside the process (itc), where sending a message is a call of the other side's function
in the same thread; for the others (ipc) sending is a socket operation that calls nobody back. Not modelled: waiting for an answer
(`sendRequest`; C45), the mutexes of the user's executors, of signals (recursive) and of `ServiceStatusSignal` (C73).
-/
namespace Maf.Reent

/-- A mutex: `c` connection, `s` service, `q` request. -/
inductive Mx where
  /-- ClientBase.h `_requestersMap` -/
  | requesters (c : Nat)
  /-- ClientBase.h `_serviceStatusMap` -/
  | statuses (c : Nat)
  /-- ServiceRequester.h `serviceStatusObservers_` -/
  | obs (c s : Nat)
  /-- ServiceRequester.h `registerEntriesMap_` -/
  | reg (c s : Nat)
  /-- ServiceRequester.h `requestEntriesMap_` -/
  | req (c s : Nat)
  /-- ServiceRequester.h `propertiesCache_` -/
  | cache (c s : Nat)
  /-- ServerBase.h `providers_` -/
  | providers (c : Nat)
  /-- LocalIPCServer.h `registedClAddrs_` -/
  | told (c : Nat)
  /-- ServiceProvider.h `propertyMap_` -/
  | prop (c s : Nat)
  /-- ServiceProvider.h `serverSideListenersMap_` -/
  | listeners (c s : Nat)
  /-- ServiceProvider.h `regEntriesMap_` -/
  | clients (c s : Nat)
  /-- ServiceProvider.h `requestsMap_` -/
  | requests (c s : Nat)
  /-- ServiceProvider.h `requestHandlerMap_` -/
  | handlers (c s : Nat)
  /-- Request.h `_mutex` -/
  | request (q : Nat)
deriving DecidableEq

/-- The user's code. -/
inductive Place where
  /-- a thread of the program -/
  | main
  /-- callback of a request, a registered status or signal, of `getStatus` -/
  | answer
  /-- handler of incoming requests -/
  | handler
  /-- abort callback of a request, called because its client aborts it -/
  | abort
  /-- service status observer, told the status when it is registered -/
  | newObserver
  /-- service status observer, told a change -/
  | observer
  /-- listener of a status or signal registered with the stub -/
  | listener
  /-- abort callback, called because the provider ends -/
  | abortEnd
  /-- abort callback, given to a request that is not valid any more -/
  | abortLate
  /-- destruction of what a callback has captured (registration or request), removed from its table -/
  | dropCallback
  /-- destruction of an observer -/
  | dropObserver
  /-- destruction of what a request handler has captured -/
  | dropHandler
  /-- destruction of an abort callback that is replaced -/
  | dropAbort
deriving DecidableEq

/-- Codes of messages (CSTypes.h `OpCode`). -/
inductive Op where
  | register | unregister | request | update | statusGet | abort | gone
deriving DecidableEq

/-- The functions of the library a program can call, or a receiving thread of an ipc connection. -/
inductive Api where
  | createProxy (c s : Nat)
  | sendRequest (c s : Nat)
  | abortRequest (c s : Nat)
  | registerStatus (c s : Nat)
  | unregister (c s : Nat)
  | unregisterAll (c s : Nat)
  | getStatus (c s : Nat)
  | registerObserver (c s : Nat)
  | unregisterObserver (c s : Nat)
  | deinitClient (c : Nat)
  | createStub (c s : Nat)
  | registerHandler (c s : Nat)
  | unregisterHandler (c s : Nat)
  | setStatus (c s : Nat)
  | broadcastSignal (c s : Nat)
  | stubStatus (c s : Nat)
  | addListener (c s : Nat)
  | startServing (c s : Nat)
  | stopServing (c s : Nat)
  | deinitProvider (c s : Nat)
  /-- `RequestT::respond`, `update`, `error`, or the destruction of the handle -/
  | respond (c s q : Nat)
  | onAborted (q : Nat)
  /-- `valid`, `getInput`, `getRequestID`, … -/
  | requestInfo (q : Nat)
  /-- ipc: a message arrives at the client, at the server -/
  | clientGets (c s : Nat) (op : Op)
  | serverGets (c s : Nat) (op : Op)
  /-- ipc: news of a service, of the server arrive at the client -/
  | serviceNews (c s : Nat)
  | serverNews (c : Nat)
  /-- ipc: a client registers for news of services, goes away -/
  | clientComes (c : Nat)
  | clientGoes (c : Nat)
deriving DecidableEq

/-- Skeleton of a function. -/
inductive Code where
  | skip
  | lock (m : Mx)
  | unlock (m : Mx)
  | seq (a b : Code)
  /-- a condition on data -/
  | alt (a b : Code)
  /-- a loop -/
  | many (a : Code)
  /-- for some object, found by its data -/
  | any (f : Nat → Code)
  /-- the user's code -/
  | user (u : Place)
  /-- a call by the user's code -/
  | api (a : Api)

/-- a `lock_guard` and its scope, or `atomic()` and the rest of the expression -/
def locked (m : Mx) (b : Code) : Code := .seq (.lock m) (.seq b (.unlock m))

/-- `if` without `else` -/
def opt (b : Code) : Code := .alt .skip b

/-- ServiceRequester.cpp 415-440 -/
def onRegistersUpdated (c s : Nat) : Code := .seq (locked (.reg c s) .skip) (.many (.user .answer))

/-- ServiceRequester.cpp 442-482: the copy of the callback is called after the unlocking; the entry that is erased shares what it has
captured with this copy. -/
def onRequestResult (c s : Nat) : Code := .seq (locked (.req c s) .skip) (opt (.user .answer))

/-- ServiceRequester.cpp 25-58 -/
def requesterGets (c s : Nat) : Op → Code
  | .register => .seq (onRegistersUpdated c s) (opt (locked (.cache c s) .skip))
  | .request | .update | .statusGet => onRequestResult c s
  | _ => .skip

/-- ClientBase.cpp 44-75: the message of a server -/
def clientGets (c s : Nat) (op : Op) : Code := .seq (locked (.requesters c) .skip) (opt (requesterGets c s op))

/-- itc/Server.cpp 31-38; ipc/LocalIPCServer.cpp 46-63 -/
def sendToClient (c s : Nat) (op : Op) : Code := if c = 0 then clientGets c s op else .skip

/-- ServiceProvider.cpp 263-283: compares the ids of the requests, for which each is locked -/
def getRequestInfo (c s : Nat) : Code := locked (.requests c s) (.many (.any fun q => locked (.request q) .skip))

/-- ServiceProvider.cpp 68-81 -/
def respondToRequest (c s q : Nat) (op : Op) : Code :=
  .seq (getRequestInfo c s) (.seq (opt (locked (.request q) .skip)) (opt (sendToClient c s op)))

/-- Request.cpp 34-66 -/
def reply (c s q : Nat) : Code :=
  .seq (locked (.request q) .skip) (opt (.alt (respondToRequest c s q .request) (respondToRequest c s q .update)))

/-- ServiceProvider.cpp 316-326 -/
def onRequestAborted (c s : Nat) : Code :=
  .seq (getRequestInfo c s) (opt (.any fun q => .seq (locked (.request q) .skip) (.seq (locked (.request q) .skip) (opt (.user .abort)))))

/-- ServiceProvider.cpp 328-340 -/
def onActionRequest (c s : Nat) : Code :=
  .seq (locked (.handlers c s) .skip) (.alt (.seq (locked (.requests c s) .skip) (.user .handler)) (sendToClient c s .request))

/-- ServiceProvider.cpp 21-57, 245-254, 298-306, 340-342, 367-383 -/
def providerGets (c s : Nat) : Op → Code
  | .register => .seq (locked (.clients c s) .skip) (.seq (locked (.prop c s) .skip) (opt (sendToClient c s .register)))
  | .unregister | .gone => locked (.clients c s) .skip
  | .request => onActionRequest c s
  | .statusGet => .seq (locked (.prop c s) .skip) (sendToClient c s .statusGet)
  | .abort => onRequestAborted c s
  | .update => .skip

/-- ServerBase.cpp 24-32 -/
def serverGets (c s : Nat) (op : Op) : Code := .seq (locked (.providers c) .skip) (opt (providerGets c s op))

/-- itc/Client.cpp 27-35; ipc/LocalIPCClient.cpp 92-103 -/
def sendToServer (c s : Nat) (op : Op) : Code := if c = 0 then serverGets c s op else .skip

/-- ServiceRequester.cpp 244-285, 484-490 -/
def requesterStatus (c s : Nat) : Code :=
  opt (.seq (opt (.seq (locked (.req c s) (.many (.user .dropCallback))) (locked (.reg c s) (.many (.user .dropCallback)))))
    (locked (.obs c s) (.many (.user .observer))))

/-- ClientBase.cpp 24-38 -/
def serviceStatus (c s : Nat) : Code := .seq (locked (.statuses c) .skip) (locked (.requesters c) (opt (requesterStatus c s)))

/-- ClientBase.cpp 13-22 -/
def serverStatus (c : Nat) : Code := opt (.seq (locked (.statuses c) .skip) (locked (.requesters c) (.many (.any fun s => requesterStatus c s))))

/-- ServerBase.cpp 47-55, itc/Server.cpp 40-44, ipc/LocalIPCServer.cpp 65-94 -/
def tellStatus (c s : Nat) : Code :=
  .seq (locked (.providers c) .skip) (opt (if c = 0 then serviceStatus c s else locked (.told c) .skip))

/-- ClientBase.cpp 81-102 -/
def getServiceRequester (c s : Nat) : Code :=
  locked (.requesters c) (opt (locked (.statuses c) (opt (requesterStatus c s))))

/-- ServiceRequester.cpp 176-184, 501-559: store and send; what could not be sent is removed -/
def storeAndSend (c s : Nat) (op : Op) : Code :=
  .seq (locked (.req c s) .skip) (.seq (sendToServer c s op) (opt (locked (.req c s) (.user .dropCallback))))

/-- ServiceRequester.cpp 81-118 -/
def abortRequest (c s : Nat) : Code := .seq (locked (.req c s) (opt (.user .dropCallback))) (opt (sendToServer c s .abort))

/-- ServiceRequester.cpp 287-315 -/
def registerNotification (c s : Nat) : Code :=
  .seq (locked (.reg c s) .skip)
    (.alt (.seq (sendToServer c s .register) (opt (locked (.reg c s) (.user .dropCallback))))
      (.seq (locked (.cache c s) .skip) (opt (.user .answer))))

/-- ServiceRequester.cpp 345-366 -/
def unregister (c s : Nat) : Code :=
  .seq (locked (.reg c s) (.user .dropCallback)) (opt (.seq (locked (.cache c s) .skip) (opt (sendToServer c s .unregister))))

/-- ServiceRequester.cpp 368-379 -/
def unregisterAll (c s : Nat) : Code :=
  opt (.seq (locked (.reg c s) (.many (.user .dropCallback))) (.seq (sendToServer c s .unregister) (locked (.cache c s) .skip)))

/-- ServiceRequester.cpp 381-413 -/
def getStatus (c s : Nat) : Code :=
  .alt (.seq (locked (.cache c s) .skip) (opt (.user .answer)))
    (.seq (locked (.reg c s) .skip) (.alt (.seq (locked (.cache c s) .skip) (opt (.user .answer))) (storeAndSend c s .statusGet)))

/-- ServiceProvider.cpp 126-190 -/
def broadcast (c s : Nat) : Code :=
  .seq (locked (.listeners c s) (.many (.user .listener)))
    (.seq (locked (.clients c s) .skip) (.many (.seq (sendToClient c s .register) (opt (locked (.clients c s) .skip)))))

/-- ServiceProvider.cpp 285-296 -/
def endRequests (c s : Nat) : Code :=
  locked (.requests c s) (.many (.any fun q => .seq (locked (.request q) .skip) (.seq (locked (.request q) .skip) (opt (.user .abortEnd)))))

/-- The functions of the library. -/
def body : Api → Code
  | .createProxy c s => getServiceRequester c s
  | .sendRequest c s => opt (.seq (storeAndSend c s .request) (opt (abortRequest c s)))
  | .abortRequest c s => opt (abortRequest c s)
  | .registerStatus c s => opt (registerNotification c s)
  | .unregister c s => opt (unregister c s)
  | .unregisterAll c s => unregisterAll c s
  | .getStatus c s => getStatus c s
  -- ServiceRequester.cpp 120-141
  | .registerObserver c s => .seq (locked (.obs c s) .skip) (opt (.user .newObserver))
  -- ServiceRequester.cpp 143-147
  | .unregisterObserver c s => locked (.obs c s) (.many (.user .dropObserver))
  -- ClientBase.cpp 116-135; itc/Client.cpp 15
  | .deinitClient c =>
    if c = 0 then .skip
    else .seq (locked (.requesters c) (.many (.any fun s => locked (.req c s) (.many (.user .dropCallback))))) (locked (.statuses c) .skip)
  -- ServerBase.cpp 11-18
  | .createStub c _ => locked (.providers c) .skip
  -- ServiceProvider.cpp 344-355
  | .registerHandler c s => opt (locked (.handlers c s) .skip)
  -- ServiceProvider.cpp 357-359
  | .unregisterHandler c s => locked (.handlers c s) (opt (.user .dropHandler))
  -- ServiceProvider.cpp 83-103
  | .setStatus c s => .seq (locked (.prop c s) .skip) (opt (broadcast c s))
  | .broadcastSignal c s => broadcast c s
  -- ServiceProvider.cpp 195-203
  | .stubStatus c s => locked (.prop c s) .skip
  -- ServiceProvider.cpp 361-365
  | .addListener c s => locked (.listeners c s) .skip
  -- ServiceProvider.cpp 215-229
  | .startServing c s => tellStatus c s
  | .stopServing c s => tellStatus c s
  -- ServiceProvider.cpp 209-213
  | .deinitProvider c s => .seq (locked (.clients c s) .skip) (.seq (endRequests c s) (locked (.prop c s) .skip))
  | .respond c s q => reply c s q
  -- Request.cpp 73-80
  | .onAborted q => locked (.request q) (.alt (.user .abortLate) (opt (.user .dropAbort)))
  | .requestInfo q => locked (.request q) .skip
  | .clientGets c s op => clientGets c s op
  | .serverGets c s op => serverGets c s op
  | .serviceNews c s => .seq (locked (.statuses c) .skip) (serviceStatus c s)
  | .serverNews c => serverStatus c
  -- ipc/LocalIPCServer.cpp 98-117
  | .clientComes c => .seq (locked (.told c) .skip) (locked (.providers c) .skip)
  -- ipc/LocalIPCServer.cpp 119-129
  | .clientGoes c => .seq (locked (.told c) .skip) (locked (.providers c) (.many (.any fun s => providerGets c s .gone)))

/-- A thread: what it still has to do, the mutexes it holds. -/
structure Thread where
  todo : List Code
  held : List Mx

/-- How a condition turns out, what the user's code does. -/
inductive Choice where
  | go | left | right | stop | again
  | pick (n : Nat)
  | call (a : Api)

/-- One step of a thread. `free`: nobody holds the mutex; `may`: what the user's code calls. -/
def next (may : Place → Api → Bool) (free : Mx → Bool) (held : List Mx) : List Code → Choice → Option Thread
  | .skip :: k, .go => some ⟨k, held⟩
  | .lock m :: k, .go => if free m then some ⟨k, m :: held⟩ else none
  | .unlock m :: k, .go => some ⟨k, held.erase m⟩
  | .seq a b :: k, .go => some ⟨a :: b :: k, held⟩
  | .alt a _ :: k, .left => some ⟨a :: k, held⟩
  | .alt _ b :: k, .right => some ⟨b :: k, held⟩
  | .many _ :: k, .stop => some ⟨k, held⟩
  | .many a :: k, .again => some ⟨a :: .many a :: k, held⟩
  | .any f :: k, .pick n => some ⟨f n :: k, held⟩
  | .user _ :: k, .stop => some ⟨k, held⟩
  | .user u :: k, .call a => if may u a then some ⟨.api a :: .user u :: k, held⟩ else none
  | .api a :: k, .go => some ⟨body a :: k, held⟩
  | _, _ => none

abbrev State := List Thread

/-- Nobody holds it. -/
def free (ts : State) (m : Mx) : Bool := ts.all fun t => !t.held.contains m

/-- Thread `i` makes a step. -/
def step (may : Place → Api → Bool) (ts : State) (i : Nat) (ch : Choice) : Option State :=
  match ts[i]? with
  | none => none
  | some t => (next may (free ts) t.held t.todo ch).map fun t' => ts.set i t'

def run (may : Place → Api → Bool) (ts : State) : List (Nat × Choice) → Option State
  | [] => some ts
  | (i, ch) :: r => (step may ts i ch).bind fun ts' => run may ts' r

/-- `n` threads that have not done anything. -/
def init (n : Nat) : State := List.replicate n ⟨[.user .main], []⟩

end Maf.Reent
