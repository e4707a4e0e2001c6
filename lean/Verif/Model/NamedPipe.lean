/-
Model of the Windows transport: named pipes.

Models /repo/src/platforms/windows/maf/messaging/client-server/ipc:
`LocalIPCBufferReceiverImpl.cpp`, `LocalIPCBufferSenderImpl.cpp`,
`NamedPipeReceiverBase.h`, `NamedPipeSenderBase.h`.

The pipes of the operating system are modelled by their specification, for
message-type pipes: an instance that was created, or on which
`ConnectNamedPipe` was called after a disconnection, can be opened by one client;
a write appends a message, or completes a read that is pending;
a write returns when the message was read, or earlier if there is
room (here: at any time), and fails once the instance is disconnected, if
the message was not read by then; reading takes at
most one message, and if the message does not fit into the given room the rest
of it stays and `ERROR_MORE_DATA` is reported; reading from an instance
without messages is pending while the client has it open (the receiver's
handle is overlapped) and fails afterwards; disconnecting discards all unread messages.

The sender's handle is synchronous: `FILE_FLAG_OVERLAPPED` is passed among the access
rights (SenderImpl.cpp 103-104), where it has the value of `GENERIC_WRITE`, so
`WriteFile` never says `ERROR_IO_PENDING` and lines 135-156 are not reached.

Simplifications.
* Failures to create events and pipes, of `SetEvent`, and access rights are not modelled.
* `readOnPipe` returns together with its last `ReadFile`.
* `GetLastError` is not changed by logging.
* The observer moves the bytes out (LocalIPCServer.cpp 138-140), so `ba` is empty afterwards.
* One receiver address; `start` after a failed `init` is not modelled.
-/

namespace Maf.Pipe

/-- `MAX_INSTANCES` (ReceiverImpl.cpp 11) -/
def maxInst : Nat := 10
/-- `MAX_ATEMPTS` (SenderImpl.cpp 17) and the 100 of line 34 -/
def maxTry : Nat := 100
/-- 2^32 -/
def word : Nat := 4294967296

/-- the bytes of a `uint32_t` -/
def enc (n : Nat) : List Nat := [n % 256, n / 256 % 256, n / 65536 % 256, n / 16777216 % 256]

def dec : List Nat → Nat
  | [a, b, c, d] => a + 256 * b + 65536 * c + 16777216 * d
  | _ => 0

/-- The two messages of one sending (SenderImpl.cpp 64-68, 128-132): the length, and as
many bytes as `static_cast<DWORD>(size)`. -/
def frame (b : List Nat) : List (List Nat) := [enc (b.length % word), b.take (b.length % word)]

/-! ### Reading -/

inductive Rd where
  | ok | more | pending | broken
deriving DecidableEq, Repr

/-- `ReadFile` on a message-type pipe; `live`: the client has its end open. -/
def readFile (size : Nat) (live : Bool) : List (List Nat) → Rd × List Nat × List (List Nat)
  | [] => if live then (.pending, [], []) else (.broken, [], [])
  | m :: rest => if m.length ≤ size then (.ok, m, rest) else (.more, m.take size, m.drop size :: rest)

/-- `fillbuffer` (ReceiverImpl.cpp 23-45), at most `fuel` rounds of its loop; `got` was
read before. A success ends the loop, also one with no bytes; `ERROR_MORE_DATA` repeats it. -/
def fillbuffer (size : Nat) (live : Bool) : Nat → List Nat → List (List Nat) → Option (Rd × List Nat × List (List Nat))
  | 0, _, _ => none
  | fuel + 1, got, box =>
    match readFile (size - got.length) live box with
    | (.ok, m, rest) => some (.ok, got ++ m, rest)
    | (.more, m, rest) => fillbuffer size live fuel (got ++ m) rest
    | (e, _, rest) => some (e, got, rest)

/-! ### States -/

inductive Res where
  | success | busy | unavailable
deriving DecidableEq, Repr

/-- The message being written: not yet handed to the pipe, in the pipe, read. -/
inductive Wr where
  | todo | posted | taken
deriving DecidableEq, Repr

/-- Where a call of `send` is. -/
inductive SPc where
  /-- before the `t`-th further probe (lines 27-46) -/
  | probe (t : Nat)
  /-- in the loop of `sendImpl` (61-81), `retryTimes = r`, no handle -/
  | opening (r : Nat)
  /-- writing message `k` to instance `i` -/
  | writing (r i k : Nat) (w : Wr)
  | ended (r : Res)
deriving DecidableEq, Repr

structure Snd where
  script : List (List Nat)
  pc : SPc
deriving DecidableEq, Repr

inductive Side where
  /-- not created, or closed -/
  | none
  /-- disconnected -/
  | off
  /-- may be opened -/
  | listen
  /-- opened by call `s`; `live`: not closed by it -/
  | conn (s : Nat) (live : Bool)
deriving DecidableEq, Repr

inductive Pend where
  | header | body
deriving DecidableEq, Repr

structure Inst where
  side : Side
  /-- the unread messages, with their numbers -/
  box : List (Nat × List Nat)
  /-- a read that is pending -/
  pend : Option Pend
  /-- how many messages of this connection were read (observed, not in the code) -/
  nread : Nat
deriving DecidableEq, Repr

def Inst.blank : Inst := ⟨.none, [], none, 0⟩

/-- Where the receiver is. -/
inductive Pc where
  /-- `initPipes` (156-217): before creating instance `k` -/
  | init (k : Nat)
  /-- created, before `ConnectNamedPipe` -/
  | made (k : Nat)
  | failed
  /-- initialised, not started -/
  | ready
  /-- `startListening` (219-252): before `while (running())` -/
  | check
  /-- before `WaitForMultipleObjects` looks at `hEvents_` -/
  | entering
  | waiting
  | readHeader (i : Nat)
  | readBody (i n : Nat)
  | leave (i : Nat)
  | rearm (i : Nat)
  /-- in the loop of `fillbuffer` for ever -/
  | spin (i : Nat)
  /-- `startListening` returned -/
  | ended
deriving DecidableEq, Repr

inductive Ev where
  | asked (s : Nat) (b : List Nat)
  | rogue (s : Nat)
  | result (s : Nat) (r : Res)
  | delivered (s : Nat) (b : List Nat)
  | busyProbe (s : Nat)
  | busyOpen (s : Nat)
  | initDone (ok : Bool)
  | avail (ok : Bool)
  | stopped
  /-- a pending read filled the variable of a function that had returned -/
  | smashed (s : Nat)
  /-- the listening thread used what `stop` destroyed -/
  | raced
deriving DecidableEq, Repr

structure State where
  pc : Pc
  stopped : Bool
  insts : Nat → Inst
  snds : Nat → Option Snd
  next : Nat
  ub : Bool
  log : List Ev

def State.start : State := ⟨.init 0, false, fun _ => .blank, fun _ => none, 0, false, []⟩

def upd {α : Type} (f : Nat → α) (i : Nat) (a : α) : Nat → α := fun j => if j = i then a else f j

def State.note (s : State) (e : List Ev) : State := { s with log := s.log ++ e }
def State.bad (s : State) (e : List Ev) : State := { s with ub := true, log := s.log ++ e }
def State.setInst (s : State) (i : Nat) (x : Inst) : State := { s with insts := upd s.insts i x }
def State.setPc (s : State) (i : Nat) (x : Snd) (p : SPc) : State := { s with snds := upd s.snds i (some { x with pc := p }) }

def State.listening (s : State) : Bool := (List.range maxInst).any fun i => (s.insts i).side == .listen
def State.existing (s : State) : Bool := (List.range maxInst).any fun i => (s.insts i).side != .none

/-! ### The receiver -/

/-- lines 157-207: the next instance -/
def create (s : State) : Option State :=
  match s.pc with
  | .init k => some { s with pc := .made k, insts := upd s.insts k ⟨.listen, [], none, 0⟩ }
  | _ => none

/-- lines 210-214, 299-331: `ERROR_IO_PENDING` is success; a client that came first is not -/
def connect (s : State) : Option State :=
  match s.pc with
  | .made k =>
    if (s.insts k).side = .listen then
      if k + 1 = maxInst then some { s with pc := .ready, log := s.log ++ [.initDone true] }
      else some { s with pc := .init (k + 1) }
    else some { s with pc := .failed, log := s.log ++ [.initDone false] }
  | _ => none

/-- `start` (ReceiverBase.h 27-33); after `stop` there is no `hEvents_[0]` (line 224) -/
def start (s : State) : Option State :=
  match s.pc with
  | .ready => if s.stopped then some (s.bad [.raced]) else some { s with pc := .check }
  | .ended => some (s.bad [.raced])
  | _ => none

/-- `while (running())` (221) -/
def check (s : State) : Option State :=
  match s.pc with
  | .check => some { s with pc := if s.stopped then .ended else .entering }
  | _ => none

/-- line 222-226: the arguments -/
def enter (s : State) : Option State :=
  match s.pc with
  | .entering => if s.stopped then some (s.bad [.raced]) else some { s with pc := .waiting }
  | _ => none

/-- lines 228-240: the event of instance `i` is set when a client opened it; `stop` sets all -/
def wake (s : State) (i : Nat) : Option State :=
  match s.pc with
  | .waiting =>
    if s.stopped then some { s with pc := .ended }
    else match (s.insts i).side with
      | .conn _ _ => if i < maxInst then some { s with pc := .readHeader i } else none
      | _ => none
  | _ => none

/-- has the client its end open? -/
def Inst.live (x : Inst) : Bool :=
  match x.side with
  | .conn _ l => l
  | _ => false

/-- if message `k` is being written, the write has completed -/
def Snd.take (x : Snd) (k : Nat) : Snd :=
  match x.pc with
  | .writing r i j .posted => if j = k then { x with pc := .writing r i j .taken } else x
  | _ => x

def State.take (s : State) (c k : Nat) : State := { s with snds := upd s.snds c ((s.snds c).map (·.take k)) }

def State.takeFrom (s : State) (x : Inst) (k : Nat) : State :=
  match x.side with
  | .conn c _ => s.take c k
  | _ => s

/-- the message read from instance `i` is gone, its sender's write complete -/
def State.pop (s : State) (i : Nat) : State :=
  match (s.insts i).box with
  | [] => s
  | (k, _) :: rest => (s.setInst i { s.insts i with box := rest, nread := (s.insts i).nread + 1 }).takeFrom (s.insts i) k

/-- What one call of `fillbuffer` does to the receiver: on enough bytes `good`, otherwise `poor`;
if no number of rounds is enough, it never returns. The number of rounds that
suffices, if any, is at most 1 (`fill_rounds`). -/
def State.fill (s : State) (i size : Nat) (p : Pend) (good : State → List Nat → State) (poor : State → State) : State :=
  match fillbuffer size (s.insts i).live 1 [] ((s.insts i).box.map (·.2)) with
  | none => { s with pc := .spin i }
  | some (.pending, got, _) =>
    if got.length = size then good (s.setInst i { s.insts i with pend := some p }) got
    else poor (s.setInst i { s.insts i with pend := some p })
  | some (_, got, _) => if got.length = size then good (s.pop i) got else poor (s.pop i)

/-- `bytesComeCallback_(...)` (line 242) -/
def State.deliver (s : State) (i : Nat) (b : List Nat) : State :=
  match (s.insts i).side with
  | .conn c _ => { s with pc := .leave i, log := s.log ++ [.delivered c b] }
  | _ => { s with pc := .leave i }

/-- `readOnPipe` (254-266), up to the resize -/
def readHeader (s : State) : Option State :=
  match s.pc with
  | .readHeader i =>
    if s.stopped then some (s.bad [.raced])
    else some (s.fill i 4 .header (fun s got => { s with pc := .readBody i (dec got) }) (fun s => { s with pc := .leave i }))
  | _ => none

/-- `readOnPipe` (267-274), and 241-248. A loop that does not end is ended by `stop`, which closes
the handle, and goes on with what `stop` destroyed. -/
def readBody (s : State) : Option State :=
  match s.pc with
  | .readBody i n =>
    if s.stopped then some (s.bad [.raced])
    else some (s.fill i n .body (fun s got => s.deliver i got) (fun s => { s with pc := .leave i }))
  | .spin _ => if s.stopped then some (s.bad [.raced]) else none
  | _ => none

/-- `disconnectAndReconnect` (282-287) -/
def disconnect (s : State) : Option State :=
  match s.pc with
  | .leave i =>
    if s.stopped then some (s.bad [.raced])
    else some { s with pc := .rearm i, insts := upd s.insts i ⟨.off, [], none, 0⟩ }
  | _ => none

/-- lines 290-291 -/
def rearm (s : State) : Option State :=
  match s.pc with
  | .rearm i =>
    if s.stopped then some (s.bad [.raced])
    else some { s with pc := .check, insts := upd s.insts i ⟨.listen, [], none, 0⟩ }
  | _ => none

/-- `stop` (137-146), from another thread -/
def stop (s : State) : Option State :=
  match s.pc with
  | .init _ => none
  | .made _ => none
  | _ => some { s with stopped := true, insts := fun _ => .blank, log := s.log ++ [.stopped] }

/-! ### Senders -/

def newCall (s : State) (script : List (List Nat)) (e : Ev) : State :=
  { s with snds := upd s.snds s.next (some ⟨script, .probe 0⟩), next := s.next + 1, log := s.log ++ [e] }

def State.finish (s : State) (c : Nat) (x : Snd) (r : Res) : State :=
  (s.setPc c x (.ended r)).note [.result c r]

/-- `send` (SenderImpl.cpp 23-54): `WaitNamedPipe` without waiting -/
def probe (s : State) (c : Nat) : Option State :=
  match s.snds c with
  | some x =>
    match x.pc with
    | .probe t =>
      if s.listening then some (s.setPc c x (.opening 0))
      else if s.existing then
        if t + 1 ≥ maxTry then some ((s.note [.busyProbe c]).finish c x .busy)
        else some ((s.setPc c x (.probe (t + 1))).note [.busyProbe c])
      else some (s.finish c x .unavailable)
    | _ => none
  | none => none

/-- `openPipe` (101-110) succeeds on instance `i` -/
def openAt (s : State) (c i : Nat) : Option State :=
  match s.snds c with
  | some x =>
    match x.pc with
    | .opening r =>
      if i < maxInst ∧ (s.insts i).side = .listen then
        some ((s.setInst i ⟨.conn c true, [], none, 0⟩).setPc c x (.writing r i 0 .todo))
      else none
    | _ => none
  | none => none

/-- `++retryTimes`, if it is evaluated -/
def retry (logs : Bool) (r : Nat) : Nat := if logs then r + 1 else r

/-- `openPipe` fails (73-80): `++retryTimes` is an argument of `MAF_LOGGER_WARN`, which is
evaluated only if warnings are logged (`logs`; Logger.h 134-145, 162-166) -/
def openFail (logs : Bool) (s : State) (c : Nat) : Option State :=
  match s.snds c with
  | some x =>
    match x.pc with
    | .opening r =>
      if s.listening then none
      else if s.existing then
        if retry logs r < maxTry then
          some ((s.setPc c x (.opening (retry logs r))).note [.busyOpen c])
        else some ((s.note [.busyOpen c]).finish c x .busy)
      else some (s.finish c x .unavailable)
    | _ => none
  | none => none

/-- is call `c` still connected to instance `i`? -/
def State.joined (s : State) (c i : Nat) : Bool := (s.insts i).side == .conn c true

/-- `WriteFile` (128) hands message `k` to the pipe: to a pending read if there is one. (What a message too
long for that read leaves in the pipe is discarded by the disconnection that follows.) -/
def post (s : State) (c : Nat) : Option State :=
  match s.snds c with
  | some x =>
    match x.pc with
    | .writing r i k .todo =>
      if s.joined c i then
        match (s.insts i).pend with
        | none =>
          some ((s.setInst i { s.insts i with box := (s.insts i).box ++ [(k, x.script.getD k [])] }).setPc c x (.writing r i k .posted))
        | some .header =>
          some ((((s.setInst i { s.insts i with pend := none, nread := (s.insts i).nread + 1 }).setPc c x (.writing r i k .taken))).bad [.smashed c])
        | some .body =>
          some ((s.setInst i { s.insts i with pend := none, nread := (s.insts i).nread + 1 }).setPc c x (.writing r i k .taken))
      else none
    | _ => none
  | none => none

/-- the client closes its end -/
def State.close (s : State) (c i : Nat) : State :=
  if s.joined c i then s.setInst i { s.insts i with side := .conn c false } else s

/-- after message `k` the next one; after the last, `break` (70, 83-88) -/
def State.advance (s : State) (c : Nat) (x : Snd) (r i k : Nat) : State :=
  if k + 1 < x.script.length then s.setPc c x (.writing r i (k + 1) .todo)
  else (s.close c i).finish c x .success

/-- `WriteFile` returns true -/
def done (s : State) (c : Nat) : Option State :=
  match s.snds c with
  | some x =>
    match x.pc with
    | .writing r i k .posted => if s.joined c i then some (s.advance c x r i k) else none
    | .writing r i k .taken => some (s.advance c x r i k)
    | _ => none
  | none => none

/-- `WriteFile` returns false (disconnected): the loop goes on, `retryTimes` unchanged (61-72) -/
def fail (s : State) (c : Nat) : Option State :=
  match s.snds c with
  | some x =>
    match x.pc with
    | .writing _ _ _ .taken => none
    | .writing r i _ _ => if s.joined c i then none else some (s.setPc c x (.opening r))
    | _ => none
  | none => none

inductive Act where
  | create | connect | start | check | enter | wake (i : Nat) | readHeader | readBody | disconnect | rearm | stop
  | send (b : List Nat)
  /-- another program writes these messages -/
  | rogue (ms : List (List Nat))
  | probe (c : Nat) | openAt (c i : Nat) | openFail (c : Nat) | post (c : Nat) | done (c : Nat) | fail (c : Nat)
  /-- `checkReceiverStatus` (SenderBase.h 25-36) -/
  | ask
deriving DecidableEq, Repr

def live (logs : Bool) (s : State) : Act → Option State
  | .create => create s
  | .connect => connect s
  | .start => start s
  | .check => check s
  | .enter => enter s
  | .wake i => wake s i
  | .readHeader => readHeader s
  | .readBody => readBody s
  | .disconnect => disconnect s
  | .rearm => rearm s
  | .stop => stop s
  | .send b => some (newCall s (frame b) (.asked s.next b))
  | .rogue ms => some (newCall s ms (.rogue s.next))
  | .probe c => probe s c
  | .openAt c i => openAt s c i
  | .openFail c => openFail logs s c
  | .post c => post s c
  | .done c => done s c
  | .fail c => fail s c
  | .ask => some (s.note [.avail s.listening])

/-- One step; none after undefined behaviour. -/
def step (logs : Bool) (s : State) (a : Act) : Option State := if s.ub then none else live logs s a

def runs (logs : Bool) (s : State) : List Act → Option State
  | [] => some s
  | a :: as => (step logs s a).bind fun t => runs logs t as

end Maf.Pipe
