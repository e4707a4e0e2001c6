/-
`this_processor::instance()` on one thread: what it gives to the code that runs there, also when that code throws.

Models src/common/maf/messaging/Processor.cpp 194-247 (`run` with `threadInit` and `threadDeinit`, `runUntil`, `runFor`, `runOnceUntil`, `runOnceFor`: the order in which
the thread-local pointer is set, the guard `CallOnExit` is built and the objects are destroyed), 386-410 (`testAndSetThreadLocalInstance`, `clearTLInstanceIfSet`,
`instance`) and include/maf/utils/CallOnExit.h (the destructor calls the function).

One thread; loops of any processors, nested in any way: functions, `threadInit`, `threadDeinit` and the destructors of what functions own are user code that may enter a
loop again. Functions and `threadInit` may throw; user code below may catch (it goes on) or not (it throws again). An exception out of `threadDeinit`, which runs in a destructor,
ends the program; so does one out of a destructor.
Simplified: what the queues hold is open (any function may come next, any wait may end); `threadInit` and `threadDeinit` are always given (an empty one is one that does nothing).
-/
namespace Maf.Tl

/-- Processors. -/
abbrev Pid := Nat
/-- Activations of loops. -/
abbrev Lid := Nat
/-- Functions. -/
abbrev Item := Nat

/-- `run`; `runUntil`, `runFor`; `runOnceUntil`, `runOnceFor` -/
inductive Kind where
  | run | timed | once
deriving DecidableEq

inductive Frame where
  /-- user code: a function -/
  | fn (n : Lid) (x : Item)
  /-- user code: `threadInit` (197); `set`: `justSet` -/
  | init (n : Lid) (p : Pid) (set : Bool)
  /-- user code: `threadDeinit` (202) -/
  | deinit (n : Lid)
  /-- user code: destructors of what `x` owns -/
  | dtor (n : Lid) (x : Item)
  /-- about to wait (207, 223, 241); `exc`: the function executed before -/
  | loop (n : Lid) (p : Pid) (k : Kind) (set : Bool) (exc : Option Item)
  /-- has the next function -/
  | ready (n : Lid) (p : Pid) (k : Kind) (set : Bool) (x : Item)
  /-- is calling it (208, 224, 242) -/
  | calling (n : Lid) (p : Pid) (k : Kind) (set : Bool) (x : Item)
  /-- the end of the scope, or an exception on its way -/
  | leaving (n : Lid) (p : Pid) (k : Kind) (set : Bool) (exc : Option Item)
  /-- `run`: `threadDeinit` has been called, about to clear the pointer (204) -/
  | closing (n : Lid) (p : Pid) (set : Bool)
  /-- the others: the pointer has been cleared, `exc` is still to be destroyed -/
  | rest (n : Lid) (exc : Option Item)
deriving DecidableEq

def Frame.isUser : Frame → Bool
  | .fn .. | .init .. | .deinit _ | .dtor .. => true
  | _ => false

inductive Ev where
  | entered (n : Lid) (p : Pid) (k : Kind)
  | initDone (n : Lid)
  | initFailed (n : Lid)
  /-- a function is called; `v`: what `instance()` gives then and there -/
  | called (n : Lid) (x : Item) (v : Option Pid)
  /-- destructors of what the function owns are called -/
  | dropped (n : Lid) (x : Item) (v : Option Pid)
  | deinit (n : Lid) (v : Option Pid)
  /-- the loop has let the thread go -/
  | left (n : Lid)
deriving DecidableEq

structure State where
  /-- `instance_` of this thread -/
  tl : Option Pid
  stk : List Frame
  next : Lid
  /-- `std::terminate` -/
  dead : Bool
  log : List Ev

def start : State := { tl := none, stk := [], next := 0, dead := false, log := [] }

inductive Act where
  /-- user code enters a loop of processor `p` -/
  | enter (p : Pid) (k : Kind)
  /-- the wait gives function `x` -/
  | take (x : Item)
  /-- the wait gives up: the processor is stopped, or time is up -/
  | giveUp
  /-- user code returns -/
  | ret
  /-- user code throws -/
  | throw
  /-- the loop's own code goes on -/
  | go
deriving DecidableEq

def canCall (s : State) : Bool :=
  match s.stk with
  | [] => true
  | f :: _ => f.isUser

/-- 388-394 -/
def setTl (s : State) (p : Pid) : Option Pid :=
  match s.tl with
  | none => some p
  | some q => some q

/-- 396-400 -/
def clearTl (s : State) (set : Bool) : Option Pid := if set then none else s.tl

/-- User code at the top of the stack returns. -/
def doRet (s : State) : Option State :=
  match s.stk with
  | .fn _ _ :: .calling n p k set x :: fs =>
    some { s with stk := (if k = .once then .leaving n p k set (some x) else .loop n p k set (some x)) :: fs }
  | .init n p set :: fs => some { s with stk := .loop n p .run set none :: fs, log := s.log ++ [.initDone n] }
  | .deinit _ :: fs => some { s with stk := fs }
  | .dtor _ _ :: fs => some { s with stk := fs }
  | _ => none

/-- User code at the top of the stack throws. -/
def doThrow (s : State) : Option State :=
  match s.stk with
  | .fn _ _ :: .calling n p k set x :: fs => some { s with stk := .leaving n p k set (some x) :: fs }
  -- 196-198: the guard (200-205) has not been built
  | .init n _ _ :: fs => some { s with stk := fs, log := s.log ++ [.initFailed n] }
  | .deinit _ :: _ => some { s with dead := true }
  | .dtor _ _ :: _ => some { s with dead := true }
  | _ => none

def doGo (s : State) : Option State :=
  match s.stk with
  | .ready n p k set x :: fs => some { s with stk := .fn n x :: .calling n p k set x :: fs, log := s.log ++ [.called n x s.tl] }
  | .leaving n p k set exc :: fs =>
    match k, exc with
    -- 206 is declared after 200: `exc` is destroyed first
    | .run, some x => some { s with stk := .dtor n x :: .leaving n p .run set none :: fs, log := s.log ++ [.dropped n x s.tl] }
    | .run, none => some { s with stk := .deinit n :: .closing n p set :: fs, log := s.log ++ [.deinit n s.tl] }
    -- 218, 236 are declared before 220, 238: the pointer is cleared first
    | _, exc => some { s with tl := clearTl s set, stk := .rest n exc :: fs, log := s.log ++ [.left n] }
  | .closing n _ set :: fs => some { s with tl := clearTl s set, stk := fs, log := s.log ++ [.left n] }
  | .rest n (some x) :: fs => some { s with stk := .dtor n x :: .rest n none :: fs, log := s.log ++ [.dropped n x s.tl] }
  | .rest _ none :: fs => some { s with stk := fs }
  | _ => none

def step (s : State) (a : Act) : Option State :=
  if s.dead then none else
  match a with
  | .enter p k =>
    if canCall s then
      some { s with tl := setTl s p, next := s.next + 1, log := s.log ++ [.entered s.next p k]
                    stk := (if k = .run then .init s.next p s.tl.isNone else .loop s.next p k s.tl.isNone none) :: s.stk }
    else none
  | .take x =>
    match s.stk with
    | .loop n p k set none :: fs => some { s with stk := .ready n p k set x :: fs }
    | .loop n p k set (some y) :: fs => some { s with stk := .dtor n y :: .ready n p k set x :: fs, log := s.log ++ [.dropped n y s.tl] }
    | _ => none
  | .giveUp =>
    match s.stk with
    | .loop n p k set exc :: fs => some { s with stk := .leaving n p k set exc :: fs }
    | _ => none
  | .ret => doRet s
  | .throw => doThrow s
  | .go => doGo s

def run (s : State) : List Act → Option State
  | [] => some s
  | a :: as => (step s a).bind fun s' => run s' as

end Maf.Tl
