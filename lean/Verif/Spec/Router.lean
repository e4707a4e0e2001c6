import Verif.Model.Router
/-
Specification of routing, in terms of the log of events only.
-/
namespace Maf.Route

def idStep (p : Pid) (o : Option Id) : Ev → Option Id
  | .made _ q id => if q = p then some id else o
  | _ => o

/-- The id a processor was made with. -/
def idIn (l : List Ev) (p : Pid) : Option Id := l.foldl (idStep p) none

def joinStep (acc : List Pid) : Ev → List Pid
  | .joined _ p => acc ++ [p]
  | .erased _ _ q => acc.filter (· != q)
  | _ => acc

/-- The processors joined after this history. -/
def joinedIn (l : List Ev) : List Pid := l.foldl joinStep []

def closedStep (p : Pid) (b : Bool) : Ev → Bool
  | .closed _ q => if q = p then true else b
  | .reopened q => if q = p then false else b
  | _ => b

def closedIn (l : List Ev) (p : Pid) : Bool := l.foldl (closedStep p) false

def handStep (p : Pid) (ty : Ty) (h : H) : Ev → H
  | .handlers q ty' h' => if q = p ∧ ty' = ty then h' else h
  | _ => h

def handIn (l : List Ev) (p : Pid) (ty : Ty) : H := l.foldl (handStep p ty) .absent

/-- Would `p` take the message now: not stopped, a handler connected for exactly its type. -/
def Takes (l : List Ev) (p : Pid) (m : Msg) : Prop := closedIn l p = false ∧ handIn l p m.ty = .live

/-- The turns of thread `t`. -/
def visits (t : Tid) (l : List Ev) : List (Pid × Msg × Option Bool) :=
  l.filterMap fun | .visit u q m o => if u = t then some (q, m, o) else none | _ => none

/-- Nobody joins or leaves. -/
def Steady (l : List Ev) : Prop := ∀ e ∈ l, (∀ t p, e ≠ .joined t p) ∧ ∀ t p q, e ≠ .erased t p q

/-- The thread that makes an event (handlers and the state of a processor aside). -/
def Ev.tid : Ev → Option Tid
  | .made t _ _ => some t
  | .lookup t _ _ => some t
  | .created t _ _ => some t
  | .joined t _ => some t
  | .refused t _ => some t
  | .erased t _ _ => some t
  | .stopped t _ _ => some t
  | .closed t _ => some t
  | .reopened _ => none
  | .handlers .. => none
  | .informed t _ _ => some t
  | .sweepBegin t _ => some t
  | .visit t _ _ _ => some t
  | .sweepEnd t _ _ => some t
  | .handed t _ _ _ => some t
  | .result t _ _ _ => some t

/-- The last thing thread `t` did was `e`. -/
def LastOf (l : List Ev) (t : Tid) (e : Ev) : Prop := ∃ l1 l2, l = l1 ++ e :: l2 ∧ ∀ f ∈ l2, f.tid ≠ some t

/-- A delivery to all by thread `t`, begun after `l1`, `l2` until now, with result `b`: nobody
joined or left meanwhile, every joined processor had exactly one turn, with the message, nobody
else had, the thread did nothing else, and the result says whether one of them took it. -/
structure Sweep (l1 l2 : List Ev) (t : Tid) (m : Msg) (b : Bool) : Prop where
  steady : Steady l2
  turns : (visits t l2).map (fun v => v.1) = joinedIn l1
  same : ∀ v ∈ visits t l2, v.2.1 = m
  only : ∀ e ∈ l2, e.tid = some t → ∃ q o, e = .visit t q m o
  taken : b = true ↔ ∃ v ∈ visits t l2, v.2.2 = some true

/-- The rules for event `e` after history `l`. -/
def EvOk (l : List Ev) : Ev → Prop
  | .made _ p _ => idIn l p = none
  -- finds the processor joined under the id, if there is one; no anonymous one
  | .lookup _ id (some p) => p ∈ joinedIn l ∧ idIn l p = some id ∧ ∃ n, id = .name n
  | .lookup _ id none => ∀ p ∈ joinedIn l, idIn l p ≠ some id
  -- null: it has just found a processor with the id; otherwise it joined, or was too late
  | .created t p false => ∃ l' id q, l = l' ++ [.lookup t id (some q)] ∧ LastOf l' t (.made t p id)
  | .created t p true => ∃ l', (∃ n, l = l' ++ [.made t p (.anon n)]) ∨ l = l' ++ [.joined t p] ∨ l = l' ++ [.refused t p]
  -- too late: somebody with the same id joined since this thread looked
  | .refused t p => ∃ l1 l2 n u q, l = l1 ++ .lookup t (.name n) none :: l2 ∧ (∀ e ∈ l2, e.tid ≠ some t) ∧ LastOf l1 t (.made t p (.name n)) ∧
      Ev.joined u q ∈ l2 ∧ idIn l q = some (.name n)
  -- made, found nobody, told all joined ones, and still nobody has the id
  | .joined t p => ∃ l0 l1 l2 l3 n b, l = l0 ++ .lookup t (.name n) none :: l1 ++ .sweepBegin t (.status p true) :: l2 ++ [.sweepEnd t (.status p true) b] ∧
      l3 = l0 ++ .lookup t (.name n) none :: l1 ∧ LastOf l0 t (.made t p (.name n)) ∧ (∀ e ∈ l1, e.tid ≠ some t) ∧
      Sweep l3 l2 t (.status p true) b ∧ ∀ q ∈ joinedIn l, idIn l q ≠ some (.name n)
  -- whoever is joined under the id of the stopped processor leaves
  | .erased t p q => q ∈ joinedIn l ∧ idIn l q = idIn l p ∧ LastOf l t (.closed t p)
  -- it was stopped already, or is anonymous, or nobody is joined under its id, or somebody has
  -- left and all have been told
  | .stopped _ p false => closedIn l p = true
  | .stopped t p true => (LastOf l t (.closed t p) ∧ ∃ n, idIn l p = some (.anon n)) ∨
      (∃ l' id, l = l' ++ [.lookup t id none] ∧ idIn l p = some id ∧ LastOf l' t (.closed t p)) ∨
      ∃ l1 l2 b q, l = l1 ++ .sweepBegin t (.status p false) :: l2 ++ [.sweepEnd t (.status p false) b] ∧ LastOf l1 t (.erased t p q) ∧
        Sweep l1 l2 t (.status p false) b
  -- a turn: skipped for lack of handlers, or posted
  | .visit _ q m none => handIn l q m.ty = .absent
  | .visit _ q m (some b) => b = true ↔ Takes l q m
  | .sweepEnd t m b => ∃ l1 l2, l = l1 ++ .sweepBegin t m :: l2 ∧ Sweep l1 l2 t m b
  | .handed _ p m b => b = true ↔ Takes l p m
  -- handed to the processor that was found under the id
  | .result t id m b => (∃ l1 l2 p, l = l1 ++ .lookup t id (some p) :: l2 ++ [.handed t p m b] ∧ ∀ e ∈ l2, e.tid ≠ some t) ∨
      (b = false ∧ ∃ l1, l = l1 ++ [.lookup t id none])
  -- does not happen
  | .informed .. => False
  | _ => True

end Maf.Route
