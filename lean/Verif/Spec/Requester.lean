import Verif.Model.Requester
/-
Specification of service requesters, in terms of the log of events only: what is pending, registered, cached, promised
after a history; the rule each event obeys; and what each call does, from its start to its return.
-/
namespace Maf.Req

/-! ### What a history says -/

def statusStep (a : Avail) : Ev → Avail
  | .statusStored _ b => b
  | _ => a

/-- The availability of the service. -/
def statusIn (l : List Ev) : Avail := l.foldl statusStep .unavailable

def pendStep (op : Op) (acc : List (Id × Target)) : Ev → List (Id × Target)
  | .stored _ o id tg => if o = op then acc ++ [(id, tg)] else acc
  | .dropped _ o id => if o = op then acc.filter (·.1 != id) else acc
  | .looked _ o id _ => if o = op then acc.filter (·.1 != id) else acc
  | .taken _ m _ => if m.op = op ∧ m.code ≠ .partialUpdate then acc.filter (some ·.1 != m.id) else acc
  | .reqsCleared _ => []
  | _ => acc

/-- The pending requests for `op`: stored, and not dropped, aborted, answered finally or cleared since. -/
def pendIn (l : List Ev) (op : Op) : List (Id × Target) := l.foldl (pendStep op) []

def regStep (op : Op) (acc : List (Id × Fn)) : Ev → List (Id × Fn)
  | .registered _ o id f _ => if o = op then acc ++ [(id, f)] else acc
  | .unregistered _ o id _ => if o = op then acc.filter (·.1 != id) else acc
  | .erased _ o => if o = op then [] else acc
  | .regsCleared _ => []
  | _ => acc

/-- The callbacks registered for `op`. -/
def regsIn (l : List Ev) (op : Op) : List (Id × Fn) := l.foldl (regStep op) []

def cacheStep (op : Op) (acc : Option (Option Val)) : Ev → Option (Option Val)
  | .cached _ o p => if o = op then some p else acc
  | .uncached _ o => if o = op then none else acc
  | _ => acc

def cacheIn (l : List Ev) (op : Op) : Option (Option Val) := l.foldl (cacheStep op) none

/-- No request and no registration has had this id. -/
def Unused (l : List Ev) (id : Id) : Prop := (∀ n op tg, .stored n op id tg ∉ l) ∧ ∀ n op f b, .registered n op id f b ∉ l

def Unset (l : List Ev) (id : Id) : Prop := ∀ n p, .promised n id p ∉ l

/-- The rules for event `e` after history `l`. -/
def EvOk (l : List Ev) : Ev → Prop
  | .checked _ b => b = true ↔ statusIn l = .available
  -- ids are new
  | .stored _ _ id _ => Unused l id
  -- a registration is the first iff there is none
  | .registered _ op id _ b => Unused l id ∧ (b = true ↔ regsIn l op = [])
  | .unregistered _ op id k => k = ((regsIn l op).filter (·.1 != id)).length
  -- an abort finds the request iff it is pending
  | .looked _ op id b => b = true ↔ ∃ tg, (id, tg) ∈ pendIn l op
  -- a response finds the callback of the pending request with its operation and id
  | .taken _ m tg => ∀ g, tg = some g ↔ ∃ id, m.id = some id ∧ (id, g) ∈ pendIn l m.op
  -- an update finds the callbacks registered for its operation, in order of registration
  | .collected _ op fs => fs = (regsIn l op).map (·.2)
  | .subscribed _ op b => b = true ↔ regsIn l op ≠ []
  | .readCache _ op o => (cacheIn l op = none ∧ o = none) ∨ ∃ v, cacheIn l op = some (some v) ∧ o = some v
  -- a promise is set once
  | .promised _ id _ => Unset l id
  | .threw _ id => ¬ Unset l id
  | .got _ id p => ∃ n, .promised n id p ∈ l
  -- a promise is broken if the request is not pending any more, and no response was ever matched to it
  | .broken _ id => Unset l id ∧ (∀ op tg, (id, tg) ∉ pendIn l op) ∧ ∀ n m tg, .taken n m (some tg) ∈ l → m.id ≠ some id
  | .expired _ id => Unset l id
  -- the availability changes
  | .statusStored _ a => a ≠ statusIn l
  | _ => True

/-! ### What a call does -/

/-- A request (`code`: `request` or `statusGet`) from the point where it is stored until the call returns. -/
inductive Exchange (n : Cid) (code : Code) (op : Op) (p : Option Val) (tg : Target) : How → List Ev → Prop
  | failed {h id st} (hh : h ≠ .get) (hst : st ≠ .success) :
      Exchange n code op p tg h [.stored n op id tg, .sent n ⟨code, op, some id, p⟩, .sentBack n st, .dropped n op id, .returned n ⟨none, none, some st⟩]
  | async {id} :
      Exchange n code op p tg .async [.stored n op id tg, .sent n ⟨code, op, some id, p⟩, .sentBack n .success, .returned n ⟨some (op, id), none, some .success⟩]
  /-- `getStatus` with a callback returns Success, whether its message could be sent or not -/
  | unheard {id st} (hst : st ≠ .success) :
      Exchange n code op p tg .get [.stored n op id tg, .sent n ⟨code, op, some id, p⟩, .sentBack n st, .dropped n op id, .returned n ⟨none, none, some .success⟩]
  | asked {id} :
      Exchange n code op p tg .get [.stored n op id tg, .sent n ⟨code, op, some id, p⟩, .sentBack n .success, .returned n ⟨none, none, some .success⟩]
  /-- the operation id is the invalid one: the call does not wait -/
  | invalid {t id} (hop : op = 0) :
      Exchange n code op p tg (.sync t) [.stored n op id tg, .sent n ⟨code, op, some id, p⟩, .sentBack n .success, .returned n ⟨none, none, some .success⟩]
  /-- the payload set by a response is returned -/
  | got {t id q} (hop : op ≠ 0) :
      Exchange n code op p tg (.sync t) [.stored n op id tg, .sent n ⟨code, op, some id, p⟩, .sentBack n .success, .got n id q, .returned n ⟨none, q, some .success⟩]
  | broken {t id} (hop : op ≠ 0) :
      Exchange n code op p tg (.sync t) [.stored n op id tg, .sent n ⟨code, op, some id, p⟩, .sentBack n .success, .broken n id, .returned n ⟨none, none, some .actionBroken⟩]
  /-- timeout, and the request is not pending any more -/
  | late {id} (hop : op ≠ 0) :
      Exchange n code op p tg (.sync true) [.stored n op id tg, .sent n ⟨code, op, some id, p⟩, .sentBack n .success, .expired n id, .looked n op id false,
        .returned n ⟨none, none, some .timeout⟩]
  /-- timeout, and the request is aborted -/
  | timeout {id st} (hop : op ≠ 0) :
      Exchange n code op p tg (.sync true) [.stored n op id tg, .sent n ⟨code, op, some id, p⟩, .sentBack n .success, .expired n id, .looked n op id true,
        .sent n ⟨.abort, op, some id, none⟩, .sentBack n st, .returned n ⟨none, none, some .timeout⟩]

def regCode (signal : Bool) : Code := if signal then .signalRegister else .statusRegister

def isUpdate (c : Code) : Bool := c == .statusRegister || c == .signalRegister
def isAnswer (c : Code) : Bool := c == .request || c == .partialUpdate || c == .statusGet

/-- All that a call does. -/
inductive Full (n : Cid) : Call → List Ev → Prop
  | reqRefused {op p f} : Full n (.request op p f) [.called n (.request op p f), .checked n false, .returned n ⟨none, none, some .serviceUnavailable⟩]
  | req {op p f l} (h : Exchange n .request op p (.user f) .async l) : Full n (.request op p f) (.called n (.request op p f) :: .checked n true :: l)
  | syncRefused {op p t} : Full n (.requestSync op p t) [.called n (.requestSync op p t), .checked n false, .returned n ⟨none, none, some .serviceUnavailable⟩]
  | sync {op p t l} (h : Exchange n .request op p .sync (.sync t) l) : Full n (.requestSync op p t) (.called n (.requestSync op p t) :: .checked n true :: l)
  -- the service is unavailable: the cached value
  | getOff {op t o} : Full n (.getSync op t) [.called n (.getSync op t), .checked n false, .readCache n op o, .returned n ⟨none, o, some .serviceUnavailable⟩]
  -- subscribed: the cached value
  | getSub {op t o} : Full n (.getSync op t) [.called n (.getSync op t), .checked n true, .subscribed n op true, .readCache n op o, .returned n ⟨none, o, some .success⟩]
  | getLost {op t} : Full n (.getSync op t) [.called n (.getSync op t), .checked n true, .subscribed n op false, .checked n false, .returned n ⟨none, none, some .serviceUnavailable⟩]
  | get {op t l} (h : Exchange n .statusGet op none .sync (.sync t) l) :
      Full n (.getSync op t) (.called n (.getSync op t) :: .checked n true :: .subscribed n op false :: .checked n true :: l)
  | getaOff {op f o} : Full n (.getAsync op f) [.called n (.getAsync op f), .checked n false, .readCache n op o, .ran n f o, .returned n ⟨none, none, some .serviceUnavailable⟩]
  | getaSub {op f o} : Full n (.getAsync op f) [.called n (.getAsync op f), .checked n true, .subscribed n op true, .readCache n op o, .ran n f o, .returned n ⟨none, none, some .success⟩]
  | geta {op f l} (h : Exchange n .statusGet op none (.user (some f)) .get l) :
      Full n (.getAsync op f) (.called n (.getAsync op f) :: .checked n true :: .subscribed n op false :: l)
  | regRefused {g op f} : Full n (.register g op f) [.called n (.register g op f), .checked n false, .returned n ⟨none, none, some .serviceUnavailable⟩]
  | regEmpty {g op} : Full n (.register g op none) [.called n (.register g op none), .checked n true, .returned n ⟨none, none, some .invalidParam⟩]
  -- the first one: the server is asked
  | regFirst {g op f id} : Full n (.register g op (some f)) [.called n (.register g op (some f)), .checked n true, .registered n op id f true, .sent n ⟨regCode g, op, some id, none⟩,
      .sentBack n .success, .returned n ⟨some (op, id), none, some .success⟩]
  | regFailed {g op f id st k} (hst : st ≠ .success) : Full n (.register g op (some f)) [.called n (.register g op (some f)), .checked n true, .registered n op id f true,
      .sent n ⟨regCode g, op, some id, none⟩, .sentBack n st, .unregistered n op id k, .returned n ⟨none, none, some st⟩]
  -- a further one: the cached value, if there is one
  | regLate {op f id v} : Full n (.register false op (some f)) [.called n (.register false op (some f)), .checked n true, .registered n op id f false, .readCache n op (some v),
      .ran n f (some v), .returned n ⟨some (op, id), none, some .success⟩]
  | regLateNone {op f id} : Full n (.register false op (some f)) [.called n (.register false op (some f)), .checked n true, .registered n op id f false, .readCache n op none,
      .returned n ⟨some (op, id), none, some .success⟩]
  | regSignal {op f id} : Full n (.register true op (some f)) [.called n (.register true op (some f)), .checked n true, .registered n op id f false, .returned n ⟨some (op, id), none, none⟩]
  | unregInvalid {op id} (h : op = 0 ∨ id = none) : Full n (.unregister op id) [.called n (.unregister op id), .returned n ⟨none, none, some .invalidParam⟩]
  | unregMore {op id k} (hop : op ≠ 0) (hk : k ≠ 0) : Full n (.unregister op (some id)) [.called n (.unregister op (some id)), .unregistered n op id k, .returned n ⟨none, none, some .success⟩]
  -- none is left: the server is asked
  | unregOff {op id} (hop : op ≠ 0) : Full n (.unregister op (some id)) [.called n (.unregister op (some id)), .unregistered n op id 0, .uncached n op, .checked n false,
      .returned n ⟨none, none, some .serviceUnavailable⟩]
  | unregLast {op id st} (hop : op ≠ 0) : Full n (.unregister op (some id)) [.called n (.unregister op (some id)), .unregistered n op id 0, .uncached n op, .checked n true,
      .sent n ⟨.unregister, op, none, none⟩, .sentBack n st, .returned n ⟨none, none, some .success⟩]
  | allRefused {op} : Full n (.unregisterAll op) [.called n (.unregisterAll op), .checked n false, .returned n ⟨none, none, some .serviceUnavailable⟩]
  | all {op st} : Full n (.unregisterAll op) [.called n (.unregisterAll op), .checked n true, .erased n op, .sent n ⟨.unregister, op, none, none⟩, .sentBack n st, .uncached n op,
      .returned n ⟨none, none, some .success⟩]
  | abortInvalid {op id} (h : op = 0 ∨ id = none) : Full n (.abort op id) [.called n (.abort op id), .returned n ⟨none, none, some .invalidParam⟩]
  | abortNone {op id} (hop : op ≠ 0) : Full n (.abort op (some id)) [.called n (.abort op (some id)), .looked n op id false, .returned n ⟨none, none, none⟩]
  | abort {op id st} (hop : op ≠ 0) : Full n (.abort op (some id)) [.called n (.abort op (some id)), .looked n op id true, .sent n ⟨.abort, op, some id, none⟩, .sentBack n st,
      .returned n ⟨none, none, some st⟩]
  -- messages for others, messages that are not for clients
  | ignored {m b} (h : b = false ∨ (isUpdate m.code = false ∧ isAnswer m.code = false)) : Full n (.incoming m b) [.called n (.incoming m b), .returned n ⟨none, none, none⟩]
  -- an update: the collected callbacks in turn; a status is cached then
  | update {m fs} (h : isUpdate m.code = true) : Full n (.incoming m true) (.called n (.incoming m true) :: .collected n m.op fs :: fs.map (.ran n · m.payload) ++
      (if m.code = .statusRegister ∧ fs ≠ [] then [.cached n m.op m.payload] else []) ++ [.returned n ⟨none, none, none⟩])
  -- a response
  | unmatched {m} (h : isAnswer m.code = true) : Full n (.incoming m true) [.called n (.incoming m true), .taken n m none, .returned n ⟨none, none, none⟩]
  | noCallback {m} (h : isAnswer m.code = true) : Full n (.incoming m true) [.called n (.incoming m true), .taken n m (some (.user none)), .returned n ⟨none, none, none⟩]
  | answered {m f} (h : isAnswer m.code = true) : Full n (.incoming m true) [.called n (.incoming m true), .taken n m (some (.user (some f))), .ran n f m.payload, .returned n ⟨none, none, none⟩]
  | promised {m id} (h : isAnswer m.code = true) (hid : m.id = some id) : Full n (.incoming m true) [.called n (.incoming m true), .taken n m (some .sync), .promised n id m.payload,
      .returned n ⟨none, none, none⟩]
  | threw {m id} (h : isAnswer m.code = true) (hid : m.id = some id) : Full n (.incoming m true) [.called n (.incoming m true), .taken n m (some .sync), .threw n id]
  | same {a} : Full n (.status a) [.called n (.status a), .returned n ⟨none, none, none⟩]
  | changed {a} (ha : a ≠ .unavailable) : Full n (.status a) [.called n (.status a), .statusStored n a, .returned n ⟨none, none, none⟩]
  -- the service is lost: everything is cleared
  | lost : Full n (.status .unavailable) [.called n (.status .unavailable), .statusStored n .unavailable, .reqsCleared n, .regsCleared n, .returned n ⟨none, none, none⟩]
  | deinit : Full n .deinit [.called n .deinit, .reqsCleared n, .returned n ⟨none, none, none⟩]

def Ev.cid : Ev → Cid
  | .called n _ | .checked n _ | .stored n _ _ _ | .registered n _ _ _ _ | .sent n _ | .sentBack n _ | .dropped n _ _ | .unregistered n _ _ _ | .erased n _ | .looked n _ _ _
  | .taken n _ _ | .collected n _ _ | .ran n _ _ | .subscribed n _ _ | .readCache n _ _ | .cached n _ _ | .uncached n _ | .promised n _ _ | .threw n _ | .got n _ _
  | .broken n _ | .expired n _ | .statusStored n _ | .reqsCleared n | .regsCleared n | .returned n _ => n

/-- What call `n` has done. -/
def trace (n : Cid) (l : List Ev) : List Ev := l.filter (·.cid == n)

/-- What call `n` has done is what it should do, up to some point. -/
def Follows (n : Cid) (l : List Ev) : Prop := trace n l = [] ∨ ∃ c full, Full n c full ∧ trace n l <+: full

end Maf.Req
