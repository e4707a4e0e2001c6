import Verif.Props.ProviderAbort
/-
C38, C39, C65, C66, C67: properties, signals, and who is told of them.
-/
namespace Maf.Prov
open Maf.Calls

/-- The operations of call `n`. -/
def opsOf (n : Nat) (l : List Event) : List O := l.filterMap fun | .did k q a => if k = n then some ⟨q, a⟩ else none | _ => none

/-- The messages given to the transport: to whom, and with which result. -/
def sends (l : List O) : List (Addr × Msg × Status) := l.filterMap fun | ⟨.send a m, st⟩ => some (a, m, st) | _ => none

/-- The addresses whose registrations were dropped. -/
def drops (l : List O) : List Addr := l.filterMap fun | ⟨.dropAddr a, _⟩ => some a | _ => none

/-- The provider-side listeners that were called. -/
def notified (l : List O) : List (Fn × Option Obj) := l.filterMap fun | ⟨.run (.listener f p), _⟩ => some (f, p) | _ => none

theorem opsOf_trace (n : Nat) (l : List Event) : opsOf n l = opsOf n (trace (S := sys) n l) := by
  induction l with
  | nil => rfl
  | cons e l ih =>
    by_cases h : e.cid = n
    · have : trace (S := sys) n (e :: l) = e :: trace (S := sys) n l := by simp [trace, h]
      rw [this]
      simp only [opsOf, List.filterMap_cons] at ih ⊢
      rw [ih]
    · have : trace (S := sys) n (e :: l) = trace (S := sys) n l := by simp [trace, h]
      rw [this, ← ih]
      cases e with
      | did k q a => simp [Ev.cid] at h; simp [opsOf, h]
      | _ => rfl

theorem opsOf_evs (n : Nat) (l : List O) : opsOf n (evs (S := sys) n l) = l := by
  induction l with
  | nil => rfl
  | cons o l ih => simp only [evs, List.map_cons, opsOf, List.filterMap_cons, if_true] at ih ⊢; rw [ih]

/-- What a returned call has done. -/
theorem returned_opsOf {as : List (Act sys)} {s : St} (hr : run (Calls.init sys) as = some s) {n : Nat} {c : Call} {x : Res} (hc : .called n c ∈ s.log) (hx : .returned n x ∈ s.log) : Path (prog c) (opsOf n s.log) (.ret x) := by
  obtain ⟨ops, ht, hp⟩ := returned_ops hr hc hx
  have : opsOf n s.log = ops := by
    rw [opsOf_trace, ht]
    have h1 : opsOf n (Ev.called n c :: evs (S := sys) n ops ++ [.returned n x]) = opsOf n (evs (S := sys) n ops) := by simp [opsOf, List.filterMap_append]
    rw [h1, opsOf_evs]
  rw [this]; exact hp

theorem mem_opsOf {n : Nat} {l : List Event} {q : Query} {a : Ans q} (h : ⟨q, a⟩ ∈ opsOf n l) : .did n q a ∈ l := by
  obtain ⟨e, he, h'⟩ := List.mem_filterMap.1 h
  cases e with
  | did k q' a' =>
    simp only at h'
    split at h'
    · next e => subst e; cases h'; exact he
    · cases h'
  | _ => cases h'

/-! ### Broadcasts -/

/-- What a broadcast does: it locks and calls the listeners, reads who is registered, and sends in two rounds. -/
def bcastOps (op : OpId) (code : Code) (p : Option Obj) (fs : List Fn) (as : List Addr) (rs1 rs2 : List (Addr × Status)) : List O :=
  ⟨.lockListeners op, fs⟩ :: (fs.map fun f => ⟨.run (.listener f p), ()⟩) ++ ⟨.unlockListeners, ()⟩ :: ⟨.registered op, as⟩ :: (round ⟨code, 0, op, none, .of p⟩ rs1 ++ round ⟨code, 0, op, none, .of p⟩ rs2)

/-- The status returned by a broadcast: as many are busy after the second round as were registered. -/
def bcastResult (as : List Addr) (rs2 : List (Addr × Status)) : Status := if (busy rs2).length ≠ as.length then .receiverUnavailable else .success

theorem broadcast_path {op : OpId} {code : Code} {p : Option Obj} {l : List O} {st : Status} (h : Path (broadcast op code p) l (.ret st)) :
    ∃ fs as rs1 rs2, l = bcastOps op code p fs as rs1 rs2 ∧ rs1.map (·.1) = as ∧ rs2.map (·.1) = busy rs1 ∧ st = bcastResult as rs2 := by
  simp only [broadcast, path_bind_ret] at h
  obtain ⟨l1, l2, x, rfl, h1, h2⟩ := h
  simp only [broadcastServerSide, ask_bind, path_ask_ret, path_bind_ret] at h1
  obtain ⟨fs, l', rfl, l3, l4, u, rfl, h3, h4⟩ := h1
  simp only [atom, ask, path_ask_ret] at h4
  obtain ⟨u, l', rfl, h4⟩ := h4
  simp at h4
  subst h4
  obtain rfl := notifyAll_path h3
  simp only [broadcastToClients, ask_bind, path_ask_ret] at h2
  obtain ⟨as, l', rfl, h2⟩ := h2
  refine ⟨fs, as, ?_⟩
  split at h2
  · next e =>
    simp at h2
    exact ⟨[], [], by simp [bcastOps, round, h2.1], by simp [e], rfl, by simp [bcastResult, e, busy, h2.2]⟩
  · next e =>
    rw [path_bind_ret] at h2
    obtain ⟨l5, l6, bs, rfl, h5, h6⟩ := h2
    obtain ⟨rs1, h7, rfl, rfl⟩ := trySend_path h5
    refine ⟨rs1, ?_⟩
    split at h6
    · next e' =>
      simp at h6
      exact ⟨[], by simp [bcastOps, round, h6.1], h7, by simp [e'], by rw [h6.2]; simp [bcastResult, busy]⟩
    · rw [path_bind_ret] at h6
      obtain ⟨l7, l8, bs, rfl, h8, h9⟩ := h6
      simp at h9
      obtain ⟨rfl, h9⟩ := h9
      obtain ⟨rs2, h10, rfl, rfl⟩ := trySend_path h8
      exact ⟨rs2, by simp [bcastOps], h7, h10, by rw [h9]; simp [bcastResult]⟩

theorem sends_round (m : Msg) (rs : List (Addr × Status)) : sends (round m rs) = rs.map fun x => (x.1, m, x.2) := by
  induction rs with
  | nil => rfl
  | cons x rs ih =>
    obtain ⟨a, st⟩ := x
    simp only [round, sends, List.filterMap_cons, List.filterMap_append, List.map_cons] at ih ⊢
    rw [ih]
    split <;> simp

/-- Those that could not be sent to. -/
def failed (rs : List (Addr × Status)) : List Addr := (rs.filter fun x => x.2 != .success && x.2 != .receiverBusy).map (·.1)

theorem drops_round (m : Msg) (rs : List (Addr × Status)) : drops (round m rs) = failed rs := by
  induction rs with
  | nil => rfl
  | cons x rs ih =>
    obtain ⟨a, st⟩ := x
    have : failed ((a, st) :: rs) = (if st = .success ∨ st = .receiverBusy then [] else [a]) ++ failed rs := by
      simp only [failed, List.filter_cons]
      split <;> split <;> simp_all
    rw [this, ← ih]
    simp only [round, drops, List.filterMap_cons, List.filterMap_append]
    split <;> simp

theorem notified_round (m : Msg) (rs : List (Addr × Status)) : notified (round m rs) = [] := by
  induction rs with
  | nil => rfl
  | cons x rs ih =>
    obtain ⟨a, st⟩ := x
    simp only [round, notified, List.filterMap_cons, List.filterMap_append] at ih ⊢
    rw [ih]
    split <;> simp

theorem sends_append (a b : List O) : sends (a ++ b) = sends a ++ sends b := List.filterMap_append
theorem drops_append (a b : List O) : drops (a ++ b) = drops a ++ drops b := List.filterMap_append
theorem notified_append (a b : List O) : notified (a ++ b) = notified a ++ notified b := List.filterMap_append

theorem sends_listeners (p : Option Obj) (fs : List Fn) : sends (fs.map fun f => ⟨.run (.listener f p), ()⟩) = [] := by
  induction fs with
  | nil => rfl
  | cons f fs ih => exact ih
theorem drops_listeners (p : Option Obj) (fs : List Fn) : drops (fs.map fun f => ⟨.run (.listener f p), ()⟩) = [] := by
  induction fs with
  | nil => rfl
  | cons f fs ih => exact ih
theorem notified_listeners (p : Option Obj) (fs : List Fn) : notified (fs.map fun f => ⟨.run (.listener f p), ()⟩) = fs.map fun f => (f, p) := by
  induction fs with
  | nil => rfl
  | cons f fs ih =>
    show (f, p) :: notified (fs.map fun f => ⟨.run (.listener f p), ()⟩) = _
    rw [ih]; rfl

theorem bcast_sends (op : OpId) (code : Code) (p : Option Obj) (fs : List Fn) (as : List Addr) (rs1 rs2 : List (Addr × Status)) :
    sends (bcastOps op code p fs as rs1 rs2) = (rs1 ++ rs2).map (fun x => (x.1, ⟨code, 0, op, none, .of p⟩, x.2)) ∧ drops (bcastOps op code p fs as rs1 rs2) = failed (rs1 ++ rs2) ∧
    notified (bcastOps op code p fs as rs1 rs2) = fs.map fun f => (f, p) := by
  have h1 : bcastOps op code p fs as rs1 rs2 = [⟨.lockListeners op, fs⟩] ++ (fs.map fun f => ⟨.run (.listener f p), ()⟩) ++ [⟨.unlockListeners, ()⟩, ⟨.registered op, as⟩] ++ (round ⟨code, 0, op, none, .of p⟩ rs1 ++ round ⟨code, 0, op, none, .of p⟩ rs2) := by simp [bcastOps]
  rw [h1]
  simp only [sends_append, drops_append, notified_append, sends_listeners, drops_listeners, notified_listeners, sends_round, drops_round, notified_round]
  refine ⟨by simp [sends], ?_, by simp [notified]⟩
  simp [drops, failed]

/-! ### C38: properties -/

/-- `setStatus`: the property changes unless it has a value that is equal to the new one. If it changes, the new value is its value from then on, and the call broadcasts it; otherwise the
call does nothing more and returns `NoAction`. -/
theorem set_status {as : List (Act sys)} {s : St} (hr : run (Calls.init sys) as = some s) {n : Nat} {op : OpId} {p : Option Obj} {x : Res} (hc : .called n (.setStatus op p) ∈ s.log) (hx : .returned n x ∈ s.log) :
    ∃ l rest b, s.log = l ++ .did n (.setStatus op p) b :: rest ∧ (b = true ↔ ∀ y z, statusIn l op = some y → p = some z → y.equal z = false) ∧
      statusIn (l ++ [.did n (.setStatus op p) b]) op = (if b then p else statusIn l op) ∧
      (b = false → x = .status .noAction ∧ opsOf n s.log = [⟨.setStatus op p, false⟩]) ∧
      (b = true → x ≠ .status .noAction ∧ ∃ fs as rs1 rs2, opsOf n s.log = ⟨.setStatus op p, true⟩ :: bcastOps op .statusRegister p fs as rs1 rs2) := by
  have hp := returned_opsOf hr hc hx
  simp only [prog, setStatus, ask_bind, bind_ask, path_ask_ret] at hp
  obtain ⟨b, l', ho, hp⟩ := hp
  have hin : .did n (.setStatus op p) b ∈ s.log := mem_opsOf (by rw [ho]; simp)
  obtain ⟨l, rest, e⟩ := List.append_of_mem hin
  have hrun := run_of hr
  rw [e] at hrun
  refine ⟨l, rest, b, e, hrun.ok, ?_, ?_, ?_⟩
  · rw [statusIn_one]; cases b <;> simp [statusStep]
  · rintro rfl
    simp at hp
    exact ⟨hp.2, by rw [ho, hp.1]⟩
  · rintro rfl
    simp only [if_true, path_bind_ret] at hp
    obtain ⟨l1, l2, st, rfl, h1, h2⟩ := hp
    simp at h2
    obtain ⟨fs, as', rs1, rs2, rfl, -, -, hst⟩ := broadcast_path h1
    refine ⟨?_, fs, as', rs1, rs2, by rw [ho, h2.1, List.append_nil]⟩
    rw [h2.2, hst]
    simp only [bcastResult]
    split <;> simp

/-- `equal` compares contents, if both are there, and if the payloads are of one kind and (in-process) different objects. -/
theorem equal_iff_partial {a b : Obj} (hk : a.ipc = b.ipc) (ha : a.content ≠ none) (hb : b.content ≠ none) (hd : a.ipc = true ∨ a.ref ≠ b.ref) : a.equal b = true ↔ a.content = b.content := by
  obtain ⟨ra, ka, ca⟩ := a
  obtain ⟨rb, kb, cb⟩ := b
  cases ca with
  | none => simp at ha
  | some x =>
    cases cb with
    | none => simp at hb
    | some y =>
      simp only at hk
      subst hk
      cases ka with
      | true => simp [Obj.equal]
      | false =>
        have : rb ≠ ra := by simpa [eq_comm] using hd
        simp [Obj.equal, this]

/-- Partial: a status update is broadcast iff the property was absent or the new value differs from the stored one; for payloads with contents, of one kind, and (in-process) objects that are not used twice. -/
theorem changed_iff_partial {as : List (Act sys)} {s : St} (hr : run (Calls.init sys) as = some s) {l rest : List Event} {n : Nat} {op : OpId} {v : Obj} {b : Bool} (h : s.log = l ++ .did n (.setStatus op (some v)) b :: rest)
    (hv : ∀ y, statusIn l op = some y → y.ipc = v.ipc ∧ y.content ≠ none ∧ v.content ≠ none ∧ (v.ipc = true ∨ y.ref ≠ v.ref)) :
    b = true ↔ statusIn l op = none ∨ ∃ y, statusIn l op = some y ∧ y.content ≠ v.content := by
  have hrun := run_of hr
  rw [h] at hrun
  have h1 : b = true ↔ ∀ y z, statusIn l op = some y → some v = some z → y.equal z = false := hrun.ok
  rw [h1]
  cases hs : statusIn l op with
  | none => simp
  | some y =>
    obtain ⟨k1, k2, k3, k4⟩ := hv y hs
    have := equal_iff_partial k1 k2 k3 (by rw [k1]; exact k4)
    simp only [Option.some.injEq, reduceCtorEq, false_or]
    constructor
    · intro h; exact ⟨y, rfl, fun e => by have := this.2 e; rw [h y v rfl rfl] at this; cases this⟩
    · rintro ⟨y', rfl, h⟩ _ _ rfl rfl
      cases hq : y.equal v with
      | false => rfl
      | true => exact absurd (this.1 hq) h

/-- A change is never missed: a payload that `setStatus` does not make the value of the property has the contents that the property has. -/
theorem change_not_missed {as : List (Act sys)} {s : St} (hr : run (Calls.init sys) as = some s) {l rest : List Event} {n : Nat} {op : OpId} {p : Option Obj}
    (h : s.log = l ++ .did n (.setStatus op p) false :: rest) : ∃ y z x, statusIn l op = some y ∧ p = some z ∧ y.content = some x ∧ z.content = some x := by
  have hrun := run_of hr
  rw [h] at hrun
  have h1 : false = true ↔ ∀ y z, statusIn l op = some y → p = some z → y.equal z = false := hrun.ok
  cases hs : statusIn l op with
  | none => exact absurd (h1.2 (fun y z h => by rw [hs] at h; cases h)) (by simp)
  | some y =>
    cases p with
    | none => exact absurd (h1.2 (fun y z _ h => by cases h)) (by simp)
    | some z =>
      cases hq : y.equal z with
      | false => exact absurd (h1.2 (fun y' z' h h' => by rw [hs] at h; cases h; cases h'; exact hq)) (by simp)
      | true =>
        simp only [Obj.equal] at hq
        split at hq
        · cases hy : y.content <;> cases hz : z.content <;> simp_all
        · cases hy : y.content <;> cases hz : z.content <;> simp_all

/-- `getStatus` returns the value of the property. -/
theorem get_status {as : List (Act sys)} {s : St} (hr : run (Calls.init sys) as = some s) {n : Nat} {op : OpId} {x : Res} (hc : .called n (.getStatus op) ∈ s.log) (hx : .returned n x ∈ s.log) :
    ∃ l rest o, s.log = l ++ .did n (.status op) o :: rest ∧ x = .payload (statusIn l op) := by
  have hp := returned_opsOf hr hc hx
  simp only [prog, ask_bind, path_ask_ret] at hp
  obtain ⟨o, l', ho, hp⟩ := hp
  simp at hp
  have hin : .did n (.status op) o ∈ s.log := mem_opsOf (by rw [ho]; simp)
  obtain ⟨l, rest, e⟩ := List.append_of_mem hin
  have hrun := run_of hr
  rw [e] at hrun
  exact ⟨l, rest, o, e, by rw [hp.2, ← (show o = statusIn l op from hrun.ok)]⟩

/-- What the value of a property is: the one set last, with no removal since. -/
theorem status_is {l : List Event} {op : OpId} {v : Obj} (h : statusIn l op = some v) :
    ∃ a n b, l = a ++ .did n (.setStatus op (some v)) true :: b ∧ (∀ k p, .did k (.setStatus op p) true ∉ b) ∧ (∀ k, .did k (.dropStatus op) () ∉ b) ∧ ∀ k, .did k .clearStatus () ∉ b := by
  revert h
  refine snoc_induct (motive := fun l => statusIn l op = some v →
    ∃ a n b, l = a ++ .did n (.setStatus op (some v)) true :: b ∧ (∀ k p, .did k (.setStatus op p) true ∉ b) ∧ (∀ k, .did k (.dropStatus op) () ∉ b) ∧ ∀ k, .did k .clearStatus () ∉ b) (by simp [statusIn]) ?_ l
  intro l e ih h
  rw [statusIn_one] at h
  have old : statusIn l op = some v → (∀ k p, Ev.did k (.setStatus op p) true ≠ e) → (∀ k, Ev.did k (.dropStatus op) () ≠ e) → (∀ k, Ev.did k .clearStatus () ≠ e) →
      ∃ a n b, l ++ [e] = a ++ .did n (.setStatus op (some v)) true :: b ∧ (∀ k p, .did k (.setStatus op p) true ∉ b) ∧ (∀ k, .did k (.dropStatus op) () ∉ b) ∧ ∀ k, .did k .clearStatus () ∉ b := by
    intro h1 h2 h3 h4
    obtain ⟨a, n, b, rfl, h5, h6, h7⟩ := ih h1
    exact ⟨a, n, b ++ [e], by simp, fun k p => by simp [h5 k p, h2 k p], fun k => by simp [h6 k, h3 k], fun k => by simp [h7 k, h4 k]⟩
  cases e with
  | did n q a =>
    cases q with
    | setStatus op' p =>
      cases a with
      | false => exact old h (by simp) (by simp) (by simp)
      | true =>
        simp only [statusStep] at h
        split at h
        · next e => subst e h; exact ⟨l, n, [], rfl, by simp, by simp, by simp⟩
        · next e => exact old h (fun k p h => by cases h; exact e rfl) (by simp) (by simp)
    | dropStatus op' =>
      simp only [statusStep] at h
      split at h
      · cases h
      · next e => exact old h (by simp) (fun k h => by cases h; exact e rfl) (by simp)
    | clearStatus => simp only [statusStep] at h; cases h
    | _ => exact old h (by simp) (by simp) (by simp)
  | _ => exact old h (by simp) (by simp) (by simp)

/-! ### C39: broadcasts -/

/-- Call `c`, which returned `x`, broadcasts `p` for operation `op`: a signal, a removed property, a changed property. -/
def Broadcasts (c : Call) (x : Res) (op : OpId) (code : Code) (p : Option Obj) : Prop :=
  (c = .broadcastSignal op p ∧ code = .signalRegister) ∨ (c = .removeProperty op true ∧ p = none ∧ code = .statusRegister) ∨ (c = .setStatus op p ∧ x ≠ .status .noAction ∧ code = .statusRegister)

theorem broadcasts_ops {as : List (Act sys)} {s : St} (hr : run (Calls.init sys) as = some s) {n : Nat} {c : Call} {x : Res} {op : OpId} {code : Code} {p : Option Obj} (hc : .called n c ∈ s.log) (hx : .returned n x ∈ s.log)
    (hb : Broadcasts c x op code p) : ∃ pre fs as rs1 rs2, opsOf n s.log = pre ++ bcastOps op code p fs as rs1 rs2 ∧ (pre = [] ∨ pre = [⟨.dropStatus op, ()⟩] ∨ pre = [⟨.setStatus op p, true⟩]) ∧
      rs1.map (·.1) = as ∧ rs2.map (·.1) = busy rs1 ∧ x = .status (bcastResult as rs2) := by
  have hp := returned_opsOf hr hc hx
  rcases hb with ⟨rfl, rfl⟩ | ⟨rfl, rfl, rfl⟩ | ⟨rfl, hne, rfl⟩
  · simp only [prog, path_bind_ret] at hp
    obtain ⟨l1, l2, st, ho, h1, h2⟩ := hp
    simp at h2
    obtain ⟨fs, as', rs1, rs2, rfl, h3, h4, hst⟩ := broadcast_path h1
    exact ⟨[], fs, as', rs1, rs2, by simp [ho, h2.1], .inl rfl, h3, h4, by rw [h2.2, hst]⟩
  · simp only [prog, removeProperty, ask_bind, bind_ask, if_true, path_ask_ret, path_bind_ret] at hp
    obtain ⟨u, l', ho, l1, l2, st, rfl, h1, h2⟩ := hp
    simp at h2
    obtain ⟨fs, as', rs1, rs2, rfl, h3, h4, hst⟩ := broadcast_path h1
    exact ⟨[⟨.dropStatus op, ()⟩], fs, as', rs1, rs2, by simp [ho, h2.1], .inr (.inl rfl), h3, h4, by rw [h2.2, hst]⟩
  · simp only [prog, setStatus, ask_bind, bind_ask, path_ask_ret] at hp
    obtain ⟨b, l', ho, hp⟩ := hp
    cases b with
    | false => simp at hp; exact absurd hp.2 hne
    | true =>
      simp only [if_true, path_bind_ret] at hp
      obtain ⟨l1, l2, st, rfl, h1, h2⟩ := hp
      simp at h2
      obtain ⟨fs, as', rs1, rs2, rfl, h3, h4, hst⟩ := broadcast_path h1
      exact ⟨[⟨.setStatus op p, true⟩], fs, as', rs1, rs2, by simp [ho, h2.1], .inr (.inr rfl), h3, h4, by rw [h2.2, hst]⟩

theorem regs_nodup (l : List Event) : (regsIn l).Nodup := by
  refine snoc_induct (motive := fun l => (regsIn l).Nodup) (by simp [regsIn]) ?_ l
  intro l e ih
  rw [regsIn_one]
  cases e with
  | did n q a =>
    cases q with
    | saveReg b op =>
      simp only [regsStep]
      split
      · exact ih
      · next h => exact List.nodup_append.2 ⟨ih, by simp, fun x hx y hy => by simp at hy; subst hy; rintro rfl; exact h hx⟩
    | dropReg b op => exact ih.filter _
    | dropAddr b => exact ih.filter _
    | clearRegs => exact List.nodup_nil
    | _ => exact ih
  | _ => exact ih

theorem clients_nodup (l : List Event) (op : OpId) : (clientsIn l op).Nodup := by
  unfold clientsIn
  have h : ∀ xs : List (Addr × OpId), xs.Nodup → ((xs.filter (·.2 == op)).map (·.1)).Nodup := by
    intro xs hx
    induction xs with
    | nil => simp
    | cons x xs ih =>
      obtain ⟨a, o⟩ := x
      rw [List.nodup_cons] at hx
      rw [List.filter_cons]
      split
      · next e =>
        simp only [beq_iff_eq] at e
        subst e
        rw [List.map_cons, List.nodup_cons]
        refine ⟨fun hm => hx.1 ?_, ih hx.2⟩
        obtain ⟨⟨a', o'⟩, h1, h2⟩ := List.mem_map.1 hm
        obtain ⟨h3, h4⟩ := List.mem_filter.1 h1
        simp only [beq_iff_eq] at h2 h4
        subst h2 h4
        exact h3
      · exact ih hx.2
  exact h _ (regs_nodup l)

/-- Partial (the result of the call is not as stated, see `result_inverted`): a broadcast sends one message to every client that is registered for the operation when it looks, and to no other; those that are busy get it a second time;
those for which a send fails otherwise, and no others, are dropped. -/
theorem broadcast_reaches_partial {as : List (Act sys)} {s : St} (hr : run (Calls.init sys) as = some s) {n : Nat} {c : Call} {x : Res} {op : OpId} {code : Code} {p : Option Obj} (hc : .called n c ∈ s.log) (hx : .returned n x ∈ s.log)
    (hb : Broadcasts c x op code p) :
    ∃ l rest rs1 rs2, s.log = l ++ .did n (.registered op) (clientsIn l op) :: rest ∧ (clientsIn l op).Nodup ∧ rs1.map (·.1) = clientsIn l op ∧ rs2.map (·.1) = busy rs1 ∧
      sends (opsOf n s.log) = (rs1 ++ rs2).map (fun r => (r.1, ⟨code, 0, op, none, .of p⟩, r.2)) ∧ drops (opsOf n s.log) = failed (rs1 ++ rs2) ∧
      x = .status (if (busy rs2).length ≠ (clientsIn l op).length then .receiverUnavailable else .success) := by
  obtain ⟨pre, fs, as', rs1, rs2, ho, hpre, h1, h2, h3⟩ := broadcasts_ops hr hc hx hb
  have hin : .did n (.registered op) as' ∈ s.log := mem_opsOf (by rw [ho]; simp [bcastOps])
  obtain ⟨l, rest, e⟩ := List.append_of_mem hin
  have hrun := run_of hr
  rw [e] at hrun
  have h4 : as' = clientsIn l op := hrun.ok
  subst h4
  obtain ⟨k1, k2, k3⟩ := bcast_sends op code p fs (clientsIn l op) rs1 rs2
  refine ⟨l, rest, rs1, rs2, e, clients_nodup l op, h1, h2, ?_, ?_, h3⟩
  · rw [ho, sends_append, k1]
    rcases hpre with rfl | rfl | rfl <;> rfl
  · rw [ho, drops_append, k2]
    rcases hpre with rfl | rfl | rfl <;> rfl

/-- Who is registered: whoever has registered, and has not been dropped since. -/
theorem registered_iff {l : List Event} {a : Addr} {op : OpId} :
    a ∈ clientsIn l op ↔ ∃ x n y, l = x ++ .did n (.saveReg a op) () :: y ∧ (∀ k, .did k (.dropReg a op) () ∉ y) ∧ (∀ k, .did k (.dropAddr a) () ∉ y) ∧ ∀ k, .did k .clearRegs () ∉ y := by
  have h0 : a ∈ clientsIn l op ↔ (a, op) ∈ regsIn l := by
    simp [clientsIn]
  rw [h0]
  refine snoc_induct (motive := fun l => (a, op) ∈ regsIn l ↔ ∃ x n y, l = x ++ .did n (.saveReg a op) () :: y ∧ (∀ k, .did k (.dropReg a op) () ∉ y) ∧ (∀ k, .did k (.dropAddr a) () ∉ y) ∧ ∀ k, .did k .clearRegs () ∉ y)
    (by simp [regsIn]) ?_ l
  intro l e ih
  rw [regsIn_one]
  -- an event that is not about this registration
  have keep : (∀ k, e ≠ .did k (.saveReg a op) ()) → (∀ k, Ev.did k (.dropReg a op) () ≠ e) → (∀ k, Ev.did k (.dropAddr a) () ≠ e) → (∀ k, Ev.did k .clearRegs () ≠ e) →
      (((a, op) ∈ regsIn l) ↔ ∃ x n y, l ++ [e] = x ++ .did n (.saveReg a op) () :: y ∧ (∀ k, .did k (.dropReg a op) () ∉ y) ∧ (∀ k, .did k (.dropAddr a) () ∉ y) ∧ ∀ k, .did k .clearRegs () ∉ y) := by
    intro h1 h2 h3 h4
    rw [ih]
    constructor
    · rintro ⟨x, n, y, rfl, h5, h6, h7⟩
      exact ⟨x, n, y ++ [e], by simp, fun k => by simp [h5 k, h2 k], fun k => by simp [h6 k, h3 k], fun k => by simp [h7 k, h4 k]⟩
    · rintro ⟨x, n, y, hy, h5, h6, h7⟩
      cases y using snoc_induct with
      | nil => have := List.append_inj_right' hy rfl; simp at this; exact absurd this (h1 n)
      | snoc y z _ =>
        have hy' : l ++ [e] = (x ++ .did n (.saveReg a op) () :: y) ++ [z] := by simpa using hy
        have := List.append_inj_left' hy' rfl
        exact ⟨x, n, y, this, fun k hk => h5 k (by simp [hk]), fun k hk => h6 k (by simp [hk]), fun k hk => h7 k (by simp [hk])⟩
  -- an event that ends it
  have gone : ((∃ k, Ev.did k (.dropReg a op) () = e) ∨ (∃ k, Ev.did k (.dropAddr a) () = e) ∨ ∃ k, Ev.did k .clearRegs () = e) →
      ¬∃ x n y, l ++ [e] = x ++ .did n (.saveReg a op) () :: y ∧ (∀ k, .did k (.dropReg a op) () ∉ y) ∧ (∀ k, .did k (.dropAddr a) () ∉ y) ∧ ∀ k, .did k .clearRegs () ∉ y := by
    rintro he ⟨x, n, y, hy, h5, h6, h7⟩
    cases y using snoc_induct with
    | nil =>
      have := List.append_inj_right' hy rfl
      simp at this; subst this
      rcases he with ⟨k, h⟩ | ⟨k, h⟩ | ⟨k, h⟩ <;> cases h
    | snoc y z _ =>
      have hy' : l ++ [e] = (x ++ .did n (.saveReg a op) () :: y) ++ [z] := by simpa using hy
      have := List.append_inj_right' hy' rfl
      simp at this; subst this
      rcases he with ⟨k, rfl⟩ | ⟨k, rfl⟩ | ⟨k, rfl⟩
      · exact h5 k (by simp)
      · exact h6 k (by simp)
      · exact h7 k (by simp)
  cases e with
  | did n q ans =>
    cases q with
    | saveReg a' op' =>
      simp only [regsStep]
      by_cases h : a' = a ∧ op' = op
      · obtain ⟨rfl, rfl⟩ := h
        constructor
        · intro _; exact ⟨l, n, [], rfl, by simp, by simp, by simp⟩
        · intro _
          split
          · assumption
          · simp
      · rw [← keep (fun k e => by cases e; exact h ⟨rfl, rfl⟩) (by simp) (by simp) (by simp)]
        split
        · rfl
        · simp only [List.mem_append, List.mem_singleton, Prod.mk.injEq]
          constructor
          · rintro (k | ⟨rfl, rfl⟩)
            · exact k
            · exact absurd ⟨rfl, rfl⟩ h
          · exact .inl
    | dropReg a' op' =>
      simp only [regsStep]
      by_cases h : a' = a ∧ op' = op
      · obtain ⟨rfl, rfl⟩ := h
        constructor
        · intro h; simp at h
        · intro h; exact absurd h (gone (.inl ⟨n, rfl⟩))
      · rw [← keep (by simp) (fun k e => by cases e; exact h ⟨rfl, rfl⟩) (by simp) (by simp)]
        simp only [List.mem_filter, bne_iff_ne, ne_eq, Prod.mk.injEq]
        exact ⟨fun k => k.1, fun k => ⟨k, fun ⟨h1, h2⟩ => h ⟨h1.symm, h2.symm⟩⟩⟩
    | dropAddr a' =>
      simp only [regsStep]
      by_cases h : a' = a
      · subst h
        constructor
        · intro h; simp at h
        · intro h; exact absurd h (gone (.inr (.inl ⟨n, rfl⟩)))
      · rw [← keep (by simp) (by simp) (fun k e => by cases e; exact h rfl) (by simp)]
        simp only [List.mem_filter, bne_iff_ne, ne_eq]
        exact ⟨fun k => k.1, fun k => ⟨k, fun h1 => h h1.symm⟩⟩
    | clearRegs =>
      simp only [regsStep]
      constructor
      · intro h; simp at h
      · intro h; exact absurd h (gone (.inr (.inr ⟨n, rfl⟩)))
    | _ => exact keep (by simp) (by simp) (by simp) (by simp)
  | _ => exact keep (by simp) (by simp) (by simp) (by simp)

/-- Why a client is registered and why it is not any more: its messages, or a send to it that failed, or the end of the provider. -/
theorem registration_by {as : List (Act sys)} {s : St} (hr : run (Calls.init sys) as = some s) {n : Nat} {a : Addr} {op : OpId} :
    (.did n (.saveReg a op) () ∈ s.log → ∃ m, .called n (.incoming m) ∈ s.log ∧ (m.code = .statusRegister ∨ m.code = .signalRegister) ∧ m.addr = a ∧ m.op = op) ∧
    (.did n (.dropReg a op) () ∈ s.log → ∃ m, .called n (.incoming m) ∈ s.log ∧ m.code = .unregister ∧ m.addr = a ∧ m.op = op) ∧
    (.did n (.dropAddr a) () ∈ s.log → (∃ m, .called n (.incoming m) ∈ s.log ∧ m.code = .clientOff ∧ m.addr = a) ∨ ∃ m st, .did n (.send a m) st ∈ s.log ∧ st ≠ .success ∧ st ≠ .receiverBusy) ∧
    (.did n .clearRegs () ∈ s.log → .called n .deinit ∈ s.log ∨ .called n .destroy ∈ s.log) := by
  have hrun := run_of hr
  refine ⟨fun h => ?_, fun h => ?_, fun h => ?_, fun h => ?_⟩
  all_goals
    obtain ⟨l, rest, e⟩ := List.append_of_mem h
    have hr1 := hrun
    rw [e] at hr1 ⊢
    obtain ⟨c, pre, hc, ht, hl⟩ := hr1.did
  · obtain ⟨m, rfl, h1, rfl, rfl, -⟩ := hl
    exact ⟨m, List.mem_append_left _ hc, h1, rfl, rfl⟩
  · obtain ⟨m, rfl, h1, rfl, rfl⟩ := hl
    exact ⟨m, List.mem_append_left _ hc, h1, rfl, rfl⟩
  · rcases hl with ⟨m, rfl, h1, rfl⟩ | ⟨m, st, h1, h2⟩
    · exact .inl ⟨m, List.mem_append_left _ hc, h1, rfl⟩
    · exact .inr ⟨m, st, List.mem_append_left _ (pre_mem ht h1), h2⟩
  · rcases hl with rfl | rfl
    · exact .inl (List.mem_append_left _ hc)
    · exact .inr (List.mem_append_left _ hc)

/-! ### C65: who asks gets the current value -/

/-- A client that registers for a property is registered, and is then sent the value the property has, if it has one. -/
theorem register_gets_status {as : List (Act sys)} {s : St} (hr : run (Calls.init sys) as = some s) {n : Nat} {m : Msg} {x : Res} (hm : m.code = .statusRegister) (hc : .called n (.incoming m) ∈ s.log) (hx : .returned n x ∈ s.log) :
    ∃ l rest, s.log = l ++ .did n (.status m.op) (statusIn l m.op) :: rest ∧ .did n (.saveReg m.addr m.op) () ∈ l ∧
      sends (opsOf n s.log) = (match statusIn l m.op with | some v => [(m.addr, ⟨.statusRegister, m.addr, m.op, m.id, .obj v⟩, (sends (opsOf n s.log)).head?.elim .success (·.2.2))] | none => []) := by
  have hp := returned_opsOf hr hc hx
  simp only [prog, onIncomingMessage, hm, updateLatestStatus, ask_bind, bind_ask, path_ask_ret] at hp
  obtain ⟨u, l', ho, o, l'', e', hp⟩ := hp
  subst e'
  have hin : .did n (.status m.op) o ∈ s.log := mem_opsOf (by rw [ho]; simp)
  obtain ⟨l, rest, e⟩ := List.append_of_mem hin
  have hrun := run_of hr
  rw [e] at hrun
  have hs : o = statusIn l m.op := hrun.ok
  have hsv : .did n (.saveReg m.addr m.op) () ∈ l := by
    obtain ⟨c, pre, h1, h2, h3⟩ := hrun.did
    have h4 : .called n c ∈ s.log := by rw [e]; exact List.mem_append_left _ h1
    obtain rfl := called_one hr hc h4
    rcases h3 with ⟨m', hm', -, ⟨h5, -⟩ | ⟨-, h5⟩⟩ | ⟨h5, -⟩
    · cases hm'; rw [hm] at h5; cases h5
    · cases hm'; exact pre_mem h2 (by rw [h5]; simp)
    · cases h5
  subst hs
  refine ⟨l, rest, e, hsv, ?_⟩
  cases hs : statusIn l m.op with
  | none =>
    rw [hs] at hp ho
    simp at hp
    rw [ho, hp.1]; rfl
  | some v =>
    rw [hs] at hp ho
    simp only [sendBack, ask_bind, bind_ask, path_ask_ret] at hp
    obtain ⟨st, l', rfl, hp⟩ := hp
    simp at hp
    rw [ho, hp.1, ← hm]; rfl

/-- A client that asks for a property is sent its value (a null payload if it has none). -/
theorem get_answered {as : List (Act sys)} {s : St} (hr : run (Calls.init sys) as = some s) {n : Nat} {m : Msg} {x : Res} (hm : m.code = .statusGet) (hc : .called n (.incoming m) ∈ s.log) (hx : .returned n x ∈ s.log) :
    ∃ l rest st, s.log = l ++ .did n (.status m.op) (statusIn l m.op) :: rest ∧ sends (opsOf n s.log) = [(m.addr, ⟨.statusGet, m.addr, m.op, m.id, .of (statusIn l m.op)⟩, st)] := by
  have hp := returned_opsOf hr hc hx
  simp only [prog, onIncomingMessage, hm, onStatusGetRequest, sendBack, ask_bind, bind_ask, path_ask_ret] at hp
  obtain ⟨o, l', ho, st, l'', e', hp⟩ := hp
  subst e'
  have hin : .did n (.status m.op) o ∈ s.log := mem_opsOf (by rw [ho]; simp)
  obtain ⟨l, rest, e⟩ := List.append_of_mem hin
  have hrun := run_of hr
  rw [e] at hrun
  have hs : o = statusIn l m.op := hrun.ok
  subst hs
  simp at hp
  refine ⟨l, rest, st, e, ?_⟩
  rw [ho, hp.1, ← hm]; rfl

/-- A registering client misses no value: a value that is set, however that races with the registration, is sent to the client by the call that sets it, or was set before the registration reads the value it sends.
(The client is registered once and not dropped.) -/
theorem no_lost_update {as : List (Act sys)} {s : St} (hr : run (Calls.init sys) as = some s) {n k : Nat} {m : Msg} {p : Option Obj} {x y : Res} (hm : m.code = .statusRegister) (hc : .called n (.incoming m) ∈ s.log) (hx : .returned n x ∈ s.log)
    (hk : .called k (.setStatus m.op p) ∈ s.log) (hy : .returned k y ∈ s.log) (hne : y ≠ .status .noAction)
    (hd : ∀ j, .did j (.dropReg m.addr m.op) () ∉ s.log ∧ .did j (.dropAddr m.addr) () ∉ s.log ∧ .did j .clearRegs () ∉ s.log) :
    (∃ st, .did k (.send m.addr ⟨.statusRegister, 0, m.op, none, .of p⟩) st ∈ s.log) ∨ ∃ o, Before (.did k (.setStatus m.op p) true) (.did n (.status m.op) o) s.log := by
  obtain ⟨l, rest, e, hsv, -⟩ := register_gets_status hr hm hc hx
  obtain ⟨pre, fs, as', rs1, rs2, ho, hpre, h1, h2, -⟩ := broadcasts_ops hr hk hy (op := m.op) (code := .statusRegister) (p := p) (.inr (.inr ⟨rfl, hne, rfl⟩))
  have hrg : .did k (.registered m.op) as' ∈ s.log := mem_opsOf (by rw [ho]; simp [bcastOps])
  obtain ⟨a, b, e2⟩ := List.append_of_mem hrg
  have hrun := run_of hr
  rw [e2] at hrun
  have hcl : as' = clientsIn a m.op := hrun.ok
  have hset : .did k (.setStatus m.op p) true ∈ a := by
    obtain ⟨c, pre', h3, h4, h5⟩ := hrun.did
    have h6 : .called k c ∈ s.log := by rw [e2]; exact List.mem_append_left _ h3
    obtain rfl := called_one hr hk h6
    rcases h5 with ⟨q, hq, h7⟩ | ⟨hq, -⟩ | ⟨q, hq⟩
    · cases hq; exact pre_mem h4 h7
    · cases hq
    · cases hq
  by_cases hin : .did n (.saveReg m.addr m.op) () ∈ a
  · -- the client is registered when the call looks
    left
    have : m.addr ∈ as' := by
      rw [hcl, registered_iff]
      obtain ⟨u, v, rfl⟩ := List.append_of_mem hin
      refine ⟨u, n, v, rfl, fun j hj => (hd j).1 ?_, fun j hj => (hd j).2.1 ?_, fun j hj => (hd j).2.2 ?_⟩ <;> (rw [e2]; simp [hj])
    rw [← h1] at this
    obtain ⟨⟨ad, st⟩, h3, h4⟩ := List.mem_map.1 this
    simp only at h4
    subst h4
    refine ⟨st, ?_⟩
    have h5 : (m.addr, (⟨.statusRegister, 0, m.op, none, .of p⟩ : Msg), st) ∈ sends (opsOf k s.log) := by
      rw [ho, sends_append, (bcast_sends m.op .statusRegister p fs as' rs1 rs2).1]
      exact List.mem_append_right _ (List.mem_map.2 ⟨_, List.mem_append_left _ h3, rfl⟩)
    obtain ⟨⟨q, an⟩, h6, h7⟩ := List.mem_filterMap.1 h5
    cases q with
    | send a' m' => cases h7; exact mem_opsOf h6
    | _ => cases h7
  · -- the registration comes later, and so does its reading of the value
    right
    refine ⟨statusIn l m.op, ?_⟩
    obtain ⟨u, v, rfl⟩ := List.append_of_mem hset
    obtain ⟨w, z, rfl⟩ := List.append_of_mem hsv
    have e3 := e
    rw [e2] at e3
    have e3' : (u ++ .did k (.setStatus m.op p) true :: v) ++ .did k (.registered m.op) as' :: b = w ++ .did n (.saveReg m.addr m.op) () :: (z ++ .did n (.status m.op) (statusIn (w ++ .did n (.saveReg m.addr m.op) () :: z) m.op) :: rest) := by
      simpa using e3
    rcases places e3' with ⟨-, h, -⟩ | ⟨c, h3, -⟩ | ⟨c, h3, -⟩
    · cases h
    · refine ⟨u, v ++ .did k (.registered m.op) as' :: c ++ .did n (.saveReg m.addr m.op) () :: z, rest, ?_⟩
      rw [e]
      have h4 : w ++ Ev.did n (.saveReg m.addr m.op) () :: z = u ++ .did k (.setStatus m.op p) true :: (v ++ .did k (.registered m.op) as' :: c ++ .did n (.saveReg m.addr m.op) () :: z) := by rw [h3]; simp
      have h5 : ∀ X : List Event, X ++ Ev.did n (.status m.op) (statusIn (w ++ .did n (.saveReg m.addr m.op) () :: z) m.op) :: rest = X ++ .did n (.status m.op) (statusIn (w ++ .did n (.saveReg m.addr m.op) () :: z) m.op) :: rest := fun _ => rfl
      rw [← h4]
    · exact absurd (by rw [h3]; simp) hin

end Maf.Prov
