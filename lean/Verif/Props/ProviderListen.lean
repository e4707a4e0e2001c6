import Verif.Props.ProviderStatus
/-
C38, C39 and C65: cases. C66: provider-side listeners. C67: registered clients end up with the current value.
-/
namespace Maf.Prov
open Maf.Calls

/-- Client `a` registers for (status) operation 1, with id 3. -/
def reg1 (a : Addr) : Call := .incoming ⟨.statusRegister, a, 1, some 3, .null⟩

/-- An in-process payload object `r` with content `v`. -/
def itc (r v : Nat) : Obj := ⟨r, false, some v⟩

/-- Call `n` goes on, with these results of sends. -/
def goWith (n : Nat) (es : List Status) : List (Act sys) := es.map (.step n ·)

/-! ### C38 -/

/-- C38 does not hold in general: the same in-process object, set twice, is broadcast twice. -/
theorem same_object_broadcast : ∃ s, run (Calls.init sys) (.call (reg1 5) :: go 0 3 ++ .call (.setStatus 1 (some (itc 7 3))) :: go 1 6 ++ .call (.setStatus 1 (some (itc 7 3))) :: go 2 6) = some s ∧
    sentIn s.log = [(1, 5, none, .obj (itc 7 3)), (2, 5, none, .obj (itc 7 3))] ∧ .returned 2 (.status .receiverUnavailable) ∈ s.log := by
  refine ⟨_, rfl, rfl, ?_⟩; decide

/-- A null value (no property at all) is broadcast every time it is set. -/
theorem null_broadcast : ∃ s, run (Calls.init sys) (.call (reg1 5) :: go 0 3 ++ .call (.setStatus 1 none) :: go 1 6 ++ .call (.setStatus 1 none) :: go 2 6) = some s ∧
    sentIn s.log = [(1, 5, none, .null), (2, 5, none, .null)] := ⟨_, rfl, rfl⟩

/-- The hypotheses are met: a value is set, an equal one is not broadcast, a different one is, and is read. -/
example : ∃ s, run (Calls.init sys) (.call (reg1 5) :: go 0 3 ++ .call (.setStatus 1 (some (itc 7 3))) :: go 1 6 ++ .call (.setStatus 1 (some (itc 8 3))) :: go 2 2 ++ .call (.setStatus 1 (some (itc 9 4))) :: go 3 6 ++ .call (.getStatus 1) :: go 4 2) = some s ∧
    sentIn s.log = [(1, 5, none, .obj (itc 7 3)), (3, 5, none, .obj (itc 9 4))] ∧ .returned 2 (.status .noAction) ∈ s.log ∧ .returned 4 (.payload (some (itc 9 4))) ∈ s.log := by
  refine ⟨_, rfl, rfl, ?_, ?_⟩ <;> decide

example : (itc 7 3).ipc = (itc 8 3).ipc ∧ (itc 7 3).content ≠ none ∧ (itc 8 3).content ≠ none ∧ (itc 7 3).ref ≠ (itc 8 3).ref ∧ (itc 7 3).equal (itc 8 3) = true := by decide

/-! ### C39 -/

/-- C39 does not hold: the result is the wrong way round. A broadcast that reached its only client returns `ReceiverUnavailable` … -/
theorem result_inverted : ∃ s, run (Calls.init sys) (.call (reg1 5) :: go 0 3 ++ .call (.setStatus 1 (some (itc 7 3))) :: go 1 6) = some s ∧
    .did 1 (.send 5 ⟨.statusRegister, 0, 1, none, .obj (itc 7 3)⟩) .success ∈ s.log ∧ .returned 1 (.status .receiverUnavailable) ∈ s.log := by
  refine ⟨_, rfl, ?_, ?_⟩ <;> decide

/-- … and one that reached none returns `Success`. -/
theorem result_inverted_busy : ∃ s, run (Calls.init sys) (.call (reg1 5) :: go 0 3 ++ .call (.setStatus 1 (some (itc 7 3))) :: goWith 1 (List.replicate 7 .receiverBusy)) = some s ∧
    (∀ m, .did 1 (.send 5 m) .success ∉ s.log) ∧ .returned 1 (.status .success) ∈ s.log := by
  refine ⟨_, rfl, fun m h => ?_, ?_⟩
  · have : (5, m.id) ∈ ([] : List (Addr × Option Nat)) := List.mem_filterMap (f := fun | .did _ (.send a m) .success => some (a, m.id) | _ => none).2 ⟨_, h, rfl⟩
    cases this
  · decide

/-- The hypotheses are met: three clients, of which one cannot be reached and one is busy; the first is forgotten, the other is tried again; the next broadcast goes to two. -/
example : ∃ s, run (Calls.init sys) (.call (reg1 5) :: go 0 3 ++ .call (reg1 6) :: go 1 3 ++ .call (reg1 7) :: go 2 3 ++ .call (.setStatus 1 (some (itc 7 3))) :: goWith 3 [.success, .success, .success, .success, .receiverUnavailable, .success, .receiverBusy, .success, .success, .success] ++
    .call (.broadcastSignal 1 none) :: go 4 6) = some s ∧
    sentIn s.log = [(3, 5, none, .obj (itc 7 3)), (3, 6, none, .obj (itc 7 3)), (3, 7, none, .obj (itc 7 3)), (3, 6, none, .obj (itc 7 3)), (4, 6, none, .null), (4, 7, none, .null)] ∧
    clientsIn s.log 1 = [6, 7] ∧ .called 3 (.setStatus 1 (some (itc 7 3))) ∈ s.log ∧ .returned 3 (.status .receiverUnavailable) ∈ s.log ∧ Broadcasts (.setStatus 1 (some (itc 7 3))) (.status .receiverUnavailable) 1 .statusRegister (some (itc 7 3)) := by
  refine ⟨_, rfl, rfl, rfl, ?_, ?_, .inr (.inr ⟨rfl, by decide, rfl⟩)⟩ <;> decide

/-! ### C65 -/

/-- The hypotheses are met: a client registers while a value is being set, and after it; it gets the value both times. A client asks for it. -/
example : ∃ s, run (Calls.init sys) (.call (.setStatus 1 (some (itc 7 3))) :: .call (reg1 5) :: go 0 1 ++ go 1 4 ++ go 0 5 ++ .call (.incoming ⟨.statusGet, 6, 1, some 4, .null⟩) :: go 2 3) = some s ∧
    sentIn s.log = [(1, 5, some 3, .obj (itc 7 3)), (0, 5, none, .obj (itc 7 3)), (2, 6, some 4, .obj (itc 7 3))] ∧ .returned 1 (.bool true) ∈ s.log ∧ .returned 0 (.status .receiverUnavailable) ∈ s.log ∧
    .returned 2 (.bool true) ∈ s.log ∧ .called 1 (reg1 5) ∈ s.log ∧ .called 0 (.setStatus 1 (some (itc 7 3))) ∈ s.log := by
  refine ⟨_, rfl, rfl, ?_, ?_, ?_, ?_, ?_⟩ <;> decide

/-- Its clients are not dropped. -/
example : ∃ s, run (Calls.init sys) (.call (.setStatus 1 (some (itc 7 3))) :: .call (reg1 5) :: go 0 1 ++ go 1 4 ++ go 0 5) = some s ∧
    ∀ j, .did j (.dropReg 5 1) () ∉ s.log ∧ .did j (.dropAddr 5) () ∉ s.log ∧ .did j .clearRegs () ∉ s.log := by
  refine ⟨_, rfl, fun j => ⟨fun h => ?_, fun h => ?_, fun h => ?_⟩⟩
  all_goals
    have : () ∈ ([] : List Unit) := List.mem_filterMap (f := fun | .did _ (.dropReg ..) _ => some () | .did _ (.dropAddr ..) _ => some () | .did _ .clearRegs _ => some () | _ => none).2 ⟨_, h, rfl⟩
    cases this

/-! ### C66: listeners -/

/-- A listener, and nothing else, is made by `registerNotification`. -/
theorem listeners_are (l : List Event) (op : OpId) : listenersIn l op = l.filterMap fun | .did _ (.listen o f) _ => if o = op then some f else none | _ => none := by
  refine snoc_induct (motive := fun l => listenersIn l op = l.filterMap fun | .did _ (.listen o f) _ => if o = op then some f else none | _ => none) rfl ?_ l
  intro l e ih
  rw [listenersIn_one, List.filterMap_append, ← ih]
  cases e with
  | did n q a =>
    cases q with
    | listen o f => simp only [listenStep]; split <;> simp_all
    | _ => simp [listenStep]
  | _ => simp [listenStep]

/-- Every broadcast calls all listeners its operation has then, each once for each time it was registered, in the order of their registration, with the value that is broadcast, and no others;
this is done before a message is sent to a client. -/
theorem listeners_called {as : List (Act sys)} {s : St} (hr : run (Calls.init sys) as = some s) {n : Nat} {c : Call} {x : Res} {op : OpId} {code : Code} {p : Option Obj} (hc : .called n c ∈ s.log) (hx : .returned n x ∈ s.log)
    (hb : Broadcasts c x op code p) :
    ∃ l rest pre post, s.log = l ++ .did n (.lockListeners op) (listenersIn l op) :: rest ∧ opsOf n s.log = pre ++ post ∧ notified pre = (listenersIn l op).map (fun f => (f, p)) ∧ sends pre = [] ∧ notified post = [] := by
  obtain ⟨pre, fs, as', rs1, rs2, ho, hpre, h1, h2, h3⟩ := broadcasts_ops hr hc hx hb
  have hin : .did n (.lockListeners op) fs ∈ s.log := mem_opsOf (by rw [ho]; simp [bcastOps])
  obtain ⟨l, rest, e⟩ := List.append_of_mem hin
  have hrun := run_of hr
  rw [e] at hrun
  have h4 : fs = listenersIn l op := hrun.ok.1
  subst h4
  refine ⟨l, rest, pre ++ (⟨.lockListeners op, listenersIn l op⟩ :: (listenersIn l op).map fun f => ⟨.run (.listener f p), ()⟩), _, e, by rw [ho]; simp [bcastOps]; rfl, ?_, ?_, ?_⟩
  · rw [notified_append]
    have : notified ((⟨.lockListeners op, listenersIn l op⟩ : O) :: (listenersIn l op).map fun f => ⟨.run (.listener f p), ()⟩) = (listenersIn l op).map fun f => (f, p) := notified_listeners p _
    rw [this]
    rcases hpre with rfl | rfl | rfl <;> rfl
  · rw [sends_append]
    have : sends ((⟨.lockListeners op, listenersIn l op⟩ : O) :: (listenersIn l op).map fun f => ⟨.run (.listener f p), ()⟩) = [] := sends_listeners p _
    rw [this]
    rcases hpre with rfl | rfl | rfl <;> rfl
  · show notified (round _ rs1 ++ round _ rs2) = []
    rw [notified_append, notified_round, notified_round]; rfl

/-- Nothing else calls a listener. -/
theorem listener_by {as : List (Act sys)} {s : St} (hr : run (Calls.init sys) as = some s) {n : Nat} {f : Fn} {p : Option Obj} (h : .did n (.run (.listener f p)) () ∈ s.log) :
    ∃ op, (∃ k, .did k (.listen op f) () ∈ s.log) ∧ ((.called n (.setStatus op p) ∈ s.log ∧ .did n (.setStatus op p) true ∈ s.log) ∨ (.called n (.removeProperty op true) ∈ s.log ∧ p = none) ∨ .called n (.broadcastSignal op p) ∈ s.log) := by
  obtain ⟨l, rest, e⟩ := List.append_of_mem h
  have hrun := run_of hr
  rw [e] at hrun ⊢
  obtain ⟨c, pre, hc, ht, op, fs, h1, h2, -, h3⟩ := hrun.did
  have h4 := pre_mem ht h1
  obtain ⟨u, v, rfl⟩ := List.append_of_mem h4
  have hr2 := hrun.left
  have h5 : fs = listenersIn u op := hr2.ok.1
  subst h5
  refine ⟨op, ?_, ?_⟩
  · rw [listeners_are] at h2
    obtain ⟨x, hx, h6⟩ := List.mem_filterMap.1 h2
    cases x with
    | did k q a =>
      cases q with
      | listen o g =>
        simp only at h6
        split at h6
        · next e => subst e; cases h6; exact ⟨k, by simp [hx]⟩
        · cases h6
      | _ => cases h6
    | _ => cases h6
  · rcases h3 with ⟨rfl, h3⟩ | ⟨rfl, h3⟩ | rfl
    · exact .inl ⟨List.mem_append_left _ hc, List.mem_append_left _ (pre_mem ht h3)⟩
    · exact .inr (.inl ⟨List.mem_append_left _ hc, h3⟩)
    · exact .inr (.inr (List.mem_append_left _ hc))

/-- Who has locked the listeners and not unlocked them has the lock. -/
theorem lis_lock {l : List Event} (h : Run l) : ∀ k, (∃ op fs, .did k (.lockListeners op) fs ∈ l) → .did k .unlockListeners () ∉ l → lisLockIn l = some k := by
  revert h
  refine snoc_induct (motive := fun l => Run l → ∀ k, (∃ op fs, .did k (.lockListeners op) fs ∈ l) → .did k .unlockListeners () ∉ l → lisLockIn l = some k) (by simp) ?_ l
  intro l e ih h k h1 h2
  have ih := ih h.left
  have old : (∀ op fs, Ev.did k (.lockListeners op) fs ≠ e) → lisLockIn l = some k := by
    intro h3
    refine ih k ?_ (fun h => h2 (by simp [h]))
    obtain ⟨op, fs, h4⟩ := h1
    exact ⟨op, fs, by simpa [h3] using h4⟩
  rw [lisLockIn_one]
  cases e with
  | did n q a =>
    cases q with
    | lockListeners op =>
      have h3 : lisLockIn l = none := (Run.ok (r := []) h).2
      by_cases hk : k = n
      · subst hk; rfl
      · have := old (fun op fs h => by cases h; exact hk rfl)
        rw [h3] at this; cases this
    | unlockListeners =>
      have h4 := old (by simp)
      obtain ⟨c, pre, hc, ht, ⟨op, fs, h5⟩, h6⟩ := Run.did (r := []) h
      have h7 : lisLockIn l = some n := by
        refine ih n ⟨op, fs, pre_mem ht h5⟩ fun h => h6 ?_
        have h8 := in_trace (S := sys) h
        simp only [Ev.cid] at h8
        rw [ht] at h8
        simp only [List.mem_cons, reduceCtorEq, false_or] at h8
        exact mem_evs.1 h8
      rw [h4] at h7
      cases h7
      exact absurd (by simp) h2
    | _ => exact old (by simp)
  | _ => exact old (by simp)

/-- The listeners are called by one broadcast at a time: if a broadcast calls a listener before another broadcast does, the other one calls none before it has called its last. -/
theorem listeners_serial {as : List (Act sys)} {s : St} (hr : run (Calls.init sys) as = some s) {n k : Nat} (hne : n ≠ k) {f f' g g' : Fn} {p p' q q' : Option Obj}
    (h1 : Before (.did n (.run (.listener f p)) ()) (.did k (.run (.listener g q)) ()) s.log) (h2 : Before (.did k (.run (.listener g' q')) ()) (.did n (.run (.listener f' p')) ()) s.log) : False := by
  have hrun := run_of hr
  -- a call that calls a listener has locked and not unlocked
  have hold : ∀ {n : Nat} {f : Fn} {p : Option Obj} {l r : List Event}, s.log = l ++ .did n (.run (.listener f p)) () :: r → (∃ op fs, .did n (.lockListeners op) fs ∈ l) ∧ .did n .unlockListeners () ∉ l := by
    intro n f p l r e
    have hr1 := hrun
    rw [e] at hr1
    obtain ⟨c, pre, hc, ht, op, fs, h1, -, h2, -⟩ := hr1.did
    refine ⟨⟨op, fs, pre_mem ht h1⟩, fun h => h2 ?_⟩
    have h8 := in_trace (S := sys) h
    simp only [Ev.cid] at h8
    rw [ht] at h8
    simp only [List.mem_cons, reduceCtorEq, false_or] at h8
    exact mem_evs.1 h8
  -- the first has unlocked when the second calls
  have key : ∀ {n k : Nat} {f g : Fn} {p q : Option Obj}, n ≠ k → Before (.did n (.run (.listener f p)) ()) (.did k (.run (.listener g q)) ()) s.log →
      ∃ l r, s.log = l ++ .did k (.run (.listener g q)) () :: r ∧ .did n .unlockListeners () ∈ l := by
    rintro n k f g p q hne ⟨a, b, c, e⟩
    refine ⟨_, c, e, Classical.byContradiction fun hu => ?_⟩
    obtain ⟨⟨op, fs, h3⟩, -⟩ := hold (l := a) (r := b ++ .did k (.run (.listener g q)) () :: c) (n := n) (f := f) (p := p) (by rw [e]; simp)
    obtain ⟨h4, h5⟩ := hold e
    have hr2 := hrun
    rw [e] at hr2
    have h6 := lis_lock hr2.left n ⟨op, fs, by simp [h3]⟩ hu
    rw [lis_lock hr2.left k h4 h5] at h6
    cases h6; exact hne rfl
  obtain ⟨l, r, e, hu⟩ := key hne h1
  obtain ⟨l', r', e', hu'⟩ := key (Ne.symm hne) h2
  have nu := (hold e).2
  have nu' := (hold e').2
  rw [e] at e'
  rcases places e' with ⟨rfl, -, -⟩ | ⟨c, rfl, -⟩ | ⟨c, rfl, -⟩
  · exact nu hu'
  · exact nu' (by simp [hu])
  · exact nu (by simp [hu'])

/-- While the listeners of a broadcast are called, no other broadcast gets to its listeners, and none can be registered; not even by the listener, which then waits for itself: here the listener of property 1 sets property 2. -/
theorem listener_blocks : ∃ s, run (Calls.init sys) (.call (.listen 1 4) :: go 0 2 ++ .call (.setStatus 1 (some (itc 7 3))) :: go 1 3 ++ [.call (.setStatus 2 (some (itc 8 3))), .call (.listen 1 5)] ++ go 2 1) = some s ∧
    cbsIn s.log = [(1, .listener 4 (some (itc 7 3)))] ∧ (∀ e, step s (.step 2 e) = none) ∧ ∀ e, step s (.step 3 e) = none := by
  refine ⟨_, rfl, rfl, fun e => rfl, fun e => rfl⟩

/-- The hypotheses are met: two listeners (one registered twice), two broadcasts, of which the second must wait. -/
example : ∃ s, run (Calls.init sys) (.call (.listen 1 4) :: go 0 2 ++ .call (.listen 1 5) :: go 1 2 ++ .call (.listen 1 4) :: go 2 2 ++ [.call (.setStatus 1 (some (itc 7 3))), .call (.broadcastSignal 1 none)] ++ go 3 6 ++ go 4 7 ++ go 3 1) = some s ∧
    cbsIn s.log = [(3, .listener 4 (some (itc 7 3))), (3, .listener 5 (some (itc 7 3))), (3, .listener 4 (some (itc 7 3))), (4, .listener 4 none), (4, .listener 5 none), (4, .listener 4 none)] ∧
    .returned 4 (.status .success) ∈ s.log ∧ .called 4 (.broadcastSignal 1 none) ∈ s.log ∧ Before (.did 3 (.run (.listener 4 (some (itc 7 3)))) ()) (.did 4 (.run (.listener 5 none)) ()) s.log := by
  refine ⟨_, rfl, rfl, by decide, by decide, before_of 13 19 (by decide) rfl rfl⟩

/-! ### C67: registered clients end up with the current value -/

def toldStep (a : Addr) (op : OpId) (acc : Option Payload) : Event → Option Payload
  | .did _ (.send a' m) _ => if a' = a ∧ m.op = op ∧ m.code = .statusRegister then some m.payload else acc
  | _ => acc

/-- The last value of property `op` that was sent to client `a`. -/
def lastTold (l : List Event) (a : Addr) (op : OpId) : Option Payload := l.foldl (toldStep a op) none

/-- A call that sets or removes property `op`, or registers client `a` for it. -/
def Touches (c : Call) (a : Addr) (op : OpId) : Prop := (∃ p, c = .setStatus op p) ∨ (∃ b, c = .removeProperty op b) ∨ ∃ m, c = .incoming m ∧ m.code = .statusRegister ∧ m.addr = a ∧ m.op = op

theorem told_one (l : List Event) (e : Event) (a : Addr) (op : OpId) : lastTold (l ++ [e]) a op = toldStep a op (lastTold l a op) e := by simp [lastTold, List.foldl_append]

/-- If from some point on only `v` is sent, and something is, then it is the last. -/
theorem told_is {l r : List Event} {a : Addr} {op : OpId} {v : Payload} (h : ∀ x n m st y, r = x ++ .did n (.send a m) st :: y → m.op = op → m.code = .statusRegister → m.payload = v)
    (hs : ∃ n m st, .did n (.send a m) st ∈ r ∧ m.op = op ∧ m.code = .statusRegister) : lastTold (l ++ r) a op = some v := by
  revert h hs
  refine snoc_induct (motive := fun r => (∀ x n m st y, r = x ++ .did n (.send a m) st :: y → m.op = op → m.code = .statusRegister → m.payload = v) → (∃ n m st, .did n (.send a m) st ∈ r ∧ m.op = op ∧ m.code = .statusRegister) →
    lastTold (l ++ r) a op = some v) (by simp) ?_ r
  intro r e ih h hs
  rw [← List.append_assoc, told_one]
  have old : (∀ n m st, Ev.did n (.send a m) st = e → ¬(m.op = op ∧ m.code = .statusRegister)) → lastTold (l ++ r) a op = some v := by
    intro h1
    refine ih (fun x n m st y hr => h x n m st (y ++ [e]) (by rw [hr]; simp)) ?_
    obtain ⟨n, m, st, h2, h3⟩ := hs
    rcases List.mem_append.1 h2 with h2 | h2
    · exact ⟨n, m, st, h2, h3⟩
    · simp at h2; exact absurd h3 (h1 n m st h2)
  cases e with
  | did n q x =>
    cases q with
    | send a' m =>
      simp only [toldStep]
      split
      · next h1 =>
        obtain ⟨rfl, h2, h3⟩ := h1
        rw [h r n m x [] rfl h2 h3]
      · next h1 => exact old (fun n m st h h2 => by cases h; exact h1 ⟨rfl, h2⟩)
    | _ => exact old (by simp)
  | _ => exact old (by simp)

theorem Serial.symm {l : List Event} {n k : Nat} (h : Serial l n k) : Serial l k n := h.elim .inr .inl

theorem in_opsOf {n : Nat} {l : List Event} {q : Query} {a : Ans q} (h : .did n q a ∈ l) : ⟨q, a⟩ ∈ opsOf n l := List.mem_filterMap.2 ⟨_, h, by simp⟩

theorem mem_sends {n : Nat} {l : List Event} {a : Addr} {m : Msg} {st : Status} (h : (a, m, st) ∈ sends (opsOf n l)) : .did n (.send a m) st ∈ l := by
  obtain ⟨⟨q, an⟩, h6, h7⟩ := List.mem_filterMap.1 h
  cases q with
  | send a' m' => cases h7; exact mem_opsOf h6
  | _ => cases h7

/-- Partial (calls that set or remove a property, or register the client, must not overlap; see `crossed_values`): a registered client has last been sent the value that the property has. All calls have returned, nothing was removed without notice,
and the provider was not ended. -/
theorem client_current_partial {as : List (Act sys)} {s : St} (hr : run (Calls.init sys) as = some s) {a : Addr} {op : OpId} {v : Obj}
    (hser : ∀ n k c d, n ≠ k → .called n c ∈ s.log → .called k d ∈ s.log → Touches c a op → Touches d a op → Serial s.log n k)
    (hret : ∀ n c, .called n c ∈ s.log → Touches c a op → ∃ x, .returned n x ∈ s.log)
    (hreg : a ∈ clientsIn s.log op) (hby : ∀ n m, .called n (.incoming m) ∈ s.log → m.code = .signalRegister → m.addr = a → m.op ≠ op) (hv : statusIn s.log op = some v) : lastTold s.log a op = some (.obj v) := by
  have hrun := run_of hr
  obtain ⟨u, k, w, e, hset, hdrop, hclear⟩ := status_is hv
  -- the call that sets the value
  obtain ⟨c, pre, hc, ht, rfl, rfl⟩ : ∃ c pre, Ev.called k c ∈ u ∧ trace (S := sys) k u = .called k c :: evs (S := sys) k pre ∧ c = .setStatus op (some v) ∧ pre = [] := by
    have := hrun; rw [e] at this; exact this.did
  obtain ⟨t, w', rfl⟩ := List.append_of_mem hc
  have eC : s.log = t ++ .called k (.setStatus op (some v)) :: (w' ++ .did k (.setStatus op (some v)) true :: w) := by rw [e]; simp
  have hcS : Ev.called k (.setStatus op (some v)) ∈ s.log := by rw [eC]; simp
  have hkt : Touches (.setStatus op (some v)) a op := .inl ⟨_, rfl⟩
  obtain ⟨xk, hxk⟩ := hret k _ hcS hkt
  rw [show s.log = (t ++ [.called k (.setStatus op (some v))]) ++ (w' ++ .did k (.setStatus op (some v)) true :: w) by rw [eC]; simp]
  -- what is sent after the call is made
  have later : ∀ {j : Nat} {l r : List Event} {q : Query} {x : Ans q}, s.log = l ++ .did j q x :: r → Ev.called k (.setStatus op (some v)) ∈ l → ∀ {d : Call}, .called j d ∈ s.log → Touches d a op → j ≠ k → ∃ y, l = t ++ .called k (.setStatus op (some v)) :: w' ++ .did k (.setStatus op (some v)) true :: y ∧ .called j d ∈ y := by
    intro j l r q x el hk d hd htd hjk
    -- the call has returned when the other is made
    have h1 := hser j k d _ hjk hd hcS htd hkt
    rcases h1 with ⟨y, c', p1, p2, p3, e1⟩ | ⟨y, c', p1, p2, p3, e1⟩
    · -- the other is before: it does nothing after
      exfalso
      have e3 : s.log = p1 ++ .returned j y :: (p2 ++ .called k c' :: p3) := by rw [e1]; simp
      have h3 := after_return hr e3
      obtain ⟨z1, z2, rfl⟩ := List.append_of_mem hk
      obtain rfl := called_one hr hcS (c' := c') (by rw [e1]; simp)
      have h7 : s.log = (p1 ++ .returned j y :: p2) ++ .called k (.setStatus op (some v)) :: p3 := by rw [e1]
      have e2 : s.log = z1 ++ .called k (.setStatus op (some v)) :: (z2 ++ .did j q x :: r) := by rw [el]; simp
      have h4 : Ev.did j q x ∈ p3 := by
        rw [h7] at e2
        rcases places e2 with ⟨-, -, h5⟩ | ⟨z, h5, h6⟩ | ⟨z, h5, h6⟩
        · rw [h5]; simp
        · exact absurd (by rw [h6]; simp) ((after_call hr h7).2 (.setStatus op (some v)))
        · have e2' : s.log = z1 ++ .called k (.setStatus op (some v)) :: (z2 ++ .did j q x :: r) := by rw [el]; simp
          exact absurd (by rw [h6]; simp) ((after_call hr e2').2 (.setStatus op (some v)))
      have h5 := in_trace (S := sys) (e := .did j q x) (l := p2 ++ .called k (.setStatus op (some v)) :: p3) (by simp [h4])
      simp only [Ev.cid] at h5
      rw [h3] at h5; cases h5
    · obtain ⟨y', hy', hcy⟩ := before_call hr e1 (e' := .did j q x) rfl (by simp) el
      subst hy'
      have e3 : s.log = p1 ++ .returned k y :: (p2 ++ .called j c' :: p3) := by rw [e1]; simp
      obtain rfl := called_one hr hd (c' := c') (by rw [e1]; simp)
      -- the setting is before the return
      have h3 := after_return hr e3
      rw [e] at e3
      rcases places e3 with ⟨-, h5, -⟩ | ⟨z, h5, h6⟩ | ⟨z, h5, h6⟩
      · cases h5
      · exact ⟨z ++ .returned k y :: y', by rw [h5]; simp, by simp [hcy]⟩
      · have h7 := in_trace (S := sys) (e := .did k (.setStatus op (some v)) true) (l := p2 ++ .called j d :: p3) (by rw [h6]; simp)
        simp only [Ev.cid] at h7
        rw [h3] at h7; cases h7
  -- nothing changes the value after it was set
  have noset : ∀ {y r : List Event}, s.log = (t ++ .called k (.setStatus op (some v)) :: w' ++ .did k (.setStatus op (some v)) true :: y) ++ r → ∀ e' ∈ y, e' ∈ w := by
    intro y r h e' he'
    have h1 : w = y ++ r := by
      have h2 : (t ++ .called k (.setStatus op (some v)) :: w') ++ .did k (.setStatus op (some v)) true :: w = (t ++ .called k (.setStatus op (some v)) :: w') ++ .did k (.setStatus op (some v)) true :: (y ++ r) := by rw [← e, h]; simp
      have := List.append_cancel_left h2
      simpa using this
    rw [h1]; simp [he']
  have stay : ∀ {y r : List Event}, s.log = (t ++ .called k (.setStatus op (some v)) :: w' ++ .did k (.setStatus op (some v)) true :: y) ++ r → statusIn (t ++ .called k (.setStatus op (some v)) :: w' ++ .did k (.setStatus op (some v)) true :: y) op = some v := by
    intro y r h
    have hy := noset h
    clear h
    revert hy
    refine snoc_induct (motive := fun y => (∀ e' ∈ y, e' ∈ w) → statusIn (t ++ .called k (.setStatus op (some v)) :: w' ++ .did k (.setStatus op (some v)) true :: y) op = some v) ?_ ?_ y
    · intro _; rw [statusIn_one]; simp [statusStep]
    · intro y z ih hy
      have ih := ih fun e' he' => hy e' (by simp [he'])
      have hz := hy z (by simp)
      rw [show t ++ .called k (.setStatus op (some v)) :: w' ++ .did k (.setStatus op (some v)) true :: (y ++ [z]) = (t ++ .called k (.setStatus op (some v)) :: w' ++ .did k (.setStatus op (some v)) true :: y) ++ [z] by simp, statusIn_one, ih]
      cases z with
      | did n q x =>
        cases q with
        | setStatus o p =>
          cases x with
          | false => rfl
          | true =>
            simp only [statusStep]
            split
            · next h => subst h; exact absurd hz (hset n p)
            · rfl
        | dropStatus o =>
          simp only [statusStep]
          split
          · next h => subst h; exact absurd hz (hdrop n)
          · rfl
        | clearStatus => exact absurd hz (hclear n)
        | _ => rfl
      | _ => rfl
  refine told_is ?_ ?_
  · intro x n m st y hx hop hcode
    have el : s.log = (t ++ .called k (.setStatus op (some v)) :: x) ++ .did n (.send a m) st :: y := by rw [eC, hx]; simp
    have hk : Ev.called k (.setStatus op (some v)) ∈ t ++ .called k (.setStatus op (some v)) :: x := by simp
    have hr1 := hrun
    rw [el] at hr1
    obtain ⟨d, pre, hd, ht', hl⟩ := hr1.did
    have hd' : .called n d ∈ s.log := by rw [el]; exact List.mem_append_left _ hd
    rcases hl with ⟨_, _, _, _, _, _, _, _, rfl⟩ | ⟨_, _, _, _, _, _, _, rfl⟩ | ⟨m0, o, rfl, h1, h2, rfl, rfl⟩ | ⟨m0, o, rfl, h1, _, _, rfl⟩ | ⟨m0, rfl, h1, _, _, rfl⟩ | ⟨op', p, as', rfl, h1, _, _, rfl⟩ | ⟨op', as', rfl, h1, _, _, rfl⟩ | ⟨_, _, _, _, _, _, rfl⟩
    · cases hcode
    · cases hcode
    · -- the client registers again
      simp only at hop
      have hjk : n ≠ k := by rintro rfl; have := called_one hr hd' hcS; cases this
      have hst := pre_mem ht' (q := .status m0.op) (a := some o) (by rw [h2]; simp)
      obtain ⟨z, hz, hcz⟩ := later el hk hd' (.inr (.inr ⟨m0, rfl, h1, rfl, hop⟩)) hjk
      -- it has read the value after its call
      obtain ⟨z1, z2, hz2⟩ := List.append_of_mem hst
      have el2 : s.log = z1 ++ .did n (.status m0.op) (some o) :: (z2 ++ .did n (.send m0.addr { m0 with payload := .obj o }) st :: y) := by rw [el, hz2]; simp
      have hkz1 : Ev.called k (.setStatus op (some v)) ∈ z1 := by
        obtain ⟨c1, c2, hcc⟩ := List.append_of_mem hcz
        have e4 : s.log = (t ++ .called k (.setStatus op (some v)) :: w' ++ .did k (.setStatus op (some v)) true :: c1) ++ .called n (.incoming m0) :: (c2 ++ .did n (.send m0.addr { m0 with payload := .obj o }) st :: y) := by rw [el, hz, hcc]; simp
        have h5 := (after_call hr e4).1
        rw [e4] at el2
        rcases places el2 with ⟨-, h6, -⟩ | ⟨b, h6, -⟩ | ⟨b, h6, -⟩
        · cases h6
        · rw [h6]; simp
        · have h7 := in_trace (S := sys) (e := .did n (.status m0.op) (some o)) (l := t ++ .called k (.setStatus op (some v)) :: w' ++ .did k (.setStatus op (some v)) true :: c1) (by rw [h6]; simp)
          simp only [Ev.cid] at h7
          rw [h5] at h7; cases h7
      obtain ⟨z3, hz3, -⟩ := later el2 hkz1 hd' (.inr (.inr ⟨m0, rfl, h1, rfl, hop⟩)) hjk
      have hr2 := hrun
      rw [el2] at hr2
      have h8 : some o = statusIn z1 m0.op := hr2.ok
      rw [hz3, hop, stay (hz3 ▸ el2)] at h8
      cases h8; rfl
    · simp only at hcode; rw [h1] at hcode; cases hcode
    · simp only at hcode; rw [h1] at hcode; cases hcode
    · simp only at hop
      subst hop
      by_cases hjk : n = k
      · subst hjk; have := called_one hr hd' hcS; cases this; rfl
      · obtain ⟨z, hz, hcz⟩ := later el hk hd' (.inl ⟨p, rfl⟩) hjk
        exfalso
        have hst := pre_mem ht' h1
        rw [hz] at hst
        rcases List.mem_append.1 hst with h2 | h2
        · -- it did nothing before it was called
          obtain ⟨c1, c2, hcc⟩ := List.append_of_mem hcz
          have e4 : s.log = (t ++ .called k (.setStatus op' (some v)) :: w' ++ .did k (.setStatus op' (some v)) true :: c1) ++ .called n (.setStatus op' p) :: (c2 ++ .did n (.send a ⟨.statusRegister, 0, op', none, .of p⟩) st :: y) := by rw [el, hz, hcc]; simp
          have h5 := (after_call hr e4).1
          have h7 := in_trace (S := sys) (e := .did n (.setStatus op' p) true) (l := t ++ .called k (.setStatus op' (some v)) :: w' ++ .did k (.setStatus op' (some v)) true :: c1) (List.mem_append_left _ h2)
          simp only [Ev.cid] at h7
          rw [h5] at h7; cases h7
        · simp only [List.mem_cons] at h2
          rcases h2 with h2 | h2
          · cases h2; exact hjk rfl
          · exact hset n p (noset (hz ▸ el) _ h2)
    · simp only at hop
      subst hop
      have hjk : n ≠ k := by rintro rfl; have := called_one hr hd' hcS; cases this
      obtain ⟨z, hz, hcz⟩ := later el hk hd' (.inr (.inl ⟨true, rfl⟩)) hjk
      exfalso
      have hst := pre_mem ht' h1
      rw [hz] at hst
      rcases List.mem_append.1 hst with h2 | h2
      · obtain ⟨c1, c2, hcc⟩ := List.append_of_mem hcz
        have e4 : s.log = (t ++ .called k (.setStatus op' (some v)) :: w' ++ .did k (.setStatus op' (some v)) true :: c1) ++ .called n (.removeProperty op' true) :: (c2 ++ .did n (.send a ⟨.statusRegister, 0, op', none, .null⟩) st :: y) := by rw [el, hz, hcc]; simp
        have h5 := (after_call hr e4).1
        have h7 := in_trace (S := sys) (e := .did n (.dropStatus op') ()) (l := t ++ .called k (.setStatus op' (some v)) :: w' ++ .did k (.setStatus op' (some v)) true :: c1) (List.mem_append_left _ h2)
        simp only [Ev.cid] at h7
        rw [h5] at h7; cases h7
      · rcases List.mem_cons.1 h2 with h2 | h2
        · cases h2
        · exact hdrop n (noset (hz ▸ el) _ h2)
    · cases hcode
  · -- the value is sent
    have htr := (after_call hr eC).1
    obtain ⟨x0, n0, y0, e0, d1, d2, d3⟩ := registered_iff.1 hreg
    obtain ⟨m0, hm0, h0, rfl, rfl⟩ : ∃ m, Ev.called n0 (.incoming m) ∈ s.log ∧ (m.code = .statusRegister ∨ m.code = .signalRegister) ∧ m.addr = a ∧ m.op = op :=
      (registration_by hr).1 (by rw [e0]; simp)
    have h1 : m0.code = .statusRegister := h0.resolve_right fun h => hby n0 m0 hm0 h rfl rfl
    have hn0 : n0 ≠ k := by rintro rfl; have := called_one hr hm0 hcS; cases this
    have htn : Touches (.incoming m0) m0.addr m0.op := .inr (.inr ⟨m0, rfl, h1, rfl, rfl⟩)
    obtain ⟨xn, hxn⟩ := hret n0 _ hm0 htn
    rcases hser n0 k _ _ hn0 hm0 hcS htn hkt with ⟨y, c', p1, p2, p3, e1⟩ | ⟨y, c', p1, p2, p3, e1⟩
    · -- registered before the value is set
      have hne : xk ≠ .status .noAction := by
        rintro rfl
        obtain ⟨l, rest, b, h2, -, -, h3, h4⟩ := set_status hr hcS hxk
        cases b with
        | true => exact (h4 rfl).1 rfl
        | false =>
          have h5 : (⟨.setStatus m0.op (some v), true⟩ : O) ∈ opsOf k s.log := in_opsOf (by rw [e]; simp)
          rw [(h3 rfl).2] at h5
          simp at h5
      obtain ⟨pre, fs, as', rs1, rs2, ho, hpre, k1, k2, -⟩ := broadcasts_ops hr hcS hxk (op := m0.op) (code := .statusRegister) (p := some v) (.inr (.inr ⟨rfl, hne, rfl⟩))
      have hrg : .did k (.registered m0.op) as' ∈ s.log := mem_opsOf (by rw [ho]; simp [bcastOps])
      obtain ⟨b1, b2, e2⟩ := List.append_of_mem hrg
      have hr2 := hrun
      rw [e2] at hr2
      have hcl : as' = clientsIn b1 m0.op := hr2.ok
      obtain ⟨y1, rfl, -⟩ := before_call hr e1 (e' := .did k (.registered m0.op) as') rfl (by simp) e2
      have hsv : Ev.did n0 (.saveReg m0.addr m0.op) () ∈ p1 := by
        have h3 : Ev.did n0 (.saveReg m0.addr m0.op) () ∈ s.log := by rw [e0]; simp
        have e3 : s.log = p1 ++ .returned n0 y :: (p2 ++ .called k c' :: p3) := by rw [e1]; simp
        rw [e3] at h3
        rcases List.mem_append.1 h3 with h4 | h4
        · exact h4
        · rcases List.mem_cons.1 h4 with h4 | h4
          · cases h4
          · have h5 := in_trace (S := sys) h4
            simp only [Ev.cid] at h5
            rw [after_return hr e3] at h5; cases h5
      have hmem : m0.addr ∈ as' := by
        rw [hcl, registered_iff]
        have e5 : s.log = x0 ++ .did n0 (.saveReg m0.addr m0.op) () :: y0 := e0
        -- the registration that lasts is before the reading
        have e6 := e2
        rw [e5] at e6
        rcases places e6 with ⟨-, h6, -⟩ | ⟨z, h6, h7⟩ | ⟨z, h6, h7⟩
        · cases h6
        · exact ⟨x0, n0, z, h6, fun j hj => d1 j (by rw [h7]; simp [hj]), fun j hj => d2 j (by rw [h7]; simp [hj]), fun j hj => d3 j (by rw [h7]; simp [hj])⟩
        · exfalso
          -- it would be done after its call has returned
          have e3 : s.log = p1 ++ .returned n0 y :: (y1 ++ .did k (.registered m0.op) as' :: b2) := by rw [e2]; simp
          have h8 := in_trace (S := sys) (e := .did n0 (.saveReg m0.addr m0.op) ()) (l := y1 ++ .did k (.registered m0.op) as' :: b2) (by rw [h7]; simp)
          simp only [Ev.cid] at h8
          rw [after_return hr e3] at h8; cases h8
      rw [← k1] at hmem
      obtain ⟨⟨ad, st⟩, h3, h4⟩ := List.mem_map.1 hmem
      simp only at h4
      subst h4
      have h5 : (m0.addr, (⟨.statusRegister, 0, m0.op, none, .obj v⟩ : Msg), st) ∈ sends (opsOf k s.log) := by
        rw [ho, sends_append, (bcast_sends m0.op .statusRegister (some v) fs as' rs1 rs2).1]
        exact List.mem_append_right _ (List.mem_map.2 ⟨_, List.mem_append_left _ h3, rfl⟩)
      have h6 := mem_sends h5
      refine ⟨k, ⟨.statusRegister, 0, m0.op, none, .obj v⟩, st, ?_, rfl, rfl⟩
      rw [eC] at h6
      rcases List.mem_append.1 h6 with h7 | h7
      · have h8 := in_trace (S := sys) h7
        simp only [Ev.cid] at h8
        rw [htr] at h8; cases h8
      · rcases List.mem_cons.1 h7 with h7 | h7
        · cases h7
        · exact h7
    · -- registered after it was set
      have inside : ∀ {q : Query} {x : Ans q}, .did n0 q x ∈ s.log → ∃ l r, s.log = l ++ .did n0 q x :: r ∧ Ev.called k (.setStatus m0.op (some v)) ∈ l := by
        intro q x h
        obtain ⟨l, r, el⟩ := List.append_of_mem h
        obtain ⟨z, rfl, -⟩ := before_call hr e1 (e' := .did n0 q x) rfl (by simp) el
        refine ⟨_, r, el, ?_⟩
        have e3 : s.log = p1 ++ .returned k y :: (p2 ++ .called n0 c' :: p3) := by rw [e1]; simp
        have h3 := hcS
        rw [e3] at h3
        rcases List.mem_append.1 h3 with h4 | h4
        · simp [h4]
        · rcases List.mem_cons.1 h4 with h4 | h4
          · cases h4
          · have h5 := in_trace (S := sys) h4
            simp only [Ev.cid] at h5
            rw [after_return hr e3] at h5; cases h5
      obtain ⟨l, rest, el, hsv, hsend⟩ := register_gets_status hr h1 hm0 hxn
      have hkl : Ev.called k (.setStatus m0.op (some v)) ∈ l := by
        obtain ⟨z, rfl, -⟩ := before_call hr e1 (e' := .did n0 (.status m0.op) (statusIn l m0.op)) rfl (by simp) el
        have e3 : s.log = p1 ++ .returned k y :: (p2 ++ .called n0 c' :: p3) := by rw [e1]; simp
        have h3 := hcS
        rw [e3] at h3
        rcases List.mem_append.1 h3 with h4 | h4
        · simp [h4]
        · rcases List.mem_cons.1 h4 with h4 | h4
          · cases h4
          · have h5 := in_trace (S := sys) h4
            simp only [Ev.cid] at h5
            rw [after_return hr e3] at h5; cases h5
      obtain ⟨z, hz, -⟩ := later el hkl hm0 htn hn0
      have hsv' : statusIn l m0.op = some v := by rw [hz]; exact stay (hz ▸ el)
      rw [hsv'] at hsend
      obtain ⟨st, hst⟩ : ∃ st, (m0.addr, (⟨.statusRegister, m0.addr, m0.op, m0.id, .obj v⟩ : Msg), st) ∈ sends (opsOf n0 s.log) := by
        rw [hsend]; exact ⟨_, List.mem_singleton.2 rfl⟩
      refine ⟨n0, ⟨.statusRegister, m0.addr, m0.op, m0.id, .obj v⟩, st, ?_, rfl, rfl⟩
      obtain ⟨l', r', el', hk'⟩ := inside (mem_sends hst)
      obtain ⟨q1, q2, rfl⟩ := List.append_of_mem hk'
      have e7 : s.log = q1 ++ .called k (.setStatus m0.op (some v)) :: (q2 ++ .did n0 (.send m0.addr ⟨.statusRegister, m0.addr, m0.op, m0.id, .obj v⟩) st :: r') := by rw [el']; simp
      have e8 := eC
      rw [e7] at e8
      rcases places e8 with ⟨-, -, h5⟩ | ⟨b, h5, h6⟩ | ⟨b, h5, h6⟩
      · rw [← h5]; simp
      · exact absurd (by rw [h6]; simp) ((after_call hr e7).2 (.setStatus m0.op (some v)))
      · exact absurd (by rw [h6]; simp) ((after_call hr eC).2 (.setStatus m0.op (some v)))

/-- C67 does not hold in general: two values are set at once; the second one is the property's value, but the first one is sent last. -/
theorem crossed_values : ∃ s, run (Calls.init sys) (.call (reg1 5) :: go 0 3 ++ [.call (.setStatus 1 (some (itc 7 3))), .call (.setStatus 1 (some (itc 8 4)))] ++ go 1 1 ++ go 2 6 ++ go 1 5) = some s ∧
    sentIn s.log = [(2, 5, none, .obj (itc 8 4)), (1, 5, none, .obj (itc 7 3))] ∧ statusIn s.log 1 = some (itc 8 4) ∧ lastTold s.log 5 1 = some (.obj (itc 7 3)) ∧
    returnsIn s.log = [(0, .bool true), (2, .status .receiverUnavailable), (1, .status .receiverUnavailable)] := ⟨_, rfl, rfl, rfl, rfl, rfl⟩

/-- A client registers while the value is set: it is sent the new value first, and then the old one it was to be told. -/
theorem crossed_registration : ∃ s, run (Calls.init sys) (.call (.setStatus 1 (some (itc 7 3))) :: go 0 5 ++ [.call (reg1 5), .call (.setStatus 1 (some (itc 8 4)))] ++ go 1 2 ++ go 2 6 ++ go 1 2) = some s ∧
    sentIn s.log = [(2, 5, none, .obj (itc 8 4)), (1, 5, some 3, .obj (itc 7 3))] ∧ statusIn s.log 1 = some (itc 8 4) ∧ lastTold s.log 5 1 = some (.obj (itc 7 3)) ∧ clientsIn s.log 1 = [5] := ⟨_, rfl, rfl, rfl, rfl, rfl⟩

/-- The hypotheses are met: a value is set, a client registers, another value is set. -/
example : ∃ s, run (Calls.init sys) (.call (.setStatus 1 (some (itc 7 3))) :: go 0 5 ++ .call (reg1 5) :: go 1 4 ++ .call (.setStatus 1 (some (itc 8 4))) :: go 2 6) = some s ∧
    (∀ n k c d, n ≠ k → .called n c ∈ s.log → .called k d ∈ s.log → Touches c 5 1 → Touches d 5 1 → Serial s.log n k) ∧ (∀ n c, .called n c ∈ s.log → Touches c 5 1 → ∃ x, .returned n x ∈ s.log) ∧
    5 ∈ clientsIn s.log 1 ∧ (∀ n m, .called n (.incoming m) ∈ s.log → m.code = .signalRegister → m.addr = 5 → m.op ≠ 1) ∧ statusIn s.log 1 = some (itc 8 4) := by
  refine ⟨_, rfl, ?_, ?_, by decide, ?_, rfl⟩
  · intro n k c d hne h h' _ _
    have h1 : n ∈ [0, 1, 2] := List.mem_filterMap (f := fun | .called n _ => some n | _ => none).2 ⟨_, h, rfl⟩
    have h2 : k ∈ [0, 1, 2] := List.mem_filterMap (f := fun | .called n _ => some n | _ => none).2 ⟨_, h', rfl⟩
    have b01 : ∀ l : List Event, l[5]? = some (.returned 0 (.status .success)) → l[6]? = some (.called 1 (reg1 5)) → Serial l 0 1 := fun l h h' => .inl ⟨_, _, before_of 5 6 (by decide) h h'⟩
    have b12 : ∀ l : List Event, l[10]? = some (.returned 1 (.bool true)) → l[11]? = some (.called 2 (.setStatus 1 (some (itc 8 4)))) → Serial l 1 2 := fun l h h' => .inl ⟨_, _, before_of 10 11 (by decide) h h'⟩
    have b02 : ∀ l : List Event, l[5]? = some (.returned 0 (.status .success)) → l[11]? = some (.called 2 (.setStatus 1 (some (itc 8 4)))) → Serial l 0 2 := fun l h h' => .inl ⟨_, _, before_of 5 11 (by decide) h h'⟩
    simp at h1 h2
    rcases h1 with rfl | rfl | rfl <;> rcases h2 with rfl | rfl | rfl
    · exact absurd rfl hne
    · exact b01 _ rfl rfl
    · exact b02 _ rfl rfl
    · exact (b01 _ rfl rfl).symm
    · exact absurd rfl hne
    · exact b12 _ rfl rfl
    · exact (b02 _ rfl rfl).symm
    · exact (b12 _ rfl rfl).symm
    · exact absurd rfl hne
  · intro n c h _
    have h1 : n ∈ [0, 1, 2] := List.mem_filterMap (f := fun | .called n _ => some n | _ => none).2 ⟨_, h, rfl⟩
    simp at h1
    rcases h1 with rfl | rfl | rfl
    · exact ⟨.status .success, by decide⟩
    · exact ⟨.bool true, by decide⟩
    · exact ⟨.status .receiverUnavailable, by decide⟩
  · intro n m h h'
    have h1 : m ∈ [(⟨.statusRegister, 5, 1, some 3, .null⟩ : Msg)] := List.mem_filterMap (f := fun | .called _ (.incoming m) => some m | _ => none).2 ⟨_, h, rfl⟩
    simp at h1
    subst h1
    cases h'

end Maf.Prov
