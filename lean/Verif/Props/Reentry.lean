import Verif.Model.Reentry
/-
C84: calls from callbacks and from any thread.
-/
namespace Maf.Reent

/-! ### Specification -/

/-- The places of the user's code that are called while the library holds a mutex, and how deep they are. All others (callbacks of
requests, statuses and signals, request handlers, abort callbacks of aborted requests, observers told at their registration, the
program's threads) are called without. -/
def depth : Place → Option Nat
  | .listener => some 1
  | .observer | .dropObserver => some 2
  | .dropCallback => some 3
  | .abortEnd => some 4
  | .abortLate | .dropAbort => some 5
  | .dropHandler => some 6
  | _ => none

/-- The functions that may be called at a place that is less deep. None of those that call other callbacks at once; connection 0 is the
one inside the process. -/
def level : Api → Option Nat
  | .setStatus c _ | .broadcastSignal c _ => if c = 0 then none else some 1
  | .addListener _ _ => some 1
  | .unregisterObserver _ _ => some 2
  | .sendRequest c _ | .abortRequest c _ | .unregister c _ | .unregisterAll c _ => if c = 0 then none else some 3
  | .startServing c _ | .stopServing c _ | .respond c _ _ => if c = 0 then none else some 4
  | .createStub _ _ | .deinitProvider _ _ => some 4
  | .requestInfo _ | .onAborted _ => some 5
  | .registerHandler _ _ | .unregisterHandler _ _ | .stubStatus _ _ => some 6
  | _ => none

/-- The program calls anything from places without a mutex, from the others only what is allowed there. -/
def Tame (may : Place → Api → Bool) : Prop := ∀ u a d, depth u = some d → may u a = true → ∃ l, level a = some l ∧ d < l

def Reachable (may : Place → Api → Bool) (ts : State) : Prop := ∃ n sched, run may (init n) sched = some ts

/-- Thread `i` waits for a mutex that thread `j` holds. -/
def Blocks (ts : State) (i j : Nat) : Prop := ∃ t m k t', ts[i]? = some t ∧ t.todo = .lock m :: k ∧ ts[j]? = some t' ∧ m ∈ t'.held

/-- Thread `i` waits for `j`, perhaps through others. -/
inductive WaitsFor (ts : State) : Nat → Nat → Prop where
  | one {i j} : Blocks ts i j → WaitsFor ts i j
  | more {i j k} : Blocks ts i j → WaitsFor ts j k → WaitsFor ts i k

/-! ### Order of the mutexes -/

def rank : Mx → Nat
  | .requesters _ => 0
  | .statuses _ | .listeners _ _ => 1
  | .obs _ _ => 2
  | .reg _ _ | .req _ _ => 3
  | .providers _ | .requests _ _ => 4
  | .request _ | .clients _ _ | .told _ => 5
  | .cache _ _ | .prop _ _ | .handlers _ _ => 6

def Below (h : List Mx) (r : Nat) : Prop := ∀ x ∈ h, rank x < r

/-- The user's code at place `u` runs with `h` held. -/
def Fits (h : List Mx) (u : Place) : Prop := h = [] ∨ ∃ d, depth u = some d ∧ Below h (d + 1)

/-- Code `c`, begun with `h` held, keeps to the order and ends with `h'` held. -/
def Ok : List Mx → Code → List Mx → Prop
  | h, .skip, h' => h' = h
  | h, .lock m, h' => Below h (rank m) ∧ h' = m :: h
  | h, .unlock m, h' => h = m :: h'
  | h, .seq a b, h' => ∃ h1, Ok h a h1 ∧ Ok h1 b h'
  | h, .alt a b, h' => Ok h a h' ∧ Ok h b h'
  | h, .many a, h' => h' = h ∧ Ok h a h
  | h, .any f, h' => ∀ n, Ok h (f n) h'
  | h, .user u, h' => h' = h ∧ Fits h u
  | h, .api a, h' => h' = h ∧ (h = [] ∨ ∃ l, level a = some l ∧ Below h l)

theorem ok_locked {h h' : List Mx} {m : Mx} {b : Code} (h1 : Below h (rank m)) (h2 : Ok (m :: h) b (m :: h)) (he : h' = h) : Ok h (locked m b) h' := by
  subst he; exact ⟨m :: h', ⟨h1, rfl⟩, m :: h', h2, rfl⟩

theorem ok_opt {h : List Mx} {b : Code} (h1 : Ok h b h) : Ok h (opt b) h := ⟨rfl, h1⟩

theorem ok_seq {h : List Mx} {a b : Code} (h1 : Ok h a h) (h2 : Ok h b h) : Ok h (.seq a b) h := ⟨h, h1, h2⟩

theorem below_nil (r : Nat) : Below [] r := by intro x hx; cases hx

theorem below_cons {h : List Mx} {m : Mx} {r : Nat} (h1 : rank m < r) (h2 : Below h r) : Below (m :: h) r := by
  intro x hx; rcases List.mem_cons.1 hx with rfl | hx
  · exact h1
  · exact h2 x hx

theorem Below.mono {h : List Mx} {r r' : Nat} (h1 : Below h r) (h2 : r ≤ r') : Below h r' := fun x hx => Nat.lt_of_lt_of_le (h1 x hx) h2

/-! ### The skeletons keep to the order -/

theorem ok_many {h : List Mx} {a : Code} (h1 : Ok h a h) : Ok h (.many a) h := ⟨rfl, h1⟩

theorem ok_user {h : List Mx} {u : Place} {d : Nat} (hd : depth u = some d) (hb : Below h (d + 1)) : Ok h (.user u) h := ⟨rfl, .inr ⟨d, hd, hb⟩⟩

theorem ok_call {u : Place} : Ok [] (.user u) [] := ⟨rfl, .inl rfl⟩

theorem ok_skip {h : List Mx} : Ok h .skip h := rfl

/-- a section that calls nobody -/
theorem ok_short {h : List Mx} {m : Mx} (h1 : Below h (rank m)) : Ok h (locked m .skip) h := ok_locked h1 rfl rfl

theorem Below.cons {h : List Mx} {m : Mx} (h1 : Below h (rank m)) {r : Nat} (hr : rank m < r) : Below (m :: h) r :=
  below_cons hr (h1.mono (Nat.le_of_lt hr))

theorem requesterStatus_ok {h : List Mx} (hb : Below h 2) (c s : Nat) : Ok h (requesterStatus c s) h := by
  have h2 : Below h (rank (.obs c s)) := hb
  have h3 : Below h (rank (.req c s)) := hb.mono (by simp [rank])
  have h4 : Below h (rank (.reg c s)) := hb.mono (by simp [rank])
  exact ok_opt (ok_seq (ok_opt (ok_seq (ok_locked h3 (ok_many (ok_user rfl (h3.cons (by simp [rank])))) rfl) (ok_locked h4 (ok_many (ok_user rfl (h4.cons (by simp [rank])))) rfl)))
    (ok_locked h2 (ok_many (ok_user rfl (h2.cons (by simp [rank])))) rfl))

theorem requesterGets_ok (c s : Nat) (op : Op) : Ok [] (requesterGets c s op) [] := by
  cases op <;> simp only [requesterGets, onRegistersUpdated, onRequestResult]
  case register => exact ok_seq (ok_seq (ok_short (below_nil _)) (ok_many ok_call)) (ok_opt (ok_short (below_nil _)))
  case request => exact ok_seq (ok_short (below_nil _)) (ok_opt ok_call)
  case update => exact ok_seq (ok_short (below_nil _)) (ok_opt ok_call)
  case statusGet => exact ok_seq (ok_short (below_nil _)) (ok_opt ok_call)
  all_goals exact ok_skip

theorem clientGets_ok (c s : Nat) (op : Op) : Ok [] (clientGets c s op) [] := ok_seq (ok_short (below_nil _)) (ok_opt (requesterGets_ok c s op))

theorem sendToClient_ok {h : List Mx} {c : Nat} (hc : c = 0 → h = []) (s : Nat) (op : Op) : Ok h (sendToClient c s op) h := by
  unfold sendToClient
  split
  · rename_i h0; rw [hc h0]; exact clientGets_ok c s op
  · exact ok_skip

theorem getRequestInfo_ok {h : List Mx} (hb : Below h 4) (c s : Nat) : Ok h (getRequestInfo c s) h := by
  have h1 : Below h (rank (.requests c s)) := hb
  exact ok_locked h1 (ok_many fun q => ok_short (h1.cons (by simp [rank] : rank (.requests c s) < rank (.request q)))) rfl

theorem respondToRequest_ok {h : List Mx} (hb : Below h 4) {c : Nat} (hc : c = 0 → h = []) (s q : Nat) (op : Op) : Ok h (respondToRequest c s q op) h :=
  ok_seq (getRequestInfo_ok hb c s) (ok_seq (ok_opt (ok_short (hb.mono (by simp [rank] : 4 ≤ rank (.request q))))) (ok_opt (sendToClient_ok hc s op)))

theorem reply_ok {h : List Mx} (hb : Below h 4) {c : Nat} (hc : c = 0 → h = []) (s q : Nat) : Ok h (reply c s q) h :=
  ok_seq (ok_short (hb.mono (by simp [rank] : 4 ≤ rank (.request q)))) (ok_opt ⟨respondToRequest_ok hb hc s q _, respondToRequest_ok hb hc s q _⟩)

theorem providerGets_ok (c s : Nat) (op : Op) : Ok [] (providerGets c s op) [] := by
  have hb : ∀ r, Below [] r := below_nil
  cases op <;> simp only [providerGets]
  case register => exact ok_seq (ok_short (hb _)) (ok_seq (ok_short (hb _)) (ok_opt (sendToClient_ok (fun _ => rfl) s _)))
  case unregister => exact ok_short (hb _)
  case request => exact ok_seq (ok_short (hb _)) ⟨ok_seq (ok_short (hb _)) ok_call, sendToClient_ok (fun _ => rfl) s _⟩
  case update => exact ok_skip
  case statusGet => exact ok_seq (ok_short (hb _)) (sendToClient_ok (fun _ => rfl) s _)
  case abort => exact ok_seq (getRequestInfo_ok (hb _) c s) (ok_opt fun q => ok_seq (ok_short (hb _)) (ok_seq (ok_short (hb _)) (ok_opt ok_call)))
  case gone => exact ok_short (hb _)

theorem serverGets_ok (c s : Nat) (op : Op) : Ok [] (serverGets c s op) [] := ok_seq (ok_short (below_nil _)) (ok_opt (providerGets_ok c s op))

theorem sendToServer_ok {h : List Mx} {c : Nat} (hc : c = 0 → h = []) (s : Nat) (op : Op) : Ok h (sendToServer c s op) h := by
  unfold sendToServer
  split
  · rename_i h0; rw [hc h0]; exact serverGets_ok c s op
  · exact ok_skip

theorem serviceStatus_ok (c s : Nat) : Ok [] (serviceStatus c s) [] :=
  ok_seq (ok_short (below_nil _)) (ok_locked (below_nil _) (ok_opt (requesterStatus_ok ((below_nil _).cons (by simp [rank])) c s)) rfl)

theorem tellStatus_ok {h : List Mx} (hb : Below h 4) {c : Nat} (hc : c = 0 → h = []) (s : Nat) : Ok h (tellStatus c s) h := by
  refine ok_seq (ok_short (m := .providers c) hb) (ok_opt ?_)
  split
  · rename_i h0; rw [hc h0]; exact serviceStatus_ok c s
  · exact ok_short (hb.mono (by simp [rank] : 4 ≤ rank (.told c)))

theorem storeAndSend_ok {h : List Mx} (hb : Below h 3) {c : Nat} (hc : c = 0 → h = []) (s : Nat) (op : Op) : Ok h (storeAndSend c s op) h := by
  have h1 : Below h (rank (.req c s)) := hb
  exact ok_seq (ok_short h1) (ok_seq (sendToServer_ok hc s op) (ok_opt (ok_locked h1 (ok_user rfl (h1.cons (by simp [rank]))) rfl)))

theorem abortRequest_ok {h : List Mx} (hb : Below h 3) {c : Nat} (hc : c = 0 → h = []) (s : Nat) : Ok h (abortRequest c s) h := by
  have h1 : Below h (rank (.req c s)) := hb
  exact ok_seq (ok_locked h1 (ok_opt (ok_user rfl (h1.cons (by simp [rank])))) rfl) (ok_opt (sendToServer_ok hc s _))

theorem unregister_ok {h : List Mx} (hb : Below h 3) {c : Nat} (hc : c = 0 → h = []) (s : Nat) : Ok h (unregister c s) h := by
  have h1 : Below h (rank (.reg c s)) := hb
  exact ok_seq (ok_locked h1 (ok_user rfl (h1.cons (by simp [rank]))) rfl) (ok_opt (ok_seq (ok_short (hb.mono (by simp [rank] : 3 ≤ rank (.cache c s)))) (ok_opt (sendToServer_ok hc s _))))

theorem unregisterAll_ok {h : List Mx} (hb : Below h 3) {c : Nat} (hc : c = 0 → h = []) (s : Nat) : Ok h (unregisterAll c s) h := by
  have h1 : Below h (rank (.reg c s)) := hb
  exact ok_opt (ok_seq (ok_locked h1 (ok_many (ok_user rfl (h1.cons (by simp [rank])))) rfl) (ok_seq (sendToServer_ok hc s _) (ok_short (hb.mono (by simp [rank] : 3 ≤ rank (.cache c s))))))

theorem broadcast_ok {h : List Mx} (hb : Below h 1) {c : Nat} (hc : c = 0 → h = []) (s : Nat) : Ok h (broadcast c s) h := by
  have h1 : Below h (rank (.listeners c s)) := hb
  have h2 : Below h (rank (.clients c s)) := hb.mono (by simp [rank])
  exact ok_seq (ok_locked h1 (ok_many (ok_user rfl (h1.cons (by simp [rank])))) rfl) (ok_seq (ok_short h2) (ok_many (ok_seq (sendToClient_ok hc s _) (ok_opt (ok_short h2)))))

theorem endRequests_ok {h : List Mx} (hb : Below h 4) (c s : Nat) : Ok h (endRequests c s) h := by
  have h1 : Below h (rank (.requests c s)) := hb
  have h2 : ∀ q, Below (.requests c s :: h) (rank (.request q)) := fun q => h1.cons (by simp [rank] : rank (.requests c s) < 5)
  exact ok_locked h1 (ok_many fun q => ok_seq (ok_short (h2 q)) (ok_seq (ok_short (h2 q)) (ok_opt (ok_user rfl (h1.cons (by simp [rank])))))) rfl

theorem registerNotification_ok (c s : Nat) : Ok [] (registerNotification c s) [] :=
  ok_seq (ok_short (below_nil _)) ⟨ok_seq (sendToServer_ok (fun _ => rfl) s _) (ok_opt (ok_locked (below_nil _) (ok_user rfl ((below_nil _).cons (by simp [rank]))) rfl)),
    ok_seq (ok_short (below_nil _)) (ok_opt ok_call)⟩

theorem getStatus_ok (c s : Nat) : Ok [] (getStatus c s) [] :=
  ⟨ok_seq (ok_short (below_nil _)) (ok_opt ok_call), ok_seq (ok_short (below_nil _)) ⟨ok_seq (ok_short (below_nil _)) (ok_opt ok_call), storeAndSend_ok (below_nil _) (fun _ => rfl) s _⟩⟩

/-- A function that is allowed at a place keeps to the order there. -/
theorem level_ok {h : List Mx} {a : Api} {l : Nat} (hl : level a = some l) (hb : Below h l) : Ok h (body a) h := by
  cases a <;> simp only [level] at hl <;> (try split at hl) <;> cases hl
  case setStatus c s h0 => exact ok_seq (ok_short (hb.mono (by simp [rank] : 1 ≤ rank (.prop c s)))) (ok_opt (broadcast_ok hb (fun h => absurd h h0) s))
  case broadcastSignal c s h0 => exact broadcast_ok hb (fun h => absurd h h0) s
  case addListener c s => exact ok_short (m := .listeners c s) hb
  case unregisterObserver c s =>
    have h1 : Below h (rank (.obs c s)) := hb
    exact ok_locked h1 (ok_many (ok_user rfl (h1.cons (by simp [rank])))) rfl
  case sendRequest c s h0 => exact ok_opt (ok_seq (storeAndSend_ok hb (fun h => absurd h h0) s _) (ok_opt (abortRequest_ok hb (fun h => absurd h h0) s)))
  case abortRequest c s h0 => exact ok_opt (abortRequest_ok hb (fun h => absurd h h0) s)
  case unregister c s h0 => exact ok_opt (unregister_ok hb (fun h => absurd h h0) s)
  case unregisterAll c s h0 => exact unregisterAll_ok hb (fun h => absurd h h0) s
  case startServing c s h0 => exact tellStatus_ok hb (fun h => absurd h h0) s
  case stopServing c s h0 => exact tellStatus_ok hb (fun h => absurd h h0) s
  case respond c s q h0 => exact reply_ok hb (fun h => absurd h h0) s q
  case createStub c s => exact ok_short (m := .providers c) hb
  case deinitProvider c s =>
    exact ok_seq (ok_short (hb.mono (by simp [rank] : 4 ≤ rank (.clients c s)))) (ok_seq (endRequests_ok hb c s) (ok_short (hb.mono (by simp [rank] : 4 ≤ rank (.prop c s)))))
  case requestInfo q => exact ok_short (m := .request q) hb
  case onAborted q =>
    have h1 : Below h (rank (.request q)) := hb
    exact ok_locked h1 ⟨ok_user rfl (h1.cons (by simp [rank])), ok_opt (ok_user rfl (h1.cons (by simp [rank])))⟩ rfl
  case registerHandler c s => exact ok_opt (ok_short (m := .handlers c s) hb)
  case unregisterHandler c s =>
    have h1 : Below h (rank (.handlers c s)) := hb
    exact ok_locked h1 (ok_opt (ok_user rfl (h1.cons (by simp [rank])))) rfl
  case stubStatus c s => exact ok_short (m := .prop c s) hb

/-- Every function keeps to the order when it is called without a mutex. -/
theorem body_ok (a : Api) : Ok [] (body a) [] := by
  have hb : ∀ r, Below [] r := below_nil
  have hz : ∀ c, c = 0 → ([] : List Mx) = [] := fun _ _ => rfl
  cases a <;> simp only [body]
  case createProxy c s =>
    exact ok_locked (hb _) (ok_opt (ok_locked ((hb _).cons (by simp [rank])) (ok_opt (requesterStatus_ok (below_cons (by simp [rank]) ((hb _).cons (by simp [rank]))) c s)) rfl)) rfl
  case sendRequest c s => exact ok_opt (ok_seq (storeAndSend_ok (hb _) (hz c) s _) (ok_opt (abortRequest_ok (hb _) (hz c) s)))
  case abortRequest c s => exact ok_opt (abortRequest_ok (hb _) (hz c) s)
  case registerStatus c s => exact ok_opt (registerNotification_ok c s)
  case unregister c s => exact ok_opt (unregister_ok (hb _) (hz c) s)
  case unregisterAll c s => exact unregisterAll_ok (hb _) (hz c) s
  case getStatus c s => exact getStatus_ok c s
  case registerObserver c s => exact ok_seq (ok_short (hb _)) (ok_opt ok_call)
  case unregisterObserver c s => exact level_ok (a := .unregisterObserver c s) rfl (hb _)
  case deinitClient c =>
    split
    · exact ok_skip
    · exact ok_seq (ok_locked (hb _) (ok_many fun s => ok_locked ((hb _).cons (by simp [rank])) (ok_many (ok_user rfl (below_cons (by simp [rank]) ((hb _).cons (by simp [rank]))))) rfl) rfl) (ok_short (hb _))
  case createStub c s => exact ok_short (hb _)
  case registerHandler c s => exact ok_opt (ok_short (hb _))
  case unregisterHandler c s => exact level_ok (a := .unregisterHandler c s) rfl (hb _)
  case setStatus c s => exact ok_seq (ok_short (hb _)) (ok_opt (broadcast_ok (hb _) (hz c) s))
  case broadcastSignal c s => exact broadcast_ok (hb _) (hz c) s
  case stubStatus c s => exact ok_short (hb _)
  case addListener c s => exact ok_short (hb _)
  case startServing c s => exact tellStatus_ok (hb _) (hz c) s
  case stopServing c s => exact tellStatus_ok (hb _) (hz c) s
  case deinitProvider c s => exact level_ok (a := .deinitProvider c s) rfl (hb _)
  case respond c s q => exact reply_ok (hb _) (hz c) s q
  case onAborted q => exact level_ok (a := .onAborted q) rfl (hb _)
  case requestInfo q => exact ok_short (hb _)
  case clientGets c s op => exact clientGets_ok c s op
  case serverGets c s op => exact serverGets_ok c s op
  case serviceNews c s => exact ok_seq (ok_short (hb _)) (serviceStatus_ok c s)
  case serverNews c =>
    exact ok_opt (ok_seq (ok_short (hb _)) (ok_locked (hb _) (ok_many fun s => requesterStatus_ok ((hb _).cons (by simp [rank])) c s) rfl))
  case clientComes c => exact ok_seq (ok_short (hb _)) (ok_short (hb _))
  case clientGoes c => exact ok_seq (ok_short (hb _)) (ok_locked (hb _) (ok_many fun s => ok_short ((hb _).cons (by simp [rank] : rank (.providers c) < rank (.clients c s)))) rfl)

/-! ### Invariant -/

/-- The rest of a thread's code keeps to the order. -/
def OkAll : List Mx → List Code → Prop
  | h, [] => h = []
  | h, c :: k => ∃ h', Ok h c h' ∧ OkAll h' k

structure Excl (ts : State) : Prop where
  excl : ∀ (i j : Nat) (t t' : Thread) (m : Mx), ts[i]? = some t → ts[j]? = some t' → m ∈ t.held → m ∈ t'.held → i = j
  nodup : ∀ (i : Nat) (t : Thread), ts[i]? = some t → t.held.Nodup

theorem free_iff {ts : State} {m : Mx} : free ts m = true ↔ ∀ (i : Nat) (t : Thread), ts[i]? = some t → m ∉ t.held := by
  simp only [free, List.all_eq_true, Bool.not_eq_true', List.contains_eq_mem, decide_eq_false_iff_not]
  constructor
  · exact fun h i t ht => h t (List.mem_of_getElem? ht)
  · intro h t ht
    obtain ⟨i, hi⟩ := List.getElem?_of_mem ht
    exact h i t hi

/-- What a step does to the mutexes a thread holds. -/
def Moves (free : Mx → Bool) (h h' : List Mx) : Prop := h' = h ∨ (∃ m, h' = m :: h ∧ free m = true) ∨ ∃ m, h' = h.erase m

theorem next_moves {may : Place → Api → Bool} {free : Mx → Bool} {h : List Mx} {k : List Code} {ch : Choice} {t' : Thread}
    (hn : next may free h k ch = some t') : Moves free h t'.held := by
  unfold next at hn
  split at hn <;> (try split at hn) <;> cases hn
  all_goals first | exact .inl rfl | exact .inr (.inr ⟨_, rfl⟩) | exact .inr (.inl ⟨_, rfl, by assumption⟩)

theorem next_ok {may : Place → Api → Bool} (ht : Tame may) {free : Mx → Bool} {h : List Mx} {k : List Code} {ch : Choice} {t' : Thread}
    (hn : next may free h k ch = some t') (ho : OkAll h k) : OkAll t'.held t'.todo := by
  unfold next at hn
  split at hn
  · cases hn; obtain ⟨h', h1, h2⟩ := ho; cases h1; exact h2
  · obtain ⟨h', h1, h2⟩ := ho
    split at hn
    · rename_i hf; cases hn; obtain ⟨-, rfl⟩ := h1; exact h2
    · cases hn
  · cases hn
    obtain ⟨h', h1, h2⟩ := ho
    rename_i m k
    have h1 : h = m :: h' := h1
    subst h1
    simp only [List.erase_cons_head]
    exact h2
  · cases hn; obtain ⟨h', ⟨h1, ha, hb⟩, h2⟩ := ho; exact ⟨h1, ha, h', hb, h2⟩
  · cases hn; obtain ⟨h', ⟨ha, hb⟩, h2⟩ := ho; exact ⟨h', ha, h2⟩
  · cases hn; obtain ⟨h', ⟨ha, hb⟩, h2⟩ := ho; exact ⟨h', hb, h2⟩
  · cases hn; obtain ⟨h', ⟨rfl, ha⟩, h2⟩ := ho; exact h2
  · cases hn; obtain ⟨h', ⟨rfl, ha⟩, h2⟩ := ho; exact ⟨h', ha, h', ⟨rfl, ha⟩, h2⟩
  · cases hn; obtain ⟨h', ha, h2⟩ := ho; exact ⟨h', ha _, h2⟩
  · cases hn; obtain ⟨h', ⟨rfl, ha⟩, h2⟩ := ho; exact h2
  · split at hn
    · rename_i u k a hm
      cases hn
      obtain ⟨h', ⟨rfl, hf⟩, h2⟩ := ho
      refine ⟨h', ⟨rfl, ?_⟩, h', ⟨rfl, hf⟩, h2⟩
      rcases hf with rfl | ⟨d, hd, hb⟩
      · exact .inl rfl
      · obtain ⟨l, hl, hdl⟩ := ht u a d hd hm
        exact .inr ⟨l, hl, hb.mono hdl⟩
    · cases hn
  · cases hn
    obtain ⟨h', ⟨rfl, hf⟩, h2⟩ := ho
    refine ⟨h', ?_, h2⟩
    rcases hf with rfl | ⟨l, hl, hb⟩
    · exact body_ok _
    · exact level_ok hl hb
  · cases hn

theorem init_get {n i : Nat} {t : Thread} (h : (init n)[i]? = some t) : t = ⟨[.user .main], []⟩ := List.eq_of_mem_replicate (List.mem_of_getElem? h)

theorem step_get {may : Place → Api → Bool} {ts ts' : State} {i : Nat} {ch : Choice} (hs : step may ts i ch = some ts') :
    ∃ t t1, ts[i]? = some t ∧ next may (free ts) t.held t.todo ch = some t1 ∧
      ∀ (j : Nat) (u : Thread), ts'[j]? = some u → (j = i ∧ u = t1) ∨ (j ≠ i ∧ ts[j]? = some u) := by
  unfold step at hs
  split at hs
  · cases hs
  · rename_i t hti
    obtain ⟨t1, hn, rfl⟩ := Option.map_eq_some_iff.1 hs
    have hlt : i < ts.length := (List.getElem?_eq_some_iff.1 hti).1
    refine ⟨t, t1, hti, hn, fun j u h => ?_⟩
    by_cases hj : j = i
    · subst hj; rw [List.getElem?_set_self hlt] at h; cases h; exact .inl ⟨rfl, rfl⟩
    · rw [List.getElem?_set_ne (Ne.symm hj)] at h; exact .inr ⟨hj, h⟩

theorem excl_init (n : Nat) : Excl (init n) := by
  refine ⟨fun i j t t' m hi hj hm => ?_, fun i t h => ?_⟩
  · rw [init_get hi] at hm; cases hm
  · rw [init_get h]; exact List.nodup_nil

theorem excl_step {may : Place → Api → Bool} {ts ts' : State} (hi : Excl ts) {i : Nat} {ch : Choice} (hs : step may ts i ch = some ts') : Excl ts' := by
  obtain ⟨t, t1, hti, hn, hget⟩ := step_get hs
  have hm := next_moves hn
  have hsub : ∀ m ∈ t1.held, m ∈ t.held ∨ free ts m = true := fun m hm1 => by
    rcases hm with he | ⟨x, he, hf⟩ | ⟨x, he⟩
    · rw [he] at hm1; exact .inl hm1
    · rw [he] at hm1
      rcases List.mem_cons.1 hm1 with rfl | h
      · exact .inr hf
      · exact .inl h
    · rw [he] at hm1; exact .inl (List.mem_of_mem_erase hm1)
  have hother : ∀ (j : Nat) (u : Thread) (m : Mx), j ≠ i → ts[j]? = some u → m ∈ t1.held → m ∉ u.held := fun j u m hj hu h1 h2 => by
    rcases hsub m h1 with h3 | h3
    · exact hj (hi.excl j i u t m hu hti h2 h3)
    · exact free_iff.1 h3 j u hu h2
  refine ⟨fun j j' u u' m hu hu' h1 h2 => ?_, fun j u hu => ?_⟩
  · rcases hget j u hu with ⟨e1, e2⟩ | ⟨hj, hu1⟩ <;> rcases hget j' u' hu' with ⟨e3, e4⟩ | ⟨hj', hu1'⟩
    · rw [e1, e3]
    · rw [e2] at h1; exact absurd h2 (hother j' u' m hj' hu1' h1)
    · rw [e4] at h2; exact absurd h1 (hother j u m hj hu1 h2)
    · exact hi.excl j j' u u' m hu1 hu1' h1 h2
  · rcases hget j u hu with ⟨-, rfl⟩ | ⟨-, hu⟩
    · have hnd := hi.nodup i t hti
      rcases hm with he | ⟨x, he, hf⟩ | ⟨x, he⟩
      · rw [he]; exact hnd
      · rw [he]; exact List.nodup_cons.2 ⟨free_iff.1 hf i t hti, hnd⟩
      · rw [he]; exact hnd.erase x
    · exact hi.nodup j u hu

theorem excl_run {may : Place → Api → Bool} : ∀ (r : List (Nat × Choice)) {ts ts' : State}, Excl ts → run may ts r = some ts' → Excl ts'
  | [], _, _, hi, hr => by cases hr; exact hi
  | (i, ch) :: r, ts, ts', hi, hr => by
    simp only [run] at hr
    obtain ⟨s1, h1, h2⟩ := Option.bind_eq_some_iff.1 hr
    exact excl_run r (excl_step hi h1) h2

structure Inv (ts : State) : Prop where
  ok : ∀ (i : Nat) (t : Thread), ts[i]? = some t → OkAll t.held t.todo

theorem inv_init (n : Nat) : Inv (init n) := ⟨fun i t h => by rw [init_get h]; exact ⟨[], ok_call, rfl⟩⟩

theorem inv_step {may : Place → Api → Bool} (ht : Tame may) {ts ts' : State} (hi : Inv ts) {i : Nat} {ch : Choice} (hs : step may ts i ch = some ts') : Inv ts' := by
  obtain ⟨t, t1, hti, hn, hget⟩ := step_get hs
  refine ⟨fun j u hu => ?_⟩
  rcases hget j u hu with ⟨-, rfl⟩ | ⟨-, hu⟩
  · exact next_ok ht hn (hi.ok i t hti)
  · exact hi.ok j u hu

theorem inv_run {may : Place → Api → Bool} (ht : Tame may) : ∀ (r : List (Nat × Choice)) {ts ts' : State}, Inv ts → run may ts r = some ts' → Inv ts'
  | [], _, _, hi, hr => by cases hr; exact hi
  | (i, ch) :: r, ts, ts', hi, hr => by
    simp only [run] at hr
    obtain ⟨s1, h1, h2⟩ := Option.bind_eq_some_iff.1 hr
    exact inv_run ht r (inv_step ht hi h1) h2

theorem Reachable.inv {may : Place → Api → Bool} (ht : Tame may) {ts : State} (h : Reachable may ts) : Inv ts := by
  obtain ⟨n, r, hr⟩ := h
  exact inv_run ht r (inv_init n) hr

/-! ### Theorems -/

/-- Whatever the program does: no mutex is held by two threads, none twice by one. -/
theorem exclusive {may : Place → Api → Bool} {ts : State} (h : Reachable may ts) {i j : Nat} {t t' : Thread} {m : Mx}
    (hi : ts[i]? = some t) (hj : ts[j]? = some t') (h1 : m ∈ t.held) (h2 : m ∈ t'.held) : i = j ∧ t.held.count m = 1 := by
  obtain ⟨n, r, hr⟩ := h
  have he := excl_run r (excl_init n) hr
  exact ⟨he.excl i j t t' m hi hj h1 h2, Nat.le_antisymm (List.nodup_iff_count.1 (he.nodup i t hi) m) (List.count_pos_iff.2 h1)⟩

theorem blocks_rank {ts : State} (hi : Inv ts) {i j : Nat} (h : Blocks ts i j) : ∃ t m k t', ts[i]? = some t ∧ t.todo = .lock m :: k ∧ Below t.held (rank m) ∧ ts[j]? = some t' ∧ m ∈ t'.held := by
  obtain ⟨t, m, k, t', h1, h2, h3, h4⟩ := h
  have := hi.ok i t h1
  rw [h2] at this
  obtain ⟨h', ⟨hb, -⟩, -⟩ := this
  exact ⟨t, m, k, t', h1, h2, hb, h3, h4⟩

/-- The mutex a thread waits for is above those of the thread it waits for through others. -/
theorem waits_rank {ts : State} (hi : Inv ts) {i j : Nat} (h : WaitsFor ts i j) : ∀ {t : Thread} {m : Mx} {k : List Code}, ts[i]? = some t → t.todo = .lock m :: k →
    ∃ t' m', ts[j]? = some t' ∧ m' ∈ t'.held ∧ rank m ≤ rank m' := by
  induction h with
  | one hb =>
    intro t m k h1 h2
    obtain ⟨t1, m1, k1, t', h3, h4, h5⟩ := hb
    rw [h1] at h3; cases h3
    rw [h2] at h4; cases h4
    exact ⟨t', m, h5.1, h5.2, Nat.le_refl _⟩
  | more hb hw ih =>
    intro t m k h1 h2
    rename_i i j l
    obtain ⟨t1, m1, k1, t', h3, h4, h5, h6⟩ := hb
    rw [h1] at h3; cases h3
    rw [h2] at h4; cases h4
    have hbj : ∃ x, Blocks ts j x := by
      cases hw with
      | one hb => exact ⟨_, hb⟩
      | more hb _ => exact ⟨_, hb⟩
    obtain ⟨x, hbx⟩ := hbj
    obtain ⟨t2, m2, k2, -, h7, h8, h9, -⟩ := blocks_rank hi hbx
    rw [h5] at h7; cases h7
    obtain ⟨t3, m3, h10, h11, h12⟩ := ih h5 h8
    exact ⟨t3, m3, h10, h11, Nat.le_trans (Nat.le_of_lt (h9 m h6)) h12⟩

/-- The full property: no thread waits for itself, directly or through others, whatever the program calls from wherever. It is false
(`observer_registers` and others below). What is missing: programs that call more than `Tame` allows from the places the library calls
with a mutex held. -/
theorem no_deadlock_partial {may : Place → Api → Bool} (ht : Tame may) {ts : State} (h : Reachable may ts) (i : Nat) : ¬ WaitsFor ts i i := by
  intro hw
  have hi := h.inv ht
  have hb : ∃ x, Blocks ts i x := by
    cases hw with
    | one hb => exact ⟨_, hb⟩
    | more hb _ => exact ⟨_, hb⟩
  obtain ⟨x, hbx⟩ := hb
  obtain ⟨t, m, k, -, h1, h2, h3, -⟩ := blocks_rank hi hbx
  obtain ⟨t', m', h4, h5, h6⟩ := waits_rank hi hw h1 h2
  rw [h1] at h4; cases h4
  exact absurd (h3 m' h5) (Nat.not_lt.2 h6)

theorem next_or_waits (may : Place → Api → Bool) (free : Mx → Bool) (h : List Mx) : ∀ k, k ≠ [] → (∃ ch t, next may free h k ch = some t) ∨ ∃ m k', k = .lock m :: k' ∧ free m = false := by
  intro k hk
  cases k with
  | nil => exact absurd rfl hk
  | cons c k =>
    cases c with
    | skip => exact .inl ⟨.go, _, rfl⟩
    | lock m =>
      cases hf : free m with
      | true => exact .inl ⟨.go, ⟨k, m :: h⟩, by simp [next, hf]⟩
      | false => exact .inr ⟨m, k, rfl, hf⟩
    | unlock m => exact .inl ⟨.go, _, rfl⟩
    | seq a b => exact .inl ⟨.go, _, rfl⟩
    | alt a b => exact .inl ⟨.left, _, rfl⟩
    | many a => exact .inl ⟨.stop, _, rfl⟩
    | any f => exact .inl ⟨.pick 0, _, rfl⟩
    | user u => exact .inl ⟨.stop, _, rfl⟩
    | api a => exact .inl ⟨.go, _, rfl⟩

/-- A thread that has something to do can do a step, or waits for one that can, perhaps through others. -/
theorem progress_partial {may : Place → Api → Bool} (ht : Tame may) {ts : State} (h : Reachable may ts) {i : Nat} {t : Thread} (hi : ts[i]? = some t) (hk : t.todo ≠ []) :
    ∃ j, (j = i ∨ WaitsFor ts i j) ∧ ∃ ch ts', step may ts j ch = some ts' := by
  have hinv := h.inv ht
  have main : ∀ (n i : Nat) (t : Thread), ts[i]? = some t → t.todo ≠ [] → (∀ m k, t.todo = .lock m :: k → 7 ≤ rank m + n) → ∃ j, (j = i ∨ WaitsFor ts i j) ∧ ∃ ch ts', step may ts j ch = some ts' := by
    intro n
    induction n with
    | zero =>
      intro i t hi hk hr
      rcases next_or_waits may (free ts) t.held t.todo hk with ⟨ch, t', hn⟩ | ⟨m, k, he, -⟩
      · exact ⟨i, .inl rfl, ch, ts.set i t', by simp [step, hi, hn]⟩
      · have := hr m k he
        have h7 : rank m < 7 := by cases m <;> simp [rank]
        omega
    | succ n ih =>
      intro i t hi hk hr
      rcases next_or_waits may (free ts) t.held t.todo hk with ⟨ch, t', hn⟩ | ⟨m, k, he, hf⟩
      · exact ⟨i, .inl rfl, ch, ts.set i t', by simp [step, hi, hn]⟩
      · have : ∃ (j : Nat) (u : Thread), ts[j]? = some u ∧ m ∈ u.held := by
          refine Classical.byContradiction fun hno => ?_
          have : free ts m = true := free_iff.2 fun j u hu hm => hno ⟨j, u, hu, hm⟩
          rw [hf] at this; cases this
        obtain ⟨j, u, hu, hm⟩ := this
        have hbl : Blocks ts i j := ⟨t, m, k, u, hi, he, hu, hm⟩
        have huk : u.todo ≠ [] := fun h0 => by
          have := hinv.ok j u hu
          rw [h0] at this
          rw [show u.held = [] from this] at hm; cases hm
        obtain ⟨j', hj', hs⟩ := ih j u hu huk fun m' k' he' => by
          have h1 := hinv.ok j u hu
          rw [he'] at h1
          obtain ⟨h', ⟨hb, -⟩, -⟩ := h1
          have := hb m hm
          have := hr m k he
          omega
        refine ⟨j', .inr ?_, hs⟩
        rcases hj' with rfl | hw
        · exact .one hbl
        · exact .more hbl hw
  exact main 7 i t hi hk fun m k _ => by omega

/-- The user's code is called without a mutex, except at the places named in `depth`. -/
theorem called_without_mutex_partial {may : Place → Api → Bool} (ht : Tame may) {ts : State} (h : Reachable may ts) {i : Nat} {t : Thread} {u : Place} {k : List Code}
    (hi : ts[i]? = some t) (hk : t.todo = .user u :: k) (hu : depth u = none) : t.held = [] := by
  have := (h.inv ht).ok i t hi
  rw [hk] at this
  obtain ⟨h', ⟨-, hf⟩, -⟩ := this
  rcases hf with hf | ⟨d, hd, -⟩
  · exact hf
  · rw [hu] at hd; cases hd

/-- A thread that has nothing to do holds no mutex. -/
theorem released {may : Place → Api → Bool} (ht : Tame may) {ts : State} (h : Reachable may ts) {i : Nat} {t : Thread} (hi : ts[i]? = some t) (hk : t.todo = []) : t.held = [] := by
  have := (h.inv ht).ok i t hi
  rw [hk] at this
  exact this

/-! ### What does not hold -/

/-- A program that calls nothing else. -/
def only (l : List (Place × Api)) (u : Place) (a : Api) : Bool := l.contains (u, a)

def go (i n : Nat) : List (Nat × Choice) := List.replicate n (i, .go)

def waitsB (ts : State) (i j : Nat) : Bool :=
  match ts[i]?, ts[j]? with
  | some ⟨.lock m :: _, _⟩, some t' => t'.held.contains m
  | _, _ => false

theorem blocks_of_waitsB {ts : State} {i j : Nat} (h : waitsB ts i j = true) : Blocks ts i j := by
  unfold waitsB at h
  split at h
  · rename_i m k hl t' h1 h2
    exact ⟨_, m, k, t', h1, rfl, h2, by simpa using h⟩
  · cases h

theorem stuck {may : Place → Api → Bool} {n : Nat} {sched : List (Nat × Choice)} {i : Nat} (h : (run may (init n) sched).any (fun ts => waitsB ts i i) = true) :
    ∃ ts, Reachable may ts ∧ WaitsFor ts i i := by
  cases hr : run may (init n) sched with
  | none => rw [hr] at h; cases h
  | some ts => rw [hr] at h; exact ⟨ts, ⟨n, sched, hr⟩, .one (blocks_of_waitsB h)⟩

/-- An observer (without a thread of its own: `directExecutor`) that registers for a status of the service in the same process when it
is told that the service is available never returns, if the service has set the status. -/
theorem observer_registers : ∃ ts, Reachable (only [(.main, .startServing 0 1), (.observer, .registerStatus 0 1)]) ts ∧ WaitsFor ts 0 0 :=
  stuck (n := 1) (sched := [(0, .call (.startServing 0 1))] ++ go 0 7 ++ [(0, .right)] ++ go 0 9 ++ [(0, .right), (0, .right), (0, .go), (0, .left)] ++ go 0 4 ++ [(0, .again), (0, .call (.registerStatus 0 1)), (0, .go), (0, .right)] ++ go 0 6 ++ [(0, .left)] ++ go 0 7 ++ [(0, .right)] ++ go 0 12 ++ [(0, .right)] ++ go 0 2) (by decide +kernel)

/-- So does one that makes a proxy for another service of the same connection, of any kind. -/
theorem observer_creates : ∃ ts, Reachable (only [(.main, .serviceNews 1 1), (.observer, .createProxy 1 2)]) ts ∧ WaitsFor ts 0 0 :=
  stuck (n := 1) (sched := [(0, .call (.serviceNews 1 1))] ++ go 0 16 ++ [(0, .right), (0, .right), (0, .go), (0, .left)] ++ go 0 4 ++ [(0, .again), (0, .call (.createProxy 1 2))] ++ go 0 2) (by decide +kernel)

/-- A listener at the stub that sends a signal of the same service. -/
theorem listener_broadcasts : ∃ ts, Reachable (only [(.main, .setStatus 1 1), (.listener, .broadcastSignal 1 1)]) ts ∧ WaitsFor ts 0 0 :=
  stuck (n := 1) (sched := [(0, .call (.setStatus 1 1))] ++ go 0 7 ++ [(0, .right)] ++ go 0 4 ++ [(0, .again), (0, .call (.broadcastSignal 1 1))] ++ go 0 3) (by decide +kernel)

/-- A service whose handler asks another service of the process and keeps its own request in the callback: when the other service stops,
the callback is destroyed, with it the request, which is answered by this (`ResponseIgnored`). -/
theorem drop_answers : ∃ ts, Reachable (only [(.main, .stopServing 0 1), (.dropCallback, .respond 0 2 7)]) ts ∧ WaitsFor ts 0 0 :=
  stuck (n := 1) (sched := [(0, .call (.stopServing 0 1))] ++ go 0 7 ++ [(0, .right)] ++ go 0 9 ++ [(0, .right), (0, .right), (0, .go), (0, .right)] ++ go 0 4 ++ [(0, .again), (0, .call (.respond 0 2 7))] ++ go 0 7 ++ [(0, .right), (0, .left)] ++ go 0 4 ++ [(0, .stop)] ++ go 0 2 ++ [(0, .right)] ++ go 0 5 ++ [(0, .right)] ++ go 0 2) (by decide +kernel)

/-- An abort callback given to an invalid request that asks for the request's validity. -/
theorem late_abort_asks : ∃ ts, Reachable (only [(.main, .onAborted 7), (.abortLate, .requestInfo 7)]) ts ∧ WaitsFor ts 0 0 :=
  stuck (n := 1) (sched := [(0, .call (.onAborted 7))] ++ go 0 4 ++ [(0, .left), (0, .call (.requestInfo 7))] ++ go 0 2) (by decide +kernel)

/-- The end of a provider: an abort callback that answers another request. -/
theorem end_answers : ∃ ts, Reachable (only [(.main, .deinitProvider 1 1), (.abortEnd, .respond 1 1 4)]) ts ∧ WaitsFor ts 0 0 :=
  stuck (n := 1) (sched := [(0, .call (.deinitProvider 1 1))] ++ go 0 11 ++ [(0, .again), (0, .pick 3)] ++ go 0 12 ++ [(0, .right), (0, .call (.respond 1 1 4))] ++ go 0 7 ++ [(0, .right), (0, .left)] ++ go 0 2) (by decide +kernel)

/-- Two services whose listeners set the status of the other: two threads wait for each other. -/
theorem crossing : ∃ ts, Reachable (only [(.main, .setStatus 1 1), (.main, .setStatus 1 2), (.listener, .setStatus 1 2), (.listener, .setStatus 1 1)]) ts ∧ WaitsFor ts 0 0 := by
  have h : (run (only [(.main, .setStatus 1 1), (.main, .setStatus 1 2), (.listener, .setStatus 1 2), (.listener, .setStatus 1 1)]) (init 2)
      ([(0, .call (.setStatus 1 1))] ++ go 0 7 ++ [(0, .right)] ++ go 0 4 ++ [(0, .again), (0, .call (.setStatus 1 2))] ++ go 0 7 ++ [(1, .call (.setStatus 1 2))] ++ go 1 7 ++ [(1, .right)] ++ go 1 4 ++ [(1, .again), (1, .call (.setStatus 1 1))] ++ go 1 7 ++ [(1, .right)] ++ go 1 2 ++ [(0, .right)] ++ go 0 2)).any
      (fun ts => waitsB ts 0 1 && waitsB ts 1 0) = true := by decide +kernel
  cases hr : run (only [(.main, .setStatus 1 1), (.main, .setStatus 1 2), (.listener, .setStatus 1 2), (.listener, .setStatus 1 1)]) (init 2)
      ([(0, .call (.setStatus 1 1))] ++ go 0 7 ++ [(0, .right)] ++ go 0 4 ++ [(0, .again), (0, .call (.setStatus 1 2))] ++ go 0 7 ++ [(1, .call (.setStatus 1 2))] ++ go 1 7 ++ [(1, .right)] ++ go 1 4 ++ [(1, .again), (1, .call (.setStatus 1 1))] ++ go 1 7 ++ [(1, .right)] ++ go 1 2 ++ [(0, .right)] ++ go 0 2) with
  | none => rw [hr] at h; cases h
  | some ts =>
    rw [hr] at h
    have h := Bool.and_eq_true_iff.1 h
    exact ⟨ts, ⟨2, _, hr⟩, .more (blocks_of_waitsB h.1) (.one (blocks_of_waitsB h.2))⟩

/-! ### Examples -/

/-- The program that calls everything that is allowed. -/
def most (u : Place) (a : Api) : Bool :=
  match depth u, level a with
  | none, _ => true
  | some d, some l => decide (d < l)
  | some _, none => false

theorem most_tame : Tame most := by
  intro u a d hd hm
  unfold most at hm
  rw [hd] at hm
  cases hl : level a with
  | none => rw [hl] at hm; cases hm
  | some l => rw [hl] at hm; exact ⟨l, rfl, by simpa using hm⟩

def isUser : Code → Bool
  | .user _ => true
  | _ => false

def answering (t : Thread) : Bool :=
  match t.todo with
  | .user .answer :: k => t.held.isEmpty && (k.filter isUser).length == 3
  | _ => false

/-- Calls within calls in one thread: a request is sent within the process, its handler answers at once, the answer's callback registers
for a status, whose callback is called at once: four functions of the program deep, no mutex is held. -/
example : ∃ sched, (run most (init 1) sched).any (·.any answering) = true :=
  ⟨[(0, .call (.sendRequest 0 1)), (0, .go), (0, .right)] ++ go 0 14 ++ [(0, .right)] ++ go 0 6 ++ [(0, .left)] ++ go 0 6 ++ [(0, .call (.respond 0 1 5))] ++ go 0 7 ++ [(0, .right), (0, .left)] ++ go 0 4 ++ [(0, .again), (0, .pick 5)] ++ go 0 5 ++ [(0, .stop)] ++ go 0 2 ++ [(0, .right)] ++ go 0 5 ++ [(0, .right)] ++ go 0 6 ++ [(0, .right)] ++ go 0 6 ++ [(0, .right), (0, .call (.registerStatus 0 1)), (0, .go), (0, .right)] ++ go 0 6 ++ [(0, .left)] ++ go 0 7 ++ [(0, .right)] ++ go 0 12 ++ [(0, .right)] ++ go 0 6 ++ [(0, .right)] ++ go 0 7 ++ [(0, .again)], by decide +kernel⟩

/-- A thread waits for another, which can go on. -/
example : ∃ sched, (run most (init 2) sched).any (fun ts => waitsB ts 1 0 && !waitsB ts 0 1) = true :=
  ⟨[(0, .call (.stubStatus 1 1))] ++ go 0 3 ++ [(1, .call (.setStatus 1 1))] ++ go 1 3, by decide +kernel⟩

end Maf.Reent
