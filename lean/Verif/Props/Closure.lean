import Verif.Model.Closure
import Verif.Lemmas.Hist
/-
C83: typed callbacks.
-/
namespace Maf.Clo

/-! ### Specification -/

/-- The log of some run. -/
def Log (l : List Ev) : Prop := ∃ as s, run init as = some s ∧ s.log = l

/-- An entry as the user knows it. -/
structure Reg where
  id : Nat
  kind : Kind
  cb : Nat
deriving DecidableEq

def regStep (r : List Reg) : Ev → List Reg
  | .added id k cb => r ++ [⟨id, k, cb⟩]
  | .removed id => r.filter (·.id != id)
  | _ => r

/-- What is registered after `l`, in the order of registration. -/
def inForce (l : List Ev) : List Reg := l.foldl regStep []

def subOf : Ev → Option (Nat × Nat)
  | .submitted id p => some (id, p)
  | _ => none

def callOf : Ev → Option (Nat × Nat)
  | .called id _ p => some (id, p)
  | _ => none

/-- Tasks the executor took: entry and payload. -/
def subs (l : List Ev) : List (Nat × Nat) := l.filterMap subOf

/-- Calls of the user's functions: entry and payload. -/
def calls (l : List Ev) : List (Nat × Nat) := l.filterMap callOf

/-- The entries a message is for. -/
def addressed (l : List Ev) (k : Kind) (id : Option Nat) : List Reg := (inForce l).filter fun r => r.kind == k && id.all (· == r.id)

/-- What becomes of a message for these entries. -/
def outcome (closed : Bool) (p : Nat) (r : Reg) : Ev := if closed then .lost r.id p else .submitted r.id p

def isGiven : Ev → Bool
  | .submitted .. | .lost .. => true
  | _ => false

/-- What was given to the executor, taken or not. -/
def given (l : List Ev) : List Ev := l.filter isGiven

/-- What the event `e` after `x` has to give to the executor. -/
def dueOf (x : List Ev) : Ev → List Ev
  | .arrived k id p => (addressed x k id).map (outcome (decide (.closed ∈ x)) p)
  | _ => []

/-- What the events `l` after `x` have to give to the executor. -/
def due (x : List Ev) : List Ev → List Ev
  | [] => []
  | e :: l => dueOf x e ++ due (x ++ [e]) l

/-! ### Invariant -/

def isArrived : Ev → Bool
  | .arrived .. => true
  | _ => false

def Answers (l : List Ev) : Prop := ∀ x k id p y, l = x ++ .arrived k id p :: y → (addressed x k id).map (outcome (decide (.closed ∈ x)) p) <+: y

structure Inv (s : State) : Prop where
  regs : s.entries = (inForce s.log).map fun r => ⟨r.id, r.kind, ⟨some r.cb⟩⟩
  added : ∀ r ∈ inForce s.log, .added r.id r.kind r.cb ∈ s.log
  fresh : ∀ id k cb, .added id k cb ∈ s.log → id < s.next
  uniq : ∀ id k cb k' cb', .added id k cb ∈ s.log → .added id k' cb' ∈ s.log → k = k' ∧ cb = cb'
  tasks : ∀ t ∈ s.tasks, ∃ k cb, t.cb = some cb ∧ .added t.id k cb ∈ s.log
  fifo : subs s.log = calls s.log ++ s.tasks.map fun t => (t.id, t.p)
  op : s.open_ = true ↔ .closed ∉ s.log
  ok : ∀ id, .crash id ∉ s.log
  cb : ∀ id cb p, .called id cb p ∈ s.log → ∃ k, .added id k cb ∈ s.log
  ans : Answers s.log
  due : given s.log = due [] s.log

theorem Answers.app {l es : List Ev} (h : Answers l) (he : ∀ e ∈ es, isArrived e = false) : Answers (l ++ es) := by
  intro x k id p y hl
  rcases List.append_eq_append_iff.1 hl with ⟨a, ha, hb⟩ | ⟨a, ha, hb⟩
  · have := he (.arrived k id p) (by rw [hb]; simp)
    simp [isArrived] at this
  · cases a with
    | nil =>
      simp only [List.nil_append] at hb
      have := he (.arrived k id p) (by rw [← hb]; simp)
      simp [isArrived] at this
    | cons e a =>
      simp only [List.cons_append, List.cons.injEq] at hb
      obtain ⟨rfl, rfl⟩ := hb
      exact (h x k id p a ha).trans (List.prefix_append _ _)

theorem Answers.arrived {l es : List Ev} {k : Kind} {id : Option Nat} {p : Nat} (h : Answers l) (hes : es = (addressed l k id).map (outcome (decide (.closed ∈ l)) p)) : Answers (l ++ .arrived k id p :: es) := by
  intro x k' id' p' y hl
  have hno : ∀ e ∈ es, isArrived e = false := by
    subst hes
    intro e he
    obtain ⟨r, -, rfl⟩ := List.mem_map.1 he
    unfold outcome; split <;> rfl
  rcases places hl with ⟨rfl, h2, rfl⟩ | ⟨c, -, h2⟩ | ⟨c, h1, rfl⟩
  · cases h2; rw [hes]; exact List.prefix_refl _
  · have := hno (.arrived k' id' p') (by rw [h2]; simp)
    simp [isArrived] at this
  · exact (h x k' id' p' c h1).trans (List.prefix_append _ _)

/-- Events that do not change what is registered or called. -/
def Plain : Ev → Prop
  | .arrived .. | .submitted .. | .lost .. | .called .. => True
  | _ => False

theorem inForce_plain {l es : List Ev} (h : ∀ e ∈ es, Plain e) : inForce (l ++ es) = inForce l := by
  simp only [inForce, List.foldl_append]
  generalize List.foldl regStep [] l = r
  induction es with
  | nil => rfl
  | cons e es ih =>
    have he := h e (by simp)
    simp only [List.foldl_cons]
    have : regStep r e = r := by cases e <;> first | rfl | exact he.elim
    rw [this]
    exact ih fun e' he' => h e' (by simp [he'])

theorem due_append : ∀ (a x b : List Ev), due x (a ++ b) = due x a ++ due (x ++ a) b
  | [], x, b => by simp [due]
  | e :: a, x, b => by simp [due, due_append a]

theorem due_none : ∀ (es x : List Ev), (∀ e ∈ es, isArrived e = false) → due x es = []
  | [], _, _ => rfl
  | e :: es, x, h => by
    have he := h e (by simp)
    rw [due, due_none es _ fun e' h' => h e' (by simp [h'])]
    cases e <;> first | rfl | simp [isArrived] at he

theorem Inv.dueApp {s : State} (h : Inv s) {e : Ev} (h1 : isArrived e = false) (h2 : isGiven e = false) : given (s.log ++ [e]) = Clo.due [] (s.log ++ [e]) := by
  rw [due_append, due_none [e] _ (by simpa using h1), ← h.due]
  simp [given, h2]

def taskOf (p : Nat) (e : Entry) : Task := ⟨e.id, e.fn.inner, p⟩

theorem fire_eq (p : Nat) : ∀ (es : List Entry) (s : State), fire s p es =
    { s with tasks := s.tasks ++ (if s.open_ then es.map (taskOf p) else []), log := s.log ++ es.map fun e => if s.open_ then .submitted e.id p else .lost e.id p }
  | [], s => by simp [fire]
  | e :: es, s => by
    simp only [fire]
    rw [fire_eq p es]
    cases ho : s.open_ <;> simp [submit, ho, invoke, taskOf]

theorem inv_arrive {s : State} (h : Inv s) (k : Kind) (id : Option Nat) (p : Nat) : Inv (arrive s k id p) := by
  have hes : s.entries.filter (matching k id) = (addressed s.log k id).map fun r => ⟨r.id, r.kind, ⟨some r.cb⟩⟩ := by
    rw [h.regs, List.filter_map]; rfl
  have hlog : (arrive s k id p).log = s.log ++ .arrived k id p :: (addressed s.log k id).map (outcome (decide (.closed ∈ s.log)) p) := by
    simp only [arrive, fire_eq, hes, List.append_assoc, List.singleton_append, List.map_map]
    congr 2
    refine List.map_congr_left fun r _ => ?_
    have := h.op
    cases ho : s.open_ <;> simp_all [outcome]
  have htasks : (arrive s k id p).tasks = s.tasks ++ if s.open_ then (addressed s.log k id).map fun r => ⟨r.id, some r.cb, p⟩ else [] := by
    simp only [arrive, fire_eq, hes, List.map_map]
    rfl
  have hent : (arrive s k id p).entries = s.entries := by simp only [arrive, fire_eq]
  have hnext : (arrive s k id p).next = s.next := by simp only [arrive, fire_eq]
  have hopen : (arrive s k id p).open_ = s.open_ := by simp only [arrive, fire_eq]
  have hpl : ∀ e ∈ Ev.arrived k id p :: (addressed s.log k id).map (outcome (decide (.closed ∈ s.log)) p), Plain e ∧ (∀ id k cb, e ≠ .added id k cb) ∧ e ≠ .closed ∧ (∀ id, e ≠ .crash id) ∧ ∀ id cb p, e ≠ .called id cb p := by
    intro e he
    rcases List.mem_cons.1 he with rfl | he
    · simp [Plain]
    · obtain ⟨r, -, rfl⟩ := List.mem_map.1 he
      unfold outcome; split <;> simp [Plain]
  have hin : inForce (arrive s k id p).log = inForce s.log := by rw [hlog]; exact inForce_plain fun e he => (hpl e he).1
  have hadd : ∀ id' k' cb, .added id' k' cb ∈ (arrive s k id p).log ↔ .added id' k' cb ∈ s.log := fun id' k' cb => by
    rw [hlog, List.mem_append]
    exact ⟨fun hx => hx.elim (fun h => h) fun hx => absurd rfl ((hpl _ hx).2.1 id' k' cb), .inl⟩
  refine ⟨?_, fun r hr => ?_, fun id' k' cb hx => ?_, fun i a b c d hx hy => h.uniq i a b c d ((hadd _ _ _).1 hx) ((hadd _ _ _).1 hy), fun t ht => ?_, ?_, ?_, fun id' hx => ?_, fun id' cb p' hx => ?_, ?_, ?_⟩
  · rw [hent, hin]; exact h.regs
  · rw [hin] at hr; exact (hadd _ _ _).2 (h.added r hr)
  · rw [hnext]; exact h.fresh id' k' cb ((hadd _ _ _).1 hx)
  · rw [htasks] at ht
    rcases List.mem_append.1 ht with ht | ht
    · obtain ⟨a, b, h1, h2⟩ := h.tasks t ht; exact ⟨a, b, h1, (hadd _ _ _).2 h2⟩
    · split at ht
      · obtain ⟨r, hr, rfl⟩ := List.mem_map.1 ht
        exact ⟨r.kind, r.cb, rfl, (hadd _ _ _).2 (h.added r ((List.mem_filter.1 hr).1))⟩
      · cases ht
  · rw [htasks, hlog]
    have hc : calls (s.log ++ .arrived k id p :: (addressed s.log k id).map (outcome (decide (.closed ∈ s.log)) p)) = calls s.log := by
      simp only [calls, List.filterMap_append]
      have h0 : List.filterMap callOf (.arrived k id p :: (addressed s.log k id).map (outcome (decide (.closed ∈ s.log)) p)) = [] :=
        List.filterMap_eq_nil_iff.2 fun e he => by
          have := (hpl e he).2.2.2.2
          cases e <;> simp_all [callOf]
      rw [h0, List.append_nil]
    rw [hc]
    have := h.fifo
    simp only [subs, List.filterMap_append, List.filterMap_cons, subOf] at this ⊢
    rw [this, List.map_append, List.append_assoc]
    congr 2
    have hop := h.op
    cases ho : s.open_ with
    | true =>
      have : .closed ∉ s.log := hop.1 ho
      simp only [this, decide_false, if_true, List.map_map]
      simp [List.filterMap_map, outcome, subOf, Function.comp_def]
    | false =>
      have : .closed ∈ s.log := Classical.not_not.1 fun hx => by rw [hop.2 hx] at ho; cases ho
      simp only [this, decide_true, List.map_nil, Bool.false_eq_true, if_false]
      refine List.filterMap_eq_nil_iff.2 fun e he => ?_
      obtain ⟨r, -, rfl⟩ := List.mem_map.1 he
      rfl
  · rw [hopen, h.op, hlog, List.mem_append]
    exact not_congr ⟨.inl, fun hx => hx.elim (fun h => h) fun hx => absurd rfl (hpl _ hx).2.2.1⟩
  · rw [hlog, List.mem_append] at hx
    exact hx.elim (h.ok id') fun hx => absurd rfl ((hpl _ hx).2.2.2.1 id')
  · rw [hlog, List.mem_append] at hx
    rcases hx with hx | hx
    · obtain ⟨a, ha⟩ := h.cb id' cb p' hx; exact ⟨a, (hadd _ _ _).2 ha⟩
    · exact absurd rfl ((hpl _ hx).2.2.2.2 id' cb p')
  · rw [hlog]; exact h.ans.arrived rfl
  · have h1 : ∀ e ∈ (addressed s.log k id).map (outcome (decide (.closed ∈ s.log)) p), isArrived e = false ∧ isGiven e = true := fun e he => by
      obtain ⟨r, -, rfl⟩ := List.mem_map.1 he
      unfold outcome; split <;> exact ⟨rfl, rfl⟩
    rw [hlog, due_append, due, due_none _ _ fun e he => (h1 e he).1, ← h.due, List.append_nil]
    simp only [given, List.filter_append, List.filter_cons, isGiven, Bool.false_eq_true, if_false, List.nil_append, dueOf]
    rw [List.filter_eq_self.2 fun e he => (h1 e he).2]

theorem inv_init : Inv init := by
  refine ⟨rfl, ?_, ?_, ?_, ?_, rfl, ?_, ?_, ?_, ?_, rfl⟩ <;> simp [init, inForce, Answers]

theorem inForce_one (l : List Ev) (e : Ev) : inForce (l ++ [e]) = regStep (inForce l) e := by simp [inForce]

theorem inv_store {s : State} (h : Inv s) (k : Kind) (cb : Nat) : Inv (store s k cb) := by
  have hnew : ∀ k' cb', .added s.next k' cb' ∉ s.log := fun k' cb' hx => Nat.lt_irrefl _ (h.fresh _ _ _ hx)
  refine ⟨?_, fun r hr => ?_, fun id' k' cb' hx => ?_, fun i a b c d hx hy => ?_, fun t ht => ?_, ?_, ?_, fun id' hx => h.ok id' (by simpa [store] using hx), fun id' cb' p' hx => ?_, h.ans.app (by simp [isArrived]), h.dueApp rfl rfl⟩
  · show s.entries ++ [_] = (inForce (s.log ++ [_])).map _
    rw [inForce_one, h.regs]; simp [regStep]
  · have hr : r ∈ inForce (s.log ++ [.added s.next k cb]) := hr
    rw [inForce_one] at hr
    simp only [regStep, List.mem_append, List.mem_singleton] at hr
    rcases hr with hr | rfl
    · simp [store, h.added r hr]
    · simp [store]
  · simp only [store, List.mem_append, List.mem_singleton, Ev.added.injEq] at hx
    show id' < s.next + 1
    rcases hx with hx | ⟨rfl, -⟩
    · exact Nat.lt_succ_of_lt (h.fresh _ _ _ hx)
    · exact Nat.lt_succ_self _
  · simp only [store, List.mem_append, List.mem_singleton, Ev.added.injEq] at hx hy
    rcases hx with hx | ⟨rfl, rfl, rfl⟩ <;> rcases hy with hy | ⟨h1, rfl, rfl⟩
    · exact h.uniq i a b c d hx hy
    · subst h1; exact absurd hx (hnew _ _)
    · exact absurd hy (hnew _ _)
    · exact ⟨rfl, rfl⟩
  · obtain ⟨a, b, h1, h2⟩ := h.tasks t ht; exact ⟨a, b, h1, by simp [store, h2]⟩
  · have := h.fifo
    simp only [store, subs, calls, List.filterMap_append, subOf, callOf, List.filterMap_cons, List.filterMap_nil, List.append_nil] at this ⊢
    exact this
  · simpa [store] using h.op
  · obtain ⟨a, ha⟩ := h.cb id' cb' p' (by simpa [store] using hx); exact ⟨a, by simp [store, ha]⟩

theorem inv_remove {s : State} (h : Inv s) (id : Nat) : Inv (remove s id) := by
  unfold remove
  split
  · refine ⟨?_, fun r hr => ?_, fun id' k' cb' hx => h.fresh _ _ _ (by simpa using hx), fun i a b c d hx hy => h.uniq i a b c d (by simpa using hx) (by simpa using hy), fun t ht => ?_, ?_, by simpa using h.op, fun id' hx => h.ok id' (by simpa using hx), fun id' cb' p' hx => ?_, h.ans.app (by simp [isArrived]), h.dueApp rfl rfl⟩
    · show s.entries.filter _ = (inForce (s.log ++ [_])).map _
      rw [inForce_one, h.regs, List.filter_map]; rfl
    · have hr : r ∈ inForce (s.log ++ [.removed id]) := hr
      rw [inForce_one] at hr
      simp [h.added r ((List.mem_filter.1 hr).1)]
    · obtain ⟨a, b, h1, h2⟩ := h.tasks t ht; exact ⟨a, b, h1, by simp [h2]⟩
    · have := h.fifo
      simp only [subs, calls, List.filterMap_append, subOf, callOf, List.filterMap_cons, List.filterMap_nil, List.append_nil] at this ⊢
      exact this
    · obtain ⟨a, ha⟩ := h.cb id' cb' p' (by simpa using hx); exact ⟨a, by simp [ha]⟩
  · exact h

theorem inv_exec {s s' : State} (h : Inv s) (hs : exec s = some s') : Inv s' := by
  unfold exec at hs
  split at hs
  · cases hs
  · rename_i t ts ht
    obtain ⟨k, cb, h1, h2⟩ := h.tasks t (by rw [ht]; simp)
    rw [h1] at hs
    cases hs
    refine ⟨?_, fun r hr => ?_, fun id' k' cb' hx => h.fresh _ _ _ (by simpa using hx), fun i a b c d hx hy => h.uniq i a b c d (by simpa using hx) (by simpa using hy), fun t' ht' => ?_, ?_, by simpa using h.op, fun id' hx => h.ok id' (by simpa using hx), fun id' cb' p' hx => ?_, h.ans.app (by simp [isArrived]), h.dueApp rfl rfl⟩
    · show s.entries = (inForce (s.log ++ [_])).map _
      rw [inForce_one, h.regs]; rfl
    · have hr : r ∈ inForce (s.log ++ [.called t.id cb t.p]) := hr
      rw [inForce_one] at hr
      simp [h.added r hr]
    · obtain ⟨a, b, h3, h4⟩ := h.tasks t' (by rw [ht]; simp [show t' ∈ ts from ht']); exact ⟨a, b, h3, by simp [h4]⟩
    · have := h.fifo
      rw [ht] at this
      simp only [subs, calls, List.filterMap_append, subOf, callOf, List.filterMap_cons, List.filterMap_nil, List.append_nil, List.map_cons] at this ⊢
      rw [this]; simp
    · simp only [List.mem_append, List.mem_singleton, Ev.called.injEq] at hx
      rcases hx with hx | ⟨rfl, rfl, rfl⟩
      · obtain ⟨a, ha⟩ := h.cb id' cb' p' hx; exact ⟨a, by simp [ha]⟩
      · exact ⟨k, by simp [h2]⟩

theorem inv_step {s s' : State} (h : Inv s) {a : Act} (hs : step s a = some s') : Inv s' := by
  cases a <;> simp only [step, Option.some.injEq] at hs
  case register op cb cached =>
    subst hs
    cases cached with
    | none => exact inv_store h _ _
    | some p => exact inv_arrive (inv_store h _ _) _ _ _
  case unregister id => subst hs; exact inv_remove h id
  case notify => subst hs; exact inv_arrive h _ _ _
  case request => subst hs; exact inv_store h _ _
  case result =>
    subst hs
    unfold result
    split
    · exact inv_remove (inv_arrive h _ _ _) _
    · exact inv_arrive h _ _ _
  case handle =>
    subst hs
    unfold handle
    split
    · exact h
    · exact inv_store h _ _
  case incoming => subst hs; exact inv_arrive h _ _ _
  case exec => exact inv_exec h hs
  case close =>
    subst hs
    refine ⟨?_, fun r hr => ?_, fun id' k' cb' hx => h.fresh _ _ _ (by simpa using hx), fun i a b c d hx hy => h.uniq i a b c d (by simpa using hx) (by simpa using hy), fun t ht => ?_, ?_, by simp, fun id' hx => h.ok id' (by simpa using hx), fun id' cb' p' hx => ?_, h.ans.app (by simp [isArrived]), h.dueApp rfl rfl⟩
    · show s.entries = (inForce (s.log ++ [_])).map _
      rw [inForce_one, h.regs]; rfl
    · have hr : r ∈ inForce (s.log ++ [.closed]) := hr
      rw [inForce_one] at hr
      simp [h.added r hr]
    · obtain ⟨a, b, h1, h2⟩ := h.tasks t ht; exact ⟨a, b, h1, by simp [h2]⟩
    · have := h.fifo
      simp only [subs, calls, List.filterMap_append, subOf, callOf, List.filterMap_cons, List.filterMap_nil, List.append_nil] at this ⊢
      exact this
    · obtain ⟨a, ha⟩ := h.cb id' cb' p' (by simpa using hx); exact ⟨a, by simp [ha]⟩

theorem inv_run : ∀ (as : List Act) {s s' : State}, Inv s → run s as = some s' → Inv s'
  | [], _, _, h, hr => by cases hr; exact h
  | a :: as, s, s', h, hr => by
    simp only [run] at hr
    obtain ⟨s1, h1, h2⟩ := Option.bind_eq_some_iff.1 hr
    exact inv_run as (inv_step h h1) h2

/-! ### Theorems -/

/-- No empty function is ever called, although every lambda of proxy and stub can be called only once. -/
theorem never_empty {l : List Ev} (h : Log l) (id : Nat) : .crash id ∉ l := by
  obtain ⟨as, s, hr, rfl⟩ := h
  exact (inv_run as inv_init hr).ok id

/-- The function that is called is the one that was given for this entry. -/
theorem right_function {l : List Ev} (h : Log l) {id cb p : Nat} (hc : .called id cb p ∈ l) : ∃ k, .added id k cb ∈ l ∧ ∀ k' cb', .added id k' cb' ∈ l → k' = k ∧ cb' = cb := by
  obtain ⟨as, s, hr, rfl⟩ := h
  have hi := inv_run as inv_init hr
  obtain ⟨k, hk⟩ := hi.cb id cb p hc
  exact ⟨k, hk, fun k' cb' hx => hi.uniq _ _ _ _ _ hx hk⟩

/-- The full property: a message leads to one call for every entry it is for, in the order of registration. Missing: a stopped
executor (`refused_lost`). What is proved: at once a task for each of them, to which `in_order` applies; if the executor does not take
tasks any more, none. -/
theorem everyone_partial {l x y : List Ev} {k : Kind} {id : Option Nat} {p : Nat} (h : Log l) (hl : l = x ++ .arrived k id p :: y) :
    (addressed x k id).map (outcome (decide (.closed ∈ x)) p) <+: y := by
  obtain ⟨as, s, hr, rfl⟩ := h
  exact (inv_run as inv_init hr).ans x k id p y hl

/-- Nothing else is given to the executor: in all, it gets what the messages that came in have to give to it, in this order. -/
theorem only_these {l : List Ev} (h : Log l) : given l = due [] l := by
  obtain ⟨as, s, hr, rfl⟩ := h
  exact (inv_run as inv_init hr).due

theorem arrive_log (s : State) (k : Kind) (id : Option Nat) (p : Nat) : s.log ++ [.arrived k id p] <+: (arrive s k id p).log := by
  simp only [arrive, fire_eq]; exact List.prefix_append _ _

/-- A status or signal, an update or answer, an incoming request, the known value at a registration count as messages that come in. -/
theorem comes_in (s s' : State) :
    (∀ op p, step s (.notify op p) = some s' → s.log ++ [.arrived (.note op) none p] <+: s'.log) ∧
    (∀ id p final, step s (.result id p final) = some s' → s.log ++ [.arrived .req (some id) p] <+: s'.log) ∧
    (∀ op p, step s (.incoming op p) = some s' → s.log ++ [.arrived (.handler op) none p] <+: s'.log) ∧
    ∀ op cb p, step s (.register op cb (some p)) = some s' → ∃ id, s.log ++ [.added id (.note op) cb, .arrived (.note op) (some id) p] <+: s'.log := by
  refine ⟨fun op p h => ?_, fun id p final h => ?_, fun op p h => ?_, fun op cb p h => ?_⟩ <;> cases h
  · exact arrive_log ..
  · simp only [result]
    split
    · refine (arrive_log s .req (some id) p).trans ?_
      unfold remove; split
      · exact List.prefix_append _ _
      · exact List.prefix_refl _
    · exact arrive_log ..
  · exact arrive_log ..
  · refine ⟨s.next, ?_⟩
    have := arrive_log (store s (.note op) cb) (.note op) (some s.next) p
    simpa [store, register] using this

/-- A final answer ends the request, `unregister` the registration: nothing is registered under this id afterwards. -/
theorem ended {as : List Act} {s s' : State} {a : Act} {id : Nat} (h : run init as = some s) (ha : a = .unregister id ∨ (∃ p, a = .result id p true) ∧ ∃ cb, .added id .req cb ∈ s.log)
    (hs : step s a = some s') : ∀ r ∈ inForce s'.log, r.id ≠ id := by
  have hi := inv_run as inv_init h
  have hi' := inv_step hi hs
  intro r hr hid
  have hm : (⟨r.id, r.kind, ⟨some r.cb⟩⟩ : Entry) ∈ s'.entries := by rw [hi'.regs]; exact List.mem_map.2 ⟨r, hr, rfl⟩
  have hrem : ∀ t : State, ∀ e ∈ (remove t id).entries, e.id ≠ id := fun t e he heq => by
    unfold remove at he
    split at he
    · have := (List.mem_filter.1 he).2; simp [heq] at this
    · rename_i hn; exact hn (List.any_eq_true.2 ⟨e, he, by simp [heq]⟩)
  rcases ha with rfl | ⟨⟨p, rfl⟩, cb, hcb⟩
  · cases hs; exact hrem s _ hm hid
  · simp only [step, Option.some.injEq] at hs
    subst hs
    unfold result at hm
    split at hm
    · exact hrem _ _ hm hid
    · rename_i hn
      have hent : (arrive s .req (some id) p).entries = s.entries := by simp only [arrive, fire_eq]
      rw [hent, hi.regs] at hm
      obtain ⟨r', hr', heq⟩ := List.mem_map.1 hm
      have hid' : r'.id = id := ((Entry.mk.injEq ..).mp heq).1.trans hid
      have hk := (hi.uniq _ _ _ _ _ (hi.added r' hr') (by rw [hid']; exact hcb)).1
      refine hn ?_
      rw [hi.regs]
      simp only [Bool.true_and, List.any_map, List.any_eq_true]
      refine ⟨r', hr', ?_⟩
      simp [matching, hk, hid']

/-- The calls are those of the tasks the executor took, in this order. -/
theorem in_order {l : List Ev} (h : Log l) : calls l <+: subs l := by
  obtain ⟨as, s, hr, rfl⟩ := h
  exact ⟨_, (inv_run as inv_init hr).fifo.symm⟩

/-- All of them: as long as one is missing, the executor has a task. -/
theorem all_called {as : List Act} {s : State} (h : run init as = some s) (hn : step s .exec = none) : calls s.log = subs s.log := by
  have hi := inv_run as inv_init h
  have ht : s.tasks = [] := by
    cases ht : s.tasks with
    | nil => rfl
    | cons t ts =>
      simp only [step, exec, ht] at hn
      split at hn <;> cases hn
  rw [hi.fifo, ht]; simp

/-! ### What does not hold -/

/-- The log after a list of actions. -/
def logOf (as : List Act) : List Ev := ((run init as).map State.log).getD []

/-- A callback is called after `unregister` has returned. -/
theorem called_after_unregister : Log [.added 0 (.note 7) 1, .arrived (.note 7) none 5, .submitted 0 5, .removed 0, .called 0 1 5] :=
  ⟨[.register 7 1 none, .notify 7 5, .unregister 0, .exec], _, rfl, by decide +kernel⟩

/-- What the executor does not take is lost without notice; the entry stays registered. -/
theorem refused_lost : Log [.added 0 (.note 7) 1, .closed, .arrived (.note 7) none 5, .lost 0 5] :=
  ⟨[.register 7 1 none, .close, .notify 7 5], _, rfl, by decide +kernel⟩

/-! ### Examples -/

/-- Two registrations of a status (the second gets the known value at once), a request with an update and an answer, a handler. -/
def demo : List Act := [.register 7 1 none, .notify 7 5, .register 7 2 (some 5), .notify 7 6, .request 3, .result 2 8 false, .result 2 9 true, .result 2 9 true, .handle 4 10, .handle 4 11, .incoming 4 12, .incoming 4 13,
  .exec, .exec, .exec, .exec, .exec, .exec, .exec, .exec]

example : ∃ s, run init demo = some s ∧ s.log =
    [.added 0 (.note 7) 1, .arrived (.note 7) none 5, .submitted 0 5, .added 1 (.note 7) 2, .arrived (.note 7) (some 1) 5, .submitted 1 5,
      .arrived (.note 7) none 6, .submitted 0 6, .submitted 1 6, .added 2 .req 3, .arrived .req (some 2) 8, .submitted 2 8, .arrived .req (some 2) 9, .submitted 2 9, .removed 2, .arrived .req (some 2) 9,
      .added 3 (.handler 4) 10, .arrived (.handler 4) none 12, .submitted 3 12, .arrived (.handler 4) none 13, .submitted 3 13,
      .called 0 1 5, .called 1 2 5, .called 0 1 6, .called 1 2 6, .called 2 3 8, .called 2 3 9, .called 3 10 12, .called 3 10 13] := ⟨_, rfl, by decide +kernel⟩

end Maf.Clo
