import Verif.Model.Shared
import Verif.Lemmas.Hist
/-
C82: statuses are values.
-/
namespace Maf.Shared

/-! ### Specification -/

/-- The log of some run; `itc`: both ends are in one process. -/
def Log (itc : Bool) (l : List Ev) : Prop := ∃ as s, run (init itc) as = some s ∧ s.log = l

/-- Nobody changes an object that was given to `setStatus`. -/
def Untouched (l : List Ev) : Prop := ∀ x y o v b v', l = x ++ .set (some o) v b :: y → .wrote o v' ∉ y

def after (c : Option Nat) : Ev → Option Nat
  | .set _ v _ => v
  | _ => c

/-- The value of the last `setStatus`. -/
def current (l : List Ev) : Option Nat := l.foldl after none

def change : Ev → Option (Option Nat)
  | .set _ v true => some v
  | _ => none

/-- The values that were stored and sent. -/
def changes (l : List Ev) : List (Option Nat) := l.filterMap change

def callOf : Ev → Option (Option Nat)
  | .called v => some v
  | _ => none

/-- The values the client's callback was called with. -/
def calls (l : List Ev) : List (Option Nat) := l.filterMap callOf

/-! ### Invariant -/

theorem Untouched.left {l r : List Ev} (h : Untouched (l ++ r)) : Untouched l := fun x y o v b v' hl hm => h x (y ++ r) o v b v' (by rw [hl]; simp) (by simp [hm])

def EvOk (l : List Ev) : Ev → Prop
  | .got v => Untouched l → v = current l
  | .cloned o v => (Untouched l → v = (current l).getD 0) ∧ (∀ v, .made o v ∉ l) ∧ (∀ v, .cloned o v ∉ l) ∧ ∀ v b, .set (some o) v b ∉ l
  | .set _ v b => Untouched l → (b = false ↔ v ≠ none ∧ v = current l)
  | _ => True

structure Inv (s : State) : Prop where
  made : ∀ o v, .made o v ∈ s.log → o < s.next
  cloned : ∀ o v, .cloned o v ∈ s.log → o < s.next
  given : ∀ o v b, .set (some o) v b ∈ s.log → o < s.next
  stat : ∀ o, s.status = some o → ∃ v b, .set (some o) v b ∈ s.log
  refs : ∀ o, .ref (some o) ∈ s.pend → ∃ v b, .set (some o) v b ∈ s.log
  cur : Untouched s.log → value s s.status = current s.log
  ipc : s.itc = false → ∀ p, .ref p ∉ s.pend
  pend : (s.itc = true → Untouched s.log) → changes s.log = calls s.log ++ s.pend.map (read s)
  hist : Hist EvOk s.log

theorem inv_init (b : Bool) : Inv (init b) := by
  refine ⟨?_, ?_, ?_, ?_, ?_, ?_, ?_, ?_, Hist.nil⟩ <;> simp [init, value, current, changes, calls]

theorem after_id {l : List Ev} {e : Ev} (h : ∀ p v b, e ≠ .set p v b) : current (l ++ [e]) = current l := by
  simp only [current, List.foldl_append, List.foldl_cons, List.foldl_nil]
  cases e <;> simp_all [after]

theorem changes_id {l : List Ev} {e : Ev} (h : ∀ p v, e ≠ .set p v true) : changes (l ++ [e]) = changes l := by
  simp only [changes, List.filterMap_append]
  cases e <;> simp_all [change]

theorem calls_id {l : List Ev} {e : Ev} (h : ∀ v, e ≠ .called v) : calls (l ++ [e]) = calls l := by
  simp only [calls, List.filterMap_append]
  cases e <;> simp_all [callOf]

/-- Steps that change nothing but the heap at objects that were not given away. -/
theorem inv_heap {s : State} (h : Inv s) {f : Nat → Nat} {n : Nat} {e : Ev} (hn : s.next ≤ n) (he : ∀ p v b, e ≠ .set p v b) (hc : ∀ v, e ≠ .called v) (hm : ∀ o v, e = .made o v → o < n) (hm' : ∀ o v, e = .cloned o v → o < n)
    (hf : Untouched (s.log ++ [e]) → ∀ o v b, .set (some o) v b ∈ s.log → f o = s.heap o) (hok : EvOk s.log e) :
    Inv { s with heap := f, next := n, log := s.log ++ [e] } := by
  have hset : ∀ p v b, .set p v b ∈ s.log ++ [e] ↔ .set p v b ∈ s.log := fun p v b => by
    simp only [List.mem_append, List.mem_singleton]
    exact ⟨fun hx => hx.elim id fun hx => absurd hx.symm (he p v b), .inl⟩
  have hval : Untouched (s.log ++ [e]) → ∀ p, (∀ o, p = some o → ∃ v b, .set (some o) v b ∈ s.log) → p.map f = p.map s.heap := fun hu p hp => by
    cases p with
    | none => rfl
    | some o => obtain ⟨v, b, hx⟩ := hp o rfl; simp [hf hu o v b hx]
  refine ⟨fun o v hx => ?_, fun o v hx => ?_, fun o v b hx => Nat.lt_of_lt_of_le (h.given o v b ((hset _ _ _).1 hx)) hn, fun o hx => ?_, fun o hx => ?_, fun hu => ?_, h.ipc, fun hu => ?_, h.hist.one hok⟩
  · simp only [List.mem_append, List.mem_singleton] at hx
    rcases hx with hx | hx
    · exact Nat.lt_of_lt_of_le (h.made o v hx) hn
    · exact hm o v hx.symm
  · simp only [List.mem_append, List.mem_singleton] at hx
    rcases hx with hx | hx
    · exact Nat.lt_of_lt_of_le (h.cloned o v hx) hn
    · exact hm' o v hx.symm
  · obtain ⟨v, b, hy⟩ := h.stat o hx; exact ⟨v, b, (hset _ _ _).2 hy⟩
  · obtain ⟨v, b, hy⟩ := h.refs o hx; exact ⟨v, b, (hset _ _ _).2 hy⟩
  · rw [after_id he, ← h.cur hu.left]
    exact hval hu s.status h.stat
  · show changes (s.log ++ [e]) = calls (s.log ++ [e]) ++ s.pend.map _
    rw [changes_id fun p v => he p v true, calls_id hc, h.pend fun hi => (hu hi).left]
    congr 1
    refine List.map_congr_left fun i hi => ?_
    cases i with
    | val v => rfl
    | ref p =>
      cases hitc : s.itc with
      | false => exact absurd hi (h.ipc hitc p)
      | true => exact (hval (hu hitc) p fun o ho => h.refs o (ho ▸ hi)).symm

theorem inv_set {s : State} (h : Inv s) {p : Option Nat} (hp : p.all (· < s.next) = true) : Inv (setStatus s p) := by
  have hlt : ∀ o, p = some o → o < s.next := fun o ho => by subst ho; simpa using hp
  have hstat : ∀ o v b b', .set (some o) v b ∈ s.log ++ [.set p (value s p) b'] → o < s.next := fun o v b b' hx => by
    simp only [List.mem_append, List.mem_singleton, Ev.set.injEq] at hx
    rcases hx with hx | ⟨hx, -⟩
    · exact h.given o v b hx
    · exact hlt o hx.symm
  have hcur : ∀ b, current (s.log ++ [.set p (value s p) b]) = value s p := fun b => by simp [current, after]
  unfold setStatus
  split
  case isTrue heq =>
    have hv : value s p = value s s.status ∧ value s p ≠ none := by
      cases hs : s.status with
      | none => rw [hs] at heq; simp [equal] at heq
      | some o =>
        rw [hs] at heq
        cases p with
        | none => simp [equal] at heq
        | some o' => simp only [equal, beq_iff_eq] at heq; simp [value, heq]
    refine ⟨fun o v hx => h.made o v (by simpa using hx), fun o v hx => h.cloned o v (by simpa using hx), fun o v b hx => hstat o v b _ hx, fun o hx => ?_, fun o hx => ?_, fun hu => ?_, h.ipc, fun hu => ?_, h.hist.one fun hu => ?_⟩
    · obtain ⟨v, b, hy⟩ := h.stat o hx; exact ⟨v, b, by simp [hy]⟩
    · obtain ⟨v, b, hy⟩ := h.refs o hx; exact ⟨v, b, by simp [hy]⟩
    · rw [hcur]; exact hv.1.symm
    · rw [changes_id (by simp), calls_id (by simp)]
      exact h.pend fun hi => (hu hi).left
    · simp only [true_iff]
      exact ⟨hv.2, hv.1.trans (h.cur hu)⟩
  case isFalse heq =>
    have hv : ¬ (value s p ≠ none ∧ value s p = value s s.status) := by
      rintro ⟨h1, h2⟩
      apply heq
      cases p with
      | none => simp [value] at h1
      | some o' =>
        cases hs : s.status with
        | none => rw [hs] at h2; simp [value] at h2
        | some o => rw [hs] at h2; simp only [value, Option.map_some, Option.some.injEq] at h2; simp [equal, h2]
    refine ⟨fun o v hx => h.made o v (by simpa using hx), fun o v hx => h.cloned o v (by simpa using hx), fun o v b hx => hstat o v b _ hx, fun o hx => ?_, fun o hx => ?_, fun hu => ?_, fun hi q hx => ?_, fun hu => ?_, h.hist.one fun hu => ?_⟩
    · simp only at hx; exact ⟨value s p, true, by simp [hx]⟩
    · simp only [List.mem_append, List.mem_singleton] at hx
      rcases hx with hx | hx
      · obtain ⟨v, b, hy⟩ := h.refs o hx; exact ⟨v, b, by simp [hy]⟩
      · split at hx
        · cases hx; exact ⟨value s (some o), true, by simp⟩
        · cases hx
    · rw [hcur]; rfl
    · simp only at hi
      simp only [hi, List.mem_append, List.mem_singleton] at hx
      rcases hx with hx | hx
      · exact h.ipc hi q hx
      · cases hx
    · rw [calls_id (by simp)]
      have h1 := h.pend fun hi => (hu hi).left
      simp only [changes, List.filterMap_append, List.filterMap_cons, change, List.filterMap_nil, List.map_append, List.map_cons, List.map_nil] at h1 ⊢
      rw [h1, List.append_assoc]
      congr 2
      split <;> rfl
    · simp only [reduceCtorEq, false_iff]
      rw [← h.cur hu]; exact hv

theorem inv_step {s s' : State} (h : Inv s) {a : Act} (hs : step s a = some s') : Inv s' := by
  cases a with
  | make v =>
    cases hs
    exact inv_heap h (Nat.le_succ _) (by simp) (by simp) (fun o v hx => by cases hx; exact Nat.lt_succ_self _) (by simp) (fun _ o v b hx => by
      have := h.given o v b hx
      rw [if_neg (by omega)]) trivial
  | write o v =>
    simp only [step] at hs
    split at hs
    · cases hs
      refine inv_heap (n := s.next) h (Nat.le_refl _) (by simp) (by simp) (by simp) (by simp) (fun hu o' v' b hx => ?_) trivial
      have hne : o' ≠ o := by
        rintro rfl
        obtain ⟨x, y, hl⟩ := List.append_of_mem hx
        exact hu x (y ++ [.wrote o' v]) o' v' b v (by rw [hl]; simp) (by simp)
      rw [if_neg hne]
    · cases hs
  | setStatus p =>
    simp only [step] at hs
    split at hs
    · rename_i hp; cases hs; exact inv_set h hp
    · cases hs
  | getStatus =>
    cases hs
    exact inv_heap (n := s.next) (f := s.heap) h (Nat.le_refl _) (by simp) (by simp) (by simp) (by simp) (fun _ _ _ _ _ => rfl) fun hu => h.cur hu
  | cloneStatus =>
    cases hs
    refine inv_heap h (Nat.le_succ _) (by simp) (by simp) (by simp) (fun o v hx => by cases hx; exact Nat.lt_succ_self _) (fun _ o v b hx => by
      have := h.given o v b hx
      rw [if_neg (by omega)]) ⟨fun hu => by rw [h.cur hu], fun v hx => Nat.lt_irrefl _ (h.made _ v hx), fun v hx => Nat.lt_irrefl _ (h.cloned _ v hx), fun v b hx => Nat.lt_irrefl _ (h.given _ v b hx)⟩
  | call =>
    simp only [step] at hs
    split at hs
    · cases hs
    · rename_i i is hp
      cases hs
      refine ⟨fun o v hx => h.made o v (by simpa using hx), fun o v hx => h.cloned o v (by simpa using hx), fun o v b hx => h.given o v b (by simpa using hx), fun o hx => ?_, fun o hx => ?_, fun hu => ?_, fun hi p hx => h.ipc hi p (by rw [hp]; simp [hx]), fun hu => ?_, h.hist.one trivial⟩
      · obtain ⟨v, b, hy⟩ := h.stat o hx; exact ⟨v, b, by simp [hy]⟩
      · obtain ⟨v, b, hy⟩ := h.refs o (by rw [hp]; simp [show Item.ref (some o) ∈ is from hx]); exact ⟨v, b, by simp [hy]⟩
      · rw [after_id (by simp)]; exact h.cur hu.left
      · rw [changes_id (by simp)]
        have := h.pend fun hi => (hu hi).left
        rw [hp] at this
        rw [this]
        simp [calls, callOf]
        intro a _
        cases a <;> rfl

theorem inv_run : ∀ (as : List Act) {s s' : State}, Inv s → run s as = some s' → Inv s'
  | [], _, _, h, hr => by cases hr; exact h
  | a :: as, s, s', h, hr => by
    simp only [run] at hr
    obtain ⟨s1, h1, h2⟩ := Option.bind_eq_some_iff.1 hr
    exact inv_run as (inv_step h h1) h2

theorem itc_step {s s' : State} {a : Act} (hs : step s a = some s') : s'.itc = s.itc := by
  cases a <;> simp only [step] at hs
  case make => cases hs; rfl
  case write => split at hs <;> cases hs; rfl
  case setStatus =>
    split at hs <;> cases hs
    unfold setStatus; split <;> rfl
  case getStatus => cases hs; rfl
  case cloneStatus => cases hs; rfl
  case call => split at hs <;> cases hs; rfl

theorem itc_run : ∀ (as : List Act) {s s' : State}, run s as = some s' → s'.itc = s.itc
  | [], _, _, hr => by cases hr; rfl
  | a :: as, s, s', hr => by
    simp only [run] at hr
    obtain ⟨s1, h1, h2⟩ := Option.bind_eq_some_iff.1 hr
    rw [itc_run as h2, itc_step h1]

theorem Log.hist {b : Bool} {l : List Ev} (h : Log b l) : Hist EvOk l := by
  obtain ⟨as, s, hr, rfl⟩ := h
  exact (inv_run as (inv_init b) hr).hist

/-! ### Theorems -/

/-- The full property: `getStatus` gives the value of the last `setStatus`. Missing: objects that are changed after they were
given to `setStatus` (`changed_unseen`, `client_changes`). -/
theorem got_current_partial {b : Bool} {l x y : List Ev} {v : Option Nat} (h : Log b l) (hu : Untouched l) (hl : l = x ++ .got v :: y) : v = current x := by
  subst hl
  exact h.hist.all x _ y rfl hu.left

/-- `cloneStatus` gives a new object with this value, or the default one. Missing as above. -/
theorem cloned_current_partial {b : Bool} {l x y : List Ev} {o v : Nat} (h : Log b l) (hu : Untouched l) (hl : l = x ++ .cloned o v :: y) : v = (current x).getD 0 := by
  subst hl
  exact (h.hist.all x _ y rfl).1 hu.left

/-- The object was not there before and is not the status. -/
theorem cloned_new {b : Bool} {l x y : List Ev} {o v : Nat} (h : Log b l) (hl : l = x ++ .cloned o v :: y) : (∀ v, .made o v ∉ x) ∧ (∀ v, .cloned o v ∉ x) ∧ ∀ v b, .set (some o) v b ∉ x := (h.hist.all x _ y hl).2

/-- The full property: a status is stored and sent iff its value is another one than that of the last `setStatus` (or null,
which is always sent). Missing as above. -/
theorem sent_iff_partial {b sent : Bool} {l x y : List Ev} {p v : Option Nat} (h : Log b l) (hu : Untouched l) (hl : l = x ++ .set p v sent :: y) : sent = false ↔ v ≠ none ∧ v = current x := by
  subst hl
  exact h.hist.all x _ y rfl hu.left

/-- Over ipc the client's callback is called with the values that were sent, in this order, whatever happens to the objects. -/
theorem ipc_calls {l : List Ev} (h : Log false l) : calls l <+: changes l := by
  obtain ⟨as, s, hr, rfl⟩ := h
  have hi := inv_run as (inv_init false) hr
  have := itc_run as hr
  exact ⟨_, (hi.pend fun h => by rw [this] at h; cases h).symm⟩

/-- The full property: also in the same process. Missing as above (`stale_call`). -/
theorem itc_calls_partial {b : Bool} {l : List Ev} (h : Log b l) (hu : Untouched l) : calls l <+: changes l := by
  obtain ⟨as, s, hr, rfl⟩ := h
  exact ⟨_, ((inv_run as (inv_init b) hr).pend fun _ => hu).symm⟩

/-- All of them: as long as one is missing, the client's executor has a task that can be executed. -/
theorem all_called {b : Bool} {as : List Act} {s : State} (h : run (init b) as = some s) (hu : b = true → Untouched s.log) (hn : step s .call = none) : calls s.log = changes s.log := by
  have hi := (inv_run as (inv_init b) h).pend fun hx => hu (by rw [itc_run as h] at hx; exact hx)
  have hp : s.pend = [] := by
    cases hp : s.pend with
    | nil => rfl
    | cons i is => simp [step, hp] at hn
  rw [hi, hp]; simp

/-! ### What does not hold -/

/-- The log after a list of actions. -/
def logOf (b : Bool) (as : List Act) : List Ev := ((run (init b) as).map State.log).getD []

theorem Log.of {b : Bool} {as : List Act} (h : (run (init b) as).isSome = true) : Log b (logOf b as) := by
  obtain ⟨s, hs⟩ := Option.isSome_iff_exists.1 h
  exact ⟨as, s, hs, by simp [logOf, hs]⟩

/-- A service that keeps its status object, changes it and sets it again: nothing is sent, the clients keep the old value for
ever, while `getStatus` has given the new one even before it was set. -/
theorem changed_unseen (b : Bool) : Log b [.made 0 1, .set (some 0) (some 1) true, .wrote 0 2, .got (some 2), .set (some 0) (some 2) false] :=
  ⟨[.make 1, .setStatus (some 0), .write 0 2, .getStatus, .setStatus (some 0)], _, rfl, by cases b <;> decide +kernel⟩

/-- In the same process the client's callback gets a value that was never set. -/
theorem stale_call : Log true [.made 0 1, .set (some 0) (some 1) true, .wrote 0 2, .called (some 2)] :=
  ⟨[.make 1, .setStatus (some 0), .write 0 2, .call], _, rfl, by decide +kernel⟩

/-- And a client that changes what its callback was given changes the status of the service. -/
theorem client_changes : Log true [.made 0 1, .set (some 0) (some 1) true, .called (some 1), .wrote 0 2, .got (some 2)] :=
  ⟨[.make 1, .setStatus (some 0), .call, .write 0 2, .getStatus], _, rfl, by decide +kernel⟩

/-! ### Examples -/

/-- `Untouched` by a check of the log. -/
def touches : List Ev → Bool
  | [] => false
  | .set (some o) _ _ :: l => l.any (fun e => match e with | .wrote o' _ => o' == o | _ => false) || touches l
  | _ :: l => touches l

theorem untouched_of : ∀ {l : List Ev}, touches l = false → Untouched l
  | [], _ => fun x y o v b v' hl => by simp at hl
  | e :: l, h => fun x y o v b v' hl hm => by
    have hl' : touches l = false := by
      cases e with
      | set p v b => cases p with
        | none => exact h
        | some o => exact (Bool.or_eq_false_iff.1 h).2
      | _ => exact h
    cases x with
    | nil =>
      simp only [List.nil_append, List.cons.injEq] at hl
      obtain ⟨rfl, rfl⟩ := hl
      simp only [touches, Bool.or_eq_false_iff, List.any_eq_false] at h
      exact h.1 _ hm (by simp)
    | cons e' x =>
      simp only [List.cons_append, List.cons.injEq] at hl
      exact untouched_of hl' x y o v b v' hl.2 hm

def demo : List Act := [.make 1, .write 0 5, .setStatus (some 0), .make 5, .setStatus (some 1), .cloneStatus, .write 2 6, .setStatus (some 2), .call, .getStatus, .setStatus none, .setStatus none, .call, .call]

example (b : Bool) : Log b (logOf b demo) ∧ Untouched (logOf b demo) ∧ logOf b demo =
    [.made 0 1, .wrote 0 5, .set (some 0) (some 5) true, .made 1 5, .set (some 1) (some 5) false, .cloned 2 5, .wrote 2 6, .set (some 2) (some 6) true, .called (some 5), .got (some 6), .set none none true, .set none none true, .called (some 6), .called none] := by
  cases b <;> exact ⟨Log.of (by decide +kernel), untouched_of (by decide +kernel), by decide +kernel⟩

end Maf.Shared
