import Verif.Lemmas.Upcoming

/-!
C89: a result that is still to come, and the processes chained to it.

Small specification.
* `resolved acts c`: what promise `c` was given, by the first action that gave
  it anything.
* `Chain acts x c b ps k`: read off the user's own actions, variable `x` now
  holds the chain `ps` on top of promise `c`, is of the `void` kind iff `b`,
  and its first `k` processes have already been run by a `wait`.
* `pipe ps r`: what the processes make of `r`, each one called with the value
  of the one before, the first exception being the result.
* `trail ps r`: the calls this takes, in order.
-/

namespace Maf.Up

/-- First resolution of promise `c` in the history. -/
def resolved : List Act → Nat → Option Res
  | [], _ => none
  | .fulfil d r :: as, c => if d = c then some r else resolved as c
  | .abandon d :: as, c => if d = c then some .futErr else resolved as c
  | _ :: as, c => resolved as c

/-- The user put something else in `x`, or took out what it held. -/
def disturbs (x : Nat) : Act → Prop
  | .fetch y _ _ => y = x
  | .andThen y _ z => y = x ∨ z = x
  | .move y z => y = x ∨ z = x
  | .drop y => y = x
  | .get y => y = x
  | _ => False

inductive Chain : List Act → Nat → Nat → Bool → List Proc → Nat → Prop
  | fetch {acts x c b} (first : ∀ y b', Act.fetch y c b' ∉ acts) :
      Chain (acts ++ [.fetch x c b]) x c b [] 0
  /-- a second `get_future` of the same promise throws: nothing is assigned -/
  | refused {acts x c b ps k y d b' b''} : Chain acts x c b ps k → Act.fetch y d b' ∈ acts →
      Chain (acts ++ [.fetch x d b'']) x c b ps k
  | andThen {acts x c b ps k p y} : Chain acts x c b ps k →
      Chain (acts ++ [.andThen x p y]) y c p.toVoid (ps ++ [p]) k
  | move {acts x c b ps k y} : Chain acts x c b ps k → Chain (acts ++ [.move x y]) y c b ps k
  | wait {acts x c b ps k} : Chain acts x c b ps k → Chain (acts ++ [.wait x]) x c b ps ps.length
  | other {acts x c b ps k a} : Chain acts x c b ps k → ¬ disturbs x a → a ≠ .wait x →
      Chain (acts ++ [a]) x c b ps k

def pipe : List Proc → Res → Res
  | [], r => r
  | p :: ps, .val v => pipe ps (p.body v)
  | _ :: _, .futErr => .futErr
  | _ :: _, .err e => .err e

def trail : List Proc → Res → List Ev
  | [], _ => []
  | p :: ps, .val v => .ran p.tag v :: trail ps (p.body v)
  | _ :: _, .futErr => []
  | _ :: _, .err _ => []

/-- What `get` makes of a result: of the value kind, every `future_error`
becomes `nullopt`; of the void kind nothing is caught. -/
def answer : Bool → Res → Got
  | false, .val v => .value v
  | false, .futErr => .nothing
  | true, .val _ => .done
  | true, .futErr => .threw .futErr
  | _, .err e => .threw (.err e)

/-- `x.valid()` in state `s`. -/
def validIn (s : St) (x : Nat) : Prop := ∃ v, s.vars[x]? = some v ∧ v.fut.valid = true

/-! ### The specification agrees with the lemmas -/

theorem through_bad1 (ps : List Proc) : through ps .futErr = .futErr := by
  induction ps with
  | nil => rfl
  | cons p ps ih => exact ih

theorem through_bad2 (ps : List Proc) (e : Nat) : through ps (.err e) = .err e := by
  induction ps with
  | nil => rfl
  | cons p ps ih => exact ih

theorem through_eq : ∀ (ps : List Proc) (r : Res), through ps r = pipe ps r := by
  intro ps
  induction ps with
  | nil => intro r; cases r <;> rfl
  | cons p ps ih =>
    intro r
    cases r with
    | val v => exact ih _
    | futErr => exact through_bad1 ps
    | err e => exact through_bad2 ps e

theorem calls_bad1 (ps : List Proc) : callsOf ps .futErr = [] := by
  induction ps with
  | nil => rfl
  | cons p ps ih => exact ih

theorem calls_bad2 (ps : List Proc) (e : Nat) : callsOf ps (.err e) = [] := by
  induction ps with
  | nil => rfl
  | cons p ps ih => exact ih

theorem calls_eq : ∀ (ps : List Proc) (r : Res), callsOf ps r = trail ps r := by
  intro ps
  induction ps with
  | nil => intro r; cases r <;> rfl
  | cons p ps ih =>
    intro r
    cases r with
    | val v => show _ :: callsOf ps _ = _ :: trail ps _; exact congrArg _ (ih _)
    | futErr => exact calls_bad1 ps
    | err e => exact calls_bad2 ps e

theorem answer_eq (b : Bool) (r : Res) : report b r = answer b r := by
  cases b <;> cases r <;> rfl

theorem resolved_eq (acts : List Act) (c : Nat) : given acts c = resolved acts c := by
  induction acts with
  | nil => rfl
  | cons a acts ih =>
    cases a <;> simp only [given, List.findSome?_cons, Act.gives] at ih ⊢ <;> first
      | exact ih
      | (rename_i d r; by_cases h : c = d
         · subst h; simp [resolved]
         · have h' : d ≠ c := fun e => h e.symm
           simp [resolved, h, h', ih])
      | (rename_i d; by_cases h : c = d
         · subst h; simp [resolved]
         · have h' : d ≠ c := fun e => h e.symm
           simp [resolved, h, h', ih])

theorem touches_of (x : Nat) (a : Act) : a.touches x = true ↔ disturbs x a := by
  cases a <;> simp [Act.touches, disturbs]

theorem waitsOn_of (x : Nat) (a : Act) : a.waitsOn x = true ↔ a = .wait x := by
  cases a <;> simp [Act.waitsOn]

theorem fetches_of (acts : List Act) (c : Nat) : acts.any (fun a => a.fetches c) = false ↔ ∀ y b, Act.fetch y c b ∉ acts := by
  rw [List.any_eq_false]
  constructor
  · intro h y b hm; exact h _ hm (by simp [Act.fetches])
  · intro h a ha hf
    cases a <;> simp [Act.fetches] at hf
    subst hf; exact h _ _ ha

/-- What a chain read off the actions says about the state. -/
theorem chain_state {n : Nat} {acts : List Act} {x c : Nat} {b : Bool} {ps : List Proc} {k : Nat} (hc : Chain acts x c b ps k) :
    ∀ {s : St}, runs (init n) acts = some s → ∃ f, s.vars[x]? = some ⟨f, b⟩ ∧ Rep s.cells c ps k f := by
  induction hc with
  | @fetch acts x c b first =>
    intro s h
    obtain ⟨m, hm, hs⟩ := runs_snoc_some h
    obtain ⟨hx, rfl⟩ := step_fetch hs
    have ht : m.taken c = false := by rw [runs_taken hm]; exact (fetches_of _ _).2 first
    refine ⟨.promise c, ?_, Rep.new _ _⟩
    unfold doFetch; rw [if_neg (by rw [ht]; simp)]; exact setVar_self (s := m.take c) hx
  | @refused acts x c b ps k y d b' b'' _ hm' ih =>
    intro s h
    obtain ⟨m, hm, hs⟩ := runs_snoc_some h
    obtain ⟨hx, rfl⟩ := step_fetch hs
    have ht : m.taken d = true := by
      rw [runs_taken hm]
      exact List.any_eq_true.2 ⟨_, hm', by simp [Act.fetches]⟩
    unfold doFetch; rw [if_pos ht]; exact ih hm
  | @andThen acts x c b ps k p y _ ih =>
    intro s h
    obtain ⟨m, hm, hs⟩ := runs_snoc_some h
    obtain ⟨v, hv, hy, rfl⟩ := step_andThen hs
    obtain ⟨f, hf, hr⟩ := ih hm
    rw [hv] at hf; cases hf
    exact ⟨f.andThen p, doThen_get _ _ _ hy, hr.andThen p⟩
  | @move acts x c b ps k y _ ih =>
    intro s h
    obtain ⟨m, hm, hs⟩ := runs_snoc_some h
    obtain ⟨v, hv, hy, rfl⟩ := step_mv hs
    obtain ⟨f, hf, hr⟩ := ih hm
    rw [hv] at hf; cases hf
    exact ⟨f, doMove_get _ _ hy, hr⟩
  | @wait acts x c b ps k _ ih =>
    intro s h
    obtain ⟨m, hm, hs⟩ := runs_snoc_some h
    obtain ⟨v, re, hv, he, rfl⟩ := step_wait hs
    obtain ⟨f, hf, hr⟩ := ih hm
    rw [hv] at hf; cases hf
    simp only [hr.eval] at he
    obtain ⟨r, hc, e⟩ := Option.map_eq_some_iff.1 he
    refine ⟨f.settle re.1, doWait_self _ _ hv, ?_⟩
    rw [doWait_cells, ← e]; exact hr.settle hc
  | @other acts x c b ps k a _ hd hw ih =>
    intro s h
    obtain ⟨m, hm, hs⟩ := runs_snoc_some h
    obtain ⟨f, hf, hr⟩ := ih hm
    refine ⟨f, ?_, hr.mono (fun r h => step_cells_keep hs h)⟩
    rw [step_other hs _ _, hf]
    · cases ht : a.touches x with
      | false => rfl
      | true => exact absurd ((touches_of _ _).1 ht) hd
    · cases ht : a.waitsOn x with
      | false => rfl
      | true => exact absurd ((waitsOn_of _ _).1 ht) hw

/-- **C89.** `get` on a chain: as soon as the promise at its bottom has been
resolved with `r` -- and not before -- `get` returns; it calls, in the order in
which they were attached, exactly the processes that no `wait` has run before,
each with the result of the one before it, stopping at the first that throws;
what it answers is the composition of *all* the processes on `r`. -/
theorem get_result {n : Nat} {acts : List Act} {s : St} {x c : Nat} {b : Bool} {ps : List Proc} {k : Nat}
    (h : runs (init n) acts = some s) (hc : Chain acts x c b ps k) :
    (resolved acts c = none → step s (.get x) = none) ∧
    (∀ r, resolved acts c = some r → ∃ s', step s (.get x) = some s' ∧
      s'.log = s.log ++ trail (ps.drop k) (pipe (ps.take k) r) ++ [.got x (answer b (pipe ps r))] ∧
      ¬ validIn s' x) := by
  obtain ⟨f, hf, hr⟩ := chain_state hc h
  have hcell := runs_cells h c
  rw [resolved_eq] at hcell
  have hg : step s (.get x) = (f.eval s.cells).map fun re => doGet s x ⟨f, b⟩ re := by
    simp only [step, hf]; rfl
  constructor
  · intro hn
    rw [hg, hr.eval, hcell, hn]; rfl
  · intro r hr'
    rw [hcell.symm] at hr'
    rw [hg, hr.eval, hr']
    refine ⟨_, rfl, ?_, ?_⟩
    · show s.log ++ (callsOf _ (through _ _) ++ [.got x (report b (through ps r))]) = _
      rw [calls_eq, through_eq, through_eq, answer_eq, List.append_assoc]
    · rintro ⟨v, hv, hvv⟩
      have e := setVar_self (v := Var.empty b) (lt_of_get hf)
      have e2 := e.symm.trans hv
      cases e2; cases hvv

/-- **C89.** `wait` on a chain likewise: it does what `get` does, but keeps the
result for a later `get`, and throws nothing. -/
theorem wait_result {n : Nat} {acts : List Act} {s : St} {x c : Nat} {b : Bool} {ps : List Proc} {k : Nat}
    (h : runs (init n) acts = some s) (hc : Chain acts x c b ps k) :
    (resolved acts c = none → step s (.wait x) = none) ∧
    (∀ r, resolved acts c = some r → ∃ s', step s (.wait x) = some s' ∧
      s'.log = s.log ++ trail (ps.drop k) (pipe (ps.take k) r) ++ [.waited x] ∧
      validIn s' x) := by
  obtain ⟨f, hf, hr⟩ := chain_state hc h
  have hcell := runs_cells h c
  rw [resolved_eq] at hcell
  have hg : step s (.wait x) = (f.eval s.cells).map fun re => doWait s x ⟨f, b⟩ re := by
    simp only [step, hf]; rfl
  constructor
  · intro hn
    rw [hg, hr.eval, hcell, hn]; rfl
  · intro r hr'
    rw [hcell.symm] at hr'
    rw [hg, hr.eval, hr']
    refine ⟨_, rfl, ?_, ?_⟩
    · show (doWait s x ⟨f, b⟩ _).log = _
      unfold doWait
      rw [if_pos (show Fut.valid f = true from hr.valid)]
      show s.log ++ (callsOf _ (through _ _) ++ [_]) = _
      rw [calls_eq, through_eq, List.append_assoc]
    · refine ⟨_, doWait_self _ _ hf, ?_⟩
      rw [show ∀ g q, Fut.valid (Fut.settle g q) = Fut.valid g from fun g _ => by cases g <;> rfl]
      exact hr.valid

/-- Every variable that is `valid()` holds such a chain, so the two theorems
above speak about every call. -/
theorem valid_chain {n : Nat} {acts : List Act} : ∀ {s : St}, runs (init n) acts = some s →
    ∀ {x : Nat}, validIn s x → ∃ c b ps k, Chain acts x c b ps k := by
  induction acts using snoc_induct with
  | nil =>
    rintro s h x ⟨v, hv, hvv⟩
    simp only [runs, Option.some.injEq] at h; subst h
    simp only [init, List.getElem?_replicate] at hv
    by_cases hx : x < n
    · rw [if_pos hx] at hv; cases hv; cases hvv
    · rw [if_neg hx] at hv; cases hv
  | snoc acts a ih =>
    intro s h x hval
    obtain ⟨m, hm, hs⟩ := runs_snoc_some h
    obtain ⟨v, hv, hvv⟩ := hval
    have emp : ∀ {b}, some (Var.empty b) = some v → False := by
      intro b e; cases e; cases hvv
    by_cases hd : disturbs x a
    · cases a with
      | fetch y c b =>
        have hd : y = x := hd
        subst hd
        obtain ⟨hx, rfl⟩ := step_fetch hs
        by_cases ht : m.taken c = true
        · rw [doFetch, if_pos ht] at hv
          obtain ⟨c', b', ps, k, hch⟩ := ih hm ⟨v, hv, hvv⟩
          rw [runs_taken hm, List.any_eq_true] at ht
          obtain ⟨a, ha, hfa⟩ := ht
          cases a <;> simp [Act.fetches] at hfa
          subst hfa
          exact ⟨c', b', ps, k, .refused hch ha⟩
        · have hf : ∀ y b, Act.fetch y c b ∉ acts := by
            apply (fetches_of _ _).1
            rw [← runs_taken hm]
            simpa using ht
          exact ⟨c, b, [], 0, .fetch hf⟩
      | fulfil d r => exact hd.elim
      | abandon d => exact hd.elim
      | andThen y p z =>
        obtain ⟨w, hw, hz, rfl⟩ := step_andThen hs
        by_cases hzx : z = x
        · subst hzx
          rw [doThen_get _ _ _ hz] at hv; cases hv
          have hwv : w.fut.valid = true := by
            by_cases hh : w.fut.valid = true
            · exact hh
            · simp only [Fut.andThen, if_neg hh] at hvv; cases hvv
          obtain ⟨c', b', ps, k, hch⟩ := ih hm ⟨w, hw, hwv⟩
          exact ⟨_, _, _, _, .andThen hch⟩
        · have hyx : y = x := hd.resolve_right hzx
          subst hyx
          rw [doThen_src _ _ hw hzx] at hv; exact (emp hv).elim
      | move y z =>
        obtain ⟨w, hw, hz, rfl⟩ := step_mv hs
        by_cases hzx : z = x
        · subst hzx
          rw [doMove_get _ _ hz] at hv; cases hv
          obtain ⟨c', b', ps, k, hch⟩ := ih hm ⟨_, hw, hvv⟩
          exact ⟨_, _, _, _, .move hch⟩
        · have hyx : y = x := hd.resolve_right hzx
          subst hyx
          rw [doMove_src _ hw hzx] at hv; exact (emp hv).elim
      | drop y =>
        have hd : y = x := hd
        subst hd
        obtain ⟨w, hw, rfl⟩ := step_drop hs
        rw [setVar_self (lt_of_get hw)] at hv; exact (emp hv).elim
      | get y =>
        have hd : y = x := hd
        subst hd
        obtain ⟨w, re, hw, -, rfl⟩ := step_get hs
        rw [doGet, addLog_vars, setVar_self (lt_of_get hw)] at hv; exact (emp hv).elim
      | wait y => exact hd.elim
      | poll y => exact hd.elim
    · by_cases hw : a = .wait x
      · subst hw
        obtain ⟨w, re, hw, -, rfl⟩ := step_wait hs
        rw [doWait_self _ _ hw] at hv; cases hv
        have hwv : w.fut.valid = true := by
          cases hf : w.fut <;> simp only [hf] at hvv <;> first | rfl | cases hvv
        obtain ⟨c', b', ps, k, hch⟩ := ih hm ⟨w, hw, hwv⟩
        exact ⟨_, _, _, _, .wait hch⟩
      · have hv' : m.vars[x]? = some v := by
          rw [← step_other hs _ _]
          · exact hv
          · cases ht : a.touches x with
            | false => rfl
            | true => exact absurd ((touches_of _ _).1 ht) hd
          · cases ht : a.waitsOn x with
            | false => rfl
            | true => exact absurd ((waitsOn_of _ _).1 ht) hw
        obtain ⟨c', b', ps, k, hch⟩ := ih hm ⟨v, hv', hvv⟩
        exact ⟨_, _, _, _, .other hch hd hw⟩

/-- **C89.** Where there is no chain -- a moved-from, consumed, dropped or never
assigned variable -- `get` calls no process and says so: `nullopt` for the value
kind, an exception for the void kind; `wait` throws; `then` gives another such
variable. -/
theorem invalid_use {s : St} {x : Nat} {v : Var} (hv : s.vars[x]? = some v) (hi : ¬ validIn s x) :
    (∃ s', step s (.get x) = some s' ∧ s'.log = s.log ++ [.got x (answer v.isVoid .futErr)]) ∧
    (∃ s', step s (.wait x) = some s' ∧ s'.log = s.log ++ [.waitThrew x]) ∧
    (∃ s', step s (.poll x) = some s' ∧ s'.log = s.log ++ [.polled x .threw]) ∧
    (∀ p y s', step s (.andThen x p y) = some s' → ¬ validIn s' y ∧ s'.log = s.log) := by
  have hf : v.fut = .none := by
    cases hf : v.fut <;> first
      | rfl
      | (exfalso; apply hi; refine ⟨v, hv, ?_⟩; rw [hf]; rfl)
  obtain ⟨f, b⟩ := v
  cases hf
  refine ⟨?_, ?_, ?_, ?_⟩
  · refine ⟨doGet s x ⟨.none, b⟩ (.futErr, []), ?_, ?_⟩
    · simp only [step, hv]; rfl
    · show s.log ++ ([] ++ [.got x (report b .futErr)]) = _
      rw [answer_eq]; rfl
  · exact ⟨doWait s x ⟨.none, b⟩ (.futErr, []), by simp only [step, hv]; rfl, rfl⟩
  · exact ⟨doPoll s x ⟨.none, b⟩, by simp only [step, hv]; rfl, rfl⟩
  · intro p y s' hs
    obtain ⟨w, hw, hy, rfl⟩ := step_andThen hs
    rw [hv] at hw; cases hw
    refine ⟨?_, rfl⟩
    rintro ⟨u, hu, huv⟩
    rw [doThen_get _ _ _ hy] at hu; cases hu; cases huv

/-- **C89.** `then`, moving, `get` and dropping leave the variable they take
from without a chain. -/
theorem consumed {s s' : St} {x y : Nat} (hxy : y ≠ x) :
    (∀ p, step s (.andThen x p y) = some s' → ¬ validIn s' x) ∧
    (step s (.move x y) = some s' → ¬ validIn s' x) ∧
    (step s (.get x) = some s' → ¬ validIn s' x) ∧
    (step s (.drop x) = some s' → ¬ validIn s' x) := by
  have emp : ∀ {b} {o : Option Var}, o = some (Var.empty b) → ¬ ∃ v, o = some v ∧ v.fut.valid = true := by
    rintro b o rfl ⟨v, e, hv⟩; cases e; cases hv
  refine ⟨?_, ?_, ?_, ?_⟩
  · intro p hs
    obtain ⟨w, hw, hy, rfl⟩ := step_andThen hs
    exact emp (doThen_src _ _ hw hxy)
  · intro hs
    obtain ⟨w, hw, hy, rfl⟩ := step_mv hs
    exact emp (doMove_src _ hw hxy)
  · intro hs
    obtain ⟨w, re, hw, -, rfl⟩ := step_get hs
    exact emp (b := w.isVoid) (by rw [doGet, addLog_vars, setVar_self (lt_of_get hw)])
  · intro hs
    obtain ⟨w, hw, rfl⟩ := step_drop hs
    exact emp (setVar_self (lt_of_get hw))

/-- How often process `t` has been called. -/
def callsTo (t : Nat) (log : List Ev) : Nat := log.countP fun e => match e with
  | .ran u _ => u == t
  | _ => false

/-- How often the user attached process `t`. -/
def attachedTo (t : Nat) (acts : List Act) : Nat := acts.countP fun a => match a with
  | .andThen _ p _ => p.tag == t
  | _ => false

/-- **C89.** Whatever is got, waited on, moved and dropped: a process is called
at most as often as it was attached -- once per `then`. -/
theorem called_once {n : Nat} {acts : List Act} {s : St} (h : runs (init n) acts = some s) (t : Nat) :
    callsTo t s.log ≤ attachedTo t acts := by
  have hw := runs_weight t n h
  unfold weight at hw
  have e1 : callsTo t s.log = s.log.countP (Ev.runsTag t) := by
    unfold callsTo; congr 1
  have e2 : attachedTo t acts = acts.countP (Act.attaches t) := by
    unfold attachedTo; congr 1
  omega

/-- **C89.** Nothing runs until it is asked for: attaching, moving, dropping,
resolving the promise and polling call no process. -/
theorem lazy {s s' : St} {a : Act} (h : step s a = some s') (hg : ∀ x, a ≠ .get x ∧ a ≠ .wait x) (t : Nat) :
    callsTo t s'.log = callsTo t s.log := by
  cases a with
  | fetch y c b =>
    obtain ⟨-, rfl⟩ := step_fetch h
    unfold doFetch
    by_cases ht : s.taken c = true
    · rw [if_pos ht]
    · rw [if_neg ht]; rfl
  | fulfil d r => cases h; rfl
  | abandon d => cases h; rfl
  | andThen y p z => obtain ⟨v, -, -, rfl⟩ := step_andThen h; rfl
  | move y z => obtain ⟨v, -, -, rfl⟩ := step_mv h; rfl
  | drop y => obtain ⟨v, -, rfl⟩ := step_drop h; rfl
  | get y => exact absurd rfl (hg y).1
  | wait y => exact absurd rfl (hg y).2
  | poll y =>
    obtain ⟨v, -, rfl⟩ := step_poll h
    simp [doPoll, St.addLog, callsTo]

/-- **C89 (deviation).** `waitFor`/`waitUntil` on a chain with a process that no
`wait` has run answers `deferred` -- however long ago the promise was resolved.
Only a chain without such processes is reported ready, and then exactly when
its promise is resolved. -/
theorem poll_result_partial {n : Nat} {acts : List Act} {s : St} {x c : Nat} {b : Bool} {ps : List Proc} {k : Nat}
    (h : runs (init n) acts = some s) (hc : Chain acts x c b ps k) :
    ∃ s' t, step s (.poll x) = some s' ∧ s'.log = s.log ++ [.polled x t] ∧
      (k < ps.length → t = .deferred) ∧
      (ps.length ≤ k → (t = .ready ↔ ∃ r, resolved acts c = some r) ∧ (t = .timeout ↔ resolved acts c = none)) := by
  obtain ⟨f, hf, hr⟩ := chain_state hc h
  have hcell := runs_cells h c
  rw [resolved_eq] at hcell
  refine ⟨doPoll s x ⟨f, b⟩, f.status s.cells, by simp only [step, hf]; rfl, rfl, ?_, ?_⟩
  · intro hk; rw [hr.status, if_pos hk]
  · intro hk
    rw [hr.status, if_neg (by omega), hcell]
    cases resolved acts c <;> simp

/-- What the user would expect of polling, of all histories. -/
def PollsReady : Prop :=
  ∀ n acts s x c b ps k r s', runs (init n) acts = some s → Chain acts x c b ps k → resolved acts c = some r →
    step s (.poll x) = some s' → s'.log = s.log ++ [.polled x .ready]

/-! ### A chain of three -/

def inc : Proc := ⟨1, false, fun v => .val (v + 1)⟩
def dbl : Proc := ⟨2, false, fun v => .val (v * 2)⟩
def bad : Proc := ⟨3, false, fun _ => .err 7⟩
def say : Proc := ⟨4, true, fun _ => .val 0⟩

def exActs : List Act := [.fetch 0 9 false, .andThen 0 inc 1, .andThen 1 dbl 2, .fulfil 9 (.val 20)]

theorem exChain : Chain exActs 2 9 false [inc, dbl] 0 := by
  have h0 : Chain ([] ++ [.fetch 0 9 false]) 0 9 false [] 0 := .fetch (by simp)
  have h1 : Chain _ 1 9 inc.toVoid _ 0 := .andThen (p := inc) (y := 1) h0
  have h2 : Chain _ 2 9 dbl.toVoid _ 0 := .andThen (p := dbl) (y := 2) h1
  exact .other (a := .fulfil 9 (.val 20)) h2 (by simp [disturbs]) (by simp)

/-- The hypotheses of `get_result` and `wait_result` can be met: 20, plus one,
times two. -/
example : ∃ s s', runs (init 3) exActs = some s ∧ resolved exActs 9 = some (.val 20) ∧
    step s (.get 2) = some s' ∧ s'.log = [.ran 1 20, .ran 2 21, .got 2 (.value 42)] :=
  ⟨_, _, rfl, rfl, rfl, rfl⟩

/-- waited for first, then chained further, then taken: each process once. -/
example : ((runs (init 3) (exActs ++ [.wait 2, .andThen 2 say 1, .get 1, .get 1, .get 2])).map St.log) =
    some [.ran 1 20, .ran 2 21, .waited 2, .ran 4 42, .got 1 .done, .got 1 (.threw .futErr), .got 2 .nothing] := rfl

/-- an exception stops the chain; a broken promise calls nothing. -/
example : ((runs (init 3) [.fetch 0 9 false, .andThen 0 bad 1, .andThen 1 inc 1, .fulfil 9 (.val 1), .get 1]).map St.log) =
    some [.ran 3 1, .got 1 (.threw (.err 7))] := rfl
example : ((runs (init 3) [.fetch 0 9 false, .andThen 0 inc 1, .abandon 9, .get 1]).map St.log) =
    some [.got 1 .nothing] := rfl

/-- `get` blocks while the promise is open. -/
example : runs (init 3) [.fetch 0 9 false, .andThen 0 inc 1, .get 1] = none := rfl

/-- **C89 (deviation).** The expectation is false. -/
theorem not_PollsReady : ¬ PollsReady := by
  intro h
  have := h 3 exActs _ 2 9 false [inc, dbl] 0 (.val 20) _ rfl exChain rfl rfl
  exact absurd this (by decide)

/-- The hypotheses of `consumed` and `invalid_use` can be met. -/
example : ∃ s', runs (init 3) (exActs ++ [.andThen 2 inc 0]) = some s' ∧
    (s'.vars.map fun v => v.fut.valid) = [true, false, false] := ⟨_, rfl, rfl⟩

/-- A `future_error` thrown by a process itself is taken for a missing result. -/
example : ((runs (init 3) [.fetch 0 9 false, .andThen 0 ⟨5, false, fun _ => .futErr⟩ 1, .fulfil 9 (.val 1), .get 1]).map St.log) =
    some [.ran 5 1, .got 1 .nothing] := rfl

example : callsTo 1 [.ran 1 20, .ran 2 21, .got 2 (.value 42)] = 1 ∧ attachedTo 1 exActs = 1 := by decide

end Maf.Up
