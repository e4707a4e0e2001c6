import Verif.Model.Upcoming
import Verif.Lemmas.Hist

namespace Maf.Up

theorem runs_snoc (s : St) (acts : List Act) (a : Act) :
    runs s (acts ++ [a]) = (runs s acts).bind fun s' => step s' a := by
  induction acts generalizing s with
  | nil => simp [runs]
  | cons b acts ih =>
    simp only [List.cons_append, runs]
    cases step s b with
    | none => rfl
    | some s' => simpa using ih s'

theorem runs_snoc_some {s s' : St} {acts : List Act} {a : Act} (h : runs s (acts ++ [a]) = some s') :
    ∃ m, runs s acts = some m ∧ step m a = some s' := by
  rw [runs_snoc] at h
  cases hm : runs s acts with
  | none => rw [hm] at h; cases h
  | some m => rw [hm] at h; exact ⟨m, rfl, h⟩

/-- A chain of deferred tasks on top of `f`. -/
def stack (f : Fut) (ps : List Proc) : Fut := ps.foldl Fut.deferred f

theorem stack_snoc (f : Fut) (ps : List Proc) (p : Proc) : stack f (ps ++ [p]) = .deferred (stack f ps) p := by
  simp [stack]

theorem stack_valid {f : Fut} (h : f.valid = true) (ps : List Proc) : (stack f ps).valid = true := by
  induction ps generalizing f with
  | nil => exact h
  | cons p ps ih => exact ih (f := .deferred f p) rfl

/-- All processes, one after the other. -/
def through (ps : List Proc) (r : Res) : Res := ps.foldl (fun r p => p.apply r) r

def callsOf : List Proc → Res → List Ev
  | [], _ => []
  | p :: ps, r => p.calls r ++ callsOf ps (p.apply r)

theorem through_append (ps qs : List Proc) (r : Res) : through (ps ++ qs) r = through qs (through ps r) := by
  simp [through]

theorem eval_stack (cells : Nat → Option Res) (ps : List Proc) (f : Fut) :
    (stack f ps).eval cells = (f.eval cells).map fun re => (through ps re.1, re.2 ++ callsOf ps re.1) := by
  induction ps generalizing f with
  | nil => cases h : f.eval cells <;> simp [stack, through, callsOf, h]
  | cons p ps ih =>
    show (stack (.deferred f p) ps).eval cells = _
    rw [ih, Fut.eval]
    cases f.eval cells <;> simp [through, callsOf]

/-- What the future of a chain looks like. -/
def Rep (cells : Nat → Option Res) (c : Nat) (ps : List Proc) (k : Nat) (f : Fut) : Prop :=
  k ≤ ps.length ∧
  ((k = 0 ∧ f = stack (.promise c) ps) ∨
   (0 < k ∧ ∃ r, cells c = some r ∧ f = stack (.ready (through (ps.take k) r)) (ps.drop k)))

theorem Rep.valid {cells c ps k f} (h : Rep cells c ps k f) : f.valid = true := by
  rcases h.2 with ⟨-, rfl⟩ | ⟨-, r, -, rfl⟩ <;> exact stack_valid rfl _

theorem Rep.mono {cells cells' : Nat → Option Res} {c ps k f} (h : Rep cells c ps k f)
    (hc : ∀ r, cells c = some r → cells' c = some r) : Rep cells' c ps k f := by
  refine ⟨h.1, ?_⟩
  rcases h.2 with h | ⟨h0, r, hr, hf⟩
  · exact .inl h
  · exact .inr ⟨h0, r, hc r hr, hf⟩

theorem Rep.new (cells : Nat → Option Res) (c : Nat) : Rep cells c [] 0 (.promise c) :=
  ⟨Nat.le_refl _, .inl ⟨rfl, rfl⟩⟩

theorem Rep.andThen {cells c ps k f} (h : Rep cells c ps k f) (p : Proc) : Rep cells c (ps ++ [p]) k (f.andThen p) := by
  have hv := h.valid
  refine ⟨by simp; have := h.1; omega, ?_⟩
  have e : f.andThen p = .deferred f p := by simp [Fut.andThen, hv]
  rcases h.2 with ⟨h0, rfl⟩ | ⟨h0, r, hr, rfl⟩
  · exact .inl ⟨h0, by rw [e, stack_snoc]⟩
  · refine .inr ⟨h0, r, hr, ?_⟩
    rw [e, List.take_append_of_le_length h.1, List.drop_append_of_le_length h.1, stack_snoc]

theorem Rep.eval {cells c ps k f} (h : Rep cells c ps k f) :
    f.eval cells = (cells c).map fun r => (through ps r, callsOf (ps.drop k) (through (ps.take k) r)) := by
  rcases h.2 with ⟨h0, rfl⟩ | ⟨h0, r, hr, rfl⟩
  · rw [eval_stack, Fut.eval, h0]
    cases cells c <;> simp [through]
  · rw [eval_stack, Fut.eval, hr]
    simp [← through_append]

theorem Rep.settle {cells c ps k f} {r : Res} (h : Rep cells c ps k f) (hr : cells c = some r) :
    Rep cells c ps ps.length (f.settle (through ps r)) := by
  refine ⟨Nat.le_refl _, ?_⟩
  by_cases hp : ps = []
  · subst hp
    left
    rcases h.2 with ⟨h0, rfl⟩ | ⟨h0, -⟩
    · exact ⟨rfl, rfl⟩
    · have := h.1; simp at this; omega
  · right
    refine ⟨List.length_pos_iff.2 hp, r, hr, ?_⟩
    rw [List.take_length, List.drop_length]
    rcases h.2 with ⟨h0, rfl⟩ | ⟨h0, r', hr', rfl⟩
    · obtain ⟨l, x, rfl⟩ : ∃ l x, ps = l ++ [x] := ⟨ps.dropLast, ps.getLast hp, (List.dropLast_concat_getLast hp).symm⟩
      rw [stack_snoc]; rfl
    · rw [hr] at hr'; cases hr'
      by_cases hd : ps.drop k = []
      · rw [hd]
        have : ps.take k = ps := by
          have := List.take_append_drop k ps; rw [hd, List.append_nil] at this; exact this
        rw [this]; rfl
      · obtain ⟨l, x, hx⟩ : ∃ l x, ps.drop k = l ++ [x] := ⟨_, _, (List.dropLast_concat_getLast hd).symm⟩
        rw [hx, stack_snoc]; rfl

theorem Rep.status {cells c ps k f} (h : Rep cells c ps k f) :
    f.status cells = if k < ps.length then .deferred else if (cells c).isSome then .ready else .timeout := by
  rcases h.2 with ⟨h0, rfl⟩ | ⟨h0, r, hr, rfl⟩
  · by_cases hp : ps = []
    · subst hp; subst h0; rfl
    · obtain ⟨l, x, rfl⟩ : ∃ l x, ps = l ++ [x] := ⟨_, _, (List.dropLast_concat_getLast hp).symm⟩
      rw [stack_snoc, if_pos (by simp; omega)]; rfl
  · by_cases hd : ps.drop k = []
    · have : ¬ k < ps.length := by rw [List.drop_eq_nil_iff] at hd; omega
      rw [hd, if_neg this, hr]; rfl
    · obtain ⟨l, x, hx⟩ : ∃ l x, ps.drop k = l ++ [x] := ⟨_, _, (List.dropLast_concat_getLast hd).symm⟩
      rw [hx, stack_snoc, if_pos]
      · rfl
      · rcases Nat.lt_or_ge k ps.length with hk | hk
        · exact hk
        · exact absurd (List.drop_eq_nil_iff.2 hk) hd

/-! ### Promises -/

/-- The result that a promise is given by an action. -/
def Act.gives : Act → Nat → Option Res
  | .fulfil d r, c => if c = d then some r else none
  | .abandon d, c => if c = d then some .futErr else none
  | _, _ => none

theorem setVar_cells (s : St) (x v) : (s.setVar x v).cells = s.cells := rfl
theorem addLog_cells (s : St) (x) : (s.addLog x).cells = s.cells := rfl

theorem step_cells {s s' : St} {a : Act} (h : step s a = some s') (c : Nat) :
    s'.cells c = (s.cells c).orElse fun _ => a.gives c := by
  have same : ∀ t : St, t = s' → t.cells = s.cells → (∀ d, a.gives d = none) →
      s'.cells c = (s.cells c).orElse fun _ => a.gives c := by
    intro t e ht hg
    rw [← e, ht, hg]; cases s.cells c <;> rfl
  cases a with
  | fetch x d b =>
    simp only [step] at h
    by_cases hx : x < s.vars.length
    · rw [if_pos hx] at h
      refine same _ (Option.some.inj h) ?_ (fun _ => rfl)
      unfold doFetch; by_cases ht : s.taken d = true
      · rw [if_pos ht]
      · rw [if_neg ht]; rfl
    · rw [if_neg hx] at h; cases h
  | fulfil d r =>
    simp only [step, Option.some.injEq] at h
    subst h
    simp only [St.resolve, Act.gives]
    by_cases hc : c = d
    · subst hc; simp
    · simp [hc]
  | abandon d =>
    simp only [step, Option.some.injEq] at h
    subst h
    simp only [St.resolve, Act.gives]
    by_cases hc : c = d
    · subst hc; simp
    · simp [hc]
  | andThen x p y =>
    simp only [step] at h
    by_cases hx : y < s.vars.length
    · rw [if_pos hx] at h
      obtain ⟨v, -, e⟩ := Option.map_eq_some_iff.1 h
      exact same _ e rfl (fun _ => rfl)
    · rw [if_neg hx] at h; cases h
  | move x y =>
    simp only [step] at h
    by_cases hx : y < s.vars.length
    · rw [if_pos hx] at h
      obtain ⟨v, -, e⟩ := Option.map_eq_some_iff.1 h
      exact same _ e rfl (fun _ => rfl)
    · rw [if_neg hx] at h; cases h
  | drop x =>
    obtain ⟨v, -, e⟩ := Option.map_eq_some_iff.1 h
    exact same _ e rfl (fun _ => rfl)
  | get x =>
    obtain ⟨v, -, h⟩ := Option.bind_eq_some_iff.1 h
    obtain ⟨re, -, e⟩ := Option.map_eq_some_iff.1 h
    exact same _ e rfl (fun _ => rfl)
  | wait x =>
    obtain ⟨v, -, h⟩ := Option.bind_eq_some_iff.1 h
    obtain ⟨re, -, e⟩ := Option.map_eq_some_iff.1 h
    refine same _ e ?_ (fun _ => rfl)
    unfold doWait; by_cases hv : v.fut.valid = true
    · rw [if_pos hv]; rfl
    · rw [if_neg hv]; rfl
  | poll x =>
    obtain ⟨v, -, e⟩ := Option.map_eq_some_iff.1 h
    exact same _ e rfl (fun _ => rfl)

/-- The first result that a promise is given. -/
def given (acts : List Act) (c : Nat) : Option Res := acts.findSome? fun a => a.gives c

theorem given_snoc (acts : List Act) (a : Act) (c : Nat) : given (acts ++ [a]) c = (given acts c).orElse fun _ => a.gives c := by
  simp only [given, List.findSome?_append, List.findSome?_cons, List.findSome?_nil]
  cases List.findSome? (fun a => a.gives c) acts <;> cases a.gives c <;> rfl

theorem runs_cells {n : Nat} {acts : List Act} : ∀ {s : St}, runs (init n) acts = some s → ∀ c, s.cells c = given acts c := by
  induction acts using snoc_induct with
  | nil => intro s h c; simp only [runs, Option.some.injEq] at h; subst h; rfl
  | snoc acts a ih =>
    intro s h c
    obtain ⟨m, hm, hs⟩ := runs_snoc_some h
    rw [step_cells hs, ih hm, given_snoc]

theorem step_cells_keep {s s' : St} {a : Act} (h : step s a = some s') {c : Nat} {r : Res} (hr : s.cells c = some r) : s'.cells c = some r := by
  rw [step_cells h, hr]; rfl

/-! ### Which promises have given out their future -/

def Act.fetches : Act → Nat → Bool
  | .fetch _ d _, c => d == c
  | _, _ => false

theorem doFetch_taken (s : St) (x d b c) : (doFetch s x d b).taken c = (s.taken c || d == c) := by
  unfold doFetch
  by_cases ht : s.taken d = true
  · rw [if_pos ht]
    by_cases hc : d = c
    · subst hc; simp [ht]
    · simp [hc]
  · rw [if_neg ht]
    show (if c = d then true else s.taken c) = _
    by_cases hc : c = d
    · subst hc; simp
    · have : d ≠ c := fun e => hc e.symm
      simp [hc, this]

theorem doWait_taken (s : St) (x v re) : (doWait s x v re).taken = s.taken := by
  unfold doWait; by_cases hv : v.fut.valid = true
  · rw [if_pos hv]; rfl
  · rw [if_neg hv]; rfl

theorem step_taken {s s' : St} {a : Act} (h : step s a = some s') (c : Nat) :
    s'.taken c = (s.taken c || a.fetches c) := by
  have same : ∀ t : St, t = s' → t.taken = s.taken → a.fetches c = false →
      s'.taken c = (s.taken c || a.fetches c) := by
    intro t e ht hg
    rw [← e, ht, hg]; simp
  cases a with
  | fetch x d b =>
    simp only [step] at h
    by_cases hx : x < s.vars.length
    · rw [if_pos hx] at h
      cases h; exact doFetch_taken _ _ _ _ _
    · rw [if_neg hx] at h; cases h
  | fulfil d r => exact same _ (Option.some.inj h) rfl rfl
  | abandon d => exact same _ (Option.some.inj h) rfl rfl
  | andThen x p y =>
    simp only [step] at h
    by_cases hx : y < s.vars.length
    · rw [if_pos hx] at h
      obtain ⟨v, -, e⟩ := Option.map_eq_some_iff.1 h
      exact same _ e rfl rfl
    · rw [if_neg hx] at h; cases h
  | move x y =>
    simp only [step] at h
    by_cases hx : y < s.vars.length
    · rw [if_pos hx] at h
      obtain ⟨v, -, e⟩ := Option.map_eq_some_iff.1 h
      exact same _ e rfl rfl
    · rw [if_neg hx] at h; cases h
  | drop x =>
    obtain ⟨v, -, e⟩ := Option.map_eq_some_iff.1 h
    exact same _ e rfl rfl
  | get x =>
    obtain ⟨v, -, h⟩ := Option.bind_eq_some_iff.1 h
    obtain ⟨re, -, e⟩ := Option.map_eq_some_iff.1 h
    exact same _ e rfl rfl
  | wait x =>
    obtain ⟨v, -, h⟩ := Option.bind_eq_some_iff.1 h
    obtain ⟨re, -, e⟩ := Option.map_eq_some_iff.1 h
    exact same _ e (doWait_taken _ _ _ _) rfl
  | poll x =>
    obtain ⟨v, -, e⟩ := Option.map_eq_some_iff.1 h
    exact same _ e rfl rfl

theorem runs_taken {n : Nat} {acts : List Act} : ∀ {s : St}, runs (init n) acts = some s → ∀ c, s.taken c = acts.any (fun a => a.fetches c) := by
  induction acts using snoc_induct with
  | nil => intro s h c; simp only [runs, Option.some.injEq] at h; subst h; rfl
  | snoc acts a ih =>
    intro s h c
    obtain ⟨m, hm, hs⟩ := runs_snoc_some h
    rw [step_taken hs, ih hm]; simp

/-! ### Variables -/

theorem setVar_get (s : St) (x y : Nat) (v : Var) :
    (s.setVar x v).vars[y]? = if x = y then (if x < s.vars.length then some v else none) else s.vars[y]? := by
  simp only [St.setVar, List.getElem?_set]

theorem setVar_self {s : St} {x : Nat} {v : Var} (h : x < s.vars.length) : (s.setVar x v).vars[x]? = some v := by
  rw [setVar_get, if_pos rfl, if_pos h]

theorem setVar_other {s : St} {x y : Nat} {v : Var} (h : x ≠ y) : (s.setVar x v).vars[y]? = s.vars[y]? := by
  rw [setVar_get, if_neg h]

theorem setVar_length (s : St) (x v) : (s.setVar x v).vars.length = s.vars.length := by simp [St.setVar]

theorem addLog_vars (s : St) (es) : (s.addLog es).vars = s.vars := rfl

/-- Does the action replace or take away what variable `x` holds? -/
def Act.touches : Act → Nat → Bool
  | .fetch y _ _, x => y == x
  | .andThen y _ z, x => y == x || z == x
  | .move y z, x => y == x || z == x
  | .drop y, x => y == x
  | .get y, x => y == x
  | _, _ => false

def Act.waitsOn : Act → Nat → Bool
  | .wait y, x => y == x
  | _, _ => false

theorem doFetch_other {s : St} {x y d : Nat} {b : Bool} (h : x ≠ y) : (doFetch s x d b).vars[y]? = s.vars[y]? := by
  unfold doFetch
  by_cases ht : s.taken d = true
  · rw [if_pos ht]
  · rw [if_neg ht, setVar_other h]; rfl

theorem doWait_other {s : St} {x y : Nat} {v : Var} {re} (h : x ≠ y) : (doWait s x v re).vars[y]? = s.vars[y]? := by
  unfold doWait
  by_cases hv : v.fut.valid = true
  · rw [if_pos hv, addLog_vars, setVar_other h]
  · rw [if_neg hv, addLog_vars]

theorem step_other {s s' : St} {a : Act} (h : step s a = some s') {x : Nat} (ht : a.touches x = false) (hw : a.waitsOn x = false) :
    s'.vars[x]? = s.vars[x]? := by
  cases a with
  | fetch y d b =>
    simp only [step] at h
    by_cases hx : y < s.vars.length
    · rw [if_pos hx] at h
      cases h; exact doFetch_other (by simpa [Act.touches] using ht)
    · rw [if_neg hx] at h; cases h
  | fulfil d r => cases h; rfl
  | abandon d => cases h; rfl
  | andThen y p z =>
    simp only [step] at h
    simp only [Act.touches, Bool.or_eq_false_iff, beq_eq_false_iff_ne] at ht
    by_cases hx : z < s.vars.length
    · rw [if_pos hx] at h
      obtain ⟨v, -, e⟩ := Option.map_eq_some_iff.1 h
      rw [← e, doThen, setVar_other ht.2, setVar_other ht.1]
    · rw [if_neg hx] at h; cases h
  | move y z =>
    simp only [step] at h
    simp only [Act.touches, Bool.or_eq_false_iff, beq_eq_false_iff_ne] at ht
    by_cases hx : z < s.vars.length
    · rw [if_pos hx] at h
      obtain ⟨v, -, e⟩ := Option.map_eq_some_iff.1 h
      rw [← e, doMove, setVar_other ht.2, setVar_other ht.1]
    · rw [if_neg hx] at h; cases h
  | drop y =>
    obtain ⟨v, -, e⟩ := Option.map_eq_some_iff.1 h
    rw [← e, setVar_other (by simpa [Act.touches] using ht)]
  | get y =>
    obtain ⟨v, -, h⟩ := Option.bind_eq_some_iff.1 h
    obtain ⟨re, -, e⟩ := Option.map_eq_some_iff.1 h
    rw [← e, doGet, addLog_vars, setVar_other (by simpa [Act.touches] using ht)]
  | wait y =>
    obtain ⟨v, -, h⟩ := Option.bind_eq_some_iff.1 h
    obtain ⟨re, -, e⟩ := Option.map_eq_some_iff.1 h
    rw [← e]; exact doWait_other (by simpa [Act.waitsOn] using hw)
  | poll y =>
    obtain ⟨v, -, e⟩ := Option.map_eq_some_iff.1 h
    rw [← e]; rfl

theorem lt_of_get {s : St} {x : Nat} {v : Var} (h : s.vars[x]? = some v) : x < s.vars.length :=
  (List.getElem?_eq_some_iff.1 h).1

theorem step_andThen {s s' : St} {x y : Nat} {p : Proc} (h : step s (.andThen x p y) = some s') :
    ∃ v, s.vars[x]? = some v ∧ y < s.vars.length ∧ s' = doThen s x v p y := by
  simp only [step] at h
  by_cases hx : y < s.vars.length
  · rw [if_pos hx] at h
    obtain ⟨v, hv, e⟩ := Option.map_eq_some_iff.1 h
    exact ⟨v, hv, hx, e.symm⟩
  · rw [if_neg hx] at h; cases h

theorem step_mv {s s' : St} {x y : Nat} (h : step s (.move x y) = some s') :
    ∃ v, s.vars[x]? = some v ∧ y < s.vars.length ∧ s' = doMove s x v y := by
  simp only [step] at h
  by_cases hx : y < s.vars.length
  · rw [if_pos hx] at h
    obtain ⟨v, hv, e⟩ := Option.map_eq_some_iff.1 h
    exact ⟨v, hv, hx, e.symm⟩
  · rw [if_neg hx] at h; cases h

theorem step_fetch {s s' : St} {x c : Nat} {b : Bool} (h : step s (.fetch x c b) = some s') :
    x < s.vars.length ∧ s' = doFetch s x c b := by
  simp only [step] at h
  by_cases hx : x < s.vars.length
  · rw [if_pos hx] at h; cases h; exact ⟨hx, rfl⟩
  · rw [if_neg hx] at h; cases h

theorem step_get {s s' : St} {x : Nat} (h : step s (.get x) = some s') :
    ∃ v re, s.vars[x]? = some v ∧ v.fut.eval s.cells = some re ∧ s' = doGet s x v re := by
  obtain ⟨v, hv, h⟩ := Option.bind_eq_some_iff.1 h
  obtain ⟨re, hr, e⟩ := Option.map_eq_some_iff.1 h
  exact ⟨v, re, hv, hr, e.symm⟩

theorem step_wait {s s' : St} {x : Nat} (h : step s (.wait x) = some s') :
    ∃ v re, s.vars[x]? = some v ∧ v.fut.eval s.cells = some re ∧ s' = doWait s x v re := by
  obtain ⟨v, hv, h⟩ := Option.bind_eq_some_iff.1 h
  obtain ⟨re, hr, e⟩ := Option.map_eq_some_iff.1 h
  exact ⟨v, re, hv, hr, e.symm⟩

theorem step_drop {s s' : St} {x : Nat} (h : step s (.drop x) = some s') :
    ∃ v, s.vars[x]? = some v ∧ s' = s.setVar x (Var.empty v.isVoid) := by
  obtain ⟨v, hv, e⟩ := Option.map_eq_some_iff.1 h
  exact ⟨v, hv, e.symm⟩

theorem step_poll {s s' : St} {x : Nat} (h : step s (.poll x) = some s') :
    ∃ v, s.vars[x]? = some v ∧ s' = doPoll s x v := by
  obtain ⟨v, hv, e⟩ := Option.map_eq_some_iff.1 h
  exact ⟨v, hv, e.symm⟩

theorem doThen_get (s : St) {x y : Nat} (v : Var) (p : Proc) (hy : y < s.vars.length) :
    (doThen s x v p y).vars[y]? = some ⟨v.fut.andThen p, p.toVoid⟩ := by
  rw [doThen, setVar_self]; rw [setVar_length]; exact hy

theorem doThen_src (s : St) {x y : Nat} {v : Var} (p : Proc) (hx : s.vars[x]? = some v) (hy : y ≠ x) :
    (doThen s x v p y).vars[x]? = some (Var.empty v.isVoid) := by
  rw [doThen, setVar_other hy, setVar_self (lt_of_get hx)]

theorem doMove_get (s : St) {x y : Nat} (v : Var) (hy : y < s.vars.length) :
    (doMove s x v y).vars[y]? = some v := by
  rw [doMove, setVar_self]; rw [setVar_length]; exact hy

theorem doMove_src (s : St) {x y : Nat} {v : Var} (hx : s.vars[x]? = some v) (hy : y ≠ x) :
    (doMove s x v y).vars[x]? = some (Var.empty v.isVoid) := by
  rw [doMove, setVar_other hy, setVar_self (lt_of_get hx)]

theorem doWait_self (s : St) {x : Nat} {v : Var} (re : Res × List Ev) (hx : s.vars[x]? = some v) :
    (doWait s x v re).vars[x]? = some ⟨v.fut.settle re.1, v.isVoid⟩ := by
  unfold doWait
  by_cases hv : v.fut.valid = true
  · rw [if_pos hv, addLog_vars, setVar_self (lt_of_get hx)]
  · rw [if_neg hv, addLog_vars, hx]
    cases v with | mk f b => cases f <;> first | rfl | exact absurd rfl hv

theorem doWait_cells (s : St) (x v re) : (doWait s x v re).cells = s.cells := by
  unfold doWait
  by_cases hv : v.fut.valid = true
  · rw [if_pos hv]; rfl
  · rw [if_neg hv]; rfl

/-! ### Counting calls -/

def Fut.count (t : Nat) : Fut → Nat
  | .deferred src p => src.count t + (if p.tag = t then 1 else 0)
  | _ => 0

def Ev.runsTag (t : Nat) : Ev → Bool
  | .ran u _ => u == t
  | _ => false

def Act.attaches (t : Nat) : Act → Bool
  | .andThen _ p _ => p.tag == t
  | _ => false

theorem eval_count (t : Nat) {cells : Nat → Option Res} : ∀ {f : Fut} {re}, f.eval cells = some re → re.2.countP (Ev.runsTag t) ≤ f.count t := by
  intro f
  induction f with
  | none => intro re h; cases h; simp
  | promise c =>
    intro re h
    obtain ⟨r, -, e⟩ := Option.map_eq_some_iff.1 h
    subst e; simp
  | ready r => intro re h; cases h; simp
  | deferred src p ih =>
    intro re h
    obtain ⟨r, hr, e⟩ := Option.map_eq_some_iff.1 h
    have := ih hr
    subst e
    simp only [List.countP_append, Fut.count]
    have h2 : (p.calls r.1).countP (Ev.runsTag t) ≤ if p.tag = t then 1 else 0 := by
      cases r.1 <;> simp [Proc.calls, Ev.runsTag]
    omega

theorem settle_count (t : Nat) (f : Fut) (r : Res) : (f.settle r).count t = 0 := by
  cases f <;> rfl

def held (t : Nat) (vs : List Var) : Nat := (vs.map fun v => v.fut.count t).sum

theorem held_set (t : Nat) : ∀ (vs : List Var) (x : Nat) (v w : Var), vs[x]? = some v →
    held t (vs.set x w) + v.fut.count t = held t vs + w.fut.count t := by
  intro vs
  induction vs with
  | nil => intro x v w h; simp at h
  | cons u vs ih =>
    intro x v w h
    cases x with
    | zero => simp at h; subst h; simp [held]; omega
    | succ x =>
      have := ih x v w (by simpa using h)
      simp [held] at this ⊢; omega

theorem setVar_held (t : Nat) {s : St} {x : Nat} {v : Var} (w : Var) (h : s.vars[x]? = some v) :
    held t (s.setVar x w).vars + v.fut.count t = held t s.vars + w.fut.count t := held_set t _ _ _ _ h

theorem get_of_lt {s : St} {x : Nat} (h : x < s.vars.length) : ∃ v, s.vars[x]? = some v :=
  ⟨s.vars[x], List.getElem?_eq_getElem h⟩

theorem empty_count (t : Nat) (b : Bool) : (Var.empty b).fut.count t = 0 := rfl

theorem andThen_count (t : Nat) (f : Fut) (p : Proc) : (f.andThen p).count t ≤ f.count t + if p.tag = t then 1 else 0 := by
  unfold Fut.andThen
  by_cases hv : f.valid = true
  · rw [if_pos hv]; exact Nat.le_refl _
  · rw [if_neg hv]; exact Nat.zero_le _

/-- calls made so far plus processes still waiting in some variable -/
def weight (t : Nat) (s : St) : Nat := s.log.countP (Ev.runsTag t) + held t s.vars

theorem step_weight (t : Nat) {s s' : St} {a : Act} (h : step s a = some s') :
    weight t s' ≤ weight t s + if a.attaches t then 1 else 0 := by
  unfold weight
  cases a with
  | fetch x d b =>
    obtain ⟨hx, rfl⟩ := step_fetch h
    obtain ⟨v, hv⟩ := get_of_lt hx
    unfold doFetch
    by_cases ht : s.taken d = true
    · rw [if_pos ht]; omega
    · rw [if_neg ht]
      have := setVar_held t (s := s.take d) ⟨.promise d, b⟩ hv
      have e : (Fut.promise d).count t = 0 := rfl
      have e2 : (s.take d).vars = s.vars := rfl
      have e3 : ((s.take d).setVar x ⟨.promise d, b⟩).log = s.log := rfl
      simp only [e, e2, e3] at this ⊢
      omega
  | fulfil d r => cases h; exact Nat.le_add_right _ _
  | abandon d => cases h; exact Nat.le_add_right _ _
  | andThen x p y =>
    obtain ⟨v, hv, hy, rfl⟩ := step_andThen h
    have h1 := setVar_held t (Var.empty v.isVoid) hv
    obtain ⟨w, hw⟩ := get_of_lt (s := s.setVar x (Var.empty v.isVoid)) (x := y) (by rw [setVar_length]; exact hy)
    have h2 := setVar_held t ⟨v.fut.andThen p, p.toVoid⟩ hw
    have h3 := andThen_count t v.fut p
    have e : (doThen s x v p y).log = s.log := rfl
    rw [empty_count] at h1
    simp only [Act.attaches, doThen, beq_iff_eq] at *
    rw [e]; omega
  | move x y =>
    obtain ⟨v, hv, hy, rfl⟩ := step_mv h
    have h1 := setVar_held t (Var.empty v.isVoid) hv
    obtain ⟨w, hw⟩ := get_of_lt (s := s.setVar x (Var.empty v.isVoid)) (x := y) (by rw [setVar_length]; exact hy)
    have h2 := setVar_held t v hw
    have e : (doMove s x v y).log = s.log := rfl
    rw [empty_count] at h1
    simp only [doMove] at *
    rw [e]; omega
  | drop x =>
    obtain ⟨v, hv, rfl⟩ := step_drop h
    have h1 := setVar_held t (Var.empty v.isVoid) hv
    have e : (s.setVar x (Var.empty v.isVoid)).log = s.log := rfl
    rw [empty_count] at h1
    rw [e]; omega
  | get x =>
    obtain ⟨v, re, hv, hr, rfl⟩ := step_get h
    have h1 := setVar_held t (Var.empty v.isVoid) hv
    have h2 := eval_count t hr
    have e : (doGet s x v re).log = s.log ++ (re.2 ++ [.got x (report v.isVoid re.1)]) := rfl
    have e2 : (doGet s x v re).vars = (s.setVar x (Var.empty v.isVoid)).vars := rfl
    rw [empty_count] at h1
    rw [e, e2, List.countP_append, List.countP_append]
    have e3 : List.countP (Ev.runsTag t) [Ev.got x (report v.isVoid re.1)] = 0 := by simp [Ev.runsTag]
    omega
  | wait x =>
    obtain ⟨v, re, hv, hr, rfl⟩ := step_wait h
    unfold doWait
    by_cases hvv : v.fut.valid = true
    · rw [if_pos hvv]
      have h1 := setVar_held t ⟨v.fut.settle re.1, v.isVoid⟩ hv
      have h2 := eval_count t hr
      rw [settle_count] at h1
      simp only [St.addLog, List.countP_append]
      have e3 : List.countP (Ev.runsTag t) [Ev.waited x] = 0 := by simp [Ev.runsTag]
      have e : (s.setVar x ⟨v.fut.settle re.1, v.isVoid⟩).log = s.log := rfl
      rw [e]; omega
    · rw [if_neg hvv]
      simp only [St.addLog, List.countP_append]
      have e3 : List.countP (Ev.runsTag t) [Ev.waitThrew x] = 0 := by simp [Ev.runsTag]
      omega
  | poll x =>
    obtain ⟨v, hv, rfl⟩ := step_poll h
    simp only [doPoll, St.addLog, List.countP_append]
    have e3 : List.countP (Ev.runsTag t) [Ev.polled x (v.fut.status s.cells)] = 0 := by simp [Ev.runsTag]
    omega

theorem init_held (t n : Nat) : held t (init n).vars = 0 := by
  simp only [held, init, List.map_replicate]
  simp [Var.empty, Fut.count]

theorem runs_weight (t n : Nat) {acts : List Act} : ∀ {s : St}, runs (init n) acts = some s → weight t s ≤ acts.countP (Act.attaches t) := by
  induction acts using snoc_induct with
  | nil =>
    intro s h; simp only [runs, Option.some.injEq] at h; subst h
    unfold weight; rw [init_held]; exact Nat.le_refl _
  | snoc acts a ih =>
    intro s h
    obtain ⟨m, hm, hs⟩ := runs_snoc_some h
    have := step_weight t hs
    have := ih hm
    rw [List.countP_append]
    simp only [List.countP_cons, List.countP_nil]
    omega

end Maf.Up
