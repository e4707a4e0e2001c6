import Verif.Spec.Router
import Verif.Lemmas.Hist
namespace Maf.Route

@[simp] theorem upd_same {β : Type} (f : Nat → β) (i : Nat) (v : β) : upd f i v i = v := by simp [upd]
theorem upd_other {β : Type} {f : Nat → β} {i j : Nat} {v : β} (h : j ≠ i) : upd f i v j = f j := by simp [upd, h]

@[simp] theorem idIn_append (p : Pid) (a b : List Ev) : idIn (a ++ b) p = b.foldl (idStep p) (idIn a p) := by simp [idIn]
@[simp] theorem joinedIn_append (a b : List Ev) : joinedIn (a ++ b) = b.foldl joinStep (joinedIn a) := by simp [joinedIn]
@[simp] theorem closedIn_append (p : Pid) (a b : List Ev) : closedIn (a ++ b) p = b.foldl (closedStep p) (closedIn a p) := by simp [closedIn]
@[simp] theorem handIn_append (p : Pid) (ty : Ty) (a b : List Ev) : handIn (a ++ b) p ty = b.foldl (handStep p ty) (handIn a p ty) := by simp [handIn]
@[simp] theorem visits_append (t : Tid) (a b : List Ev) : visits t (a ++ b) = visits t a ++ visits t b := by simp [visits]

set_option hygiene false in
/-- Case analysis of a step. -/
macro "peel" : tactic => `(tactic| (
  cases a <;> simp only [step, go] at hs <;> (repeat' split at hs) <;>
  first
  | (cases hs; done)
  | (cases hs)))

def Act.tid : Act → Tid
  | .create t _ | .createAnon t | .createFind t | .add t | .inform t | .stop t _ | .close t | .erase t | .tell t
  | .postToAll t _ | .sweep t | .sweepPost t | .post t _ _ | .postFind t | .handOver t | .reuse t _ | .setHandlers t _ _ _ => t

def Kont.joins : Kont → Option Pid
  | .joining p => some p
  | _ => none

/-- The processor a `create` call in progress has made. -/
def Pc.own : Pc → Option Pid
  | .creating p => some p
  | .toAdd p => some p
  | .informing p _ => some p
  | .sweep _ _ _ k => k.joins
  | .sweepPost _ _ _ _ k => k.joins
  | _ => none

def Pc.holds : Pc → Bool
  | .informing .. | .sweep .. | .sweepPost .. => true
  | _ => false

/-- Other threads do not move; the log grows by this thread's events. -/
theorem step_other {s s' : State} {a : Act} (hs : step s a = some s') :
    (∀ u, u ≠ a.tid → s'.pc u = s.pc u) ∧ ∃ es, s'.log = s.log ++ es ∧ ∀ e ∈ es, e.tid = none ∨ e.tid = some a.tid := by
  peel
  all_goals (refine ⟨fun u hu => ?_, ?_⟩)
  all_goals simp only [endSweep, go, Act.tid] at *
  all_goals (try split)
  all_goals (first
    | exact upd_other hu
    | exact ⟨_, rfl, by simp [Ev.tid]⟩)

/-- The state can be read off the log. -/
structure Abs (s : State) : Prop where
  joined : joinedIn s.log = s.joined
  closed : ∀ p, closedIn s.log p = s.closed p
  has : ∀ p ty, handIn s.log p ty = s.has p ty
  ids : ∀ p, idIn s.log p = if p < s.nextP then some (s.idOf p) else none

theorem Abs_step {s s' : State} {a : Act} (h : Abs s) (hs : step s a = some s') : Abs s' := by
  obtain ⟨h1, h2, h3, h4⟩ := h
  peel
  all_goals (try (simp only [endSweep, go]; split))
  all_goals (constructor)
  all_goals (try (simp [joinStep, h1]; done))
  all_goals (try (intro p; simp [closedStep, h2]; done))
  all_goals (try (intro p ty; simp [handStep, h3]; done))
  all_goals (try (intro p; simp [idStep, h4]; done))
  all_goals (try (intro p; simp [closedStep, h2, upd, eq_comm]; done))
  · intro p
    simp only [idIn_append, h4, List.foldl_cons, List.foldl_nil, idStep]
    by_cases hp : s.nextP = p
    · subst hp; simp
    · have : p < s.nextP + 1 ↔ p < s.nextP := ⟨fun h => Nat.lt_of_le_of_ne (Nat.lt_succ_iff.1 h) (Ne.symm hp), Nat.lt_succ_of_lt⟩
      simp [this, hp, upd_other (Ne.symm hp)]
  · intro p
    simp only [idIn_append, h4, List.foldl_cons, List.foldl_nil, idStep]
    by_cases hp : s.nextP = p
    · subst hp; simp
    · have : p < s.nextP + 1 ↔ p < s.nextP := ⟨fun h => Nat.lt_of_le_of_ne (Nat.lt_succ_iff.1 h) (Ne.symm hp), Nat.lt_succ_of_lt⟩
      simp [this, hp, upd_other (Ne.symm hp)]
  · next t p0 ty0 h0 _ _ =>
    intro p ty
    simp only [handIn_append, h3, List.foldl_cons, List.foldl_nil, handStep, upd]
    by_cases hp : p = p0
    · subst hp
      by_cases ht : ty = ty0
      · subst ht; simp
      · simp [Ne.symm ht]; rw [upd_other ht]
    · simp [hp, Ne.symm hp]

/-- The owner of the lock is the thread in a loop. -/
def LockI (s : State) : Prop := ∀ t, (s.pc t).holds = true ↔ s.owner = some t

theorem LockI_step {s s' : State} {a : Act} (h : LockI s) (hs : step s a = some s') : LockI s' := by
  obtain ⟨hoth, -⟩ := step_other hs
  have key : ((s'.pc a.tid).holds = true ↔ s'.owner = some a.tid) ∧ (s'.owner = s.owner ∨ (s.owner = none ∨ s.owner = some a.tid) ∧ (s'.owner = none ∨ s'.owner = some a.tid)) := by
    have h1 := h a.tid
    clear hoth
    peel
    all_goals (try (simp only [endSweep, go]; split))
    all_goals simp only [Act.tid, upd_same] at h1 ⊢
    all_goals (have hpc := ‹s.pc _ = _›)
    all_goals (rw [hpc] at h1)
    all_goals (simp only [Pc.holds] at h1 ⊢)
    all_goals simp_all
  intro u
  by_cases hu : u = a.tid
  · subst hu; exact key.1
  · rw [hoth u hu, h u]
    rcases key.2 with hk | ⟨hk1, hk2⟩
    · rw [hk]
    · constructor
      · intro ho
        rcases hk1 with hk1 | hk1 <;> rw [hk1] at ho <;> cases ho
        exact absurd rfl hu
      · intro ho
        rcases hk2 with hk2 | hk2 <;> rw [hk2] at ho <;> cases ho
        exact absurd rfl hu


def Pc.joiningOf : Pc → Option Pid
  | .sweep _ _ _ k => k.joins
  | .sweepPost _ _ _ _ k => k.joins
  | _ => none

/-- What a step does to the processors being made. -/
theorem step_own {s s' : State} {a : Act} (hs : step s a = some s') :
    ((s'.pc a.tid).own = none ∨ (s'.pc a.tid).own = (s.pc a.tid).own ∨
      ((s'.pc a.tid).own = some s.nextP ∧ s'.nextP = s.nextP + 1 ∧ ∃ n, s'.idOf s.nextP = .name n)) ∧
    (s'.known = s.known ∨ (∃ p, (s.pc a.tid).own = some p ∧ (s'.pc a.tid).own = none ∧ s'.known = upd s.known p true) ∨
      ((s'.pc a.tid).own = none ∧ s'.known = upd s.known s.nextP true ∧ s'.nextP = s.nextP + 1)) ∧
    (s'.nextP = s.nextP ∨ s'.nextP = s.nextP + 1) ∧ (∀ p, p ≠ s.nextP → s'.idOf p = s.idOf p) ∧ (s'.nextP = s.nextP → s'.idOf = s.idOf) := by
  peel
  all_goals (try (simp only [endSweep, go]; split))
  all_goals (have hpc := ‹s.pc _ = _›)
  all_goals (simp only [Act.tid, upd_same, hpc, Pc.own, Kont.joins])
  all_goals (first | (simp; done) | skip)
  all_goals (simp; intro p hp; exact upd_other hp)

theorem step_joined {s s' : State} {a : Act} (hs : step s a = some s') :
    (s'.joined = s.joined ∨ (∃ q, s'.joined = s.joined.filter (· != q) ∧ s.owner = none) ∨
      ∃ p m acc, s.pc a.tid = .sweep m [] acc (.joining p) ∧ s'.joined = s.joined ++ [p] ∧ s'.known = upd s.known p true) ∧
    (s'.has = s.has ∨ ∃ p ty h, s'.has = upd s.has p (upd (s.has p) ty h) ∧ s.known p = true) ∧
    ((∃ p r, s'.pc a.tid = .informing p r) → (∃ p r, s.pc a.tid = .informing p r) ∨ ∃ p, s.pc a.tid = .toAdd p ∧ s.has p 0 ≠ .absent) ∧
    (∀ p, (s'.pc a.tid).joiningOf = some p → ((s.pc a.tid).joiningOf = some p ∧ s'.joined = s.joined) ∨
      (∃ r, s.pc a.tid = .informing p r) ∨ (s.pc a.tid = .toAdd p ∧ find s (s.idOf p) = none ∧ s'.joined = s.joined)) := by
  peel
  all_goals (try (simp only [endSweep, go]; split))
  all_goals (have hpc := ‹s.pc _ = _›)
  all_goals (simp only [Act.tid, upd_same, hpc, Pc.joiningOf, Kont.joins])
  all_goals first | (simp_all; done) | skip
  · exact ⟨.inr (.inl ⟨_, rfl, by simp_all⟩), .inl trivial, by simp, by simp⟩
  · exact ⟨.inl trivial, .inr ⟨_, _, _, rfl, by simp_all⟩, by simp, by simp⟩

/-- Processors being made are nobody else's; joined ones are known and have different names. -/
structure OwnI (s : State) : Prop where
  own : ∀ t p, (s.pc t).own = some p → p < s.nextP ∧ s.known p = false ∧ ∃ n, s.idOf p = .name n
  uniq : ∀ t u p, (s.pc t).own = some p → (s.pc u).own = some p → t = u
  kn : ∀ p, s.known p = true → p < s.nextP
  jk : ∀ p ∈ s.joined, s.known p = true ∧ ∃ n, s.idOf p = .name n
  hs : ∀ p ty, s.known p = false → s.has p ty = .absent
  inf : ∀ t p r, s.pc t ≠ .informing p r
  jn : ∀ t p, (s.pc t).joiningOf = some p → ∀ q ∈ s.joined, s.idOf q ≠ s.idOf p
  nodup : (s.joined.map s.idOf).Pairwise (· ≠ ·)

theorem find_none {s : State} {id : Id} (h : find s id = none) : ∀ q ∈ s.joined, s.idOf q ≠ id := by
  intro q hq e
  simp only [find, List.find?_eq_none] at h
  exact h q hq (by simp [e])

theorem joining_own {pc : Pc} {p : Pid} (h : pc.joiningOf = some p) : pc.own = some p := by
  cases pc <;> simp_all [Pc.joiningOf, Pc.own]

theorem joining_holds {pc : Pc} {p : Pid} (h : pc.joiningOf = some p) : pc.holds = true := by
  cases pc <;> simp_all [Pc.joiningOf, Pc.holds]

theorem OwnI_step {s s' : State} {a : Act} (h : OwnI s) (hl : LockI s) (hs : step s a = some s') : OwnI s' := by
  obtain ⟨hoth, -⟩ := step_other hs
  obtain ⟨o1, o2, o3, o4, o5⟩ := step_own hs
  obtain ⟨j1, j2, j3, j4⟩ := step_joined hs
  have hle : s.nextP ≤ s'.nextP := by rcases o3 with e | e <;> rw [e] <;> first | exact Nat.le_refl _ | exact Nat.le_succ _
  have hid : ∀ p, p < s.nextP → s'.idOf p = s.idOf p := fun p hp => o4 p (Nat.ne_of_lt hp)
  -- every processor being made now was being made before, or is new
  have hown : ∀ u p, (s'.pc u).own = some p → (s.pc u).own = some p ∨
      (u = a.tid ∧ p = s.nextP ∧ s'.nextP = s.nextP + 1 ∧ ∃ n, s'.idOf p = .name n) := by
    intro u p hu
    by_cases e : u = a.tid
    · subst e
      rcases o1 with k | k | ⟨k, k1, k2⟩
      · rw [k] at hu; cases hu
      · left; rw [← k]; exact hu
      · right; rw [k] at hu; cases hu; exact ⟨rfl, rfl, k1, k2⟩
    · left; rw [← hoth u e]; exact hu
  -- known ones stay known; new known ones are not being made any more
  have hkn : ∀ p, s.known p = true → s'.known p = true := by
    intro p hp
    rcases o2 with k | ⟨q, -, -, k⟩ | ⟨-, k, -⟩ <;> rw [k]
    · exact hp
    · simp only [upd]; split <;> simp [hp]
    · simp only [upd]; split <;> simp [hp]
  have hkn' : ∀ p, s.known p = false → s'.known p = true → (∃ q, q = p ∧ (s.pc a.tid).own = some p ∧ (s'.pc a.tid).own = none) ∨
      (p = s.nextP ∧ (s'.pc a.tid).own = none ∧ s'.nextP = s.nextP + 1) := by
    intro p hp hp'
    rcases o2 with k | ⟨q, k1, k2, k⟩ | ⟨k1, k, k2⟩ <;> rw [k] at hp'
    · rw [hp] at hp'; cases hp'
    · simp only [upd] at hp'; split at hp'
      · next e => subst e; exact .inl ⟨p, rfl, k1, k2⟩
      · rw [hp] at hp'; cases hp'
    · simp only [upd] at hp'; split at hp'
      · next e => subst e; exact .inr ⟨rfl, k1, k2⟩
      · rw [hp] at hp'; cases hp'
  have hown' : ∀ u p, (s'.pc u).own = some p → p < s'.nextP ∧ s'.known p = false ∧ ∃ n, s'.idOf p = .name n := by
    intro u p hu
    rcases hown u p hu with k | ⟨rfl, rfl, k1, k2⟩
    · obtain ⟨h1, h2, h3⟩ := h.own u p k
      refine ⟨Nat.lt_of_lt_of_le h1 hle, ?_, by rw [hid p h1]; exact h3⟩
      cases hk : s'.known p with
      | false => rfl
      | true =>
        rcases hkn' p h2 hk with ⟨_, -, k1, k2⟩ | ⟨k1, -, -⟩
        · have := h.uniq u a.tid p k k1
          subst this
          rw [k2] at hu; cases hu
        · subst k1; exact absurd h1 (Nat.lt_irrefl _)
    · refine ⟨by rw [k1]; exact Nat.lt_succ_self _, ?_, k2⟩
      cases hk : s'.known s.nextP with
      | false => rfl
      | true =>
        have h2 : s.known s.nextP = false := by
          cases hk2 : s.known s.nextP with
          | false => rfl
          | true => exact absurd (h.kn _ hk2) (Nat.lt_irrefl _)
        rcases hkn' _ h2 hk with ⟨_, -, k3, k4⟩ | ⟨-, k3, -⟩
        · exact absurd (h.own _ _ k3).1 (Nat.lt_irrefl _)
        · rw [k3] at hu; cases hu
  have hjk : ∀ p ∈ s'.joined, s'.known p = true ∧ ∃ n, s'.idOf p = .name n := by
    have old : ∀ p ∈ s.joined, s'.known p = true ∧ ∃ n, s'.idOf p = .name n := by
      intro p hp
      obtain ⟨h1, h2⟩ := h.jk p hp
      exact ⟨hkn p h1, by rw [hid p (h.kn p h1)]; exact h2⟩
    intro p hp
    rcases j1 with k | ⟨q, k, -⟩ | ⟨p', m, acc, k1, k2, k3⟩
    · rw [k] at hp; exact old p hp
    · rw [k] at hp; exact old p (List.mem_filter.1 hp).1
    · rw [k2] at hp
      rcases List.mem_append.1 hp with hp | hp
      · exact old p hp
      · simp at hp; subst hp
        obtain ⟨h1, -, h3⟩ := h.own a.tid p (by rw [k1]; rfl)
        exact ⟨by rw [k3]; simp, by rw [hid p h1]; exact h3⟩
  refine ⟨hown', ?_, ?_, hjk, ?_, ?_, ?_, ?_⟩
  · intro t u p ht hu
    rcases hown t p ht with kt | ⟨rfl, rfl, -, -⟩
    · rcases hown u p hu with ku | ⟨rfl, rfl, -, -⟩
      · exact h.uniq t u p kt ku
      · exact absurd (h.own _ _ kt).1 (Nat.lt_irrefl _)
    · rcases hown u _ hu with ku | ⟨rfl, -, -, -⟩
      · exact absurd (h.own _ _ ku).1 (Nat.lt_irrefl _)
      · rfl
  · intro p hp
    cases hk : s.known p with
    | true => exact Nat.lt_of_lt_of_le (h.kn p hk) hle
    | false =>
      rcases hkn' p hk hp with ⟨_, -, k1, -⟩ | ⟨k1, -, k2⟩
      · exact Nat.lt_of_lt_of_le (h.own _ _ k1).1 hle
      · rw [k1, k2]; exact Nat.lt_succ_self _
  · intro p ty hp
    have hk : s.known p = false := by
      cases hk : s.known p with
      | false => rfl
      | true => rw [hkn p hk] at hp; cases hp
    rcases j2 with k | ⟨p', ty', h', k, k'⟩
    · rw [k]; exact h.hs p ty hk
    · rw [k]
      have : p ≠ p' := by intro e; subst e; rw [hk] at k'; cases k'
      rw [upd_other this]; exact h.hs p ty hk
  · intro t p r ht
    by_cases e : t = a.tid
    · subst e
      rcases j3 ⟨p, r, ht⟩ with ⟨p', r', k⟩ | ⟨p', k, k'⟩
      · exact h.inf _ _ _ k
      · exact k' (h.hs p' 0 (h.own a.tid p' (by rw [k]; rfl)).2.1)
    · rw [hoth t e] at ht; exact h.inf _ _ _ ht
  · intro t p ht q hq
    have hlt : ∀ x ∈ s.joined, x < s.nextP := fun x hx => h.kn x (h.jk x hx).1
    by_cases e : t = a.tid
    · subst e
      rcases j4 p ht with ⟨k1, k2⟩ | ⟨r, k⟩ | ⟨k1, k2, k3⟩
      · rw [k2] at hq
        rw [hid q (hlt q hq), hid p (h.own _ p (joining_own k1)).1]
        exact h.jn _ p k1 q hq
      · exact absurd k (h.inf _ _ _)
      · rw [k3] at hq
        rw [hid q (hlt q hq), hid p (h.own a.tid p (by rw [k1]; rfl)).1]
        exact find_none k2 q hq
    · rw [hoth t e] at ht
      have ho := (hl t).1 (joining_holds ht)
      rcases j1 with k | ⟨q', k, k'⟩ | ⟨p', m, acc, k1, k2, k3⟩
      · rw [k] at hq
        rw [hid q (hlt q hq), hid p (h.own _ p (joining_own ht)).1]
        exact h.jn _ p ht q hq
      · rw [ho] at k'; cases k'
      · have := (hl a.tid).1 (by rw [k1]; rfl)
        rw [ho] at this; cases this; exact absurd rfl e
  · have hlt : ∀ x ∈ s.joined, x < s.nextP := fun x hx => h.kn x (h.jk x hx).1
    have hmap : s.joined.map s'.idOf = s.joined.map s.idOf := List.map_congr_left fun x hx => hid x (hlt x hx)
    rcases j1 with k | ⟨q', k, -⟩ | ⟨p', m, acc, k1, k2, k3⟩
    · rw [k, hmap]; exact h.nodup
    · rw [k]
      have : (s.joined.filter (· != q')).map s'.idOf = (s.joined.filter (· != q')).map s.idOf :=
        List.map_congr_left fun x hx => hid x (hlt x (List.mem_filter.1 hx).1)
      rw [this]
      exact h.nodup.sublist (List.filter_sublist.map _)
    · rw [k2, List.map_append, hmap, List.pairwise_append]
      refine ⟨h.nodup, by simp, ?_⟩
      intro x hx y hy
      simp at hy; subst hy
      obtain ⟨q, hq, rfl⟩ := List.mem_map.1 hx
      have h1 : (s.pc a.tid).joiningOf = some p' := by rw [k1]; rfl
      rw [hid p' (h.own _ p' (joining_own h1)).1]
      exact h.jn _ p' h1 q hq


/-! ### Calls in progress -/

/-- What precedes a loop. -/
def Pre (s : State) (t : Tid) (m : Msg) (l1 : List Ev) : Kont → Prop
  | .done => True
  | .joining p => m = .status p true ∧ ∃ l0 l0', l1 = l0 ++ .lookup t (s.idOf p) none :: l0' ∧ (∀ f ∈ l0', f.tid ≠ some t) ∧ LastOf l0 t (.made t p (s.idOf p))
  | .leaving p => m = .status p false ∧ ∃ q, LastOf l1 t (.erased t p q)

/-- A loop over the joined processors in progress; `rest` are still to come. -/
def SweepI (s : State) (t : Tid) (m : Msg) (rest : List Pid) (acc : Bool) (k : Kont) : Prop :=
  ∃ l1 l2, s.log = l1 ++ .sweepBegin t m :: l2 ∧ Pre s t m l1 k ∧ Steady l2 ∧
    (visits t l2).map (fun v => v.1) ++ rest = joinedIn l1 ∧ (∀ v ∈ visits t l2, v.2.1 = m) ∧
    (∀ e ∈ l2, e.tid = some t → ∃ q o, e = .visit t q m o) ∧ (acc = true ↔ ∃ v ∈ visits t l2, v.2.2 = some true)

def PcI (s : State) (t : Tid) : Pc → Prop
  | .creating p => LastOf s.log t (.made t p (s.idOf p))
  | .toAdd p => ∃ l1 l2, s.log = l1 ++ .lookup t (s.idOf p) none :: l2 ∧ (∀ f ∈ l2, f.tid ≠ some t) ∧ LastOf l1 t (.made t p (s.idOf p)) ∧
      ∀ q ∈ s.joined, s.idOf q = s.idOf p → ∃ u, Ev.joined u q ∈ l2
  | .sweep m rest acc k => SweepI s t m rest acc k
  | .sweepPost m q rest acc k => SweepI s t m (q :: rest) acc k
  | .stop2 p => LastOf s.log t (.closed t p)
  | .left p => ∃ q, LastOf s.log t (.erased t p q)
  | .routed id _ p => LastOf s.log t (.lookup t id (some p))
  | _ => True

theorem LastOf.grow {l es : List Ev} {t : Tid} {e : Ev} (h : LastOf l t e) (he : ∀ f ∈ es, f.tid ≠ some t) : LastOf (l ++ es) t e := by
  obtain ⟨l1, l2, h1, h2⟩ := h
  refine ⟨l1, l2 ++ es, by simp [h1], ?_⟩
  intro f hf
  rcases List.mem_append.1 hf with hf | hf
  · exact h2 f hf
  · exact he f hf

theorem LastOf.here {l : List Ev} {t : Tid} {e : Ev} : LastOf (l ++ [e]) t e := ⟨l, [], rfl, by simp⟩

theorem visits_other {t : Tid} {es : List Ev} (he : ∀ f ∈ es, f.tid ≠ some t) : visits t es = [] := by
  simp only [visits, List.filterMap_eq_nil_iff]
  intro e hm
  have := he e hm
  cases e <;> simp [Ev.tid] at this ⊢
  exact this

theorem Pre.cong {s s' : State} {t : Tid} {m : Msg} {l1 : List Ev} {k : Kont} (h : Pre s t m l1 k) (hi : ∀ p, k = .joining p → s'.idOf p = s.idOf p) :
    Pre s' t m l1 k := by
  cases k with
  | done => trivial
  | leaving p => exact h
  | joining p => simp only [Pre, hi p rfl]; exact h

theorem SweepI.grow {s s' : State} {es : List Ev} {t : Tid} {m : Msg} {rest : List Pid} {acc : Bool} {k : Kont} (h : SweepI s t m rest acc k)
    (hl : s'.log = s.log ++ es) (hi : ∀ p, k = .joining p → s'.idOf p = s.idOf p) (he : ∀ f ∈ es, f.tid ≠ some t) (hs : Steady es) : SweepI s' t m rest acc k := by
  obtain ⟨l1, l2, h1, h0, h2, h3, h4, h6, h5⟩ := h
  refine ⟨l1, l2 ++ es, by simp [hl, h1], h0.cong hi, ?_, ?_, ?_, ?_, ?_⟩
  · intro e hm
    rcases List.mem_append.1 hm with hm | hm
    · exact h2 e hm
    · exact hs e hm
  · rw [visits_append, visits_other he, List.append_nil]; exact h3
  · rw [visits_append, visits_other he, List.append_nil]; exact h4
  · intro e hm ht
    rcases List.mem_append.1 hm with hm | hm
    · exact h6 e hm ht
    · exact absurd ht (he e hm)
  · rw [visits_append, visits_other he, List.append_nil]; exact h5

theorem SweepI.visit {s s' : State} {t : Tid} {m : Msg} {q : Pid} {rest : List Pid} {acc : Bool} {k : Kont} (o : Option Bool) (h : SweepI s t m (q :: rest) acc k)
    (hl : s'.log = s.log ++ [.visit t q m o]) (hi : s'.idOf = s.idOf) : SweepI s' t m rest (acc || o == some true) k := by
  obtain ⟨l1, l2, h1, h0, h2, h3, h4, h6, h5⟩ := h
  refine ⟨l1, l2 ++ [.visit t q m o], by simp [hl, h1], h0.cong (by simp [hi]), ?_, ?_, ?_, ?_, ?_⟩
  · intro e hm
    rcases List.mem_append.1 hm with hm | hm
    · exact h2 e hm
    · simp at hm; subst hm; simp
  all_goals have hv : visits t [Ev.visit t q m o] = [(q, m, o)] := by simp [visits]
  · rw [visits_append, hv]; simp [← h3]
  · rw [visits_append, hv]
    intro v hm
    rcases List.mem_append.1 hm with hm | hm
    · exact h4 v hm
    · simp at hm; subst hm; rfl
  · intro e hm ht
    rcases List.mem_append.1 hm with hm | hm
    · exact h6 e hm ht
    · simp at hm; subst hm; exact ⟨_, _, rfl⟩
  · rw [visits_append, hv, Bool.or_eq_true, h5]
    constructor
    · rintro (⟨v, hv, hv'⟩ | hv)
      · exact ⟨v, by simp [hv], hv'⟩
      · exact ⟨(q, m, o), by simp, by simpa using hv⟩
    · rintro ⟨v, hv, hv'⟩
      rcases List.mem_append.1 hv with hv | hv
      · exact .inl ⟨v, hv, hv'⟩
      · simp at hv; subst hv; right; simpa using hv'

theorem SweepI.start {s s' : State} {t : Tid} {m : Msg} {k : Kont} (ha : joinedIn s.log = s.joined) (hl : s'.log = s.log ++ [.sweepBegin t m])
    (hp : Pre s' t m s.log k) : SweepI s' t m s.joined false k :=
  ⟨s.log, [], hl, hp, by simp [Steady], by simp [visits, ha], by simp [visits], by simp, by simp [visits]⟩

/-- Nobody joins or leaves while another thread has the lock. -/
theorem step_steady {s s' : State} {a : Act} {u : Tid} (hl : LockI s) (hs : step s a = some s') (hu : (s.pc u).holds = true) (hne : u ≠ a.tid)
    {es : List Ev} (he : s'.log = s.log ++ es) : Steady es := by
  have ho := (hl u).1 hu
  have h1 : s.owner ≠ some a.tid := by rw [ho]; simpa using hne
  have h2 : (s.pc a.tid).holds = false := by
    cases hh : (s.pc a.tid).holds with
    | false => rfl
    | true => exact absurd ((hl _).1 hh) h1
  peel
  all_goals (have hpc := ‹s.pc _ = _›)
  all_goals simp only [Act.tid, hpc, Pc.holds] at h2
  all_goals (try (cases h2; done))
  all_goals (replace he := List.append_cancel_left he; subst he)
  all_goals (first | (simp [Steady]; done) | skip)
  all_goals simp_all

theorem step_joins {s s' : State} {a : Act} {m : Msg} {acc : Bool} {p : Pid} (hs : step s a = some s')
    (hpc : s.pc a.tid = .sweep m [] acc (.joining p)) (hj : s'.joined ≠ s.joined) :
    s'.log = s.log ++ [.sweepEnd a.tid m acc, .joined a.tid p, .created a.tid p true] := by
  peel
  all_goals (simp only [Act.tid] at hpc ⊢)
  all_goals (first | (exact absurd rfl hj) | skip)
  all_goals (have hpc' := ‹s.pc _ = _›; rw [hpc] at hpc'; cases hpc')
  simp [endSweep, go]

/-- The processor a call to `stop` is about. -/
def Pc.stops : Pc → Option Pid
  | .stop1 p => some p
  | .stop2 p => some p
  | .left p => some p
  | .sweep _ _ _ (.leaving p) => some p
  | .sweepPost _ _ _ _ (.leaving p) => some p
  | _ => none

def StopI (s : State) : Prop := ∀ t p, (s.pc t).stops = some p → s.known p = true

theorem StopI_step {s s' : State} {a : Act} (h : StopI s) (hs : step s a = some s') : StopI s' := by
  obtain ⟨hoth, -⟩ := step_other hs
  obtain ⟨-, o2, -⟩ := step_own hs
  have hkn : ∀ p, s.known p = true → s'.known p = true := by
    intro p hp
    rcases o2 with k | ⟨q, -, -, k⟩ | ⟨-, k, -⟩ <;> rw [k]
    · exact hp
    · simp only [upd]; split <;> simp [hp]
    · simp only [upd]; split <;> simp [hp]
  intro t p htp
  by_cases ht : t = a.tid
  · subst ht
    have h1 := h a.tid p
    clear hoth o2 hkn
    peel
    all_goals (try (revert htp; simp only [endSweep, go]; split <;> intro htp))
    all_goals (have hpc := ‹s.pc _ = _›)
    all_goals simp only [Act.tid, upd_same] at h1 htp ⊢
    all_goals rw [hpc] at h1
    all_goals (first | (simp [Pc.stops] at htp; done) | skip)
    all_goals (simp_all [Pc.stops])
    all_goals (try (split at htp <;> simp_all))
  · rw [hoth t ht] at htp
    exact hkn p (h t p htp)

theorem PcI_step {s s' : State} {a : Act} (h : ∀ t, PcI s t (s.pc t)) (ha : Abs s) (ho : OwnI s) (hl : LockI s) (hs : step s a = some s') :
    ∀ t, PcI s' t (s'.pc t) := by
  obtain ⟨hoth, es, hes, htid⟩ := step_other hs
  obtain ⟨-, -, -, o4, -⟩ := step_own hs
  obtain ⟨j1, -, -, -⟩ := step_joined hs
  have hlt : ∀ x ∈ s.joined, x < s.nextP := fun x hx => ho.kn x (ho.jk x hx).1
  have hid : ∀ p, p < s.nextP → s'.idOf p = s.idOf p := fun p hp => o4 p (Nat.ne_of_lt hp)
  intro t
  by_cases ht : t = a.tid
  · subst ht
    have h1 := h a.tid
    clear hoth hes htid o4 j1 hid
    peel
    all_goals (try (simp only [endSweep, go]; split))
    all_goals (have hpc := ‹s.pc _ = _›)
    all_goals simp only [Act.tid, upd_same] at h1 ⊢
    all_goals rw [hpc] at h1
    all_goals simp only [PcI] at h1 ⊢
    · simpa using LastOf.here
    · have hf := find_none ‹find s _ = none›
      exact ⟨s.log, [], rfl, by simp, h1, fun q hq e => absurd e (hf q hq)⟩
    · obtain ⟨l1, l2, k1, k2, k3, -⟩ := h1
      exact SweepI.start ha.joined rfl ⟨rfl, l1, l2, k1, k2, k3⟩
    · exact absurd hpc (ho.inf _ _ _)
    · exact LastOf.here
    · exact ⟨_, LastOf.here⟩
    · exact SweepI.start ha.joined rfl ⟨rfl, h1⟩
    · exact SweepI.start ha.joined rfl trivial
    · have := h1.visit (s' := { s with log := s.log ++ [.visit _ _ _ none] }) none rfl rfl
      simpa [SweepI, Pre] using this
    · simpa [SweepI, Pre] using h1
    · rename_i t _ m q rest acc k _
      have := h1.visit (s' := { s with log := s.log ++ [.visit t q m (some (accepts s q m))] }) (some (accepts s q m)) rfl rfl
      simpa [SweepI, Pre] using this
    · exact LastOf.here
  · rw [hoth t ht]
    have h1 := h t
    have htid' : ∀ f ∈ es, f.tid ≠ some t := by
      intro f hf e
      rcases htid f hf with k | k
      · rw [k] at e; cases e
      · rw [k] at e; cases e; exact ht rfl
    cases hpc : s.pc t <;> rw [hpc] at h1 <;> simp only [PcI] at h1 ⊢
    · next p =>
      rw [hid p (ho.own t p (by rw [hpc]; rfl)).1, hes]; exact h1.grow htid'
    · next p =>
      have hp := (ho.own t p (by rw [hpc]; rfl)).1
      rw [hid p hp]
      obtain ⟨l1, l2, k1, k2, k0, k3⟩ := h1
      refine ⟨l1, l2 ++ es, by rw [hes, k1]; simp, ?_, k0, ?_⟩
      · intro f hf
        rcases List.mem_append.1 hf with hf | hf
        · exact k2 f hf
        · exact htid' f hf
      · intro q hq hqp
        have old : q ∈ s.joined → ∃ u, Ev.joined u q ∈ l2 ++ es := by
          intro hq
          rw [hid q (hlt q hq)] at hqp
          obtain ⟨u, hu⟩ := k3 q hq hqp
          exact ⟨u, by simp [hu]⟩
        rcases j1 with k | ⟨q', k, -⟩ | ⟨p', m, acc, kk1, kk2, -⟩
        · rw [k] at hq; exact old hq
        · rw [k] at hq; exact old (List.mem_filter.1 hq).1
        · rw [kk2] at hq
          rcases List.mem_append.1 hq with hq | hq
          · exact old hq
          · simp at hq; subst hq
            refine ⟨a.tid, List.mem_append_right _ ?_⟩
            have := step_joins hs kk1 (by rw [kk2]; intro e; simpa using congrArg List.length e)
            rw [hes] at this
            rw [List.append_cancel_left this]; simp
    · next m rest acc k =>
      have hst := step_steady hl hs (by rw [hpc]; rfl) ht hes
      exact h1.grow hes (fun p e => hid p (ho.own t p (by rw [hpc, e]; rfl)).1) htid' hst
    · next m q rest acc k =>
      have hst := step_steady hl hs (by rw [hpc]; rfl) ht hes
      exact h1.grow hes (fun p e => hid p (ho.own t p (by rw [hpc, e]; rfl)).1) htid' hst
    · rw [hes]; exact h1.grow htid'
    · obtain ⟨q, hq⟩ := h1
      rw [hes]; exact ⟨q, hq.grow htid'⟩
    · rw [hes]; exact h1.grow htid'

end Maf.Route
