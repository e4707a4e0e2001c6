import Verif.Model.Guards
/-
C48: tuple_diff. C49: scope guards and time measurements.
-/
namespace Maf.Guard

@[simp] theorem upd_same {β : Type} (f : Nat → β) (i : Nat) (v : β) : upd f i v i = v := by simp [upd]
theorem upd_other {β : Type} {f : Nat → β} {i j : Nat} {v : β} (h : j ≠ i) : upd f i v j = f j := by simp [upd, h]

/-! ### C48 -/

theorem diff_fold {n : Nat} {α : Fin n → Type} (ne : (i : Fin n) → α i → α i → Bool) (a b : (i : Fin n) → α i) (j : Fin n) :
    ∀ (l : List (Fin n)) (bits : Fin n → Bool), (l.foldl (fun bits i => if ne i (a i) (b i) then fun j => if j = i then true else bits j else bits) bits) j =
      (bits j || (decide (j ∈ l) && ne j (a j) (b j)))
  | [], bits => by simp
  | i :: l, bits => by
    rw [List.foldl_cons, diff_fold ne a b j l]
    by_cases e : j = i
    · subst e
      by_cases h : ne j (a j) (b j) = true <;> simp [h]
    · by_cases h : ne i (a i) (b i) = true <;> simp [h, e]

/-- C48: bit `i` is set iff the `i`-th elements differ. -/
theorem tuple_diff_bits {n : Nat} {α : Fin n → Type} (ne : (i : Fin n) → α i → α i → Bool) (a b : (i : Fin n) → α i) (i : Fin n) :
    tupleDiff ne a b i = ne i (a i) (b i) := by
  unfold tupleDiff
  rw [diff_fold]
  simp

/-- C48: no bit is set iff the tuples are equal, where `!=` of each type is inequality. -/
theorem tuple_diff_zero {n : Nat} {α : Fin n → Type} {ne : (i : Fin n) → α i → α i → Bool} (hne : ∀ i x y, ne i x y = false ↔ x = y) (a b : (i : Fin n) → α i) :
    (∀ i, tupleDiff ne a b i = false) ↔ a = b := by
  constructor
  · intro h
    funext i
    have := h i
    rw [tuple_diff_bits] at this
    exact (hne i _ _).1 this
  · rintro rfl i
    rw [tuple_diff_bits]
    exact (hne i _ _).2 rfl

/-- A case: (1, "a", true) and (1, "b", false). -/
example : let α : Fin 3 → Type := fun i => if i = 0 then Nat else if i = 1 then String else Bool
    let ne : (i : Fin 3) → α i → α i → Bool := fun i => match i with | 0 => fun (x y : Nat) => x != y | 1 => fun (x y : String) => x != y | 2 => fun (x y : Bool) => x != y
    let a : (i : Fin 3) → α i := fun i => match i with | 0 => (1 : Nat) | 1 => "a" | 2 => true
    let b : (i : Fin 3) → α i := fun i => match i with | 0 => (1 : Nat) | 1 => "b" | 2 => false
    (List.finRange 3).map (tupleDiff ne a b) = [false, true, true] := by decide

/-! ### C49: CallOnExit -/

inductive Stage where
  | unmade
  | held (o : Obj)
  | over
deriving DecidableEq

/-- Where callback `f` is: not given to any guard yet, held by guard `o`, or `o` is gone. -/
def stageStep (f : Fn) (st : Stage) : ExitEv → Stage
  | .made o f' => if f' = f then .held o else st
  | .gone o => if st = .held o then .over else st
  | _ => st

def stageIn (l : List ExitEv) (f : Fn) : Stage := l.foldl (stageStep f) .unmade

theorem stageIn_append (a b : List ExitEv) (f : Fn) : stageIn (a ++ b) f = b.foldl (stageStep f) (stageIn a f) := by simp [stageIn]

structure ExitI (s : ExitState) : Prop where
  held : ∀ o f, s.obj o = some f ↔ stageIn s.log f = .held o
  fresh : ∀ f, s.fresh ≤ f → stageIn s.log f = .unmade
  count : ∀ f, s.log.count (.called f) = if stageIn s.log f = .over then 1 else 0

theorem ExitI_step {s s' : ExitState} {a : ExitAct} (h : ExitI s) (hc : ∀ o o', a ≠ .copy o o' ∧ a ≠ .assign o o') (hs : exitStep s a = some s') : ExitI s' := by
  obtain ⟨h1, h2, h3⟩ := h
  cases a with
  | copy o o' => exact absurd rfl (hc o o').1
  | assign o o' => exact absurd rfl (hc o o').2
  | make o =>
    simp only [exitStep] at hs
    split at hs
    · cases hs
    · next hno =>
      have hno : s.obj o = none := by simpa using hno
      cases hs
      have hst : ∀ f, stageIn (s.log ++ [.made o s.fresh]) f = if s.fresh = f then .held o else stageIn s.log f := by
        intro f; rw [stageIn_append]; simp [stageStep]
      refine ⟨fun o' f => ?_, fun f hf => ?_, fun f => ?_⟩
      · simp only [hst]
        by_cases e : s.fresh = f
        · subst e
          simp only [if_true]
          by_cases e' : o' = o
          · subst e'; simp
          · rw [upd_other e']
            constructor
            · intro k; rw [h1, h2 _ (Nat.le_refl _)] at k; cases k
            · intro k; cases k; exact absurd rfl e'
        · rw [if_neg e]
          by_cases e' : o' = o
          · subst e'
            rw [upd_same, ← h1, hno]
            simp [e]
          · rw [upd_other e']; exact h1 o' f
      · simp only [hst]
        simp only at hf
        rw [if_neg (Nat.ne_of_lt hf)]; exact h2 f (Nat.le_of_succ_le hf)
      · simp only [hst, List.count_append, List.count_singleton]
        rw [h3]
        by_cases e : s.fresh = f
        · subst e; simp [h2 _ (Nat.le_refl _)]
        · simp [e]
  | destroy o =>
    simp only [exitStep] at hs
    split at hs
    · cases hs
    · next f0 hf0 =>
      cases hs
      have hst : ∀ f, stageIn (s.log ++ [.called f0, .gone o]) f = if stageIn s.log f = .held o then .over else stageIn s.log f := by
        intro f; rw [stageIn_append]; simp [stageStep]
      have hheld : ∀ f, stageIn s.log f = .held o ↔ f = f0 := by
        intro f; rw [← h1, hf0]; simp [eq_comm]
      refine ⟨fun o' f => ?_, fun f hf => ?_, fun f => ?_⟩
      · simp only [hst]
        by_cases e' : o' = o
        · subst e'
          rw [upd_same]
          by_cases k : stageIn s.log f = .held o' <;> simp [k]
        · rw [upd_other e', h1]
          by_cases k : stageIn s.log f = .held o
          · simp [k, Ne.symm e']
          · simp [k]
      · simp only [hst]
        rw [if_neg (by rw [h2 f hf]; simp)]; exact h2 f hf
      · simp only [hst, List.count_append]
        rw [h3]
        by_cases k : f = f0
        · subst k; simp [(hheld f).2 rfl]
        · have hk : ¬ stageIn s.log f = .held o := fun e => k ((hheld f).1 e)
          simp [hk, List.count_cons, Ne.symm k]

/-- C49: without copies and assignments, every function given to a guard has been called exactly once when the guard is gone, and
not at all before. -/
theorem exit_once_partial {as : List ExitAct} {s : ExitState} (hr : exitRun exitInit as = some s) (hc : ∀ o o', .copy o o' ∉ as ∧ .assign o o' ∉ as) (f : Fn) :
    s.log.count (.called f) = if stageIn s.log f = .over then 1 else 0 := by
  suffices ∀ as s0, (∀ o o', .copy o o' ∉ as ∧ .assign o o' ∉ as) → ExitI s0 → exitRun s0 as = some s → ExitI s from
    (this as exitInit hc ⟨by simp [exitInit, stageIn], by simp [exitInit, stageIn], by simp [exitInit, stageIn]⟩ hr).count f
  intro as
  induction as with
  | nil => intro s0 _ h e; simp only [exitRun] at e; cases e; exact h
  | cons a as ih =>
    intro s0 hc h e
    simp only [exitRun] at e
    cases hst : exitStep s0 a with
    | none => rw [hst] at e; cases e
    | some s1 =>
      rw [hst] at e
      refine ih s1 (fun o o' => ?_) (ExitI_step h (fun o o' => ?_) hst) e
      · have := hc o o'; simp at this; exact ⟨this.1.2, this.2.2⟩
      · have := hc o o'; simp at this; exact ⟨fun k => this.1.1 k.symm, fun k => this.2.1 k.symm⟩

/-- In general not: a copied guard calls its function twice. -/
theorem exit_copied_twice : ∃ s, exitRun exitInit [.make 0, .copy 1 0, .destroy 1, .destroy 0] = some s ∧ s.log.count (.called 0) = 2 := ⟨_, rfl, rfl⟩

/-- After an assignment one function is called twice and the other one never, and all guards are gone. -/
theorem exit_assigned_lost : ∃ s, exitRun exitInit [.make 0, .make 1, .assign 0 1, .destroy 1, .destroy 0] = some s ∧
    s.log.count (.called 0) = 0 ∧ s.log.count (.called 1) = 2 ∧ ∀ o, s.obj o = none := by
  refine ⟨_, rfl, rfl, rfl, fun o => ?_⟩
  simp only [upd]
  split
  · rfl
  · split <;> rfl

example : ∃ s, exitRun exitInit [.make 0, .make 1, .destroy 1] = some s ∧ stageIn s.log 1 = .over ∧ stageIn s.log 0 = .held 0 := ⟨_, rfl, rfl, rfl⟩

/-! ### C49: TimeMeasurement -/

/-- The objects an action operates on. -/
def TimeAct.objs : TimeAct → List Obj
  | .make o | .makeEmpty o | .stop o | .abort o | .destroy o => [o]
  | .moveInit o o' | .moveAssign o o' => [o, o']
  | .ret => []

/-- No object is operated on while its own callback is running. -/
def Quiet (s : TimeState) : List TimeAct → Prop
  | [] => True
  | a :: as => (∀ o ∈ a.objs, ∀ b, (o, b) ∉ s.stack) ∧ ∀ s', timeStep s a = some s' → Quiet s' as

/-- What has become of callback `f`: how often it was reported, aborted, overwritten. -/
def ends (l : List TimeEv) (f : Fn) : Nat := l.count (.reported f) + l.count (.aborted f) + l.count (.overwritten f)

theorem ends_append (a b : List TimeEv) (f : Fn) : ends (a ++ b) f = ends a f + ends b f := by simp [ends]; omega

theorem ifc {P Q : Prop} {dP : Decidable P} {dQ : Decidable Q} (h : P ↔ Q) : (if P then 1 else 0 : Nat) = if Q then 1 else 0 := by
  by_cases p : P
  · rw [if_pos p, if_pos (h.1 p)]
  · rw [if_neg p, if_neg fun q => p (h.2 q)]

open scoped Classical in
structure TimeI (s : TimeState) : Prop where
  inj : ∀ o o' f, s.obj o = some (some f) → s.obj o' = some (some f) → o = o'
  fresh : ∀ o f, s.obj o = some (some f) → f < s.fresh
  running : ∀ o b, (o, b) ∈ s.stack → ∃ f, s.obj o = some (some f)
  nodup : (s.stack.map Prod.fst).Nodup
  ends : ∀ f, ends s.log f = if f < s.fresh ∧ ∀ o, s.obj o = some (some f) → ∃ b, (o, b) ∈ s.stack then 1 else 0

theorem timeI_push {s : TimeState} {o : Obj} {b : Bool} {f0 : Fn} (h : TimeI s) (hns : ∀ b, (o, b) ∉ s.stack) (hf0 : s.obj o = some (some f0)) :
    TimeI { s with stack := (o, b) :: s.stack, log := s.log ++ [.reported f0] } := by
  obtain ⟨h1, h2, h3, h4, h5⟩ := h
  refine ⟨h1, h2, fun a b' hab => ?_, ?_, fun f => ?_⟩
  · rcases List.mem_cons.1 hab with e | hab
    · cases e; exact ⟨f0, hf0⟩
    · exact h3 a b' hab
  · rw [List.map_cons, List.nodup_cons]
    refine ⟨fun hm => ?_, h4⟩
    obtain ⟨⟨x, b'⟩, hx, rfl⟩ := List.mem_map.1 hm
    exact hns b' hx
  · simp only [ends_append]
    rw [h5]
    by_cases e : f = f0
    · subst e
      have e2 : ¬ (f < s.fresh ∧ ∀ o, s.obj o = some (some f) → ∃ b, (o, b) ∈ s.stack) := by
        rintro ⟨-, k⟩; obtain ⟨b, hb⟩ := k o hf0; exact hns b hb
      rw [if_neg e2, if_pos]
      · simp [Guard.ends]
      · refine ⟨h2 o f hf0, fun x hx => ?_⟩
        rw [h1 x o f hx hf0]
        exact ⟨b, by simp⟩
    · have e1 : Guard.ends [TimeEv.reported f0] f = 0 := by simp [Guard.ends, List.count_cons, Ne.symm e]
      rw [e1, Nat.add_zero]
      refine ifc ?_
      refine (and_congr_right fun _ => ⟨fun k x hx => ?_, fun k x hx => ?_⟩)
      · obtain ⟨b, hb⟩ := k x hx; exact ⟨b, by simp [hb]⟩
      · obtain ⟨b', hb⟩ := k x hx
        rcases List.mem_cons.1 hb with e' | hb
        · cases e'; rw [hf0] at hx; simp at hx; exact absurd hx.symm e
        · exact ⟨b', hb⟩

/-- An object's callback is cleared, or the object goes, in the cases where that changes no count: it has none, or it is on top of the stack. -/
theorem timeI_clear {s : TimeState} {o : Obj} {v : Option (Option Fn)} {fs : List (Obj × Bool)} {es : List TimeEv} (h : TimeI s) (hv : v = none ∨ v = some none)
    (hst : ∃ b, s.stack = (o, b) :: fs) (hes : ∀ f, ends es f = 0) : TimeI { s with stack := fs, obj := upd s.obj o v, log := s.log ++ es } := by
  obtain ⟨h1, h2, h3, h4, h5⟩ := h
  obtain ⟨b0, hst⟩ := hst
  have hob : ∀ x f, upd s.obj o v x = some (some f) ↔ x ≠ o ∧ s.obj x = some (some f) := by
    intro x f
    by_cases e : x = o
    · subst e; rcases hv with rfl | rfl <;> simp
    · simp [upd_other e, e]
  rw [hst] at h4
  have h4' := List.nodup_cons.1 h4
  refine ⟨fun a b f ha hb => h1 a b f ((hob a f).1 ha).2 ((hob b f).1 hb).2, fun a f ha => h2 a f ((hob a f).1 ha).2, fun a b hab => ?_, h4'.2, fun f => ?_⟩
  · obtain ⟨f, hf⟩ := h3 a b (by rw [hst]; simp [show (a, b) ∈ fs from hab])
    refine ⟨f, (hob a f).2 ⟨?_, hf⟩⟩
    rintro rfl
    exact h4'.1 (List.mem_map.2 ⟨_, hab, rfl⟩)
  · simp only [ends_append]
    rw [h5, hes, Nat.add_zero]
    refine ifc ?_
    simp only [hob]
    refine (and_congr_right fun _ => ⟨fun k x hx => ?_, fun k x hx => ?_⟩)
    · obtain ⟨b, hb⟩ := k x hx.2
      rw [hst] at hb
      rcases List.mem_cons.1 hb with e | hb
      · cases e; exact absurd rfl hx.1
      · exact ⟨b, hb⟩
    · by_cases e : x = o
      · subst e; exact ⟨b0, by rw [hst]; simp⟩
      · obtain ⟨b, hb⟩ := k x ⟨e, hx⟩; exact ⟨b, by rw [hst]; simp [hb]⟩

theorem TimeI_step {s s' : TimeState} {a : TimeAct} (h : TimeI s) (hq : ∀ o ∈ a.objs, ∀ b, (o, b) ∉ s.stack) (hs : timeStep s a = some s') : TimeI s' := by
  obtain ⟨h1, h2, h3, h4, h5⟩ := h
  cases a with
  | make o =>
    simp only [timeStep] at hs
    split at hs
    · cases hs
    · next hno =>
      have hno : s.obj o = none := by simpa using hno
      have hns := hq o (by simp [TimeAct.objs])
      cases hs
      have hob : ∀ o' f, upd s.obj o (some (some s.fresh)) o' = some (some f) ↔ (o' = o ∧ f = s.fresh) ∨ s.obj o' = some (some f) := by
        intro o' f
        by_cases e : o' = o
        · subst e; simp [hno, eq_comm]
        · simp [upd_other e, e]
      refine ⟨fun a b f ha hb => ?_, fun a f ha => ?_, fun a b hab => ?_, h4, fun f => ?_⟩
      · rw [hob] at ha hb
        rcases ha with ⟨rfl, rfl⟩ | ha <;> rcases hb with ⟨rfl, hf⟩ | hb
        · rfl
        · exact absurd (h2 _ _ hb) (Nat.lt_irrefl _)
        · subst hf; exact absurd (h2 _ _ ha) (Nat.lt_irrefl _)
        · exact h1 a b f ha hb
      · rw [hob] at ha
        rcases ha with ⟨rfl, rfl⟩ | ha
        · exact Nat.lt_succ_self _
        · exact Nat.lt_succ_of_lt (h2 _ _ ha)
      · obtain ⟨f, hf⟩ := h3 a b hab
        exact ⟨f, (hob a f).2 (.inr hf)⟩
      · simp only [ends_append]
        have : Guard.ends [TimeEv.made o s.fresh] f = 0 := by simp [Guard.ends]
        rw [this, h5]
        rw [Nat.add_zero]
        refine ifc ?_
        simp only [hob]
        by_cases e : f = s.fresh
        · subst e
          constructor
          · intro k; exact absurd k.1 (Nat.lt_irrefl _)
          · intro k; obtain ⟨b, hb⟩ := k.2 o (.inl ⟨rfl, rfl⟩); exact absurd hb (hns b)
        · have e1 : f < s.fresh + 1 ↔ f < s.fresh := ⟨fun k => Nat.lt_of_le_of_ne (Nat.le_of_lt_succ k) e, Nat.lt_succ_of_lt⟩
          simp [e, e1]
  | makeEmpty o =>
    simp only [timeStep] at hs
    split at hs
    · cases hs
    · next hno =>
      have hno : s.obj o = none := by simpa using hno
      cases hs
      have hob : ∀ o' f, upd s.obj o (some none) o' = some (some f) ↔ s.obj o' = some (some f) := by
        intro o' f
        by_cases e : o' = o
        · subst e; simp [hno]
        · simp [upd_other e]
      exact ⟨fun a b f => by rw [hob, hob]; exact h1 a b f, fun a f => by rw [hob]; exact h2 a f, fun a b hab => by
        obtain ⟨f, hf⟩ := h3 a b hab; exact ⟨f, (hob a f).2 hf⟩, h4, fun f => (h5 f).trans (ifc (by simp only [hob]))⟩
  | moveInit o o' =>
    simp only [timeStep] at hs
    split at hs
    · next c ho ho' =>
      cases hs
      have hne : o ≠ o' := by rintro rfl; rw [ho] at ho'; cases ho'
      have hns := hq o (by simp [TimeAct.objs])
      have hns' := hq o' (by simp [TimeAct.objs])
      have hob : ∀ x f, upd (upd s.obj o' (some none)) o (some c) x = some (some f) ↔ (x = o ∧ c = some f) ∨ (x ≠ o ∧ x ≠ o' ∧ s.obj x = some (some f)) := by
        intro x f
        by_cases e : x = o
        · subst e; simp
        · rw [upd_other e]
          by_cases e' : x = o'
          · subst e'; simp [e]
          · rw [upd_other e']; simp [e, e']
      refine ⟨fun a b f ha hb => ?_, fun a f ha => ?_, fun a b hab => ?_, h4, fun f => ?_⟩
      · rw [hob] at ha hb
        rcases ha with ⟨rfl, ha⟩ | ⟨k1, k2, ha⟩ <;> rcases hb with ⟨rfl, hb⟩ | ⟨m1, m2, hb⟩
        · rfl
        · exact absurd (h1 _ _ f (by rw [ho', ha]) hb) (Ne.symm m2)
        · exact absurd (h1 _ _ f ha (by rw [ho', hb])) k2
        · exact h1 a b f ha hb
      · rw [hob] at ha
        rcases ha with ⟨rfl, ha⟩ | ⟨k1, k2, ha⟩
        · exact h2 o' f (by rw [ho', ha])
        · exact h2 a f ha
      · obtain ⟨f, hf⟩ := h3 a b hab
        refine ⟨f, (hob a f).2 (.inr ⟨?_, ?_, hf⟩)⟩
        · rintro rfl; exact hns b hab
        · rintro rfl; exact hns' b hab
      · simp only [hob]
        rw [h5]
        refine ifc ?_
        simp only [hob]
        refine (and_congr_right fun _ => ⟨fun k x hx => ?_, fun k x hx => ?_⟩)
        · rcases hx with ⟨rfl, hx⟩ | ⟨_, _, hx⟩
          · obtain ⟨b, hb⟩ := k o' (by rw [ho', hx]); exact absurd hb (hns' b)
          · exact k x hx
        · by_cases e : x = o
          · subst e; rw [ho] at hx; cases hx
          · by_cases e' : x = o'
            · subst e'; rw [ho'] at hx; obtain ⟨b, hb⟩ := k o (.inl ⟨rfl, by simpa using hx⟩); exact absurd hb (hns b)
            · exact k x (.inr ⟨e, e', hx⟩)
    · cases hs
  | moveAssign o o' =>
    simp only [timeStep] at hs
    split at hs
    · next c c' ho ho' =>
      split at hs
      · cases hs; exact ⟨h1, h2, h3, h4, h5⟩
      · next hne =>
        cases hs
        have hns := hq o (by simp [TimeAct.objs])
        have hns' := hq o' (by simp [TimeAct.objs])
        have hob : ∀ x f, upd (upd s.obj o' (some none)) o (some c') x = some (some f) ↔ (x = o ∧ c' = some f) ∨ (x ≠ o ∧ x ≠ o' ∧ s.obj x = some (some f)) := by
          intro x f
          by_cases e : x = o
          · subst e; simp
          · rw [upd_other e]
            by_cases e' : x = o'
            · subst e'; simp [e]
            · rw [upd_other e']; simp [e, e']
        refine ⟨fun a b f ha hb => ?_, fun a f ha => ?_, fun a b hab => ?_, h4, fun f => ?_⟩
        · rw [hob] at ha hb
          rcases ha with ⟨rfl, ha⟩ | ⟨k1, k2, ha⟩ <;> rcases hb with ⟨rfl, hb⟩ | ⟨m1, m2, hb⟩
          · rfl
          · exact absurd (h1 _ _ f (by rw [ho', ha]) hb) (Ne.symm m2)
          · exact absurd (h1 _ _ f ha (by rw [ho', hb])) k2
          · exact h1 a b f ha hb
        · rw [hob] at ha
          rcases ha with ⟨rfl, ha⟩ | ⟨k1, k2, ha⟩
          · exact h2 o' f (by rw [ho', ha])
          · exact h2 a f ha
        · obtain ⟨f, hf⟩ := h3 a b hab
          refine ⟨f, (hob a f).2 (.inr ⟨?_, ?_, hf⟩)⟩
          · rintro rfl; exact hns b hab
          · rintro rfl; exact hns' b hab
        · simp only [ends_append]
          rw [h5]
          by_cases ec : c = some f
          · subst ec
            have e1 : Guard.ends ((some f).map TimeEv.overwritten).toList f = 1 := by simp [Guard.ends]
            have e2 : ¬ (f < s.fresh ∧ ∀ o, s.obj o = some (some f) → ∃ b, (o, b) ∈ s.stack) := by
              rintro ⟨-, k⟩; obtain ⟨b, hb⟩ := k o ho; exact hns b hb
            rw [e1, if_neg e2, if_pos]
            refine ⟨h2 o f ho, fun x hx => ?_⟩
            rw [hob] at hx
            rcases hx with ⟨rfl, hx⟩ | ⟨k1, k2, hx⟩
            · exact absurd (h1 _ _ f ho (by rw [ho', hx])) hne
            · exact absurd (h1 _ _ f hx ho) k1
          · have e1 : Guard.ends (c.map TimeEv.overwritten).toList f = 0 := by
              cases c with
              | none => simp [Guard.ends]
              | some g => have : ¬ g = f := fun e => ec (by rw [e]); simp [Guard.ends, List.count_cons, this]
            rw [e1, Nat.add_zero]
            refine ifc ?_
            simp only [hob]
            refine (and_congr_right fun _ => ⟨fun k x hx => ?_, fun k x hx => ?_⟩)
            · rcases hx with ⟨rfl, hx⟩ | ⟨_, _, hx⟩
              · obtain ⟨b, hb⟩ := k o' (by rw [ho', hx]); exact absurd hb (hns' b)
              · exact k x hx
            · by_cases e : x = o
              · subst e; rw [ho] at hx; exact absurd (by simpa using hx) ec
              · by_cases e' : x = o'
                · subst e'; rw [ho'] at hx; obtain ⟨b, hb⟩ := k o (.inl ⟨rfl, by simpa using hx⟩); exact absurd hb (hns b)
                · exact k x (.inr ⟨e, e', hx⟩)
    · cases hs
  | stop o =>
    simp only [timeStep] at hs
    have hns := hq o (by simp [TimeAct.objs])
    split at hs
    · cases hs
    · cases hs; exact ⟨h1, h2, h3, h4, h5⟩
    · next f0 hf0 =>
      cases hs
      exact timeI_push ⟨h1, h2, h3, h4, h5⟩ hns hf0
  | destroy o =>
    simp only [timeStep] at hs
    have hns := hq o (by simp [TimeAct.objs])
    split at hs
    · cases hs
    · next ho =>
      cases hs
      have hob : ∀ o' f, upd s.obj o none o' = some (some f) ↔ s.obj o' = some (some f) := by
        intro o' f
        by_cases e : o' = o
        · subst e; simp [ho]
        · simp [upd_other e]
      exact ⟨fun a b f => by rw [hob, hob]; exact h1 a b f, fun a f => by rw [hob]; exact h2 a f, fun a b hab => by
        obtain ⟨f, hf⟩ := h3 a b hab; exact ⟨f, (hob a f).2 hf⟩, h4, fun f => by
        simp only [ends_append]; rw [h5]
        have e1 : Guard.ends [TimeEv.gone o] f = 0 := by simp [Guard.ends]
        rw [e1]; exact ifc (by simp only [hob])⟩
    · next f0 hf0 =>
      cases hs
      exact timeI_push ⟨h1, h2, h3, h4, h5⟩ hns hf0
  | abort o =>
    simp only [timeStep] at hs
    have hns := hq o (by simp [TimeAct.objs])
    split at hs
    · cases hs
    · next c ho =>
      cases hs
      have hob : ∀ x f, upd s.obj o (some none) x = some (some f) ↔ x ≠ o ∧ s.obj x = some (some f) := by
        intro x f
        by_cases e : x = o
        · subst e; simp
        · simp [upd_other e, e]
      refine ⟨fun a b f ha hb => h1 a b f ((hob a f).1 ha).2 ((hob b f).1 hb).2, fun a f ha => h2 a f ((hob a f).1 ha).2, fun a b hab => ?_, h4, fun f => ?_⟩
      · obtain ⟨f, hf⟩ := h3 a b hab
        refine ⟨f, (hob a f).2 ⟨?_, hf⟩⟩
        rintro rfl; exact hns b hab
      · simp only [ends_append]
        rw [h5]
        by_cases ec : c = some f
        · subst ec
          have e1 : Guard.ends ((some f).map TimeEv.aborted).toList f = 1 := by simp [Guard.ends]
          have e2 : ¬ (f < s.fresh ∧ ∀ o, s.obj o = some (some f) → ∃ b, (o, b) ∈ s.stack) := by
            rintro ⟨-, k⟩; obtain ⟨b, hb⟩ := k o ho; exact hns b hb
          rw [e1, if_neg e2, if_pos]
          exact ⟨h2 o f ho, fun x hx => absurd (h1 _ _ f ((hob x f).1 hx).2 ho) ((hob x f).1 hx).1⟩
        · have e1 : Guard.ends (c.map TimeEv.aborted).toList f = 0 := by
            cases c with
            | none => simp [Guard.ends]
            | some g => have : ¬ g = f := fun e => ec (by rw [e]); simp [Guard.ends, List.count_cons, this]
          rw [e1, Nat.add_zero]
          refine ifc ?_
          simp only [hob]
          refine (and_congr_right fun _ => ⟨fun k x hx => k x hx.2, fun k x hx => k x ⟨?_, hx⟩⟩)
          rintro rfl
          rw [ho] at hx; exact ec (by simpa using hx)
  | ret =>
    simp only [timeStep] at hs
    split at hs
    · cases hs
    · next o b fs hst =>
      split at hs
      · cases hs
      · split at hs
        · cases hs
          exact timeI_clear ⟨h1, h2, h3, h4, h5⟩ (.inl rfl) ⟨b, hst⟩ (fun f => by simp [Guard.ends])
        · cases hs
          simpa using timeI_clear (es := []) ⟨h1, h2, h3, h4, h5⟩ (v := some none) (.inr rfl) ⟨b, hst⟩ (fun f => by simp [Guard.ends])

theorem reach_time {as : List TimeAct} {s : TimeState} (hr : timeRun timeInit as = some s) (hq : Quiet timeInit as) : TimeI s := by
  suffices ∀ as s0, TimeI s0 → Quiet s0 as → timeRun s0 as = some s → TimeI s from
    this as timeInit ⟨by simp [timeInit], by simp [timeInit], by simp [timeInit], by simp [timeInit], by simp [timeInit, ends]⟩ hq hr
  intro as
  induction as with
  | nil => intro s0 h _ e; simp only [timeRun] at e; cases e; exact h
  | cons a as ih =>
    intro s0 h hq e
    simp only [timeRun] at e
    cases hst : timeStep s0 a with
    | none => rw [hst] at e; cases e
    | some s1 => rw [hst] at e; exact ih s1 (TimeI_step h hq.1 hst) (hq.2 s1 hst) e

/-- C49: if no measurement is operated on from its own callback, each callback is reported at most once, and never if it was
aborted. -/
theorem time_at_most_once_partial {as : List TimeAct} {s : TimeState} (hr : timeRun timeInit as = some s) (hq : Quiet timeInit as) (f : Fn) :
    s.log.count (.reported f) ≤ 1 ∧ (.aborted f ∈ s.log → .reported f ∉ s.log) := by
  have := (reach_time hr hq).ends f
  have hle : ends s.log f ≤ 1 := by rw [this]; split <;> omega
  unfold ends at hle
  refine ⟨by omega, fun ha hr => ?_⟩
  have h1 := List.count_pos_iff.2 ha
  have h2 := List.count_pos_iff.2 hr
  omega

/-- C49: and once all measurements are gone, each callback that was given to one has been reported exactly once, unless it was aborted or a
move assignment has overwritten it. -/
theorem time_exactly_once_partial {as : List TimeAct} {s : TimeState} (hr : timeRun timeInit as = some s) (hq : Quiet timeInit as) (hgone : ∀ o, s.obj o = none) {f : Fn} (hf : f < s.fresh)
    (ha : .aborted f ∉ s.log) (ho : .overwritten f ∉ s.log) : s.log.count (.reported f) = 1 := by
  have := (reach_time hr hq).ends f
  rw [if_pos ⟨hf, fun o h => by rw [hgone] at h; cases h⟩] at this
  unfold ends at this
  rw [List.count_eq_zero_of_not_mem ha, List.count_eq_zero_of_not_mem ho] at this
  omega

/-- In general not: a callback that calls `stop` on its own measurement is called again. -/
theorem time_twice : ∃ s, timeRun timeInit [.make 0, .stop 0, .stop 0] = some s ∧ s.log.count (.reported 0) = 2 := ⟨_, rfl, rfl⟩

/-- And a move assignment onto a measurement that has not reported yet loses its report, though it was not aborted. -/
theorem time_lost : ∃ s, timeRun timeInit [.make 0, .make 1, .moveAssign 0 1, .destroy 1, .destroy 0, .ret] = some s ∧
    s.log.count (.reported 0) = 0 ∧ s.log.count (.reported 1) = 1 ∧ .aborted 0 ∉ s.log ∧ s.stack = [] := ⟨_, rfl, rfl, rfl, by decide, rfl⟩

/-- The hypotheses are met: a move, a report by `stop`, an abort, a report at the end. -/
example : ∃ s, timeRun timeInit [.make 0, .moveInit 1 0, .stop 1, .make 2, .ret, .abort 2, .make 3, .destroy 3, .ret, .destroy 0, .destroy 1, .destroy 2] = some s ∧
    Quiet timeInit [.make 0, .moveInit 1 0, .stop 1, .make 2, .ret, .abort 2, .make 3, .destroy 3, .ret, .destroy 0, .destroy 1, .destroy 2] ∧
    s.log = [.made 0 0, .reported 0, .made 2 1, .aborted 1, .made 3 2, .reported 2, .gone 3, .gone 0, .gone 1, .gone 2] := by
  refine ⟨_, rfl, ?_, rfl⟩
  simp [Quiet, TimeAct.objs, timeStep, timeInit, upd]

end Maf.Guard
