import Verif.Model.Runnable
import Verif.Props.ThreadPool
import Verif.Lemmas.Hist

/-!
# C109: objects handed to a pool are used while they live, and deleted if they asked for it
-/

namespace Maf
namespace Life
open Maf.Pool (PEv State Act init run step held notYetRun beingRun listed ranL doneRunL doneQueuedL tookL NoPushInFlight)
open Maf.Q (Tid Kind entries)
set_option linter.unusedSectionVars false
variable {α : Type} [DecidableEq α]

/-! ## Specification -/

/-- The objects among these tasks that want to be deleted by the pool, in order. -/
def wanting (ptr : α → Option Nat) (flag : Flags) (xs : List α) : List Nat :=
  (xs.filterMap ptr).filter fun p => flag p == some true

/-- Every object given to the pool has its flag set, and none that wants to be deleted was given to it twice. -/
structure GoodUse (ptr : α → Option Nat) (flag : Flags) (xs : List α) : Prop where
  set : ∀ x ∈ xs, ∀ p, ptr x = some p → flag p ≠ none
  once : (wanting ptr flag xs).Nodup

/-- The task an event of the pool calls a function on, and whether that function is `done`. -/
def called : PEv α → Option (α × Bool)
  | .took _ _ => none
  | .ran _ x => some (x, false)
  | .stopped x => some (x, false)
  | .doneRun _ x => some (x, true)
  | .doneQueued x => some (x, true)

/-- Object `p` has been deleted: it asked for it, and the pool is done with it. -/
def DeletedIn (ptr : α → Option Nat) (flag : Flags) (l : List (PEv α)) (p : Nat) : Prop :=
  flag p = some true ∧ ∃ e ∈ l, ∃ x, called e = some (x, true) ∧ ptr x = some p

/-- No function is called on a deleted object, and `done` on none whose flag was not set. -/
def Safe (ptr : α → Option Nat) (flag : Flags) (log : List (PEv α)) : Prop :=
  ∀ l e r x b p, log = l ++ e :: r → called e = some (x, b) → ptr x = some p →
    ¬DeletedIn ptr flag l p ∧ (b = true → flag p ≠ none)

/-- The task worker `t` runs at the moment. -/
def Runs (s : State α) (t : Tid) (x : α) : Prop := s.w t = .running x

/-! ## Lemmas -/

variable {ptr : α → Option Nat} {flag : Flags}

theorem wanting_append (xs ys : List α) : wanting ptr flag (xs ++ ys) = wanting ptr flag xs ++ wanting ptr flag ys := by
  simp [wanting]

theorem wanting_perm {xs ys : List α} (h : xs.Perm ys) : (wanting ptr flag xs).Perm (wanting ptr flag ys) :=
  (h.filterMap _).filter _

theorem mem_wanting {xs : List α} {p : Nat} :
    p ∈ wanting ptr flag xs ↔ flag p = some true ∧ ∃ x ∈ xs, ptr x = some p := by
  simp [wanting]; exact and_comm

theorem replay_append (d : List Nat) (l m : List (PEv α)) :
    replay ptr flag d (l ++ m) = (replay ptr flag d l).bind fun d' => replay ptr flag d' m := by
  induction l generalizing d with
  | nil => rfl
  | cons e l ih =>
    simp only [List.cons_append, replay]
    cases event ptr flag d e with
    | none => rfl
    | some d1 => exact ih d1

/-- `event` in terms of the function called. -/
theorem event_called (d : List Nat) (e : PEv α) : event ptr flag d e =
    match called e with
    | none => some d
    | some (x, false) => touch d (ptr x)
    | some (x, true) => finish flag d (ptr x) := by
  cases e <;> rfl

/-- The replay succeeds exactly for the safe logs. -/
theorem replay_iff (log : List (PEv α)) : ∀ d : List Nat, (∃ d', replay ptr flag d log = some d') ↔
    ∀ l e r x b p, log = l ++ e :: r → called e = some (x, b) → ptr x = some p →
      p ∉ d ∧ ¬DeletedIn ptr flag l p ∧ (b = true → flag p ≠ none) := by
  induction log with
  | nil => intro d; simp [replay]
  | cons e0 es ih =>
    intro d
    -- one event that succeeds with `d1` and the rest
    have key : ∀ d1, event ptr flag d e0 = some d1 → (∀ p, p ∈ d1 ↔ p ∈ d ∨ DeletedIn ptr flag [e0] p) →
        (∀ x b p, called e0 = some (x, b) → ptr x = some p → p ∉ d ∧ (b = true → flag p ≠ none)) →
        ((∃ d', replay ptr flag d (e0 :: es) = some d') ↔ ∀ l e r x b p, e0 :: es = l ++ e :: r → called e = some (x, b) →
          ptr x = some p → p ∉ d ∧ ¬DeletedIn ptr flag l p ∧ (b = true → flag p ≠ none)) := by
      intro d1 h1 hm hf
      simp only [replay, h1]
      rw [ih d1]
      constructor
      · intro h l e r x b p hl hc hp
        cases l with
        | nil =>
          simp only [List.nil_append, List.cons.injEq] at hl
          obtain ⟨rfl, -⟩ := hl
          obtain ⟨a, b⟩ := hf x b p hc hp
          exact ⟨a, fun ⟨_, _, hx, _⟩ => (List.not_mem_nil hx), b⟩
        | cons a l =>
          simp only [List.cons_append, List.cons.injEq] at hl
          obtain ⟨rfl, hl⟩ := hl
          obtain ⟨h1, h2, h3⟩ := h l e r x b p hl hc hp
          rw [hm] at h1
          refine ⟨fun h => h1 (.inl h), ?_, h3⟩
          rintro ⟨hfl, y, hy, z, hz⟩
          rcases List.mem_cons.1 hy with rfl | hy
          · exact h1 (.inr ⟨hfl, y, by simp, z, hz⟩)
          · exact h2 ⟨hfl, y, hy, z, hz⟩
      · intro h l e r x b p hl hc hp
        obtain ⟨h1, h2, h3⟩ := h (e0 :: l) e r x b p (by rw [hl]; rfl) hc hp
        refine ⟨?_, ?_, h3⟩
        · rw [hm]
          rintro (h | ⟨hfl, y, hy, z, hz⟩)
          · exact h1 h
          · simp at hy; subst hy; exact h2 ⟨hfl, y, by simp, z, hz⟩
        · rintro ⟨hfl, y, hy, z, hz⟩
          exact h2 ⟨hfl, y, by simp [hy], z, hz⟩
    have bad : event ptr flag d e0 = none → (∃ x b p, called e0 = some (x, b) ∧ ptr x = some p ∧ (p ∈ d ∨ (b = true ∧ flag p = none))) →
        ((∃ d', replay ptr flag d (e0 :: es) = some d') ↔ ∀ l e r x b p, e0 :: es = l ++ e :: r → called e = some (x, b) →
          ptr x = some p → p ∉ d ∧ ¬DeletedIn ptr flag l p ∧ (b = true → flag p ≠ none)) := by
      rintro h1 ⟨x, b, p, hc, hp, hb⟩
      simp only [replay, h1]
      constructor
      · rintro ⟨_, h⟩; cases h
      · intro h
        obtain ⟨a, -, c⟩ := h [] e0 es x b p rfl hc hp
        rcases hb with hb | ⟨hb, hf⟩
        · exact absurd hb a
        · exact absurd hf (c hb)
    have hev := event_called (ptr := ptr) (flag := flag) d e0
    have nodel : (∀ x p, called e0 = some (x, true) → ptr x = some p → flag p ≠ some true) → ∀ p, p ∈ d ↔ p ∈ d ∨ DeletedIn ptr flag [e0] p := by
      intro h p
      refine ⟨.inl, ?_⟩
      rintro (h' | ⟨hfl, y, hy, z, hz, hzp⟩)
      · exact h'
      · simp at hy; subst hy; exact absurd hfl (h z p hz hzp)
    cases hc : called e0 with
    | none =>
      rw [hc] at hev
      exact key d hev (nodel fun x p h => by rw [hc] at h; cases h) (fun x b p h => by rw [hc] at h; cases h)
    | some y =>
      obtain ⟨x, b⟩ := y
      rw [hc] at hev
      cases hp : ptr x with
      | none =>
        have hev' : event ptr flag d e0 = some d := by rw [hev]; cases b <;> simp [hp, touch, finish]
        exact key d hev' (nodel fun y p h hq => by rw [hc] at h; cases h; rw [hp] at hq; cases hq)
          (fun y b p h hq => by rw [hc] at h; cases h; rw [hp] at hq; cases hq)
      | some p =>
        by_cases hd : p ∈ d
        · refine bad ?_ ⟨x, b, p, hc, hp, .inl hd⟩
          rw [hev]; cases b <;> simp [hp, touch, finish, hd]
        · cases b with
          | false =>
            have hev' : event ptr flag d e0 = some d := by rw [hev]; simp [hp, touch, hd]
            refine key d hev' (nodel fun y p h hq => by rw [hc] at h; cases h) ?_
            intro y b q h hq
            rw [hc] at h; cases h; rw [hp] at hq; cases hq
            exact ⟨hd, fun h => by cases h⟩
          | true =>
            have got : ∀ y b q, called e0 = some (y, b) → ptr y = some q → y = x ∧ b = true ∧ q = p := by
              intro y b q h hq
              rw [hc] at h; cases h; rw [hp] at hq; cases hq; exact ⟨rfl, rfl, rfl⟩
            cases hf : flag p with
            | none =>
              exact bad (by rw [hev]; simp [hp, finish, hd, hf]) ⟨x, true, p, hc, hp, .inr ⟨rfl, hf⟩⟩
            | some v =>
              cases v with
              | false =>
                have hev' : event ptr flag d e0 = some d := by rw [hev]; simp [hp, finish, hd, hf]
                refine key d hev' (nodel fun y q h hq => ?_) ?_
                · obtain ⟨-, -, rfl⟩ := got y true q h hq; rw [hf]; simp
                · intro y b q h hq
                  obtain ⟨-, -, rfl⟩ := got y b q h hq; exact ⟨hd, fun _ => by rw [hf]; simp⟩
              | true =>
                have hev' : event ptr flag d e0 = some (p :: d) := by rw [hev]; simp [hp, finish, hd, hf]
                refine key (p :: d) hev' ?_ ?_
                · intro q
                  rw [List.mem_cons]
                  constructor
                  · rintro (rfl | h)
                    · exact .inr ⟨hf, e0, by simp, x, hc, hp⟩
                    · exact .inl h
                  · rintro (h | ⟨hfl, y, hy, z, hz, hzp⟩)
                    · exact .inr h
                    · simp at hy; subst hy
                      obtain ⟨-, -, rfl⟩ := got z true q hz hzp; exact .inl rfl
                · intro y b q h hq
                  obtain ⟨-, -, rfl⟩ := got y b q h hq; exact ⟨hd, fun _ => by rw [hf]; simp⟩

theorem safe_iff (log : List (PEv α)) : (∃ d, replay ptr flag [] log = some d) ↔ Safe ptr flag log := by
  rw [replay_iff]
  constructor
  · intro h l e r x b p h1 h2 h3; exact (h l e r x b p h1 h2 h3).2
  · intro h l e r x b p h1 h2 h3; exact ⟨List.not_mem_nil, h l e r x b p h1 h2 h3⟩

theorem replay_touch (f : α → PEv α) (hf : ∀ d x, event ptr flag d (f x) = touch d (ptr x)) (d : List Nat) (xs : List α)
    (h : ∀ x ∈ xs, ∀ p, ptr x = some p → p ∉ d) : replay ptr flag d (xs.map f) = some d := by
  induction xs with
  | nil => rfl
  | cons x xs ih =>
    simp only [List.map_cons, replay, hf]
    have : touch d (ptr x) = some d := by
      cases hp : ptr x with
      | none => rfl
      | some p => simp only [touch, if_neg (h x (by simp) p hp)]
    rw [this]; exact ih fun y hy => h y (by simp [hy])

theorem replay_finish (f : α → PEv α) (hf : ∀ d x, event ptr flag d (f x) = finish flag d (ptr x)) (xs : List α) :
    ∀ d : List Nat, (∀ x ∈ xs, ∀ p, ptr x = some p → flag p ≠ none) → (∀ p ∈ d, flag p = some true) →
      (d ++ wanting ptr flag xs).Nodup →
      ∃ d', replay ptr flag d (xs.map f) = some d' ∧ d'.Perm (d ++ wanting ptr flag xs) := by
  induction xs with
  | nil => intro d _ _ _; exact ⟨d, rfl, by simp [wanting]⟩
  | cons x xs ih =>
    intro d hs hd hn
    simp only [List.map_cons, replay, hf]
    have hs' : ∀ y ∈ xs, ∀ p, ptr y = some p → flag p ≠ none := fun y hy => hs y (by simp [hy])
    cases hp : ptr x with
    | none =>
      have e : wanting ptr flag (x :: xs) = wanting ptr flag xs := by simp [wanting, hp]
      rw [e] at hn ⊢
      exact ih d hs' hd hn
    | some p =>
      cases hfl : flag p with
      | none => exact absurd hfl (hs x (by simp) p hp)
      | some b =>
        cases b with
        | false =>
          have e : wanting ptr flag (x :: xs) = wanting ptr flag xs := by simp [wanting, hp, hfl]
          rw [e] at hn ⊢
          have hnd : p ∉ d := fun h => by have := hd p h; rw [hfl] at this; cases this
          simp only [finish, if_neg hnd, hfl]
          exact ih d hs' hd hn
        | true =>
          have e : wanting ptr flag (x :: xs) = p :: wanting ptr flag xs := by simp [wanting, hp, hfl]
          rw [e] at hn ⊢
          have hnd : p ∉ d := by
            intro h
            have := (List.nodup_append.1 hn).2.2 p h p (by simp)
            exact this rfl
          simp only [finish, if_neg hnd, hfl]
          have hp2 : (p :: (d ++ wanting ptr flag xs)).Perm (d ++ p :: wanting ptr flag xs) := List.perm_middle.symm
          obtain ⟨d', h1, h2⟩ := ih (p :: d) hs' (by
            intro q hq
            rcases List.mem_cons.1 hq with h | h
            · rw [h]; exact hfl
            · exact hd q h) ((List.cons_append ▸ hp2.nodup_iff.2 hn : ((p :: d) ++ wanting ptr flag xs).Nodup))
          exact ⟨d', h1, h2.trans (List.cons_append ▸ hp2)⟩

/-- What a step of the pool does to its log. -/
theorem step_log {k : Kind α} {s s' : State α} {a : Act α} (hs : step k s a = some s') :
    s'.log = s.log ∨ (∃ t x, s'.log = s.log ++ [.took t x]) ∨ (∃ t x, s'.log = s.log ++ [.ran t x] ∧ s.w t = .toRun x) ∨
    (∃ t x, s'.log = s.log ++ [.doneRun t x] ∧ s.w t = .toDone x) ∨ s'.log = s.log ++ s.runningTasks.map .stopped ∨
    s'.log = s.log ++ s.tq.q.map .doneQueued := by
  cases a <;> simp only [step] at hs
  case wait t qa =>
    split at hs
    · cases hs
    · simp only [Option.map_eq_some_iff] at hs
      obtain ⟨q', hq, rfl⟩ := hs
      show s.log ++ _ = s.log ∨ _
      split
      · next x _ => exact .inr (.inl ⟨t, x, rfl⟩)
      · exact .inl (by simp)
  case push t =>
    split at hs
    · simp only [Option.map_eq_some_iff] at hs
      obtain ⟨q', hq, rfl⟩ := hs
      exact .inl rfl
    · cases hs
  case clear t =>
    split at hs
    · cases hs
    · simp only [Option.map_eq_some_iff] at hs
      obtain ⟨q', hq, rfl⟩ := hs
      exact .inr (.inr (.inr (.inr (.inr rfl))))
  case «begin» t =>
    split at hs
    · next x hx => cases hs; exact .inr (.inr (.inl ⟨t, x, rfl, hx⟩))
    · cases hs
  case done t =>
    split at hs
    · next x hx => cases hs; exact .inr (.inr (.inr (.inl ⟨t, x, rfl, hx⟩)))
    · cases hs
  case stopRunning t =>
    split at hs
    · cases hs
    · cases hs; exact .inr (.inr (.inr (.inr (.inl rfl))))
  all_goals
    left
    repeat' split at hs
    all_goals first
      | (cases hs; done)
      | (cases hs; rfl)
      | (simp only [Option.map_eq_some_iff] at hs
         obtain ⟨q', hq, rfl⟩ := hs
         rfl)

theorem step_entries {k : Kind α} {s s' : State α} {a : Act α} (hs : step k s a = some s') :
    ∃ xs, entries s'.tq.log = entries s.tq.log ++ xs := by
  rcases Maf.Pool.step_queue hs with h | ⟨qa, -, h⟩
  · exact ⟨[], by rw [h]; simp⟩
  · rcases Maf.Q.step_flow h with h | ⟨xs, h⟩ | ⟨i, x, h⟩ | h
    · exact ⟨[], by simp [h.2.1]⟩
    · exact ⟨xs, h.2.1⟩
    · exact ⟨[], by simp [h.2.2.2.1]⟩
    · exact ⟨[], by simp [h.2.1]⟩

/-- All tasks that entered, by place. -/
theorem places {k : Kind α} {st : Bool} {hw n : Nat} {acts : List (Act α)} {s : State α}
    (h : run k (init α st hw n) acts = some s) :
    (entries s.tq.log).Perm ((doneRunL s.log ++ doneQueuedL s.log) ++ (held beingRun s ++ held notYetRun s ++ s.tq.q)) := by
  have h1 := Maf.Pool.tasks_conserved k st hw n acts s h
  have h2 := Maf.Pool.ran_then_done k st hw n acts s h
  rw [List.perm_iff_count] at *
  intro x
  have a := h1 x; have b := h2 x
  simp only [List.count_append] at *
  omega

theorem held_mem {f : Maf.Pool.WPc α → List α} {s : State α} (hi : Maf.Pool.Inv s) {t : Tid} {x : α} (hx : x ∈ f (s.w t))
    (hn : f .notWorker = []) : x ∈ held f s := by
  refine List.mem_flatMap.2 ⟨t, (hi.mem t).2 ?_, hx⟩
  intro e; rw [e, hn] at hx; cases hx

/-- What is not finished is alive. -/
theorem not_dead {A B xs : List α} (hg : (wanting ptr flag xs).Nodup) (hp : xs.Perm (A ++ B)) {d : List Nat}
    (hd : d.Perm (wanting ptr flag A)) {x : α} (hx : x ∈ B) {p : Nat} (hq : ptr x = some p) : p ∉ d := by
  intro h
  have hA : p ∈ wanting ptr flag A := hd.mem_iff.1 h
  have hB : p ∈ wanting ptr flag B := mem_wanting.2 ⟨(mem_wanting.1 hA).1, x, hx, hq⟩
  have := (wanting_perm hp).nodup_iff.1 hg
  rw [wanting_append] at this
  exact (List.nodup_append.1 this).2.2 p hA p hB rfl

theorem listed_held {s : State α} {x : α} (h : x ∈ held listed s) : x ∈ held beingRun s ++ held notYetRun s := by
  obtain ⟨t, ht, hx⟩ := List.mem_flatMap.1 h
  rw [List.mem_append]
  cases hw : s.w t with
  | toRun y => exact .inr (List.mem_flatMap.2 ⟨t, ht, by rw [hw] at hx ⊢; simpa [listed, notYetRun] using hx⟩)
  | running y => exact .inl (List.mem_flatMap.2 ⟨t, ht, by rw [hw] at hx ⊢; simpa [listed, beingRun] using hx⟩)
  | toRemove y => exact .inl (List.mem_flatMap.2 ⟨t, ht, by rw [hw] at hx ⊢; simpa [listed, beingRun] using hx⟩)
  | notWorker => rw [hw] at hx; cases hx
  | loop => rw [hw] at hx; cases hx
  | toAdd y => rw [hw] at hx; cases hx
  | toDone y => rw [hw] at hx; cases hx
  | exited => rw [hw] at hx; cases hx

theorem GoodUse.left {xs ys : List α} (h : GoodUse ptr flag (xs ++ ys)) : GoodUse ptr flag xs :=
  ⟨fun x hx => h.set x (by simp [hx]), by have := h.once; rw [wanting_append] at this; exact (List.nodup_append.1 this).1⟩

theorem replay_run (k : Kind α) (st : Bool) (hw n : Nat) : ∀ (acts : List (Act α)) (s : State α),
    run k (init α st hw n) acts = some s → GoodUse ptr flag (entries s.tq.log) →
    ∃ d, replay ptr flag [] s.log = some d ∧ d.Perm (wanting ptr flag (doneRunL s.log ++ doneQueuedL s.log)) := by
  intro acts
  induction acts using Maf.snoc_induct with
  | nil => intro s h _; cases h; exact ⟨[], rfl, .rfl⟩
  | snoc acts a ih =>
    intro s' h hg
    rw [Maf.Pool.run_append] at h
    cases hr : run k (init α st hw n) acts with
    | none => rw [hr] at h; cases h
    | some s =>
      rw [hr] at h
      have hs : step k s a = some s' := by
        simp only [Option.bind_some, run] at h
        cases hx : step k s a with
        | none => rw [hx] at h; cases h
        | some s1 => rw [hx] at h; simpa using h
      obtain ⟨xs, hxs⟩ := step_entries hs
      have hg0 : GoodUse ptr flag (entries s.tq.log) := by rw [hxs] at hg; exact hg.left
      obtain ⟨d, hd, hperm⟩ := ih s hr hg0
      have hi := Maf.Pool.inv_run hr
      have hpl := places hr
      have hall : ∀ p ∈ d, flag p = some true := fun p hp => (mem_wanting.1 (hperm.mem_iff.1 hp)).1
      have hset : ∀ x ∈ held beingRun s ++ held notYetRun s ++ s.tq.q, ∀ p, ptr x = some p → flag p ≠ none :=
        fun x hx => hg0.set x (hpl.mem_iff.2 (List.mem_append.2 (.inr hx)))
      rcases step_log hs with e | ⟨t, x, e⟩ | ⟨t, x, e, hw⟩ | ⟨t, x, e, hw⟩ | e | e
      · rw [e]; exact ⟨d, hd, hperm⟩
      · refine ⟨d, ?_, ?_⟩
        · rw [e, replay_append, hd]; rfl
        · rw [e]; simpa [doneRunL, doneQueuedL] using hperm
      · have hx : x ∈ held beingRun s ++ held notYetRun s ++ s.tq.q := by
          have := held_mem (f := notYetRun) hi (t := t) (x := x) (by rw [hw]; simp [notYetRun]) rfl
          simp [this]
        refine ⟨d, ?_, ?_⟩
        · rw [e, replay_append, hd]
          exact replay_touch (.ran t) (fun _ _ => rfl) d [x] (fun y hy p hp => by
            simp at hy; subst hy; exact not_dead hg0.once hpl hperm hx hp)
        · rw [e]; simpa [doneRunL, doneQueuedL] using hperm
      · have hm := held_mem (f := beingRun) hi (t := t) (x := x) (by rw [hw]; simp [beingRun]) rfl
        have hx : x ∈ held beingRun s ++ held notYetRun s ++ s.tq.q := by simp [hm]
        have hfin := replay_finish (ptr := ptr) (flag := flag) (.doneRun t) (fun _ _ => rfl) [x] d
          (fun y hy => by simp at hy; subst hy; exact hset y hx) hall (by
            rw [List.nodup_append]
            have hn := (wanting_perm hpl).nodup_iff.1 hg0.once
            rw [wanting_append] at hn
            refine ⟨hperm.nodup_iff.2 (List.nodup_append.1 hn).1, ?_, ?_⟩
            · simp only [wanting, List.filterMap_cons, List.filterMap_nil]
              cases ptr x with
              | none => simp
              | some p => simp only [List.filter_cons, List.filter_nil]; split <;> simp
            · rintro p hp q hq rfl
              obtain ⟨-, y, hy, hpy⟩ := mem_wanting.1 hq
              simp at hy; subst hy
              exact not_dead hg0.once hpl hperm hx hpy hp)
        obtain ⟨d', h1, h2⟩ := hfin
        refine ⟨d', ?_, ?_⟩
        · rw [e, replay_append, hd]; exact h1
        · rw [e]
          have : doneRunL (s.log ++ [PEv.doneRun t x]) = doneRunL s.log ++ [x] := by simp [doneRunL]
          have h3 : doneQueuedL (s.log ++ [PEv.doneRun t x]) = doneQueuedL s.log := by simp [doneQueuedL]
          rw [this, h3]
          refine h2.trans ((hperm.append_right _).trans ?_)
          rw [← wanting_append]
          apply wanting_perm
          rw [List.perm_iff_count]; intro z; simp only [List.count_append]; omega
      · refine ⟨d, ?_, ?_⟩
        · rw [e, replay_append, hd]
          exact replay_touch .stopped (fun _ _ => rfl) d _ (fun y hy p hp =>
            not_dead hg0.once hpl hperm (List.mem_append.2 (.inl (listed_held (hi.listed.mem_iff.1 hy)))) hp)
        · rw [e]
          have h1 : doneRunL (s.log ++ s.runningTasks.map PEv.stopped) = doneRunL s.log := by
            simp only [doneRunL, List.filterMap_append]
            rw [Maf.Pool.filterMap_map_none _ _ (fun _ => rfl)]; simp
          have h2 : doneQueuedL (s.log ++ s.runningTasks.map PEv.stopped) = doneQueuedL s.log := by
            simp only [doneQueuedL, List.filterMap_append]
            rw [Maf.Pool.filterMap_map_none _ _ (fun _ => rfl)]; simp
          rw [h1, h2]; exact hperm
      · have hfin := replay_finish (ptr := ptr) (flag := flag) .doneQueued (fun _ _ => rfl) s.tq.q d
          (fun y hy => hset y (by simp [hy])) hall (by
            have hn := (wanting_perm hpl).nodup_iff.1 hg0.once
            rw [wanting_append] at hn
            have h3 := (List.nodup_append.1 hn)
            rw [List.nodup_append]
            refine ⟨hperm.nodup_iff.2 h3.1, ?_, ?_⟩
            · have := h3.2.1; rw [wanting_append] at this; exact (List.nodup_append.1 this).2.1
            · rintro p hp q hq rfl
              obtain ⟨-, y, hy, hpy⟩ := mem_wanting.1 hq
              exact not_dead hg0.once hpl hperm (by simp [hy]) hpy hp)
        obtain ⟨d', h1, h2⟩ := hfin
        refine ⟨d', ?_, ?_⟩
        · rw [e, replay_append, hd]; exact h1
        · rw [e]
          have h3 : doneRunL (s.log ++ s.tq.q.map PEv.doneQueued) = doneRunL s.log := by
            simp only [doneRunL, List.filterMap_append]
            rw [Maf.Pool.filterMap_map_none _ _ (fun _ => rfl)]; simp
          have h4 : doneQueuedL (s.log ++ s.tq.q.map PEv.doneQueued) = doneQueuedL s.log ++ s.tq.q := by
            simp only [doneQueuedL, List.filterMap_append]
            rw [Maf.Pool.filterMap_map_some PEv.doneQueued _ (fun _ => rfl)]
          rw [h3, h4, ← List.append_assoc, wanting_append]
          exact h2.trans (hperm.append_right _)

/-! ## C109 -/

/-- Whatever the pool does, it uses no object that was deleted, deletes exactly the objects it has finished with that
asked for it, each once, and every object that a worker runs or that is still queued is alive. -/
theorem used_while_alive_partial (k : Kind α) (st : Bool) (hw n : Nat) (acts : List (Act α)) (s : State α)
    (h : run k (init α st hw n) acts = some s) (hg : GoodUse ptr flag (entries s.tq.log)) :
    Safe ptr flag s.log ∧ ∃ dead, replay ptr flag [] s.log = some dead ∧ dead.Nodup ∧
      (∀ p, p ∈ dead ↔ flag p = some true ∧ ∃ x, ptr x = some p ∧ ((∃ t, .doneRun t x ∈ s.log) ∨ .doneQueued x ∈ s.log)) ∧
      (∀ t x p, Runs s t x → ptr x = some p → p ∉ dead) ∧ (∀ x ∈ s.tq.q, ∀ p, ptr x = some p → p ∉ dead) := by
  obtain ⟨d, hd, hperm⟩ := replay_run (ptr := ptr) (flag := flag) k st hw n acts s h hg
  have hpl := places h
  refine ⟨(safe_iff _).1 ⟨d, hd⟩, d, hd, ?_, ?_, ?_, ?_⟩
  · have hn := (wanting_perm hpl).nodup_iff.1 hg.once
    rw [wanting_append] at hn
    exact hperm.nodup_iff.2 (List.nodup_append.1 hn).1
  · intro p
    rw [hperm.mem_iff, mem_wanting]
    refine and_congr_right fun _ => ⟨?_, ?_⟩
    · rintro ⟨x, hx, hp⟩
      refine ⟨x, hp, ?_⟩
      rcases List.mem_append.1 hx with hx | hx
      · left
        obtain ⟨e, he, hx⟩ := List.mem_filterMap.1 hx
        cases e <;> simp at hx
        subst hx; exact ⟨_, he⟩
      · right
        obtain ⟨e, he, hx⟩ := List.mem_filterMap.1 hx
        cases e <;> simp at hx
        subst hx; exact he
    · rintro ⟨x, hp, hx⟩
      refine ⟨x, List.mem_append.2 ?_, hp⟩
      rcases hx with ⟨t, hx⟩ | hx
      · exact .inl (List.mem_filterMap.2 ⟨_, hx, rfl⟩)
      · exact .inr (List.mem_filterMap.2 ⟨_, hx, rfl⟩)
  · intro t x p hr hp
    have := held_mem (f := beingRun) (Maf.Pool.inv_run h) (t := t) (x := x) (by rw [show s.w t = _ from hr]; simp [beingRun]) rfl
    exact not_dead hg.once hpl hperm (by simp [this]) hp
  · intro x hx p hp
    exact not_dead hg.once hpl hperm (by simp [hx]) hp

/-- After a shutdown that no submission overlapped, the objects that asked for it are all deleted. -/
theorem shutdown_deletes_all_partial (k : Kind α) (st : Bool) (hw n : Nat) (pre post : List (Act α)) (t : Tid)
    (s0 s : State α) (h0 : run k (init α st hw n) pre = some s0) (hp : NoPushInFlight s0)
    (h : run k (init α st hw n) (pre ++ .clear t :: post) = some s) (hfin : s.sh = .finished)
    (hg : GoodUse ptr flag (entries s.tq.log)) :
    ∃ dead, replay ptr flag [] s.log = some dead ∧ dead.Perm (wanting ptr flag (entries s.tq.log)) := by
  obtain ⟨d, hd, hperm⟩ := replay_run (ptr := ptr) (flag := flag) k st hw n _ s h hg
  refine ⟨d, hd, hperm.trans (wanting_perm ?_)⟩
  exact (Maf.Pool.shutdown_finishes_all_partial k st hw n pre post t s0 s h0 hp h hfin).1.symm

/-- Finding: an object whose flag nobody set is finished with an undefined flag. -/
theorem flag_not_initialised : ∃ s, run (Maf.Q.fifo Nat) (init Nat true 4 1) Maf.Pool.demo = some s ∧
    replay some (fun _ => none) [] s.log = none :=
  ⟨_, rfl, by decide⟩

/-- One worker that runs whatever is queued. -/
def once (t : Tid) : List (Act Nat) :=
  [.wait t (.callWait t false), .wait t (.evalEmpty t), .wait t (.finish t 0), .add t, .begin t, .finish t, .remove t, .done t]

/-- Finding: an object with the flag set that is given to the pool twice is used after it was deleted. -/
theorem twice_is_undefined : ∃ s, run (Maf.Q.fifo Nat) (init Nat true 4 1)
      ([.ctorLaunch 7 true, .callRun 1 5, .push 1, .doPush 1 none, .callRun 1 5, .push 1, .doPush 1 none] ++ once 7 ++ once 7) = some s ∧
    entries s.tq.log = [5, 5] ∧ replay some (fun _ => some true) [] s.log = none :=
  ⟨_, rfl, by decide, by decide⟩

/-- Finding: an object given to a pool that is shut down is not deleted, and nobody is told. -/
theorem refused_is_leaked : ∃ s, run (Maf.Q.fifo Nat) (init Nat true 4 1)
      ([.ctorLaunch 7 true, .shutdown 0, .callRun 1 5, .push 1, .notify 0, .stopRunning 0, .clear 0, .wait 7 (.callWait 7 false),
        .wait 7 (.evalEmpty 7), .wait 7 (.evalClosed 7), .wait 7 (.finish 7 0), .join 0, .join 0, .destroy]) = some s ∧
    .refused 1 [5] ∈ s.tq.log ∧ s.destroyed = some true ∧ replay some (fun _ => some true) [] s.log = some [] :=
  ⟨_, rfl, by decide, by decide, by decide⟩

/-! ## Non-vacuity -/

example : ∃ s, run (Maf.Q.fifo Nat) (init Nat true 4 1) (Maf.Pool.demo ++ .clear 0 :: Maf.Pool.demoEnd) = some s ∧
    GoodUse some (fun p => some (p != 6)) (entries s.tq.log) ∧ s.sh = .finished ∧
    replay some (fun p => some (p != 6)) [] s.log = some [7, 5] := by
  refine ⟨_, rfl, ⟨?_, by decide⟩, by decide, by decide⟩
  intro x _ p _ h; cases h

end Life
end Maf
