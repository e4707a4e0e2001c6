import Verif.Props.ThreadPool
/-
C46, the way into the pool: no task that is handed to `run` is lost before it is in the queue.
-/
namespace Maf.Pool
open Maf.Q (Tid Kind)
variable {α : Type} [DecidableEq α]

/-- The tasks thread `t` hands to `run`, in order. -/
def submitted (t : Tid) : List (Act α) → List α
  | [] => []
  | .callRun u x :: as => if u = t then x :: submitted t as else submitted t as
  | .callRunDyn u x :: as => if u = t then x :: submitted t as else submitted t as
  | _ :: as => submitted t as

/-- What became of the tasks of thread `t`: put into the queue, or refused because it is closed. -/
def settled (t : Tid) : List (Maf.Q.Ev α) → List α
  | [] => []
  | .entered u x :: l => if u = t then x :: settled t l else settled t l
  | .refused u xs :: l => if u = t then xs ++ settled t l else settled t l
  | _ :: l => settled t l

/-- The task that a call of `run` has not got rid of. -/
def onTheWay (s : State α) (t : Tid) : List α :=
  (match s.tq.pc t with | .pushing xs _ => xs | _ => []) ++
  match s.u t with | .idle => [] | .tryLaunch x => [x] | .emplace x => [x] | .toPush x => [x]

/-- In the queue's code. -/
def inPush (p : Maf.Q.Pc α) : List α := match p with | .pushing xs _ => xs | _ => []

theorem settled_append (t : Tid) (l m : List (Maf.Q.Ev α)) : settled t (l ++ m) = settled t l ++ settled t m := by
  induction l with
  | nil => rfl
  | cons e l ih => cases e <;> simp only [List.cons_append, settled, ih] <;> (try split) <;> simp

theorem settled_entered (t u : Tid) (xs : List α) : settled t (xs.map fun x => Maf.Q.Ev.entered u x) = if u = t then xs else [] := by
  induction xs with
  | nil => simp [settled]
  | cons x xs ih => simp only [List.map_cons, settled, ih]; split <;> simp

theorem settled_cleared (t : Tid) (xs : List α) : settled t (xs.map Maf.Q.Ev.cleared) = [] := by
  induction xs with
  | nil => rfl
  | cons x xs ih => simp only [List.map_cons, settled, ih]

def pushed (t : Tid) : Maf.Q.Act α → List α
  | .callPush u xs _ => if u = t then xs else []
  | _ => []

theorem inPush_wakeOne (s : Maf.Q.State α) (w t : Tid) : inPush ((Maf.Q.wakeOne s w).pc t) = inPush (s.pc t) ∧ (Maf.Q.wakeOne s w).log = s.log := by
  unfold Maf.Q.wakeOne
  split
  · rename_i h
    simp only [Maf.Q.upd, and_true]
    split
    · rename_i e; subst e; simp [inPush, h]
    · rfl
  · simp

theorem inPush_wakeAll (s : Maf.Q.State α) (t : Tid) : inPush ((Maf.Q.wakeAll s).pc t) = inPush (s.pc t) ∧ (Maf.Q.wakeAll s).log = s.log := by
  simp only [Maf.Q.wakeAll, and_true]
  split
  · rename_i h; simp [inPush, h]
  · rfl

theorem inPush_upd {f : Tid → Maf.Q.Pc α} {u : Tid} (p : Maf.Q.Pc α) (t : Tid) (h1 : inPush (f u) = []) (h2 : inPush p = []) : inPush (Maf.Q.upd f u p t) = inPush (f t) := by
  simp only [Maf.Q.upd]; split
  · rename_i e; subst e; rw [h1, h2]
  · rfl

theorem queue_settles {k : Kind α} {s s' : Maf.Q.State α} {a : Maf.Q.Act α} (t : Tid) (h : Maf.Q.step k s a = some s') :
    settled t s'.log ++ inPush (s'.pc t) = settled t s.log ++ inPush (s.pc t) ++ pushed t a := by
  simp only [Maf.Q.step] at h
  split at h
  · cases h
  have idle : ∀ u, (s.pc u).isIdle = true → inPush (s.pc u) = [] := by
    intro u hu; cases hp : s.pc u <;> simp_all [Maf.Q.Pc.isIdle, inPush]
  cases a with
  | callPush u xs all =>
    simp only [Maf.Q.body] at h
    split at h
    · cases h
    rename_i hi
    have := idle u (by simp_all)
    split at h <;> cases h
    · by_cases hu : u = t
      · subst hu; simp [settled_append, settled, pushed, this]
      · simp [settled_append, settled, pushed, hu]
    · by_cases hu : u = t
      · subst hu; rw [this]; simp [settled_append, settled, pushed, Maf.Q.upd, inPush]
      · simp [settled_append, settled, pushed, hu, Ne.symm hu, Maf.Q.upd]
  | doPush u wake =>
    simp only [Maf.Q.body] at h
    split at h
    · cases h
    split at h
    · rename_i xs all hpc
      have key : ∀ s2 : Maf.Q.State α, s2.log = s.log ++ xs.map (fun x => .entered u x) → inPush (s2.pc t) = inPush (Maf.Q.upd s.pc u .idle t) →
          settled t s2.log ++ inPush (s2.pc t) = settled t s.log ++ inPush (s.pc t) ++ pushed t (.doPush u wake) := by
        intro s2 h1 h2
        rw [h1, h2, settled_append, settled_entered]
        by_cases hu : u = t
        · subst hu; simp [Maf.Q.upd, inPush, hpc, pushed]
        · simp [Maf.Q.upd, Ne.symm hu, hu, pushed]
      split at h
      · split at h
        · cases h
          exact key _ (inPush_wakeAll _ t).2 (inPush_wakeAll _ t).1
        · cases h
      · split at h
        · split at h
          · cases h; exact key _ rfl rfl
          · cases h
        · split at h
          · cases h
            exact key _ (inPush_wakeOne _ _ t).2 (inPush_wakeOne _ _ t).1
          · cases h
    · cases h
  | spurious u =>
    simp only [Maf.Q.body] at h
    split at h
    · cases h
      rw [(inPush_wakeOne _ _ t).1, (inPush_wakeOne _ _ t).2]; simp [pushed]
    · cases h
  | notifyAll u =>
    simp only [Maf.Q.body] at h
    split at h
    · rename_i hp
      cases h
      rw [(inPush_wakeAll _ t).1, (inPush_wakeAll _ t).2]
      by_cases hu : t = u
      · subst hu; simp [pushed, Maf.Q.upd, inPush, hp]
      · simp [pushed, Maf.Q.upd, hu]
    · cases h
  | callClose u =>
    simp only [Maf.Q.body] at h
    split at h
    · cases h
    rename_i hi
    have := idle u (by simpa using hi)
    split at h <;> cases h
    · simp [pushed]
    · by_cases hu : t = u
      · subst hu; simp only [pushed, Maf.Q.upd, if_true, this]; simp [inPush]
      · simp [pushed, Maf.Q.upd, hu]
  | callWait u timed =>
    simp only [Maf.Q.body] at h
    split at h
    · cases h
    rename_i hi
    have := idle u (by simp_all)
    cases h
    by_cases hu : t = u
    · subst hu; simp only [pushed, Maf.Q.upd, if_true, this]; simp [inPush]
    · simp [pushed, Maf.Q.upd, hu]
  | reOpen u =>
    simp only [Maf.Q.body] at h
    split at h <;> cases h
    simp [pushed]
  | clear u =>
    simp only [Maf.Q.body] at h
    split at h <;> cases h
    simp [pushed, settled_append, settled_cleared]
  | tryPop u i =>
    simp only [Maf.Q.body] at h
    (repeat' split at h) <;> cases h <;> simp [pushed, settled_append, settled]
  | _ =>
    simp only [Maf.Q.body] at h
    (repeat' split at h) <;> cases h <;> rename_i hpc <;> (try simp only [settled_append, settled, List.append_nil, pushed]) <;>
      (first
        | rfl
        | (rw [inPush_upd _ _ (by simp_all [inPush]) rfl])
        | (simp only [pushed, List.append_nil]))

/-- In the pool's code. -/
def inRun (p : UPc α) : List α := match p with | .idle => [] | .tryLaunch x => [x] | .emplace x => [x] | .toPush x => [x]

theorem onTheWay_eq (s : State α) (t : Tid) : onTheWay s t = inPush (s.tq.pc t) ++ inRun (s.u t) := rfl

theorem submit_step {k : Kind α} {s s' : State α} {a : Act α} (t : Tid) (h : step k s a = some s') :
    settled t s'.tq.log ++ onTheWay s' t = settled t s.tq.log ++ onTheWay s t ++ submitted t [a] := by
  simp only [onTheWay_eq]
  have idle : ∀ u, (s.tq.pc u).isIdle = true → inPush (s.tq.pc u) = [] := by
    intro u hu; cases hp : s.tq.pc u <;> simp_all [Maf.Q.Pc.isIdle, inPush]
  have viaQ : ∀ (qa : Maf.Q.Act α) q', Maf.Q.step k s.tq qa = some q' → pushed t qa = [] →
      settled t q'.log ++ (inPush (q'.pc t) ++ inRun (s.u t)) = settled t s.tq.log ++ (inPush (s.tq.pc t) ++ inRun (s.u t)) := by
    intro qa q' hq hp
    have := queue_settles t hq
    rw [hp, List.append_nil] at this
    rw [← List.append_assoc, this, List.append_assoc]
  cases a with
  | callRun u x =>
    simp only [step] at h
    split at h
    · cases h
    rename_i hn
    cases h
    simp only [not_or, Classical.not_not] at hn
    have h1 := idle u (by simpa using hn.2.2)
    by_cases hu : u = t
    · subst hu; simp [set, submitted, h1, hn.2.1, inRun]
    · simp [set, submitted, hu, Ne.symm hu]
  | callRunDyn u x =>
    simp only [step] at h
    split at h
    · cases h
    rename_i hn
    simp only [not_or, Classical.not_not] at hn
    have h1 := idle u (by simpa using hn.2.2)
    split at h <;> cases h
    · by_cases hu : u = t
      · subst hu; simp [set, submitted, h1, hn.2.1, inRun]
      · simp [set, submitted, hu, Ne.symm hu]
    · by_cases hu : u = t
      · subst hu; simp [set, submitted, h1, hn.2.1, inRun]
      · simp [set, submitted, hu, Ne.symm hu]
  | checkSize u =>
    simp only [step] at h
    split at h
    · rename_i x hx
      split at h <;> cases h
      · by_cases hu : t = u
        · subst hu; simp [set, submitted, hx, inRun]
        · simp [set, submitted, hu]
      · by_cases hu : t = u
        · subst hu; simp [set, submitted, hx, inRun]
        · simp [set, submitted, hu]
    · cases h
  | emplace u n ok =>
    simp only [step] at h
    split at h
    · rename_i x hx
      split at h
      · cases h
      split at h <;> cases h
      · by_cases hu : t = u
        · subst hu; simp [set, submitted, hx, inRun]
        · simp [set, submitted, hu]
      · by_cases hu : t = u
        · subst hu; simp [set, submitted, hx, inRun]
        · simp [set, submitted, hu]
    · cases h
  | push u =>
    simp only [step] at h
    split at h
    · rename_i x hx
      simp only [Option.map_eq_some_iff] at h
      obtain ⟨q', hq, rfl⟩ := h
      have := queue_settles t hq
      simp only [submitted, List.append_nil]
      rw [← List.append_assoc, this]
      by_cases hu : t = u
      · subst hu; simp [pushed, set, hx, inRun]
      · simp [pushed, set, hu, Ne.symm hu]
    · cases h
  | doPush u wake =>
    simp only [step] at h
    split at h
    · cases h
    simp only [Option.map_eq_some_iff] at h
    obtain ⟨q', hq, rfl⟩ := h
    simpa [submitted] using viaQ _ q' hq rfl
  | wait u qa =>
    simp only [step] at h
    split at h
    · cases h
    rename_i hn
    simp only [not_or, Classical.not_not] at hn
    simp only [Option.map_eq_some_iff] at h
    obtain ⟨q', hq, rfl⟩ := h
    have : pushed t qa = [] := by
      cases qa <;> first | rfl | (have := hn.2; simp [waitStep] at this)
    simpa [submitted] using viaQ _ q' hq this
  | shutdown u =>
    simp only [step] at h
    split at h
    · cases h
    simp only [Option.map_eq_some_iff] at h
    obtain ⟨q', hq, rfl⟩ := h
    simpa [submitted] using viaQ _ q' hq rfl
  | notify u =>
    simp only [step] at h
    split at h
    · cases h
    simp only [Option.map_eq_some_iff] at h
    obtain ⟨q', hq, rfl⟩ := h
    simpa [submitted] using viaQ _ q' hq rfl
  | clear u =>
    simp only [step] at h
    split at h
    · cases h
    simp only [Option.map_eq_some_iff] at h
    obtain ⟨q', hq, rfl⟩ := h
    simpa [submitted] using viaQ _ q' hq rfl
  | _ =>
    simp only [step] at h
    (repeat' split at h) <;> first | (cases h; simp [submitted]; done) | cases h

theorem submitted_cons (t : Tid) (a : Act α) (as : List (Act α)) : submitted t (a :: as) = submitted t [a] ++ submitted t as := by
  cases a <;> simp only [submitted] <;> (try split) <;> simp

theorem submit_run {k : Kind α} {acts : List (Act α)} (t : Tid) : ∀ {s s' : State α}, run k s acts = some s' →
    settled t s'.tq.log ++ onTheWay s' t = settled t s.tq.log ++ onTheWay s t ++ submitted t acts := by
  induction acts with
  | nil => intro s s' h; cases h; simp [submitted]
  | cons a as ih =>
    intro s s' h
    simp only [run, Option.bind_eq_some_iff] at h
    obtain ⟨s1, h1, h2⟩ := h
    rw [ih h2, submit_step t h1, submitted_cons t a as]; simp

/-- Every task that a thread hands to `run` is put into the pool's queue or refused because the pool is shut down, in the order in which the thread hands them over;
at most the last one is still on its way. Once in the queue, `tasks_conserved` says where it is. -/
theorem submissions_settled (k : Kind α) (st : Bool) (hw n : Nat) (acts : List (Act α)) (s : State α) (h : run k (init α st hw n) acts = some s) (t : Tid) :
    submitted t acts = settled t s.tq.log ++ onTheWay s t := by
  have := submit_run t h
  rw [this]
  simp [init, Maf.Q.init, settled, onTheWay]

/-- Without a shutdown, nothing is refused. -/
example : ∃ s, run (Maf.Q.fifo Nat) (init Nat false 4 2) [.callRunDyn 0 7, .checkSize 0, .emplace 0 1 true, .push 0, .doPush 0 none, .callRunDyn 0 8] = some s ∧
    settled 0 s.tq.log = [7] ∧ onTheWay s 0 = [8] := ⟨_, rfl, rfl, rfl⟩

end Maf.Pool
