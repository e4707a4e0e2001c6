import Verif.Spec.MsgThrow
import Verif.Lemmas.SignalThrow

/-!
# C129: messages whose handlers throw

Asserts compiled out: dispatches, connecting and disconnecting are right in every history, with any exceptions (`dispatch_right`); `post` never refuses a message that has a handler
(`post_accepts`), but may accept one that has none (`posted_to_nobody`).
Without exceptions all is right, in both builds (`right_without_exceptions_partial`).  With asserts, a dispatch after an exception ends the program (`dispatch_aborts`).
-/
namespace Maf.MExn
open Maf.Exn (SlotId Out)

private def absv (s : State) : Ty → List SlotId := fun m => match s m with
  | none => []
  | some k => Exn.live k

/-- No exception has come out of handlers of the types in `P`. -/
private def good (P : Ty → Prop) (s : State) : Prop := ∀ m k, P m → s m = some k → Exn.Clean k ∧ k.notifying = false

private theorem absv_upd (s : State) (m : Ty) (k : Exn.State) : absv (upd s m k) = fun j => if j = m then Exn.live k else absv s j := by
  funext j
  unfold absv upd
  by_cases h : j = m <;> simp [h]

private theorem absv_none {s : State} {m : Ty} (h : s m = none) : absv s m = [] := by simp [absv, h]
private theorem absv_some {s : State} {m : Ty} {k : Exn.State} (h : s m = some k) : absv s m = Exn.live k := by simp [absv, h]

private theorem notify_step (c : Bool) (k : Exn.State) (t : Nat → Bool) : Exn.notify c k t = Exn.step c k (.emit t) := rfl

/-- What a step does if it does not end the program. -/
private theorem step_right (c : Bool) (s : State) (op : Op) (h : (step c s op).2 ≠ .aborted) :
    absv (step c s op).1 = (ideal (absv s) op).1 ∧ (op.isPost = false → (step c s op).2 = (ideal (absv s) op).2) := by
  cases op with
  | connect m x =>
    refine ⟨?_, fun _ => rfl⟩
    simp only [step, ideal, absv_upd]
    funext j
    split
    · cases hm : s m with
      | none => simp [absv_none hm, Exn.step, Exn.live, Exn.start]
      | some k => simp [absv_some hm, Exn.step, Exn.live]
    · rfl
  | cut m x =>
    simp only [step]
    split
    · rename_i hm
      refine ⟨?_, fun _ => by simp [ideal, absv_none hm]⟩
      funext j
      simp only [ideal]; split
      · rename_i e; rw [e, absv_none hm]; rfl
      · rfl
    · rename_i k hm
      refine ⟨?_, fun _ => by simp only [ideal, absv_some hm, Exn.remove_res]⟩
      simp only [ideal, absv_upd, absv_some hm, Exn.remove_live]
  | disconnect m =>
    refine ⟨?_, fun _ => rfl⟩
    funext j
    simp only [step, ideal, absv]
    by_cases hj : j = m
    · simp [hj]
    · simp only [hj, if_false]
      cases hs : s j with
      | none => rfl
      | some k =>
        simp only
        by_cases he : k.slots = []
        · simp [he, Exn.live]
        · simp [he]
  | post m => simp only [step]; split <;> exact ⟨rfl, fun h => by simp [Op.isPost] at h⟩
  | dispatch m t =>
    simp only [step] at h ⊢
    split
    · rename_i hm
      exact ⟨rfl, fun _ => by simp [ideal, absv_none hm]⟩
    · rename_i k hm
      simp only [hm] at h
      rw [notify_step] at h ⊢
      obtain ⟨h1, h2⟩ := Exn.step_live c k (.emit t) h
      refine ⟨?_, fun _ => ?_⟩
      · rw [absv_upd, h1]; funext j; simp only [Exn.ideal, ideal]; split
        · rename_i e; rw [e, absv_some hm]
        · rfl
      · rw [h2 rfl]; simp only [Exn.ideal, ideal, absv_some hm]

private theorem lives (s : State) (op : Op) : (step false s op).2 ≠ .aborted := by
  cases op with
  | dispatch m t =>
    simp only [step]; split
    · simp
    · rw [notify_step]; exact Exn.unchecked_lives _ _
  | cut m x => simp only [step]; split <;> simp
  | post m => simp only [step]; split <;> simp
  | _ => simp [step]

private theorem run_next (c : Bool) (s : State) (op : Op) (ops : List Op) (h : (step c s op).2 ≠ .aborted) :
    run c s (op :: ops) = (step c s op).2 :: run c (step c s op).1 ops := by
  rw [run]
  generalize step c s op = r at h
  obtain ⟨s', o⟩ := r
  cases o <;> first | rfl | exact absurd rfl h

private theorem absv_start : absv start = fun _ => [] := rfl

/-- Every history, with any exceptions: a dispatched message reaches exactly the handlers of its type, in order, up to the one that throws; connecting and disconnecting are as they should be. -/
theorem dispatch_right (ops : List Op) (i : Nat) (op : Op) (h : ops[i]? = some op) (hp : op.isPost = false) :
    (run false start ops)[i]? = (idealRun (fun _ => []) ops)[i]? := by
  rw [← absv_start]
  generalize start = s
  induction ops generalizing i s with
  | nil => simp at h
  | cons o os ih =>
    obtain ⟨h1, h2⟩ := step_right false s o (lives s o)
    rw [run_next _ _ _ _ (lives s o), idealRun]
    cases i with
    | zero =>
      simp only [List.getElem?_cons_zero, Option.some.injEq] at h ⊢
      subst h; exact h2 hp
    | succ i =>
      simp only [List.getElem?_cons_succ] at h ⊢
      rw [ih i h, h1]

example : run false start [.connect 7 1, .connect 7 2, .connect 8 3, .dispatch 7 (fun k => k == 0), .dispatch 8 (fun _ => false), .cut 7 1,
      .dispatch 7 (fun _ => false), .disconnect 7, .dispatch 7 (fun _ => false)]
    = [.bool true, .bool true, .bool true, .calls [1] true, .calls [3] false, .bool true, .calls [2] false, .done, .calls [] false] := rfl

/-- A message that has a handler is accepted, whatever exceptions there were. -/
theorem post_accepts (ops : List Op) (i : Nat) (m : Ty) (h : ops[i]? = some (.post m))
    (hi : (idealRun (fun _ => []) ops)[i]? = some (.bool true)) : (run false start ops)[i]? = some (.bool true) := by
  rw [← absv_start] at hi
  generalize start = s at hi ⊢
  induction ops generalizing i s with
  | nil => simp at h
  | cons o os ih =>
    obtain ⟨h1, _⟩ := step_right false s o (lives s o)
    rw [run_next _ _ _ _ (lives s o)]
    rw [idealRun] at hi
    cases i with
    | zero =>
      simp only [List.getElem?_cons_zero, Option.some.injEq] at h hi ⊢
      subst h
      simp only [ideal, Out.bool.injEq] at hi
      simp only [step]
      split
      · rename_i hm; rw [absv_none hm] at hi; simp at hi
      · rename_i k hm
        rw [absv_some hm] at hi
        simp only [Out.bool.injEq, Bool.not_eq_eq_eq_not, Bool.not_true] at hi ⊢
        cases hk : k.slots with
        | nil => simp [Exn.live, hk] at hi
        | cons _ _ => rfl
    | succ i =>
      simp only [List.getElem?_cons_succ] at h hi ⊢
      rw [← h1] at hi
      exact ih i h _ hi

/-- A message may be accepted though no handler is connected: the one that threw was disconnected. -/
theorem posted_to_nobody :
    run false start [.connect 7 1, .dispatch 7 (fun _ => true), .cut 7 1, .post 7, .dispatch 7 (fun _ => false)]
      = [.bool true, .calls [1] true, .bool true, .bool true, .calls [] false] ∧
    idealRun (fun _ => []) [.connect 7 1, .dispatch 7 (fun _ => true), .cut 7 1, .post 7, .dispatch 7 (fun _ => false)]
      = [.bool true, .calls [1] true, .bool true, .bool false, .calls [] false] := ⟨rfl, rfl⟩

private theorem good_step (P : Ty → Prop) (c : Bool) (s : State) (op : Op) (hp : P op.ty) (hg : good P s) :
    (step c s op).2 = (ideal (absv s) op).2 ∧ good (fun j => P j ∧ j ≠ op.ty) (step c s op).1 ∧
    ((∀ l, (ideal (absv s) op).2 ≠ .calls l true) → good P (step c s op).1) := by
  have hupd : ∀ m k, Exn.Clean k → k.notifying = false → good P (upd s m k) := by
    intro m k hc hn j k' hP hj
    unfold upd at hj
    split at hj
    · simp only [Option.some.injEq] at hj; subst hj; exact ⟨hc, hn⟩
    · exact hg j k' hP hj
  have hupd' : ∀ m k, good (fun j => P j ∧ j ≠ m) (upd s m k) := by
    intro m k j k' hP hj
    unfold upd at hj
    split at hj
    · rename_i e; exact absurd e hP.2
    · exact hg j k' hP.1 hj
  have hweak : good (fun j => P j ∧ j ≠ op.ty) s := fun j k hP hj => hg j k hP.1 hj
  have hgD : Exn.Clean ((s op.ty).getD Exn.start) ∧ ((s op.ty).getD Exn.start).notifying = false := by
    cases hm : s op.ty with
    | none => exact ⟨fun _ => by simp [Exn.start], rfl⟩
    | some k => exact hg op.ty k hp hm
  cases op with
  | connect m x =>
    obtain ⟨a, b⟩ := hgD
    exact ⟨rfl, hupd' _ _, fun _ => hupd _ _ (Exn.step_clean c _ _ a) b⟩
  | cut m x =>
    have hr := step_right c s (.cut m x) (by simp only [step]; split <;> simp)
    refine ⟨hr.2 rfl, ?_, fun _ => ?_⟩
    · simp only [step]; split
      · exact hweak
      · exact hupd' _ _
    simp only [step]
    split
    · exact hg
    · rename_i k hm
      obtain ⟨a, b⟩ := hg m k hp hm
      refine hupd _ _ (Exn.step_clean c k (.disconnect x) a) ?_
      unfold Exn.remove; (repeat' split) <;> exact b
  | disconnect m =>
    have hk : ∀ j k, (step c s (.disconnect m)).1 j = some k → s j = some k := by
      intro j k hj
      simp only [step] at hj
      split at hj
      · simp at hj
      · split at hj
        · simp at hj
        · split at hj
          · simp at hj
          · simp only [Option.some.injEq] at hj; subst hj; assumption
    exact ⟨rfl, fun j k hP hj => hg j k hP.1 (hk j k hj), fun _ j k hP hj => hg j k hP (hk j k hj)⟩
  | post m =>
    have hst : (step c s (.post m)).1 = s := by simp only [step]; split <;> rfl
    refine ⟨?_, by rw [hst]; exact hweak, fun _ => by rw [hst]; exact hg⟩
    simp only [step, ideal]
    split
    · rename_i hm; rw [absv_none hm]; rfl
    · rename_i k hm
      obtain ⟨a, b⟩ := hg m k hp hm
      have hl := Exn.live_of_clean (a b)
      have : k.slots.isEmpty = (Exn.live k).isEmpty := by
        rw [Bool.eq_iff_iff, List.isEmpty_iff_length_eq_zero, List.isEmpty_iff_length_eq_zero, hl]
      rw [absv_some hm, this]
  | dispatch m t =>
    simp only [step]
    split
    · rename_i hm; exact ⟨by simp [ideal, absv_none hm], hweak, fun _ => hg⟩
    · rename_i k hm
      obtain ⟨a, b⟩ := hg m k hp hm
      rw [notify_step]
      obtain ⟨h1, _, h3⟩ := Exn.step_exact c k (.emit t) a b
      have he : (ideal (absv s) (.dispatch m t)).2 = (Exn.ideal (Exn.live k) (.emit t)).2 := by
        simp only [ideal, Exn.ideal, absv_some hm]
      refine ⟨by rw [he]; exact h1, hupd' _ _, fun hne => hupd _ _ (Exn.step_clean c k _ a) ?_⟩
      rw [h3]
      rw [he] at hne
      simp only [Exn.ideal, Exn.Out.threw] at hne ⊢
      cases hb : (List.range (Exn.live k).length).any t with
      | false => rfl
      | true => exact absurd (by rw [hb]) (hne _)

private theorem good_run (P : Ty → Prop) (c : Bool) (ops : List Op) : ∀ (s : State), good P s → (∀ o ∈ ops, P o.ty) →
    (∀ l, .calls l true ∉ idealRun (absv s) ops) →
    ∃ s', good P s' ∧ ∀ rest, run c s (ops ++ rest) = idealRun (absv s) ops ++ run c s' rest ∧
      idealRun (absv s) (ops ++ rest) = idealRun (absv s) ops ++ idealRun (absv s') rest := by
  induction ops with
  | nil => intro s hg _ _; exact ⟨s, hg, fun _ => ⟨rfl, rfl⟩⟩
  | cons o os ih =>
    intro s hg hP h
    obtain ⟨h1, _, h2⟩ := good_step P c s o (hP o (by simp)) hg
    have hna : (step c s o).2 ≠ .aborted := by rw [h1]; cases o <;> simp [ideal]
    obtain ⟨h3, _⟩ := step_right c s o hna
    simp only [idealRun, List.mem_cons, not_or] at h
    obtain ⟨s', g, f⟩ := ih (step c s o).1 (h2 fun l e => (h l).1 e.symm) (fun o' ho => hP o' (by simp [ho]))
      (by rw [h3]; exact fun l => (h l).2)
    refine ⟨s', g, fun rest => ?_⟩
    obtain ⟨f1, f2⟩ := f rest
    rw [List.cons_append, run_next _ _ _ _ hna, f1, h1, h3]
    simp only [idealRun]
    rw [← h3, f2]
    exact ⟨rfl, rfl⟩

private theorem good_start (P : Ty → Prop) : good P start := fun m k _ hm => by simp [start] at hm

/-- Both builds: as long as no handler throws, everything is as it should be. -/
theorem right_without_exceptions_partial (c : Bool) (ops : List Op) (h : ∀ l, .calls l true ∉ idealRun (fun _ => []) ops) :
    run c start ops = idealRun (fun _ => []) ops := by
  obtain ⟨s', _, f⟩ := good_run (fun _ => True) c ops start (good_start _) (fun _ _ => trivial) h
  have := (f []).1
  simp only [run, List.append_nil] at this
  exact this

example : ∀ l, Out.calls l true ∉ idealRun (fun _ => []) [.connect 7 1, .connect 8 2, .post 7, .dispatch 7 (fun k => k == 1), .cut 7 1, .post 7] := by
  intro l; simp [idealRun, ideal]

/-- Both builds: a handler that throws does not concern messages of other types. -/
theorem other_types_unaffected (c : Bool) (pre mid : List Op) (m : Ty) (t : Nat → Bool)
    (h1 : ∀ l, .calls l true ∉ idealRun (fun _ => []) pre) (h2 : ∀ o ∈ mid, o.ty ≠ m)
    (h3 : ∀ l, Out.calls l true ∉ (idealRun (fun _ => []) (pre ++ .dispatch m t :: mid)).drop (pre.length + 1)) :
    run c start (pre ++ .dispatch m t :: mid) = idealRun (fun _ => []) (pre ++ .dispatch m t :: mid) := by
  obtain ⟨s1, g1, f1⟩ := good_run (fun _ => True) c pre start (good_start _) (fun _ _ => trivial) h1
  have hlen : ∀ (os : List Op) l, (idealRun l os).length = os.length := by
    intro os; induction os with
    | nil => intro l; rfl
    | cons o os ih => intro l; simp [idealRun, ih]
  obtain ⟨r1, r2⟩ := f1 (.dispatch m t :: mid)
  rw [absv_start] at r1 r2
  obtain ⟨e1, e2, _⟩ := good_step (fun _ => True) c s1 (.dispatch m t) trivial g1
  have hna : (step c s1 (.dispatch m t)).2 ≠ .aborted := by rw [e1]; simp [ideal]
  obtain ⟨e3, _⟩ := step_right c s1 (.dispatch m t) hna
  rw [r2] at h3
  have hd : (idealRun (fun _ => []) pre ++ idealRun (absv s1) (.dispatch m t :: mid)).drop (pre.length + 1)
      = idealRun (absv (step c s1 (.dispatch m t)).1) mid := by
    rw [List.drop_append, hlen, List.drop_eq_nil_of_le (by rw [hlen]; omega), idealRun, e3]
    simp
  rw [hd] at h3
  obtain ⟨s2, _, f2⟩ := good_run _ c mid _ e2 (fun o ho => ⟨trivial, h2 o ho⟩) h3
  have f3 := (f2 []).1
  simp only [run, List.append_nil] at f3
  rw [r1, r2, run_next _ _ _ _ hna, f3, e1, idealRun, e3]

example : run true start ([.connect 7 1, .connect 8 2] ++ .dispatch 7 (fun _ => true) :: [.dispatch 8 (fun _ => false), .cut 8 2, .post 8])
    = [.bool true, .bool true, .calls [1] true, .calls [2] false, .bool true, .bool false] := rfl

/-- With asserts, a handler that has thrown ends the program when the next message of its type is dispatched; messages of other types are not concerned. -/
theorem dispatch_aborts :
    run true start [.connect 7 1, .connect 8 2, .dispatch 7 (fun _ => true), .dispatch 8 (fun _ => false), .dispatch 7 (fun _ => false)]
      = [.bool true, .bool true, .calls [1] true, .calls [2] false, .aborted] := rfl

end Maf.MExn
