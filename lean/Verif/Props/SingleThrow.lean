import Verif.Spec.SingleThrow

/-!
# C126, single-connection signals whose slot throws

Asserts compiled out: every call of every history gives what it should (`one_right`).
With asserts: right up to and including the first exception (`one_until_exception_partial`), then the next emission that has a slot to call ends the program (`one_ends_program`).
-/
namespace Maf.Exn

private theorem one_step (c : Bool) (s : One) (op : Op) (h : (s.step c op).2 ≠ .aborted) :
    (s.step c op).2 = (idealOne s.slot.toList op).2 ∧ (s.step c op).1.slot.toList = (idealOne s.slot.toList op).1 ∧
    (s.step c op).1.notifying = (if op.isEmit ∧ s.slot ≠ none then (idealOne s.slot.toList op).2.threw else s.notifying) := by
  obtain ⟨sl, n⟩ := s
  cases op with
  | emit t =>
    cases sl with
    | none => simp [One.step, One.notify, idealOne, ideal, Op.isEmit]
    | some x =>
      simp only [One.step, One.notify] at h ⊢
      split
      · rename_i hh; simp [hh] at h
      · simp [idealOne, ideal, Out.threw, Op.isEmit, List.range_succ, List.take_of_length_le]
  | disconnect x =>
    cases sl with
    | none => simp [One.step, idealOne, ideal, Op.isEmit]
    | some y =>
      by_cases e : y = x
      · simp [One.step, idealOne, ideal, Op.isEmit, e]
      · have e' : ¬ x = y := fun h => e h.symm
        simp [One.step, idealOne, ideal, Op.isEmit, e, e', List.erase_cons_tail]
  | has x =>
    cases sl with
    | none => simp [One.step, idealOne, ideal, Op.isEmit]
    | some y =>
      simp only [One.step, idealOne, ideal, Option.toList_some, List.contains_cons, List.contains_nil, Bool.or_false]
      refine ⟨?_, trivial, ?_⟩
      · congr 1; exact BEq.comm
      · simp [Op.isEmit]
  | connect x => cases sl <;> simp [One.step, idealOne, Op.isEmit]
  | reconnect x => cases sl <;> simp [One.step, idealOne, Op.isEmit]
  | clear => simp [One.step, idealOne, ideal, Op.isEmit]
  | count => cases sl <;> simp [One.step, idealOne, ideal, Op.isEmit]
  | connected => cases sl <;> simp [One.step, idealOne, ideal, Op.isEmit]

private theorem one_cons (c : Bool) (s : One) (op : Op) (ops : List Op) (h : (s.step c op).2 ≠ .aborted) :
    s.run c (op :: ops) = (s.step c op).2 :: (s.step c op).1.run c ops := by
  rw [One.run]
  generalize s.step c op = r at h
  obtain ⟨s', o⟩ := r
  cases o <;> first | rfl | exact absurd rfl h

private theorem one_calm (c : Bool) (s : One) (op : Op) (h : c = false ∨ s.notifying = false ∨ op.isEmit = false) :
    (s.step c op).2 ≠ .aborted := by
  obtain ⟨sl, n⟩ := s
  cases op <;> cases sl <;> simp only [One.step, One.notify] <;> (repeat' split) <;> simp_all [Op.isEmit]

/-- Asserts compiled out: every history, with any exceptions. -/
theorem one_right (ops : List Op) : One.run false ⟨none, false⟩ ops = idealOneRun [] ops := by
  suffices ∀ s : One, s.run false ops = idealOneRun s.slot.toList ops from this ⟨none, false⟩
  induction ops with
  | nil => intro s; rfl
  | cons o os ih =>
    intro s
    have hna := one_calm false s o (.inl rfl)
    obtain ⟨h1, h2, _⟩ := one_step false s o hna
    rw [one_cons _ _ _ _ hna, ih, h1, h2]; rfl

example : One.run false ⟨none, false⟩ [.connect 1, .connect 2, .emit (fun _ => true), .disconnect 1, .count, .connect 2, .emit (fun _ => false)]
    = [.bool true, .bool false, .calls [1] true, .bool true, .num 0, .bool true, .calls [2] false] := rfl

private theorem one_prefix (c : Bool) (pre : List Op) : ∀ (s : One), s.notifying = false →
    (∀ o ∈ idealOneRun s.slot.toList pre, o.threw = false) →
    ∃ s' : One, s'.notifying = false ∧ s'.slot.toList = slotAfter s.slot.toList pre ∧
      ∀ rest, s.run c (pre ++ rest) = idealOneRun s.slot.toList pre ++ s'.run c rest := by
  induction pre with
  | nil => intro s hn _; exact ⟨s, hn, rfl, fun _ => rfl⟩
  | cons o os ih =>
    intro s hn h
    have hna := one_calm c s o (.inr (.inl hn))
    obtain ⟨h1, h2, h3⟩ := one_step c s o hna
    simp only [idealOneRun, List.mem_cons, forall_eq_or_imp] at h
    obtain ⟨s', a2, a3, a4⟩ := ih (s.step c o).1 (by rw [h3, h.1, hn]; simp) (by rw [h2]; exact h.2)
    refine ⟨s', a2, by rw [a3, h2]; rfl, fun rest => ?_⟩
    rw [List.cons_append, one_cons c s o _ hna, a4 rest, h1, h2]; rfl

private theorem one_append (pre rest : List Op) : ∀ l, idealOneRun l (pre ++ rest) = idealOneRun l pre ++ idealOneRun (slotAfter l pre) rest := by
  induction pre with
  | nil => intro l; rfl
  | cons o os ih => intro l; simp [idealOneRun, slotAfter, ih]

/-- Both builds: right up to and including the first exception. -/
theorem one_until_exception_partial (c : Bool) (pre : List Op) (op : Op) (h : ∀ o ∈ idealOneRun [] pre, o.threw = false) :
    One.run c ⟨none, false⟩ (pre ++ [op]) = idealOneRun [] (pre ++ [op]) := by
  obtain ⟨s', a2, a3, a4⟩ := one_prefix c pre ⟨none, false⟩ rfl h
  have hna := one_calm c s' op (.inr (.inl a2))
  have a4' := a4 [op]
  rw [one_cons c s' op [] hna, (one_step c s' op hna).1, a3] at a4'
  rw [a4', one_append]; rfl

example : ∀ o ∈ idealOneRun [] [.connect 1, .emit (fun _ => false), .connect 2, .disconnect 1], o.threw = false := by decide

/-- With asserts: after an exception the next emission ends the program if there is a slot to call. -/
theorem one_ends_program (pre mid : List Op) (t u : Nat → Bool) (rest : List Op)
    (h1 : ∀ o ∈ idealOneRun [] pre, o.threw = false) (h2 : (idealOne (slotAfter [] pre) (.emit t)).2.threw = true)
    (h3 : ∀ o ∈ mid, o.isEmit = false) (h4 : slotAfter [] (pre ++ .emit t :: mid) ≠ []) :
    One.run true ⟨none, false⟩ (pre ++ .emit t :: mid ++ .emit u :: rest) = idealOneRun [] (pre ++ .emit t :: mid) ++ [.aborted] := by
  obtain ⟨s', a2, a3, a4⟩ := one_prefix true pre ⟨none, false⟩ rfl h1
  have hl : (One.mk none false).slot.toList = [] := rfl
  rw [hl] at a3 a4
  rw [List.append_assoc, a4, List.cons_append, one_append, List.append_assoc]
  congr 1
  have hna := one_calm true s' (.emit t) (.inr (.inl a2))
  obtain ⟨e1, e2, e3⟩ := one_step true s' (.emit t) hna
  rw [one_cons _ _ _ _ hna, e1, a3]
  simp only [idealOneRun, List.cons_append]
  congr 1
  have hs : s'.slot ≠ none := by
    intro e; rw [← a3, e] at h2; simp [idealOne, ideal, Out.threw] at h2
  have hn : (s'.step true (.emit t)).1.notifying = true := by
    rw [e3, a3, h2]; simp [Op.isEmit, hs]
  have happ : ∀ (a b : List Op) (l : List SlotId), slotAfter l (a ++ b) = slotAfter (slotAfter l a) b := by
    intro a b; induction a with
    | nil => intro l; rfl
    | cons o os ih => intro l; simp [slotAfter, ih]
  rw [happ] at h4
  have h4' : slotAfter (s'.step true (.emit t)).1.slot.toList mid ≠ [] := by rw [e2, a3]; exact h4
  have hmid : ∀ (os : List Op), (∀ o ∈ os, o.isEmit = false) → ∀ s : One, s.notifying = true → slotAfter s.slot.toList os ≠ [] →
      s.run true (os ++ .emit u :: rest) = idealOneRun s.slot.toList os ++ [.aborted] := by
    intro os
    induction os with
    | nil =>
      intro _ s hn hne
      obtain ⟨sl, n⟩ := s
      cases sl with
      | none => simp [slotAfter] at hne
      | some x =>
        simp only at hn; subst hn
        have : One.step true ⟨some x, true⟩ (.emit u) = (⟨some x, true⟩, .aborted) := rfl
        simp [One.run, this, idealOneRun]
    | cons o os ih =>
      intro hq s hn hne
      have ho : o.isEmit = false := hq o (by simp)
      have hna := one_calm true s o (.inr (.inr ho))
      obtain ⟨f1, f2, f3⟩ := one_step true s o hna
      rw [List.cons_append, one_cons _ _ _ _ hna, ih (fun o' h' => hq o' (by simp [h'])) _ (by rw [f3, ho]; simpa using hn)
        (by rw [f2]; exact hne), f1, f2]
      rfl
  rw [hmid mid h3 _ hn h4', e2, a3]

example : (∀ o ∈ idealOneRun [] [.connect 1], o.threw = false) ∧
    (idealOne (slotAfter [] [.connect 1]) (.emit (fun _ => true))).2.threw = true ∧
    slotAfter [] ([.connect 1] ++ .emit (fun _ => true) :: [.disconnect 1, .connect 2]) ≠ [] := ⟨by decide, rfl, by decide⟩

end Maf.Exn
