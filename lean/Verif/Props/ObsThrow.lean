import Verif.Spec.ObsThrow
import Verif.Lemmas.SignalThrow

/-!
# C127: observables whose observers throw

The full property is that every history gives what `idealRun` says, and that after a `set` that returns normally every observer has been told the value.
Refuted: `failed_connect_connects` (a `connect` that throws has connected its function, and nobody has a handle to it), `reference_ends_program` (an observer that throws when a `mutable_()`
reference is let go ends the program), `retry_tells_nobody` (setting the value again after an exception returns normally, and the observers after the one that threw are never told).
Proved (asserts compiled out): everything else, for all histories in which observers throw only when values are set (`set_throws_partial`).
-/
namespace Maf.OExn
open Maf.Exn (SlotId)

variable {X : Type} [DecidableEq X]

private abbrev absv (s : State X) : X × List SlotId := (s.val, Exn.live s.kp)

private theorem tell_ideal (s : State X) (v : X) (t : Nat → Bool) :
    (tell false s v t).2 = idealTell (Exn.live s.kp) v t ∧ absv (tell false s v t).1 = (v, Exn.live s.kp) := by
  obtain ⟨h1, h2⟩ := Exn.step_live false s.kp (.emit t) (Exn.unchecked_lives _ _)
  have h2 := h2 rfl
  simp only [Exn.step] at h1 h2
  unfold tell
  generalize Exn.notify false s.kp t = r at h1 h2
  obtain ⟨k, o⟩ := r
  simp only at h1 h2
  subst h2
  simp only [Exn.ideal, idealTell, absv]
  refine ⟨trivial, ?_⟩
  rw [h1]; rfl

private theorem run_next (c : Bool) (s : State X) (op : Op X) (ops : List (Op X)) (h1 : (step c s op).2 ≠ .aborted) (h2 : (step c s op).2 ≠ .terminated) :
    run c s (op :: ops) = (step c s op).2 :: run c (step c s op).1 ops := by
  rw [run]
  generalize step c s op = r at h1 h2
  obtain ⟨s', o⟩ := r
  cases o <;> first | rfl | exact absurd rfl h1 | exact absurd rfl h2

private theorem tame_step (s : State X) (op : Op X) (h1 : ∀ x, op ≠ .connect x true)
    (h2 : ∀ v t l, op = .edit v t → (ideal (absv s) op).2 ≠ .told l true) :
    (step false s op).2 = (ideal (absv s) op).2 ∧ absv (step false s op).1 = (ideal (absv s) op).1 := by
  cases op with
  | set v t =>
    simp only [step, ideal]
    split
    · exact ⟨rfl, rfl⟩
    · exact tell_ideal s v t
  | edit v t =>
    have h2 := fun l => h2 v t l rfl
    simp only [step, ideal] at h2 ⊢
    split
    · exact ⟨rfl, rfl⟩
    · rename_i hv
      obtain ⟨a, b⟩ := tell_ideal s v t
      simp only [hv, if_false] at h2
      generalize tell false s v t = r at a b
      obtain ⟨s', o⟩ := r
      simp only at a b
      subst a
      simp only [idealTell] at h2 ⊢
      split
      · rename_i s2 l heq
        simp only [Prod.mk.injEq] at heq
        exact absurd heq.2 (h2 l)
      · exact ⟨rfl, b⟩
  | silentSet v => exact ⟨rfl, rfl⟩
  | connect x f =>
    cases f with
    | true => exact absurd rfl (h1 x)
    | false => simp [step, ideal, absv, Exn.step, Exn.live]
  | silentlyConnect x => simp [step, ideal, absv, Exn.step, Exn.live]
  | disconnect x =>
    refine ⟨by simp [step, ideal, Exn.remove_res], ?_⟩
    have := Exn.remove_live s.kp x
    simp only [step, ideal, absv]; rw [← this]
  | get => exact ⟨rfl, rfl⟩

private theorem tame_tail {s : X × List SlotId} {op : Op X} {ops : List (Op X)} (h : Tame s (op :: ops)) :
    (∀ x, op ≠ .connect x true) ∧ (∀ v t l, op = .edit v t → (ideal s op).2 ≠ .told l true) ∧ Tame (ideal s op).1 ops := by
  refine ⟨fun x e => h.1 x (by simp [e]), fun v t l e => ?_, fun x hx => h.1 x (by simp [hx]), fun i v t l hi => ?_⟩
  · have := h.2 0 v t l (by simp [e])
    simpa [idealRun] using this
  · have := h.2 (i + 1) v t l (by simpa using hi)
    simpa [idealRun] using this

private theorem ideal_calm (s : X × List SlotId) (op : Op X) : (ideal s op).2 ≠ .aborted ∧ (ideal s op).2 ≠ .terminated := by
  cases op <;> simp only [ideal] <;> (try split) <;> simp [idealTell]

private theorem tame_run (ops : List (Op X)) : ∀ (s : State X), Tame (absv s) ops →
    ∃ s', absv s' = idealAfter (absv s) ops ∧ ∀ rest, run false s (ops ++ rest) = idealRun (absv s) ops ++ run false s' rest := by
  induction ops with
  | nil => intro s _; exact ⟨s, rfl, fun _ => rfl⟩
  | cons o os ih =>
    intro s h
    obtain ⟨a, b, c⟩ := tame_tail h
    obtain ⟨h1, h2⟩ := tame_step s o a b
    obtain ⟨s', e, f⟩ := ih (step false s o).1 (by rw [h2]; exact c)
    refine ⟨s', by rw [e, h2]; rfl, fun rest => ?_⟩
    rw [List.cons_append, run_next _ _ _ _ (by rw [h1]; exact (ideal_calm _ _).1) (by rw [h1]; exact (ideal_calm _ _).2), f, h1, h2]
    rfl

/-- Asserts compiled out: every history in which observers throw at most when values are set gives what it should. -/
theorem set_throws_partial (v : X) (ops : List (Op X)) (h : Tame (v, []) ops) :
    run false (start v) ops = idealRun (v, []) ops := by
  obtain ⟨s', _, f⟩ := tame_run ops (start v) h
  have := f []
  simp only [run, List.append_nil] at this
  exact this

private def demo : List (Op Nat) :=
  [.connect 1 false, .silentlyConnect 2, .set 5 (fun k => k == 0), .edit 6 (fun _ => false), .disconnect 1, .set 7 (fun _ => false), .get]

example : Tame (0, []) demo ∧ run false (start 0) demo =
    [.told [(1, 0)] false, .bool true, .told [(1, 5)] true, .told [(1, 6), (2, 6)] false, .bool true, .told [(2, 7)] false, .value 7] := by
  refine ⟨⟨by simp [demo], ?_⟩, rfl⟩
  intro i v t l h
  match i with
  | 3 => simp [demo, idealRun, ideal, idealTell] at h ⊢
  | 0 | 1 | 2 | 4 | 5 | 6 => simp [demo] at h
  | i + 7 => simp [demo] at h

/-- A `set` of another value that returns normally has told every observer the value, in order. -/
theorem set_tells_all (v0 v : X) (pre : List (Op X)) (t : Nat → Bool) (l : List (SlotId × X)) (h : Tame (v0, []) pre) (hv : v ≠ (idealAfter (v0, []) pre).1)
    (hl : (run false (start v0) (pre ++ [.set v t])).getLast? = some (.told l false)) :
    l = (idealAfter (v0, []) pre).2.map fun x => (x, v) := by
  obtain ⟨s', e, f⟩ := tame_run pre (start v0) h
  have hs := tame_step s' (.set v t) (by simp) (by simp)
  rw [f, run_next _ _ _ _ (by rw [hs.1]; exact (ideal_calm _ _).1) (by rw [hs.1]; exact (ideal_calm _ _).2)] at hl
  simp only [run, List.getLast?_append, List.getLast?_singleton, Option.some_or, Option.some.injEq] at hl
  rw [hs.1, e] at hl
  have hl0 : absv (start v0) = (v0, []) := rfl
  rw [hl0] at hl
  simp only [ideal, hv, if_false, idealTell, Out.told.injEq] at hl
  obtain ⟨hl1, hl2⟩ := hl
  rw [← hl1, List.take_of_length_le]
  have := List.findIdx_eq_length (p := t) (xs := List.range (idealAfter (v0, []) pre).2.length)
  rw [List.any_eq_false] at hl2
  rw [this.2 (by simpa using hl2)]
  simp

/-- The value is stored though `set` threw, and setting it again — also with observers that would no longer throw — returns normally and tells nobody. -/
theorem retry_tells_nobody (v0 v : X) (pre : List (Op X)) (t u : Nat → Bool) (h : Tame (v0, []) pre) :
    ∃ o, run false (start v0) (pre ++ [.set v t, .get, .set v u]) = idealRun (v0, []) pre ++ [o, .value v, .told [] false] := by
  obtain ⟨s', _, f⟩ := tame_run pre (start v0) h
  have hs := tame_step s' (.set v t) (by simp) (by simp)
  rw [f, run_next _ _ _ _ (by rw [hs.1]; exact (ideal_calm _ _).1) (by rw [hs.1]; exact (ideal_calm _ _).2)]
  have hval : (step false s' (.set v t)).1.val = v := by
    have := congrArg Prod.fst hs.2
    simp only [absv] at this
    rw [this]; simp only [ideal]; split
    · rename_i h; simpa using h.symm
    · rfl
  refine ⟨(step false s' (.set v t)).2, ?_⟩
  generalize (step false s' (.set v t)).1 = s2 at hval
  subst hval
  simp [run, step, absv, start, Exn.live, Exn.start]

/-- Witness: the second observer is never told 5, though the second `set` returns normally. -/
theorem second_never_told :
    run false (start 0) [.silentlyConnect 1, .silentlyConnect 2, .set 5 (fun k => k == 0), .set 5 (fun _ => false)]
      = [.bool true, .bool true, .told [(1, 5)] true, .told [] false] := rfl

/-- A `connect` that throws goes on as one that has connected, in every state, in both builds. -/
theorem failed_connect_connects (c : Bool) (s : State X) (x : SlotId) (ops : List (Op X)) :
    (run c s (.connect x true :: ops)).tail = (run c s (.silentlyConnect x :: ops)).tail := rfl

/-- Witness: nothing should be connected, but function 1 is called. -/
theorem connected_though_failed :
    run false (start 0) [.connect 1 true, .set 5 (fun _ => false)] = [.told [(1, 0)] true, .told [(1, 5)] false] ∧
    idealRun (0, []) [.connect 1 true, .set 5 (fun _ => false)] = [.told [(1, 0)] true, .told [] false] := ⟨rfl, rfl⟩

/-- An observer that throws when a reference is let go ends the program. -/
theorem reference_ends_program (v0 v : X) (pre ops : List (Op X)) (t : Nat → Bool) (h : Tame (v0, []) pre) (hv : v ≠ (idealAfter (v0, []) pre).1)
    (ht : ∃ k, k < (idealAfter (v0, []) pre).2.length ∧ t k = true) :
    run false (start v0) (pre ++ .edit v t :: ops) = idealRun (v0, []) pre ++ [.terminated] := by
  obtain ⟨s', e, f⟩ := tame_run pre (start v0) h
  have hl0 : absv (start v0) = (v0, []) := rfl
  rw [f, hl0]
  rw [hl0] at e
  congr 1
  obtain ⟨a, b⟩ := tell_ideal s' v t
  have hv' : ¬ v = s'.val := by rw [show s'.val = (absv s').1 from rfl, e]; exact hv
  have hthr : (List.range (Exn.live s'.kp).length).any t = true := by
    obtain ⟨k, hk, hk'⟩ := ht
    rw [List.any_eq_true]
    rw [← e] at hk
    exact ⟨k, by simpa using hk, hk'⟩
  have : (step false s' (.edit v t)).2 = .terminated := by
    simp only [step, hv', if_false]
    generalize tell false s' v t = r at a
    obtain ⟨s2, o⟩ := r
    simp only at a
    subst a
    simp only [idealTell, hthr]
  rw [run]
  generalize step false s' (.edit v t) = r at this
  obtain ⟨s2, o⟩ := r
  simp only at this
  subst this
  rfl

example : Tame (0, []) [Op.silentlyConnect 1] ∧ (5 : Nat) ≠ (idealAfter (0, []) [Op.silentlyConnect 1]).1 ∧
    (∃ k, k < (idealAfter ((0 : Nat), []) [Op.silentlyConnect 1]).2.length ∧ (fun _ => true) k = true) := by
  refine ⟨⟨by simp, ?_⟩, by decide, 0, by decide, rfl⟩
  intro i v t l h
  match i with
  | 0 => simp at h
  | i + 1 => simp at h

/-- With asserts, the next notification after an exception ends the program, as for signals. -/
theorem checked_aborts : run true (start 0) [.silentlyConnect 1, .set 5 (fun _ => true), .set 6 (fun _ => false)]
    = [.bool true, .told [(1, 5)] true, .aborted] := rfl

end Maf.OExn
