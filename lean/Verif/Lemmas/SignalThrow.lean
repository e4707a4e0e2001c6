import Verif.Spec.SignalThrow

namespace Maf.Exn

abbrev live (s : State) : List SlotId := s.slots.filterMap id

theorem hasSlot_eq (s : State) (x : SlotId) : hasSlot s x = (live s).contains x := by
  obtain ⟨l, n⟩ := s
  simp only [hasSlot, live]
  induction l with
  | nil => rfl
  | cons e es ih =>
    cases e with
    | none => simpa using ih
    | some y =>
      simp only [List.any_cons, ih, List.filterMap_cons, id_eq, List.contains_cons]
      congr 1
      have : (some y == some x) = (y == x) := rfl
      rw [this]; exact BEq.comm

theorem resetFirst_live (x : SlotId) (l : List (Option SlotId)) :
    (resetFirst x l).filterMap id = (l.filterMap id).erase x := by
  induction l with
  | nil => rfl
  | cons e es ih =>
    cases e with
    | none => simpa [resetFirst] using ih
    | some y =>
      by_cases h : y = x
      · simp [resetFirst, h]
      · simp [resetFirst, h, ih, List.erase_cons_tail]

theorem erase_live (x : SlotId) (l : List (Option SlotId)) :
    (l.erase (some x)).filterMap id = (l.filterMap id).erase x := by
  induction l with
  | nil => rfl
  | cons e es ih =>
    cases e with
    | none => simpa [List.erase_cons_tail] using ih
    | some y =>
      by_cases h : y = x
      · simp [h]
      · simp [h, ih, List.erase_cons_tail]

theorem remove_live (s : State) (x : SlotId) : live (remove s x).1 = (live s).erase x := by
  unfold remove
  split
  · split
    · exact resetFirst_live x s.slots
    · exact erase_live x s.slots
  · rename_i h
    rw [hasSlot_eq] at h
    exact (List.erase_of_not_mem (by simpa using h)).symm

theorem remove_res (s : State) (x : SlotId) : (remove s x).2 = (live s).contains x := by
  rw [← hasSlot_eq]
  unfold remove
  split
  · rename_i h; split <;> simp [h]
  · rename_i h; simpa using h

theorem loop_spec (throws : Nat → Bool) (l : List (Option SlotId)) : ∀ k,
    (loop throws k l).1 = (l.filterMap id).take ((List.range' k (l.filterMap id).length).findIdx throws + 1) ∧
    (loop throws k l).2.1.filterMap id = l.filterMap id ∧
    (loop throws k l).2.2 = (List.range' k (l.filterMap id).length).any throws ∧
    ((loop throws k l).2.2 = false → none ∉ (loop throws k l).2.1) := by
  induction l with
  | nil => intro k; simp [loop]
  | cons e es ih =>
    intro k
    cases e with
    | none => simpa [loop] using ih k
    | some x =>
      obtain ⟨h1, h2, h3, h4⟩ := ih (k + 1)
      by_cases ht : throws k
      · simp [loop, ht, List.range'_succ, List.findIdx_cons]
      · simp only [loop, ht]
        refine ⟨?_, ?_, ?_, ?_⟩
        · simp [h1, List.range'_succ, List.findIdx_cons, ht]
        · simpa using h2
        · simpa [List.range'_succ, ht] using h3
        · intro hf; simpa using h4 (by simpa using hf)

/-- Null pointers are there only while `notifying_` is set. -/
def Clean (s : State) : Prop := s.notifying = false → none ∉ s.slots

theorem step_live (c : Bool) (s : State) (op : Op) (h : (step c s op).2 ≠ .aborted) :
    live (step c s op).1 = (ideal (live s) op).1 ∧
    (op.asksCount = false → (step c s op).2 = (ideal (live s) op).2) := by
  cases op with
  | connect x => simp [step, ideal, live]
  | disconnect x => exact ⟨remove_live s x, fun _ => by simp [step, ideal, remove_res]⟩
  | reconnect x =>
    simp only [step, ideal, hasSlot_eq]
    by_cases hx : x ∈ live s
    · have : (live s).contains x = true := by simpa using hx
      simp only [this, hx, if_true]; simp
    · have : (live s).contains x = false := by simpa using hx
      simp only [this, hx, if_false]; simp [live]
  | has x => simp [step, ideal, hasSlot_eq]
  | clear => simp [step, ideal, live]
  | emit t =>
    simp only [step, notify] at h ⊢
    split
    · rename_i he; simp [ideal, live, he]
    · split
      · rename_i h1 h2; simp [h1, h2] at h
      · obtain ⟨h1, h2, h3, _⟩ := loop_spec t s.slots 0
        simp only [ideal, live]
        refine ⟨h2, fun _ => ?_⟩
        rw [h1, h3, List.range_eq_range']
  | count => exact ⟨rfl, fun h => by simp [Op.asksCount] at h⟩
  | connected => exact ⟨rfl, fun h => by simp [Op.asksCount] at h⟩

theorem step_clean (c : Bool) (s : State) (op : Op) (h : Clean s) : Clean (step c s op).1 := by
  cases op with
  | connect x => intro hn; simpa [step] using h hn
  | disconnect x =>
    simp only [step, remove]
    split
    · split
      · rename_i hn; intro h'; simp [hn] at h'
      · intro hn; exact fun hm => h hn (List.mem_of_mem_erase hm)
    · exact h
  | reconnect x =>
    simp only [step]; split
    · exact h
    · intro hn; simpa using h hn
  | has x => exact h
  | clear => intro _; simp [step]
  | emit t =>
    simp only [step, notify]
    split
    · exact h
    · split
      · exact h
      · exact (loop_spec t s.slots 0).2.2.2
  | count => exact h
  | connected => exact h

theorem live_of_clean {s : State} (h : none ∉ s.slots) : s.slots.length = (live s).length := by
  obtain ⟨l, n⟩ := s
  simp only [live] at *
  induction l with
  | nil => rfl
  | cons e es ih =>
    cases e with
    | none => simp at h
    | some x => simpa using ih (by simpa using h)

theorem live_le (s : State) : (live s).length ≤ s.slots.length := List.length_filterMap_le _ _

/-- While `notifying_` is not set, every call gives what it should. -/
theorem step_exact (c : Bool) (s : State) (op : Op) (hc : Clean s) (hn : s.notifying = false) :
    (step c s op).2 = (ideal (live s) op).2 ∧ live (step c s op).1 = (ideal (live s) op).1 ∧
    (step c s op).1.notifying = (ideal (live s) op).2.threw := by
  have hna : (step c s op).2 ≠ .aborted := by
    cases op <;> simp only [step, notify, hn] <;> (repeat' split) <;> simp_all
  obtain ⟨h1, h2⟩ := step_live c s op hna
  have hl := live_of_clean (hc hn)
  refine ⟨?_, h1, ?_⟩
  · cases op with
    | count => simp [step, ideal, hl]
    | connected =>
      have : s.slots.isEmpty = (live s).isEmpty := by
        rw [Bool.eq_iff_iff, List.isEmpty_iff_length_eq_zero, List.isEmpty_iff_length_eq_zero, hl]
      simp only [step, ideal, this]
    | _ => exact h2 rfl
  · cases op with
    | connect x => exact hn
    | disconnect x => simp only [step, remove]; (repeat' split) <;> simpa [ideal, Out.threw] using hn
    | reconnect x => simp only [step]; split <;> simpa [ideal, Out.threw] using hn
    | has x => exact hn
    | clear => exact hn
    | emit t =>
      simp only [step, notify, hn]
      split
      · rename_i he; simp [ideal, live, he, Out.threw, hn]
      · simp only [Bool.and_false, Bool.false_eq_true, if_false, ideal, Out.threw]
        rw [(loop_spec t s.slots 0).2.2.1, List.range_eq_range']
    | count => exact hn
    | connected => exact hn

theorem unchecked_lives (s : State) (op : Op) : (step false s op).2 ≠ .aborted := by
  cases op <;> simp only [step, notify] <;> (repeat' split) <;> simp_all

theorem run_cons (c : Bool) (s : State) (op : Op) (ops : List Op) (h : (step c s op).2 ≠ .aborted) :
    run c s (op :: ops) = (step c s op).2 :: run c (step c s op).1 ops := by
  rw [run]
  generalize step c s op = r at h
  obtain ⟨s', o⟩ := r
  cases o <;> first | rfl | exact absurd rfl h

end Maf.Exn
