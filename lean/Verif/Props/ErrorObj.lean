import Verif.Model.ErrorObj

/-! # C108: errors are values -/

namespace Maf
namespace Err

/-! ## Specification: each object is a value of its own -/

/-- The objects as values; `none`: destroyed. -/
abbrev Vals := List (Option Data)

/-- What a call does to values: a clone and a copy are new objects with the value of the old one, the setters change
one object, everything else changes nothing; `none`: the program uses an object that is gone. -/
def valStep (v : Vals) : Op → Option (Vals × Res)
  | .make d => some (v ++ [some d], .unit)
  | .clone i => ((v[i]?).join).map fun d => (v ++ [some d], .unit)
  | .copy i => ((v[i]?).join).map fun d => (v ++ [some d], .unit)
  | .assign i j =>
    match (v[i]?).join, (v[j]?).join with
    | some _, some b => some (v.set i (some b), .unit)
    | _, _ => none
  | .setDesc i t => ((v[i]?).join).map fun d => (v.set i (some ⟨t, d.code⟩), .unit)
  | .setCode i c => ((v[i]?).join).map fun d => (v.set i (some ⟨d.desc, c⟩), .unit)
  | .get i => ((v[i]?).join).map fun d => (v, .data d)
  | .equal i j =>
    match (v[i]?).join, (v[j]?).join with
    | some a, some b => some (v, .bool (decide (a = b)))
    | _, _ => none
  | .destroy i => ((v[i]?).join).map fun _ => (v.set i none, .unit)

/-- A program on values. -/
def valRun (v : Vals) : List Op → Option (Vals × List Res)
  | [] => some (v, [])
  | op :: ops =>
    match valStep v op with
    | none => none
    | some (v', r) => (valRun v' ops).map fun (t, l) => (t, r :: l)

/-- No compiler-generated copies. -/
def NoCopy (ops : List Op) : Prop := ∀ op ∈ ops, (∀ i, op ≠ .copy i) ∧ ∀ i j, op ≠ .assign i j

/-! ## Proof -/

/-- The objects own different cells, all of them alive, and `v` is what they hold. -/
structure Rep (s : State) (v : Vals) : Prop where
  len : s.objs.length = v.length
  val : ∀ i, deref s i = (v[i]?).join
  live : ∀ i p, ptr s i = some p → ∃ d, s.cells[p]? = some (some d)
  inj : ∀ i j p, ptr s i = some p → ptr s j = some p → i = j

theorem ptr_lt {s : State} {i p : Nat} (h : ptr s i = some p) : i < s.objs.length := by
  unfold ptr at h
  cases hi : s.objs[i]? with
  | none => simp [hi] at h
  | some o => rw [List.getElem?_eq_some_iff] at hi; exact hi.1

theorem ptr_get {s : State} {i p : Nat} (h : ptr s i = some p) : s.objs[i]? = some (some p) := by
  unfold ptr at h
  cases hi : s.objs[i]? with
  | none => simp [hi] at h
  | some o => simpa [hi] using h

theorem deref_ptr {s : State} {i : Nat} {d : Data} (h : deref s i = some d) :
    ∃ p, ptr s i = some p ∧ s.cells[p]? = some (some d) := by
  unfold deref at h
  cases hp : ptr s i with
  | none => simp [hp] at h
  | some p =>
    simp only [hp] at h
    cases hc : s.cells[p]? with
    | none => simp [hc] at h
    | some o => exact ⟨p, rfl, by simpa [hc] using h⟩

theorem rep_alloc {s : State} {v : Vals} (h : Rep s v) (d : Data) : Rep (alloc s d) (v ++ [some d]) := by
  have hp : ∀ i, ptr (alloc s d) i = if i = s.objs.length then some s.cells.length else ptr s i := by
    intro i
    unfold ptr alloc
    by_cases hi : i = s.objs.length
    · subst hi; simp
    · simp only [hi, if_false]
      by_cases hl : i < s.objs.length
      · rw [List.getElem?_append_left hl]
      · rw [List.getElem?_eq_none (by simp; omega), List.getElem?_eq_none (by omega)]
  have hc : ∀ p, p < s.cells.length → (alloc s d).cells[p]? = s.cells[p]? := by
    intro p hl
    show (s.cells ++ [some d])[p]? = _
    rw [List.getElem?_append_left hl]
  have old : ∀ i p, ptr s i = some p → p < s.cells.length := by
    intro i p hi
    obtain ⟨d', hd⟩ := h.live i p hi
    rw [List.getElem?_eq_some_iff] at hd; exact hd.1
  refine ⟨by simp [alloc, h.len], ?_, ?_, ?_⟩
  · intro i
    unfold deref
    rw [hp]
    by_cases hi : i = s.objs.length
    · rw [if_pos hi, hi, h.len]
      simp [alloc]
    · rw [if_neg hi]
      have hv := h.val i
      have e : (v ++ [some d])[i]?.join = (v[i]?).join := by
        by_cases hl : i < v.length
        · rw [List.getElem?_append_left hl]
        · have hl2 := h.len
          rw [List.getElem?_eq_none (by simp; omega), List.getElem?_eq_none (by omega)]
      rw [e, ← hv]
      unfold deref
      cases hpi : ptr s i with
      | none => rfl
      | some p => simp only; rw [hc p (old i p hpi)]
  · intro i p hpi
    rw [hp] at hpi
    split at hpi
    · cases hpi; exact ⟨d, by simp [alloc]⟩
    · obtain ⟨d', hd⟩ := h.live i p hpi
      exact ⟨d', by rw [hc p (old i p hpi)]; exact hd⟩
  · intro i j p h1 h2
    rw [hp] at h1 h2
    split at h1
    · split at h2
      · omega
      · cases h1; exact absurd (old j _ h2) (by omega)
    · split at h2
      · cases h2; exact absurd (old i _ h1) (by omega)
      · exact h.inj i j p h1 h2

theorem join_set (v : Vals) (i j : Nat) (o : Option Data) (hi : i < v.length) :
    ((v.set i o)[j]?).join = if j = i then o else (v[j]?).join := by
  by_cases hj : j = i
  · rw [if_pos hj, hj, List.getElem?_set_self hi]; rfl
  · rw [if_neg hj, List.getElem?_set_ne (Ne.symm hj)]

theorem rep_store {s : State} {v : Vals} (h : Rep s v) {i p : Nat} (hp : ptr s i = some p) (d : Data) :
    Rep (store s i d) (v.set i (some d)) := by
  have hpl : p < s.cells.length := by
    obtain ⟨d', hd⟩ := h.live i p hp
    rw [List.getElem?_eq_some_iff] at hd; exact hd.1
  have hil : i < v.length := by rw [← h.len]; exact ptr_lt hp
  have hs : store s i d = { s with cells := s.cells.set p (some d) } := by simp [store, hp]
  have hptr : ∀ j, ptr (store s i d) j = ptr s j := by intro j; rw [hs]; rfl
  refine ⟨by rw [hs]; simp [h.len], ?_, ?_, ?_⟩
  · intro j
    rw [join_set v i j _ hil]
    unfold deref
    rw [hptr]
    by_cases hj : j = i
    · rw [if_pos hj, hj, hp, hs]
      simp [List.getElem?_set_self hpl]
    · rw [if_neg hj, ← h.val j]
      unfold deref
      cases hpj : ptr s j with
      | none => rfl
      | some q =>
        have hq : p ≠ q := fun e => hj (h.inj j i p (by rw [e]; exact hpj) hp)
        simp only
        rw [hs]
        simp only
        rw [List.getElem?_set_ne hq]
  · intro j q hq
    rw [hptr] at hq
    obtain ⟨d', hd⟩ := h.live j q hq
    rw [hs]
    by_cases e : p = q
    · exact ⟨d, by rw [← e]; exact List.getElem?_set_self hpl⟩
    · exact ⟨d', by simp only; rw [List.getElem?_set_ne e]; exact hd⟩
  · intro a b q h1 h2
    rw [hptr] at h1 h2
    exact h.inj a b q h1 h2

theorem rep_destroy {s : State} {v : Vals} (h : Rep s v) {i p : Nat} (hp : ptr s i = some p) :
    Rep ⟨s.cells.set p none, s.objs.set i none⟩ (v.set i none) := by
  have hil : i < v.length := by rw [← h.len]; exact ptr_lt hp
  have hptr : ∀ j, ptr ⟨s.cells.set p none, s.objs.set i none⟩ j = if j = i then none else ptr s j := by
    intro j
    unfold ptr
    by_cases hj : j = i
    · rw [if_pos hj, hj]; simp only; rw [List.getElem?_set_self (ptr_lt hp)]; rfl
    · rw [if_neg hj]; simp only; rw [List.getElem?_set_ne (Ne.symm hj)]
  refine ⟨by simp [h.len], ?_, ?_, ?_⟩
  · intro j
    rw [join_set v i j _ hil]
    unfold deref
    rw [hptr]
    by_cases hj : j = i
    · rw [if_pos hj, if_pos hj]
    · rw [if_neg hj, if_neg hj, ← h.val j]
      unfold deref
      cases hpj : ptr s j with
      | none => rfl
      | some q =>
        have hq : p ≠ q := fun e => hj (h.inj j i p (by rw [e]; exact hpj) hp)
        simp only
        rw [List.getElem?_set_ne hq]
  · intro j q hq
    rw [hptr] at hq
    split at hq
    · cases hq
    · rename_i hj
      obtain ⟨d', hd⟩ := h.live j q hq
      have hne : p ≠ q := fun e => hj (h.inj j i p (by rw [e]; exact hq) hp)
      exact ⟨d', by simp only; rw [List.getElem?_set_ne hne]; exact hd⟩
  · intro a b q h1 h2
    rw [hptr] at h1 h2
    split at h1
    · cases h1
    · split at h2
      · cases h2
      · exact h.inj a b q h1 h2

/-- A call on objects and the same call on values. -/
theorem rep_step {s : State} {v : Vals} (h : Rep s v) (op : Op) (hc : (∀ i, op ≠ .copy i) ∧ ∀ i j, op ≠ .assign i j) :
    (∀ v' r, valStep v op = some (v', r) → ∃ s', step s op = some (s', r) ∧ Rep s' v') ∧
    (valStep v op = none → step s op = none) := by
  cases op with
  | make d =>
    refine ⟨?_, by simp [valStep]⟩
    intro v' r hv
    simp only [valStep, Option.some.injEq, Prod.mk.injEq] at hv
    obtain ⟨rfl, rfl⟩ := hv
    exact ⟨_, rfl, rep_alloc h d⟩
  | clone i =>
    simp only [valStep, step, ← h.val i]
    cases hd : deref s i with
    | none => simp
    | some d =>
      refine ⟨?_, by simp⟩
      intro v' r hv
      simp only [Option.map_some, Option.some.injEq, Prod.mk.injEq] at hv
      obtain ⟨rfl, rfl⟩ := hv
      exact ⟨_, rfl, rep_alloc h d⟩
  | copy i => exact absurd rfl (hc.1 i)
  | assign i j => exact absurd rfl (hc.2 i j)
  | setDesc i t =>
    simp only [valStep, step, ← h.val i]
    cases hd : deref s i with
    | none => simp
    | some d =>
      refine ⟨?_, by simp⟩
      intro v' r hv
      simp only [Option.map_some, Option.some.injEq, Prod.mk.injEq] at hv
      obtain ⟨rfl, rfl⟩ := hv
      obtain ⟨p, hp, _⟩ := deref_ptr hd
      exact ⟨_, rfl, rep_store h hp _⟩
  | setCode i c =>
    simp only [valStep, step, ← h.val i]
    cases hd : deref s i with
    | none => simp
    | some d =>
      refine ⟨?_, by simp⟩
      intro v' r hv
      simp only [Option.map_some, Option.some.injEq, Prod.mk.injEq] at hv
      obtain ⟨rfl, rfl⟩ := hv
      obtain ⟨p, hp, _⟩ := deref_ptr hd
      exact ⟨_, rfl, rep_store h hp _⟩
  | get i =>
    simp only [valStep, step, ← h.val i]
    cases hd : deref s i with
    | none => simp
    | some d =>
      refine ⟨?_, by simp⟩
      intro v' r hv
      simp only [Option.map_some, Option.some.injEq, Prod.mk.injEq] at hv
      obtain ⟨rfl, rfl⟩ := hv
      exact ⟨_, rfl, h⟩
  | equal i j =>
    simp only [valStep, step, ← h.val i, ← h.val j]
    cases hd : deref s i with
    | none => simp
    | some a =>
      cases hb : deref s j with
      | none => simp
      | some b =>
        refine ⟨?_, by simp⟩
        intro v' r hv
        simp only [Option.some.injEq, Prod.mk.injEq] at hv
        obtain ⟨rfl, rfl⟩ := hv
        refine ⟨s, ?_, h⟩
        simp only [Option.some.injEq, Prod.mk.injEq, true_and, Res.bool.injEq]
        obtain ⟨ad, ac⟩ := a
        obtain ⟨bd, bc⟩ := b
        simp only [Data.mk.injEq]
        by_cases h1 : ad = bd <;> by_cases h2 : ac = bc <;> simp [h1, h2, eq_comm]
  | destroy i =>
    simp only [valStep, step, ← h.val i]
    cases hd : deref s i with
    | none =>
      refine ⟨by simp, fun _ => ?_⟩
      cases ptr s i <;> rfl
    | some d =>
      refine ⟨?_, by simp⟩
      intro v' r hv
      simp only [Option.map_some, Option.some.injEq, Prod.mk.injEq] at hv
      obtain ⟨rfl, rfl⟩ := hv
      obtain ⟨p, hp, _⟩ := deref_ptr hd
      rw [hp]
      exact ⟨_, rfl, rep_destroy h hp⟩

/-- **C108 (without compiler-generated copies).**  Every program that makes, clones, changes, reads, compares and
destroys errors behaves as if each error were a value of its own: the same results, and no undefined behaviour as long
as the program does not use an error that is gone. -/
theorem errors_are_values_partial (ops : List Op) (hc : NoCopy ops) :
    (run init ops).map (·.2) = (valRun [] ops).map (·.2) := by
  have key : ∀ (ops : List Op) (s : State) (v : Vals), NoCopy ops → Rep s v →
      (run s ops).map (·.2) = (valRun v ops).map (·.2) := by
    intro ops
    induction ops with
    | nil => intro s v _ _; rfl
    | cons op ops ih =>
      intro s v hc h
      obtain ⟨h1, h2⟩ := rep_step h op (hc op List.mem_cons_self)
      simp only [run, valRun]
      cases hv : valStep v op with
      | none => rw [h2 hv]; rfl
      | some p =>
        obtain ⟨v', r⟩ := p
        obtain ⟨s', hs, hr⟩ := h1 v' r hv
        rw [hs]
        have := ih s' v' (fun o ho => hc o (List.mem_cons_of_mem _ ho)) hr
        simp only
        cases h3 : run s' ops with
        | none =>
          cases h4 : valRun v' ops with
          | none => rfl
          | some q => rw [h3, h4] at this; cases this
        | some q =>
          cases h4 : valRun v' ops with
          | none => rw [h3, h4] at this; cases this
          | some q' =>
            rw [h3, h4] at this
            simp only [Option.map_some, Option.some.injEq] at this
            simp [this]
  exact key ops init [] hc ⟨rfl, by intro i; simp [deref, ptr, init], by intro i p h; simp [ptr, init] at h,
    by intro i j p h; simp [ptr, init] at h⟩

/-- **C108 is refuted for copies**: `CSError b = a;` shares the data, so changing one changes the other, and when both
are destroyed the data is deleted twice — undefined behaviour in a program that is fine on values.  Assigning leaves the
old data behind and shares likewise. -/
theorem copies_are_not_values :
    (run init [.make ⟨[1], 9⟩, .copy 0, .setCode 1 4, .get 0]).map (·.2) = some [.unit, .unit, .unit, .data ⟨[1], 4⟩] ∧
    (valRun [] [.make ⟨[1], 9⟩, .copy 0, .setCode 1 4, .get 0]).map (·.2) = some [.unit, .unit, .unit, .data ⟨[1], 9⟩] ∧
    run init [.make ⟨[1], 9⟩, .copy 0, .destroy 0, .destroy 1] = none ∧
    (valRun [] [.make ⟨[1], 9⟩, .copy 0, .destroy 0, .destroy 1]).isSome = true ∧
    run init [.make ⟨[1], 9⟩, .make ⟨[2], 3⟩, .assign 0 1, .destroy 0, .get 1] = none := by
  decide

/-- In every state: once an error was copied and the original destroyed, reading, cloning or destroying the copy
(object number `s.objs.length`) is undefined behaviour. -/
theorem copy_outlives_its_data (s s1 s2 : State) (i p : Nat) (hp : ptr s i = some p) (r1 r2 : Res)
    (h1 : step s (.copy i) = some (s1, r1)) (h2 : step s1 (.destroy i) = some (s2, r2)) :
    step s2 (.destroy s.objs.length) = none ∧ step s2 (.get s.objs.length) = none ∧
    step s2 (.clone s.objs.length) = none := by
  have hil := ptr_lt hp
  simp only [step, hp, Option.map_some, Option.some.injEq, Prod.mk.injEq] at h1
  obtain ⟨rfl, _⟩ := h1
  have hp1 : ptr ⟨s.cells, s.objs ++ [some p]⟩ i = some p := by
    unfold ptr; simp only; rw [List.getElem?_append_left hil]; exact hp
  simp only [step, hp1] at h2
  split at h2
  · rename_i q d hq hd
    cases hq
    simp only [Option.some.injEq, Prod.mk.injEq] at h2
    obtain ⟨rfl, _⟩ := h2
    have hp2 : ptr ⟨s.cells.set p none, (s.objs ++ [some p]).set i none⟩ s.objs.length = some p := by
      unfold ptr
      simp only
      rw [List.getElem?_set_ne (by omega)]
      simp
    have hd2 : deref ⟨s.cells.set p none, (s.objs ++ [some p]).set i none⟩ s.objs.length = none := by
      unfold deref
      rw [hp2]
      simp only
      have : p < s.cells.length := by
        obtain ⟨_, h', hc⟩ := deref_ptr hd
        rw [hp1] at h'; cases h'
        rw [List.getElem?_eq_some_iff] at hc; exact hc.1
      rw [List.getElem?_set_self this]; rfl
    refine ⟨?_, ?_, ?_⟩
    · simp [step, hd2]
    · simp [step, hd2]
    · simp [step, hd2]
  · cases h2

/-- Clones go their own ways. -/
example : (run init [.make ⟨[1], 9⟩, .clone 0, .equal 0 1, .setCode 1 4, .equal 0 1, .destroy 0, .get 1, .destroy 1]).map (·.2) =
    some [.unit, .unit, .bool true, .unit, .bool false, .unit, .data ⟨[1], 4⟩, .unit] := by decide
example : NoCopy [.make ⟨[1], 9⟩, .clone 0, .equal 0 1, .setCode 1 4, .equal 0 1, .destroy 0, .get 1, .destroy 1] := by
  intro op h
  simp only [List.mem_cons, List.not_mem_nil, or_false] at h
  rcases h with rfl | rfl | rfl | rfl | rfl | rfl | rfl | rfl <;> exact ⟨(by intro i h; cases h), (by intro i j h; cases h)⟩

end Err
end Maf
