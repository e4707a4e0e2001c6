import Verif.Model.Compound
/-
C28, C59: compound observables.
-/
namespace Maf.Compound
variable {X : Type} [DecidableEq X]

/-- What sub-state `i` of the compound will be when everything posted has been executed in
order. -/
def view (s : State X) (i : Nat) : Option X :=
  s.posted.foldl (fun acc p => if p.1 = i then some p.2 else acc) s.comp[i]?

structure Inv (s : State X) : Prop where
  lenC : s.comp.length = s.src.length
  posted : ∀ p ∈ s.posted, p.1 < s.src.length
  mirror : ∀ i : Nat, s.link[i]? = some Link.synced → s.phase[i]? ≠ some Phase.emitting → view s i = s.src[i]?

theorem compSet_comp (s : State X) (i : Nat) (x : X) : (compSet s i x).comp = s.comp.set i x := by
  unfold compSet
  split
  · rfl
  · next h =>
    simp only [ne_eq, Decidable.not_not] at h
    obtain ⟨hl, hg⟩ := List.getElem?_eq_some_iff.1 h
    rw [← hg, List.set_getElem_self]

theorem compSet_rest (s : State X) (i : Nat) (x : X) : (compSet s i x).src = s.src ∧ (compSet s i x).posted = s.posted ∧
    (compSet s i x).link = s.link ∧ (compSet s i x).phase = s.phase := by
  unfold compSet; split <;> exact ⟨rfl, rfl, rfl, rfl⟩

/-- After the slot has been called for `i` with `x`. -/
theorem view_slot (async : Bool) (s : State X) (i : Nat) (x : X) (hi : i < s.comp.length)
    (ha : async = false → s.posted = []) (j : Nat) :
    view (slot async s i x) j = if i = j then some x else view s j := by
  cases async with
  | true => simp [slot, view]
  | false =>
    have hp := ha rfl
    simp only [slot, view, (compSet_rest s i x).2.1, compSet_comp, hp, List.foldl_nil, Bool.false_eq_true, if_false]
    by_cases e : i = j
    · subst e; rw [if_pos rfl, List.getElem?_set_self hi]
    · rw [if_neg e, List.getElem?_set_ne e]

theorem slot_rest (async : Bool) (s : State X) (i : Nat) (x : X) :
    (slot async s i x).src = s.src ∧ (slot async s i x).link = s.link ∧ (slot async s i x).phase = s.phase ∧
    (slot async s i x).comp.length = s.comp.length ∧
    (∀ p ∈ (slot async s i x).posted, p ∈ s.posted ∨ p = (i, x)) ∧ (async = false → (slot async s i x).posted = s.posted) := by
  cases async with
  | true => simp [slot]
  | false =>
    simp only [slot, Bool.false_eq_true, if_false, compSet_comp, List.length_set]
    obtain ⟨h1, h2, h3, h4⟩ := compSet_rest s i x
    exact ⟨h1, h3, h4, trivial, fun p hp => .inl (h2 ▸ hp), fun _ => h2⟩

/-- Allowed in the theorems: no silent sets, and an executor that runs in the order of posting. -/
def fair : Act X → Bool
  | .silentSet _ _ => false
  | .exec k => k == 0
  | _ => true

theorem getElem?_set_eq {α : Type} {l : List α} {i j : Nat} {a b : α} (h : (l.set i a)[j]? = some b) :
    (i = j ∧ b = a) ∨ (i ≠ j ∧ l[j]? = some b) := by
  by_cases e : i = j
  · subst e
    rw [List.getElem?_set_self'] at h
    cases hl : l[i]? with
    | none => simp [hl] at h
    | some y => simp [hl] at h; exact .inl ⟨rfl, h.symm⟩
  · rw [List.getElem?_set_ne e] at h; exact .inr ⟨e, h⟩

theorem inv_step {async : Bool} {s s' : State X} {a : Act X} (h : Inv s) (hp : async = false → s.posted = [])
    (hf : fair a = true) (hs : step async s a = some s') : Inv s' ∧ (async = false → s'.posted = []) := by
  cases a <;> simp only [step] at hs
  case set i x =>
    split at hs
    · next hg =>
      split at hs
      · cases hs
        refine ⟨⟨by simp [h.lenC], by simpa using h.posted, ?_⟩, hp⟩
        intro j hl hph
        have hne : i ≠ j := by
          intro e; subst e
          apply hph
          have : i < s.phase.length := (List.getElem?_eq_some_iff.1 hg.1).1
          simp [List.getElem?_set_self this]
        simp only [List.getElem?_set_ne hne] at hph ⊢
        exact h.mirror j hl hph
      · cases hs; exact ⟨h, hp⟩
    · cases hs
  case silentSet i x => simp [fair] at hf
  case deliver i =>
    split at hs
    · next x hx =>
      split at hs
      · next hg =>
        cases hs
        have hlt : i < s.src.length := (List.getElem?_eq_some_iff.1 hx).1
        obtain ⟨r1, r2, r3, r4, r5, r6⟩ := slot_rest async s i x
        refine ⟨⟨?_, ?_, ?_⟩, fun e => (r6 e).trans (hp e)⟩
        · show (slot async s i x).comp.length = (slot async s i x).src.length
          rw [r4, r1, h.lenC]
        · intro p hm
          show p.1 < (slot async s i x).src.length
          rw [r1]
          rcases r5 p hm with hm | rfl
          · exact h.posted p hm
          · exact hlt
        · intro j hl hph
          show view (slot async s i x) j = (slot async s i x).src[j]?
          rw [view_slot async s i x (by rw [h.lenC]; exact hlt) hp, r1]
          by_cases e : i = j
          · subst e; rw [if_pos rfl, hx]
          · rw [if_neg e]
            replace hl : (slot async s i x).link[j]? = some Link.synced := hl
            rw [r2] at hl
            exact h.mirror j hl (by simpa only [List.getElem?_set_ne e] using hph)
      · cases hs
    · cases hs
  case finish i =>
    split at hs
    · next hg =>
      cases hs
      refine ⟨⟨h.lenC, h.posted, ?_⟩, hp⟩
      intro j hl hph
      by_cases e : i = j
      · subst e
        rcases hg with hg | hg
        · exact h.mirror i hl (by rw [hg]; simp)
        · rw [hg.2] at hl; cases hl
      · exact h.mirror j hl (by simpa only [List.getElem?_set_ne e] using hph)
    · cases hs
  case connect i =>
    split at hs
    · next x hx =>
      split at hs
      · next hg =>
        cases hs
        have hlt : i < s.src.length := (List.getElem?_eq_some_iff.1 hx).1
        have hne : ∀ j : Nat, (s.link.set i Link.added)[j]? = some Link.synced → i ≠ j ∧ s.link[j]? = some Link.synced := by
          intro j hj
          rcases getElem?_set_eq hj with ⟨_, e⟩ | e
          · cases e
          · exact e
        cases async with
        | false =>
          exact ⟨⟨h.lenC, h.posted, fun j hl hph => h.mirror j (hne j hl).2 hph⟩, hp⟩
        | true =>
          obtain ⟨r1, r2, r3, r4⟩ := compSet_rest s i x
          simp only [if_true]
          refine ⟨⟨?_, ?_, ?_⟩, by simp⟩
          · show (compSet s i x).comp.length = (compSet s i x).src.length
            rw [compSet_comp, List.length_set, r1, h.lenC]
          · show ∀ p ∈ (compSet s i x).posted, p.1 < (compSet s i x).src.length
            rw [r1, r2]; exact h.posted
          · intro j hl hph
            obtain ⟨e, hl'⟩ := hne j hl
            show List.foldl _ (compSet s i x).comp[j]? (compSet s i x).posted = (compSet s i x).src[j]?
            rw [r1, r2, compSet_comp, List.getElem?_set_ne e]
            exact h.mirror j hl' (by simpa only [r4] using hph)
      · cases hs
    · cases hs
  case notifyOne i =>
    split at hs
    · next x hx =>
      split at hs
      · next hg =>
        cases hs
        have hlt : i < s.src.length := (List.getElem?_eq_some_iff.1 hx).1
        obtain ⟨r1, r2, r3, r4, r5, r6⟩ := slot_rest async s i x
        refine ⟨⟨?_, ?_, ?_⟩, fun e => (r6 e).trans (hp e)⟩
        · show (slot async s i x).comp.length = (slot async s i x).src.length
          rw [r4, r1, h.lenC]
        · intro p hm
          show p.1 < (slot async s i x).src.length
          rw [r1]
          rcases r5 p hm with hm | rfl
          · exact h.posted p hm
          · exact hlt
        · intro j hl hph
          show view (slot async s i x) j = (slot async s i x).src[j]?
          rw [view_slot async s i x (by rw [h.lenC]; exact hlt) hp, r1]
          by_cases e : i = j
          · subst e; rw [if_pos rfl, hx]
          · rw [if_neg e]
            replace hph : (slot async s i x).phase[j]? ≠ some Phase.emitting := hph
            rw [r3] at hph
            exact h.mirror j (by simpa only [List.getElem?_set_ne e] using hl) hph
      · cases hs
    · cases hs
  case exec k =>
    have hk : k = 0 := by simpa [fair] using hf
    subst hk
    split at hs
    · next i x hx =>
      cases hs
      cases hps : s.posted with
      | nil => simp [hps] at hx
      | cons p rest =>
        rw [hps] at hx
        simp at hx; subst hx
        obtain ⟨r1, r2, r3, r4⟩ := compSet_rest s i x
        have hlt : i < s.src.length := h.posted (i, x) (by rw [hps]; simp)
        refine ⟨⟨?_, ?_, ?_⟩, fun e => by rw [hp e] at hps; cases hps⟩
        · show (compSet s i x).comp.length = (compSet s i x).src.length
          rw [compSet_comp, List.length_set, r1, h.lenC]
        · intro p hpm
          show p.1 < (compSet s i x).src.length
          rw [r1]
          exact h.posted p (by rw [hps]; exact List.mem_cons_of_mem _ hpm)
        · intro j hl hph
          replace hl : (compSet s i x).link[j]? = some Link.synced := hl
          replace hph : (compSet s i x).phase[j]? ≠ some Phase.emitting := hph
          rw [r3] at hl; rw [r4] at hph
          have := h.mirror j hl hph
          show List.foldl _ (compSet s i x).comp[j]? rest = (compSet s i x).src[j]?
          rw [r1, ← this, view, hps, List.foldl_cons, compSet_comp]
          by_cases e : i = j
          · subst e; rw [if_pos rfl, List.getElem?_set_self (by rw [h.lenC]; exact hlt)]
          · rw [if_neg e, List.getElem?_set_ne e]
    · cases hs

theorem inv_run (async : Bool) (src comp : List X) (hlen : comp.length = src.length) (acts : List (Act X)) (s : State X)
    (hf : ∀ a ∈ acts, fair a = true) (hr : run async (init src comp) acts = some s) :
    Inv s ∧ (async = false → s.posted = []) := by
  have key : ∀ (acts : List (Act X)) (s0 : State X), Inv s0 → (async = false → s0.posted = []) →
      (∀ a ∈ acts, fair a = true) → run async s0 acts = some s → Inv s ∧ (async = false → s.posted = []) := by
    intro acts
    induction acts with
    | nil => intro s0 h0 hp _ h; cases h; exact ⟨h0, hp⟩
    | cons a as ih =>
      intro s0 h0 hp hf h
      simp only [run] at h
      cases hs : step async s0 a with
      | none => simp [hs] at h
      | some s1 =>
        simp only [hs, Option.bind_some] at h
        obtain ⟨h1, h2⟩ := inv_step h0 hp (hf a (by simp)) hs
        exact ih s1 h1 h2 (fun b hb => hf b (List.mem_cons_of_mem _ hb)) h
  refine key acts _ ⟨hlen, by simp [init], ?_⟩ (fun _ => rfl) hf hr
  intro i hl
  simp [init] at hl

/-- C28, the part that holds: without silent sets, whenever a source is not being changed,
the compound's sub-state for it equals the source's state, from the end of the compound's
construction on. In particular, when no source is being changed the compound is the tuple of
its sources' states. Missing: while a source is being changed, and after silent sets (below). -/
theorem compound_mirrors_partial (src comp : List X) (hlen : comp.length = src.length) (acts : List (Act X)) (s : State X)
    (hf : ∀ a ∈ acts, fair a = true) (hr : run false (init src comp) acts = some s) :
    (∀ i : Nat, s.link[i]? = some Link.synced → s.phase[i]? ≠ some Phase.emitting → s.comp[i]? = s.src[i]?) ∧
    ((∀ i : Nat, i < s.src.length → s.link[i]? = some Link.synced ∧ s.phase[i]? = some Phase.idle) → s.comp = s.src) := by
  obtain ⟨hi, hp⟩ := inv_run false src comp hlen acts s hf hr
  have h1 : ∀ i : Nat, s.link[i]? = some Link.synced → s.phase[i]? ≠ some Phase.emitting → s.comp[i]? = s.src[i]? := by
    intro i hl hph
    have := hi.mirror i hl hph
    simpa [view, hp rfl] using this
  refine ⟨h1, ?_⟩
  intro hall
  apply List.ext_getElem?
  intro i
  by_cases hlt : i < s.src.length
  · obtain ⟨a, b⟩ := hall i hlt
    exact h1 i a (by rw [b]; simp)
  · rw [List.getElem?_eq_none (by rw [hi.lenC]; omega), List.getElem?_eq_none (by omega)]

/-- C59, the part that holds: the same for a compound with an executor that runs what is
posted in order, as soon as everything posted has been executed. -/
theorem async_compound_mirrors_partial (src comp : List X) (hlen : comp.length = src.length) (acts : List (Act X)) (s : State X)
    (hf : ∀ a ∈ acts, fair a = true) (hr : run true (init src comp) acts = some s) (hq : s.posted = []) :
    ∀ i : Nat, s.link[i]? = some Link.synced → s.phase[i]? ≠ some Phase.emitting → s.comp[i]? = s.src[i]? := by
  obtain ⟨hi, _⟩ := inv_run true src comp hlen acts s hf hr
  intro i hl hph
  have := hi.mirror i hl hph
  simpa [view, hq] using this

theorem compSet_told (s : State X) (i : Nat) (x : X) (hi : i < s.comp.length) :
    ((compSet s i x).comp = s.comp ∧ (compSet s i x).told = s.told) ∨
    ((compSet s i x).comp ≠ s.comp ∧ (compSet s i x).told = s.told ++ [(compSet s i x).comp]) := by
  unfold compSet
  split
  · next hne =>
    right
    refine ⟨?_, rfl⟩
    intro e
    apply hne
    have := congrArg (fun l : List X => l[i]?) e
    simp only [List.getElem?_set_self hi] at this
    exact this.symm
  · left; exact ⟨rfl, rfl⟩

/-- C28: every step either leaves the compound as it is and tells its observers nothing, or
changes it and tells them the new state once. -/
theorem compound_notifies_on_change (async : Bool) (src comp : List X) (hlen : comp.length = src.length) (acts : List (Act X))
    (s s' : State X) (a : Act X) (hr : run async (init src comp) acts = some s) (hs : step async s a = some s') :
    (s'.comp = s.comp ∧ s'.told = s.told) ∨ (s'.comp ≠ s.comp ∧ s'.told = s.told ++ [s'.comp]) := by
  have hinv : ∀ (acts : List (Act X)) (s0 : State X), (s0.comp.length = s0.src.length ∧ ∀ p ∈ s0.posted, p.1 < s0.src.length) →
      run async s0 acts = some s → s.comp.length = s.src.length ∧ ∀ p ∈ s.posted, p.1 < s.src.length := by
    intro acts
    induction acts with
    | nil => intro s0 h0 h; cases h; exact h0
    | cons b as ih =>
      intro s0 h0 h
      simp only [run] at h
      cases hb : step async s0 b with
      | none => simp [hb] at h
      | some s1 =>
        simp only [hb, Option.bind_some] at h
        refine ih s1 ?_ h
        have hsl : ∀ i x, i < s0.src.length → (slot async s0 i x).comp.length = (slot async s0 i x).src.length ∧
            ∀ p ∈ (slot async s0 i x).posted, p.1 < (slot async s0 i x).src.length := by
          intro i x hi
          obtain ⟨r1, _, _, r4, r5, _⟩ := slot_rest async s0 i x
          rw [r4, r1]
          refine ⟨h0.1, fun p hp => ?_⟩
          rcases r5 p hp with hp | rfl
          · exact h0.2 p hp
          · exact hi
        have hcs : ∀ i x, (compSet s0 i x).comp.length = (compSet s0 i x).src.length ∧
            ∀ p ∈ (compSet s0 i x).posted, p.1 < (compSet s0 i x).src.length := by
          intro i x
          obtain ⟨r1, r2, _, _⟩ := compSet_rest s0 i x
          rw [compSet_comp, List.length_set, r1, r2]; exact h0
        cases b <;> simp only [step] at hb
        case set i x =>
          split at hb
          · split at hb <;> cases hb
            · simpa using h0
            · exact h0
          · cases hb
        case silentSet i x =>
          split at hb <;> cases hb
          simpa using h0
        case deliver i =>
          split at hb
          · next x hx =>
            split at hb <;> cases hb
            exact hsl i x (List.getElem?_eq_some_iff.1 hx).1
          · cases hb
        case finish i =>
          split at hb <;> cases hb
          exact h0
        case connect i =>
          split at hb
          · next x hx =>
            split at hb <;> cases hb
            cases async with
            | false => exact h0
            | true => exact hcs i x
          · cases hb
        case notifyOne i =>
          split at hb
          · next x hx =>
            split at hb <;> cases hb
            exact hsl i x (List.getElem?_eq_some_iff.1 hx).1
          · cases hb
        case exec k =>
          split at hb
          · next i x hx =>
            cases hb
            refine ⟨(hcs i x).1, fun p hp => (hcs i x).2 p ?_⟩
            rw [(compSet_rest s0 i x).2.1]
            exact (List.eraseIdx_sublist _ _).subset hp
          · cases hb
  have hI := hinv acts _ ⟨hlen, by simp [init]⟩ hr
  have hslot : ∀ i x, i < s.src.length →
      ((slot async s i x).comp = s.comp ∧ (slot async s i x).told = s.told) ∨
      ((slot async s i x).comp ≠ s.comp ∧ (slot async s i x).told = s.told ++ [(slot async s i x).comp]) := by
    intro i x hi
    cases async with
    | true => left; exact ⟨rfl, rfl⟩
    | false => exact compSet_told s i x (by rw [hI.1]; exact hi)
  cases a <;> simp only [step] at hs
  case set i x =>
    split at hs
    · split at hs <;> cases hs <;> exact .inl ⟨rfl, rfl⟩
    · cases hs
  case silentSet i x =>
    split at hs <;> cases hs
    exact .inl ⟨rfl, rfl⟩
  case deliver i =>
    split at hs
    · next x hx =>
      split at hs <;> cases hs
      exact hslot i x (List.getElem?_eq_some_iff.1 hx).1
    · cases hs
  case finish i =>
    split at hs <;> cases hs
    exact .inl ⟨rfl, rfl⟩
  case connect i =>
    split at hs
    · next x hx =>
      split at hs <;> cases hs
      cases async with
      | false => exact .inl ⟨rfl, rfl⟩
      | true => exact compSet_told s i x (by rw [hI.1]; exact (List.getElem?_eq_some_iff.1 hx).1)
    · cases hs
  case notifyOne i =>
    split at hs
    · next x hx =>
      split at hs <;> cases hs
      exact hslot i x (List.getElem?_eq_some_iff.1 hx).1
    · cases hs
  case exec k =>
    split at hs
    · next i x hx =>
      cases hs
      exact compSet_told s i x (by rw [hI.1]; exact hI.2 (i, x) (List.mem_of_getElem? hx))
    · cases hs

/-- The construction of a compound over two sources. -/
def build2 : List (Act Nat) := [.connect 0, .notifyOne 0, .connect 1, .notifyOne 1]

/-- C28 as stated does not hold: while a source is being changed the compound lags behind, and
a silent set of a source is never seen by the compound. -/
theorem compound_lags :
    (∃ s, run false (init [1, 2] [0, 0]) (build2 ++ [.set 0 5]) = some s ∧ s.src = [5, 2] ∧ s.comp = [1, 2]) ∧
    (∃ s, run false (init [1, 2] [0, 0]) (build2 ++ [.silentSet 0 5]) = some s ∧ s.src = [5, 2] ∧ s.comp = [1, 2] ∧
      s.phase = [.idle, .idle]) :=
  ⟨⟨_, rfl, rfl, rfl⟩, ⟨_, rfl, rfl, rfl, rfl⟩⟩

/-- C59 does not hold for an executor that may reorder (a pool of several threads): the
compound can be left with an old value for good. -/
theorem reordering_executor_stale :
    ∃ s, run true (init [1, 2] [0, 0]) (build2 ++ [.exec 0, .exec 0, .set 0 5, .deliver 0, .finish 0, .set 0 6, .deliver 0,
      .finish 0, .exec 1, .exec 0]) = some s ∧ s.src = [6, 2] ∧ s.comp = [5, 2] ∧ s.posted = [] ∧ s.phase = [.idle, .idle] :=
  ⟨_, rfl, rfl, rfl, rfl, rfl⟩

/-- The hypotheses are met: two sources, changed by overlapping threads. -/
def sample : List (Act Nat) :=
  build2 ++ [.set 0 5, .set 1 7, .deliver 1, .deliver 0, .finish 0, .finish 1, .set 0 5, .set 0 6, .deliver 0, .finish 0]

example : ∃ s, run false (init [1, 2] [0, 0]) sample = some s ∧ s.comp = [6, 7] ∧ s.src = [6, 7] ∧
    s.link = [.synced, .synced] ∧ s.phase = [.idle, .idle] ∧
    s.told = [[1, 0], [1, 2], [1, 7], [5, 7], [6, 7]] :=
  ⟨_, rfl, rfl, rfl, rfl, rfl, rfl⟩

example : ∀ a ∈ sample, fair a = true := by decide

example : ∃ s, run true (init [1, 2] [0, 0]) (sample ++ [.exec 0, .exec 0, .exec 0, .exec 0, .exec 0]) = some s ∧
    s.posted = [] ∧ s.comp = [6, 7] :=
  ⟨_, rfl, rfl, rfl⟩

end Maf.Compound
