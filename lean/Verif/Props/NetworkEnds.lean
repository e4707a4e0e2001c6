import Verif.Lemmas.NetworkEnds
import Verif.Props.Network
/-
C114: emissions in a network of signals without circles come to an end.
-/
namespace Maf.Net

/-- Signals are not connected in circles, and the functions do not use signals: then threads that emit signals never wait for each other; one of them can go on. -/
theorem no_deadlock_partial (as : List Act) (s : State) (h : run init as = some s) (hu : s.ub = false) (rank : SigId → Nat) (N : Nat) (hN : ∀ g, rank g ≤ N) (hr : Upwards rank s.log) (hl : Leaves s)
    {t : Tid} (ht : s.stk t ≠ []) : ∃ u a s', (a = .enter u ∨ a = .iter u ∨ a = .ret u) ∧ step s a = some s' :=
  moves (good h hu) rank N hN hr hl ht

/-- And the emissions come to an end: after so many steps at most, however the threads take turns; and the threads stop only when all of them have returned from the library. -/
theorem emissions_end_partial (as : List Act) (s : State) (h : run init as = some s) (hu : s.ub = false) (rank : SigId → Nat) (N : Nat) (hN : ∀ g, rank g ≤ N) (hr : Upwards rank s.log) (hl : Leaves s)
    (T : List Tid) (hT : OnlyEmit T s) :
    ∃ M, ∀ as' s', (∀ a ∈ as', GoesOn T a) → run s as' = some s' → s'.ub = false → as'.length ≤ M ∧ ((∀ a, GoesOn T a → step s' a = none) → ∀ t, s'.stk t = []) := by
  have hg := good h hu
  obtain ⟨K, hK⟩ := bound_run h ⟨0, fun g => by simp [init, Sig.init]⟩
  have hc : Calm K rank s := ⟨hT.2, hK, hl, fun g sl k hsl hk => hr g sl k (hk ▸ hg.inv.core.sound.made g sl hsl)⟩
  refine ⟨total N K rank T s, fun as' s' ha hs hu' => ?_⟩
  obtain ⟨h1, h2, h3, h4⟩ := lib_run hg hc hN hT.1 ha hs hu'
  refine ⟨by omega, fun hstop t => ?_⟩
  cases e : s'.stk t with
  | nil => rfl
  | cons f r =>
    exfalso
    have hr' : ∀ g sl k, Is s'.log g sl (.forward k) → rank g < rank k := by
      intro g sl k hk
      obtain ⟨e1, e2⟩ := h2.inv.core.sound.conn g sl _ hk
      exact h3.ranks g sl k e2 e1
    obtain ⟨u, a, s2, hau, hstep⟩ := moves h2 rank N hN hr' h3.tails (t := t) (by rw [e]; simp)
    have hmem : u ∈ T := by
      by_cases hm : u ∈ T
      · exact hm
      · exfalso
        have he := h4 u hm
        have hub := h2.ub
        unfold step at hstep
        rw [if_neg (by simp [hub])] at hstep
        rcases hau with rfl | rfl | rfl <;> simp [body, he] at hstep
    have := hstop a ⟨u, hmem, hau⟩
    rw [this] at hstep; cases hstep

/-- Signal 0 is connected to signal 1; threads 2 and 3 emit both of them at the same time: the hypotheses hold while thread 2 is in the middle of it. -/
def together : List Act :=
  [.call 0 0 (.connect (.forward 1)), .enter 0, .call 0 1 (.connect .plain), .enter 0, .call 2 0 (.emit 5), .call 3 1 (.emit 6), .enter 2, .iter 2]

example : ∃ s, run init together = some s ∧ s.ub = false ∧ s.stk 2 = [.wants 1 (.emit 5), .fwd 0 0 1 5, .notifying 0 5] ∧ s.stk 3 = [.wants 1 (.emit 6)] ∧
    Upwards (fun g => min g 1) s.log ∧ Leaves s ∧ OnlyEmit [2, 3] s := by
  have h : ∃ s, run init together = some s ∧ s.ub = false ∧ s.stk = upd (upd (upd (upd (upd (upd (upd (upd (fun _ => []) 0 [.wants 0 (.connect (.forward 1))]) 0 []) 0 [.wants 1 (.connect .plain)]) 0 []) 2 [.wants 0 (.emit 5)])
      3 [.wants 1 (.emit 6)]) 2 [.notifying 0 5]) 2 [.wants 1 (.emit 5), .fwd 0 0 1 5, .notifying 0 5] ∧
      s.log = [.connected 0 0 0 (.forward 1), .sig 0 0 (.added 0 0), .connected 0 1 0 .plain, .sig 0 1 (.added 0 0), .sig 2 0 (.emitted 5), .sig 2 0 (.called 0 0 5), .forward 2 0 0 1 5] :=
    ⟨_, rfl, rfl, rfl, rfl⟩
  obtain ⟨s, h1, h2, h3, h4⟩ := h
  have cases : ∀ t, s.stk t = [] ∨ (t = 2 ∧ s.stk t = [.wants 1 (.emit 5), .fwd 0 0 1 5, .notifying 0 5]) ∨ (t = 3 ∧ s.stk t = [.wants 1 (.emit 6)]) := by
    intro t
    rw [h3]
    by_cases e2 : t = 2
    · subst e2; exact .inr (.inl ⟨rfl, rfl⟩)
    · by_cases e3 : t = 3
      · subst e3; exact .inr (.inr ⟨rfl, rfl⟩)
      · by_cases e0 : t = 0
        · subst e0; exact .inl rfl
        · refine .inl ?_
          simp [upd, e0, e2, e3]
  refine ⟨s, h1, h2, by rw [h3]; rfl, by rw [h3]; rfl, ?_, ?_, ?_, ?_⟩
  · rintro g sl k ⟨t, ht⟩
    rw [h4] at ht
    simp at ht
    obtain ⟨_, rfl, _, rfl⟩ := ht
    decide
  · intro t f hf
    rcases cases t with h | ⟨_, h⟩ | ⟨_, h⟩ <;> rw [h] at hf <;> simp at hf
    rcases hf with rfl | rfl <;> rfl
  · intro t ht
    rcases cases t with h | ⟨rfl, h⟩ | ⟨rfl, h⟩
    · exact h
    · simp at ht
    · simp at ht
  · intro t g w hw
    rcases cases t with h | ⟨_, h⟩ | ⟨_, h⟩ <;> rw [h] at hw <;> simp at hw
    · exact ⟨5, hw.2⟩
    · exact ⟨6, hw.2⟩

end Maf.Net
