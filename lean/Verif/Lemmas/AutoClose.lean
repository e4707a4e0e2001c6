import Verif.Lemmas.Hist
import Verif.Spec.AutoClose
namespace Maf.Fd

structure Inv (s : State) : Prop where
  /-- every number in use is either a handle's or the others' -/
  owned : ∀ n k, s.tbl n = some k → (s.others n = false ∧ (∃ x, s.val x = some (some n)) ∧ IsOpen .handle k s.log) ∨ (s.others n = true ∧ IsOpen .other k s.log)
  held : ∀ x n, s.val x = some (some n) → s.tbl n ≠ none ∧ s.others n = false
  theirs : ∀ n, s.others n = true → s.tbl n ≠ none
  one : ∀ x y n, s.val x = some (some n) → s.val y = some (some n) → x = y
  inj : ∀ n n' k, s.tbl n = some k → s.tbl n' = some k → n = n'
  there : ∀ w k, IsOpen w k s.log → ∃ n, s.tbl n = some k
  new : ∀ w k, Ev.opened w k ∈ s.log → k < s.next
  newC : ∀ w k, Ev.closed w k ∈ s.log → k < s.next
  hist : Hist EvOk s.log

theorem inv_init : Inv init := by
  constructor <;> simp [init, IsOpen, Hist.nil]

theorem inv_val {s s' : State} (hi : Inv s) (h1 : s'.tbl = s.tbl) (h2 : s'.next = s.next) (h3 : s'.others = s.others) (h4 : s'.log = s.log)
    (hv : ∀ n, (∃ x, s.val x = some (some n)) → ∃ x, s'.val x = some (some n)) (hv' : ∀ x n, s'.val x = some (some n) → ∃ y, s.val y = some (some n))
    (hone : ∀ x y n, s'.val x = some (some n) → s'.val y = some (some n) → x = y) : Inv s' := by
  obtain ⟨a1, a2, a3, a4, a5, a6, a7, a8, a9⟩ := hi
  refine ⟨?_, ?_, ?_, hone, ?_, ?_, ?_, ?_, ?_⟩ <;> (try rw [h1]) <;> (try rw [h2]) <;> (try rw [h3]) <;> (try rw [h4]) <;> (try assumption)
  · intro n k h
    rcases a1 n k h with ⟨b1, b2, b3⟩ | b
    · exact .inl ⟨b1, hv n b2, b3⟩
    · exact .inr b
  · intro x n h
    obtain ⟨y, hy⟩ := hv' x n h
    exact a2 y n hy

theorem opens {l : List Ev} {w w' : Who} {k k' : Sock} : IsOpen w k (l ++ [.opened w' k']) ↔ (IsOpen w k l ∨ (w = w' ∧ k = k' ∧ ∀ w', Ev.closed w' k ∉ l)) := by
  simp only [IsOpen, List.mem_append, List.mem_singleton, Ev.opened.injEq, reduceCtorEq, or_false]; grind

theorem closes {l : List Ev} {w w' : Who} {k k' : Sock} : IsOpen w k (l ++ [.closed w' k']) ↔ (IsOpen w k l ∧ k ≠ k') := by
  simp only [IsOpen, List.mem_append, List.mem_singleton, Ev.closed.injEq, reduceCtorEq, or_false]; grind

/-- A handle closes what it has. -/
theorem inv_drop {s : State} (hi : Inv s) {x : Var} {old : Option Fd} (hx : s.val x = some old) {v : Option (Option Fd)} (hv : ∀ n, v ≠ some (some n)) : Inv { closeFD s old with val := upd s.val x v } := by
  cases old with
  | none =>
    refine inv_val hi rfl rfl rfl rfl ?_ ?_ ?_ <;> simp only [upd, closeFD]
    · rintro n ⟨y, hy⟩; exact ⟨y, by grind⟩
    · intro y n h; exact ⟨y, by grind⟩
    · have := hi.one; grind
  | some n =>
    obtain ⟨a1, a2, a3, a4, a5, a6, a7, a8, a9⟩ := hi
    have hb := a2 x n hx
    cases hk : s.tbl n with
    | none => exact absurd hk hb.1
    | some k =>
      have hop : IsOpen .handle k s.log := by
        rcases a1 n k hk with ⟨-, -, h⟩ | ⟨h, -⟩
        · exact h
        · rw [hb.2] at h; cases h
      have hlt := a7 _ _ hop.1
      simp only [closeFD, close, hk]
      refine ⟨?_, ?_, ?_, ?_, ?_, ?_, ?_, ?_, a9.one hop⟩ <;> simp only [closes, List.mem_append, List.mem_singleton]
      · intro n' k' h'
        simp only [upd] at h'
        split at h'
        · cases h'
        · next hne =>
          have hkk : k' ≠ k := by rintro rfl; exact hne (a5 _ _ _ h' hk)
          rcases a1 n' k' h' with ⟨h1, ⟨y, h2⟩, h3⟩ | ⟨h1, h3⟩
          · refine .inl ⟨h1, ⟨y, ?_⟩, h3, hkk⟩
            have : y ≠ x := by rintro rfl; rw [hx] at h2; cases h2; exact hne rfl
            simp [upd, this, h2]
          · exact .inr ⟨h1, h3, hkk⟩
      · grind [upd]
      · grind [upd]
      · grind [upd]
      · grind [upd]
      · rintro w k' ⟨h1, h2⟩
        obtain ⟨n', h3⟩ := a6 w k' h1
        refine ⟨n', ?_⟩
        have : n' ≠ n := by rintro rfl; rw [hk] at h3; cases h3; exact h2 rfl
        simp [upd, this, h3]
      · grind
      · grind

/-- A handle takes what another one has. -/
theorem inv_take {s : State} (hi : Inv s) {x y : Var} {v : Option Fd} (hxy : x ≠ y) (hx : ∀ n, s.val x ≠ some (some n)) (hy : s.val y = some v) :
    Inv { s with val := upd (upd s.val x (some v)) y (some none) } := by
  have h1 := hi.one
  refine inv_val hi rfl rfl rfl rfl ?_ ?_ ?_ <;> simp only [upd]
  · rintro n ⟨z, hz⟩
    by_cases e : z = y
    · exact ⟨x, by grind⟩
    · exact ⟨z, by grind⟩
  · intro z n h
    by_cases e : z = x
    · exact ⟨y, by grind⟩
    · exact ⟨z, by grind⟩
  · grind

theorem closeFD_val (s : State) (o : Option Fd) : (closeFD s o).val = s.val := by
  cases o with
  | none => rfl
  | some n => simp only [closeFD, close]; split <;> rfl

theorem closeFD_of (s : State) (f : Var → Option (Option Fd)) (o : Option Fd) : closeFD { s with val := f } o = { closeFD s o with val := f } := by
  cases o with
  | none => rfl
  | some n => simp only [closeFD, close]; split <;> rfl

theorem upd_upd {β : Type} (f : Nat → β) (i : Nat) (a b : β) : upd (upd f i a) i b = upd f i b := by
  funext j; simp only [upd]; split <;> rfl

theorem inv_takeFrom {s : State} (hi : Inv s) {x y : Var} {old : Option Fd} (hx : s.val x = some old) (hy : s.val y ≠ none) : Inv (takeFrom s x y old) := by
  have h1 := inv_drop hi hx (v := some none) (by simp)
  simp only [takeFrom, closeFD_of, upd_upd]
  by_cases e : x = y
  · subst e
    simp only [upd_upd]
    exact h1
  · cases hv : s.val y with
    | none => exact absurd hv hy
    | some v =>
      have h2 : upd s.val x (some none) y = some v := by simp [upd, Ne.symm e, hv]
      rw [h2]
      simp only [Option.getD]
      have h3 := inv_take h1 e (by simp [upd]) h2
      simp only [upd_upd] at h3
      exact h3

theorem inv_step {s s' : State} {a : Act} (hi : Inv s) (hp : polite a = true) (h : step s a = some s') : Inv s' := by
  have newval : ∀ x, s.val x = none → Inv { s with val := upd s.val x (some none) } := by
    intro x hx
    have h1 := hi.one
    refine inv_val hi rfl rfl rfl rfl ?_ ?_ ?_ <;> simp only [upd]
    · rintro n ⟨y, hy⟩; exact ⟨y, by grind⟩
    · intro y n h; exact ⟨y, by grind⟩
    · grind
  cases a with
  | create x => simp only [step] at h; split at h <;> cases h; next hx => exact newval x hx
  | wrap x r =>
    cases r with
    | none => simp only [step] at h; split at h <;> cases h; next hx => exact newval x hx
    | some n =>
      simp only [step] at h
      split at h <;> cases h
      next hx =>
      obtain ⟨hx, hn⟩ := hx
      obtain ⟨a1, a2, a3, a4, a5, a6, a7, a8, a9⟩ := hi
      refine ⟨?_, ?_, ?_, ?_, ?_, ?_, ?_, ?_, a9.one fun w hw => Nat.lt_irrefl _ (a7 _ _ hw)⟩ <;> simp only [opens, List.mem_append, List.mem_singleton]
      · intro n' k' h'
        simp only [upd] at h'
        split at h'
        · next e =>
          subst e; cases h'
          refine .inl ⟨?_, ⟨x, by simp [upd]⟩, .inr ⟨by trivial, rfl, fun w hw => Nat.lt_irrefl _ (a8 _ _ hw)⟩⟩
          grind
        · next hne =>
          rcases a1 n' k' h' with ⟨h1, ⟨y, h2⟩, h3⟩ | ⟨h1, h3⟩
          · refine .inl ⟨h1, ⟨y, ?_⟩, .inl h3⟩
            have : y ≠ x := by rintro rfl; rw [hx] at h2; cases h2
            simp [upd, this, h2]
          · exact .inr ⟨h1, .inl h3⟩
      · grind [upd]
      · grind [upd]
      · grind [upd]
      · have : ∀ n', s.tbl n' ≠ some s.next := by
          intro n' h'
          rcases a1 n' _ h' with ⟨-, -, h3⟩ | ⟨-, h3⟩ <;> exact Nat.lt_irrefl _ (a7 _ _ h3.1)
        grind [upd]
      · rintro w k' (h1 | ⟨-, rfl, -⟩)
        · obtain ⟨n', h3⟩ := a6 w k' h1
          refine ⟨n', ?_⟩
          have : n' ≠ n := by rintro rfl; rw [hn] at h3; cases h3
          simp [upd, this, h3]
        · exact ⟨n, by simp [upd]⟩
      · grind
      · grind
  | construct x y g =>
    simp only [step] at h
    split at h <;> cases h
    next hx =>
    cases g with
    | some n => cases hp
    | none =>
      have h1 := inv_takeFrom (newval x hx.1) (x := x) (y := y) (old := none) (by simp [upd]) (by simp [upd, Ne.symm hx.2.2]; exact hx.2.1)
      simpa only [takeFrom, closeFD_of, upd_upd] using h1
  | assign x y =>
    simp only [step] at h
    split at h
    · next old hx => split at h <;> cases h; next hy => exact inv_takeFrom hi hx hy
    · cases h
  | reset x =>
    simp only [step] at h
    split at h <;> cases h
    next old hx => rw [closeFD_val]; exact inv_drop hi hx (by simp)
  | destroy x =>
    simp only [step] at h
    split at h <;> cases h
    next old hx => rw [closeFD_val]; exact inv_drop hi hx (by simp)
  | otherOpens n =>
    simp only [step] at h
    split at h <;> cases h
    next hn =>
    obtain ⟨a1, a2, a3, a4, a5, a6, a7, a8, a9⟩ := hi
    refine ⟨?_, ?_, ?_, ?_, ?_, ?_, ?_, ?_, a9.one fun w hw => Nat.lt_irrefl _ (a7 _ _ hw)⟩ <;> simp only [opens, List.mem_append, List.mem_singleton]
    · intro n' k' h'
      simp only [upd] at h'
      split at h'
      · next e =>
        subst e; cases h'
        exact .inr ⟨by simp [upd], .inr ⟨by trivial, rfl, fun w hw => Nat.lt_irrefl _ (a8 _ _ hw)⟩⟩
      · next hne =>
        rcases a1 n' k' h' with ⟨h1, h2, h3⟩ | ⟨h1, h3⟩
        · exact .inl ⟨by simp [upd, hne, h1], h2, .inl h3⟩
        · exact .inr ⟨by simp [upd, hne, h1], .inl h3⟩
    · grind [upd]
    · grind [upd]
    · exact a4
    · have : ∀ n', s.tbl n' ≠ some s.next := by
        intro n' h'
        rcases a1 n' _ h' with ⟨-, -, h3⟩ | ⟨-, h3⟩ <;> exact Nat.lt_irrefl _ (a7 _ _ h3.1)
      grind [upd]
    · rintro w k' (h1 | ⟨-, rfl, -⟩)
      · obtain ⟨n', h3⟩ := a6 w k' h1
        refine ⟨n', ?_⟩
        have : n' ≠ n := by rintro rfl; rw [hn] at h3; cases h3
        simp [upd, this, h3]
      · exact ⟨n, by simp [upd]⟩
    · grind
    · grind
  | otherCloses n =>
    simp only [step] at h
    split at h
    · next k hk =>
      split at h <;> cases h
      next ho =>
      obtain ⟨a1, a2, a3, a4, a5, a6, a7, a8, a9⟩ := hi
      have hop : IsOpen .other k s.log := by
        rcases a1 n k hk with ⟨h, -⟩ | ⟨-, h⟩
        · rw [ho] at h; cases h
        · exact h
      have hlt := a7 _ _ hop.1
      refine ⟨?_, ?_, ?_, ?_, ?_, ?_, ?_, ?_, a9.one hop⟩ <;> simp only [closes, List.mem_append, List.mem_singleton]
      · intro n' k' h'
        simp only [upd] at h'
        split at h'
        · cases h'
        · next hne =>
          have hkk : k' ≠ k := by rintro rfl; exact hne (a5 _ _ _ h' hk)
          rcases a1 n' k' h' with ⟨h1, h2, h3⟩ | ⟨h1, h3⟩
          · exact .inl ⟨by simp [upd, hne, h1], h2, h3, hkk⟩
          · exact .inr ⟨by simp [upd, hne, h1], h3, hkk⟩
      · grind [upd]
      · grind [upd]
      · exact a4
      · grind [upd]
      · rintro w k' ⟨h1, h2⟩
        obtain ⟨n', h3⟩ := a6 w k' h1
        refine ⟨n', ?_⟩
        have : n' ≠ n := by rintro rfl; rw [hk] at h3; cases h3; exact h2 rfl
        simp [upd, this, h3]
      · grind
      · grind
    · cases h

theorem inv_run {as : List Act} {s s' : State} (hi : Inv s) (hp : ∀ a ∈ as, polite a = true) (h : run s as = some s') : Inv s' := by
  induction as generalizing s with
  | nil => cases h; exact hi
  | cons a as ih =>
    simp only [run, Option.bind_eq_some_iff] at h
    obtain ⟨s1, h1, h2⟩ := h
    exact ih (inv_step hi (hp a (by simp)) h1) (fun a ha => hp a (by simp [ha])) h2

end Maf.Fd
