import Verif.Model.IDManager
/-
C33: ids are unique.
-/
namespace Maf.Ids

/-- The ids handed out, in order. -/
def idsIn : List Ev → List Nat
  | [] => []
  | .allocated _ id :: l => id :: idsIn l
  | .called _ :: l => idsIn l

theorem idsIn_append (a b : List Ev) : idsIn (a ++ b) = idsIn a ++ idsIn b := by
  induction a with
  | nil => rfl
  | cons e a ih => cases e <;> simp [idsIn, ih]

structure Inv (bits : Nat) (s : State) : Prop where
  bound : s.counter ≤ invalid bits
  cnt : s.counter % invalid bits = (idsIn s.log).length % invalid bits
  ids : idsIn s.log = (List.range (idsIn s.log).length).map (· % invalid bits)

theorem pow_eq {bits : Nat} : 2 ^ bits = invalid bits + 1 := by
  have : 0 < 2 ^ bits := Nat.two_pow_pos bits
  unfold invalid; omega

theorem Inv_step {bits : Nat} (hb : 0 < bits) {s s' : State} {a : Act} (h : Inv bits s) (hs : step bits s a = some s') : Inv bits s' := by
  have hpos : 0 < invalid bits := by
    have : 2 ^ 1 ≤ 2 ^ bits := Nat.pow_le_pow_right (by omega) hb
    unfold invalid; omega
  obtain ⟨h1, h2, h3⟩ := h
  cases a with
  | call t =>
    simp only [step] at hs
    split at hs
    · cases hs
    · cases hs
      refine ⟨h1, ?_, ?_⟩ <;> simp only [idsIn_append, idsIn, List.append_nil]
      · exact h2
      · exact h3
  | fetch t =>
    simp only [step] at hs
    split at hs
    · split at hs
      · next e =>
        cases hs
        refine ⟨?_, ?_, h3⟩
        · simp only [pow_eq]; exact Nat.lt_succ_iff.1 (Nat.mod_lt _ (by omega))
        · simp only
          rw [e, pow_eq, Nat.mod_self, Nat.zero_mod, ← h2, e, Nat.mod_self]
      · next e =>
        cases hs
        have hlt : s.counter < invalid bits := by omega
        have hc : (s.counter + 1) % 2 ^ bits = s.counter + 1 := by rw [pow_eq]; exact Nat.mod_eq_of_lt (by omega)
        refine ⟨?_, ?_, ?_⟩
        · simp only [hc]; omega
        · simp only [hc, idsIn_append, idsIn, List.length_append, List.length_singleton]
          rw [Nat.add_mod, h2, ← Nat.add_mod]
        · simp only [idsIn_append, idsIn, List.length_append, List.length_singleton, List.range_succ, List.map_append, List.map_cons, List.map_nil]
          rw [← h3, ← h2, Nat.mod_eq_of_lt hlt]
    · cases hs

theorem reach_inv {bits : Nat} (hb : 0 < bits) {as : List Act} {s : State} (hr : run bits init as = some s) : Inv bits s := by
  suffices ∀ as s0, Inv bits s0 → run bits s0 as = some s → Inv bits s from this as init ⟨Nat.zero_le _, by simp [init, idsIn], by simp [init, idsIn]⟩ hr
  intro as
  induction as with
  | nil => intro s0 h e; simp only [run] at e; cases e; exact h
  | cons a as ih =>
    intro s0 h e
    simp only [run] at e
    cases hst : step bits s0 a with
    | none => rw [hst] at e; cases e
    | some s1 => rw [hst] at e; exact ih s1 (Inv_step hb h hst) e

/-- C33: no id handed out is the invalid id, however many are handed out. -/
theorem never_invalid {bits : Nat} (hb : 0 < bits) {as : List Act} {s : State} (hr : run bits init as = some s) {t : Tid} {id : Nat}
    (h : Ev.allocated t id ∈ s.log) : id ≠ 2 ^ bits - 1 ∧ id < 2 ^ bits := by
  have hpos : 0 < invalid bits := by
    have : 2 ^ 1 ≤ 2 ^ bits := Nat.pow_le_pow_right (by omega) hb
    unfold invalid; omega
  have hm : ∀ l : List Ev, Ev.allocated t id ∈ l → id ∈ idsIn l := by
    intro l
    induction l with
    | nil => intro h; cases h
    | cons e l ih =>
      intro h
      rcases List.mem_cons.1 h with rfl | h'
      · simp [idsIn]
      · cases e <;> simp [idsIn, ih h']
  have := hm s.log h
  rw [(reach_inv hb hr).ids, List.mem_map] at this
  obtain ⟨k, -, rfl⟩ := this
  have := Nat.mod_lt k hpos
  unfold invalid at *
  omega

/-- C33: the first 2^bits - 1 ids handed out are pairwise distinct, whichever threads they went to. -/
theorem distinct {bits : Nat} (hb : 0 < bits) {as : List Act} {s : State} (hr : run bits init as = some s) (hn : (idsIn s.log).length ≤ 2 ^ bits - 1) :
    (idsIn s.log).Pairwise (· ≠ ·) := by
  rw [(reach_inv hb hr).ids]
  rw [List.pairwise_map]
  refine List.Pairwise.imp_of_mem ?_ (List.nodup_range (n := (idsIn s.log).length))
  intro a b ha hb' hne
  rw [List.mem_range] at ha hb'
  have h1 : a % invalid bits = a := Nat.mod_eq_of_lt (by unfold invalid; omega)
  have h2 : b % invalid bits = b := Nat.mod_eq_of_lt (by unfold invalid; omega)
  rw [h1, h2]; exact hne

/-- The bound is exact: after that, they repeat in the same order. -/
theorem repeats {bits : Nat} (hb : 0 < bits) {as : List Act} {s : State} (hr : run bits init as = some s) {k : Nat} (hk : k + (2 ^ bits - 1) < (idsIn s.log).length) :
    (idsIn s.log)[k + (2 ^ bits - 1)]? = (idsIn s.log)[k]? := by
  rw [(reach_inv hb hr).ids]
  have : (idsIn s.log).length - 0 = (idsIn s.log).length := rfl
  simp only [List.getElem?_map]
  rw [List.getElem?_range hk, List.getElem?_range (by omega)]
  simp [invalid]

/-- C33: a call never waits for other threads, and of two `fetch_add`s in a row, one gives an id. -/
theorem soon {bits : Nat} (hb : 0 < bits) {as : List Act} {s : State} {t u : Tid} (hr : run bits init as = some s) (ht : s.looping t = true) (hu : s.looping u = true) :
    ∃ s1, step bits s (.fetch t) = some s1 ∧ (s1.looping t = false ∨ ∃ s2, step bits s1 (.fetch u) = some s2 ∧ s2.looping u = false) := by
  have hpos : 0 < invalid bits := by
    have : 2 ^ 1 ≤ 2 ^ bits := Nat.pow_le_pow_right (by omega) hb
    unfold invalid; omega
  simp only [step, ht, if_true]
  by_cases e : s.counter = invalid bits
  · rw [if_pos e]
    refine ⟨_, rfl, .inr ?_⟩
    simp only [hu, if_true]
    rw [e, pow_eq, Nat.mod_self, if_neg (by omega)]
    exact ⟨_, rfl, by simp⟩
  · rw [if_neg e]
    exact ⟨_, rfl, .inl (by simp)⟩

/-- The hypotheses are met, and here is the wrap for 2 bits: three distinct ids, then they repeat. -/
example : ∃ s, run 2 init [.call 0, .call 1, .fetch 1, .fetch 0, .call 0, .fetch 0, .call 1, .fetch 1, .fetch 1] = some s ∧ idsIn s.log = [0, 1, 2, 0] := ⟨_, rfl, rfl⟩
example : ∃ s, run 64 init [.call 0, .call 1, .fetch 1, .fetch 0, .call 0] = some s ∧ idsIn s.log = [0, 1] ∧ s.looping 0 = true := ⟨_, rfl, rfl, rfl⟩

end Maf.Ids
