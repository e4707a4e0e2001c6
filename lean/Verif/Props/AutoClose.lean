import Verif.Lemmas.AutoClose
/-
C118: descriptors that close themselves.
-/
namespace Maf.Fd

/-- No `close` of a handle hits anything but an open socket that was opened for a handle; nor does it disturb the others. -/
theorem own_only_partial (as : List Act) (hp : ∀ a ∈ as, polite a = true) (s : State) (h : run init as = some s) {l e m} (hl : s.log = l ++ e :: m) : EvOk l e := (inv_run inv_init hp h).hist.all l e m hl

/-- No socket is closed twice. -/
theorem closed_once_partial (as : List Act) (hp : ∀ a ∈ as, polite a = true) (s : State) (h : run init as = some s) {l m : List Ev} {w : Who} {k : Sock} (hl : s.log = l ++ .closed w k :: m) :
    ∀ w', Ev.closed w' k ∉ l ∧ Ev.closed w' k ∉ m := by
  intro w'
  refine ⟨(own_only_partial as hp s h hl).2 w', fun hm => ?_⟩
  obtain ⟨m1, m2, rfl⟩ := List.append_of_mem hm
  exact (own_only_partial as hp s h (l := l ++ .closed w k :: m1) (e := .closed w' k) (m := m2) (by rw [hl]; simp)).2 w (by simp)

/-- What a handle holds is open; a socket opened for a handle is open exactly as long as one handle holds it. -/
theorem open_iff_held_partial (as : List Act) (hp : ∀ a ∈ as, polite a = true) (s : State) (h : run init as = some s) (k : Sock) :
    IsOpen .handle k s.log ↔ ∃ x n, s.val x = some (some n) ∧ s.tbl n = some k ∧ ∀ y, s.val y = some (some n) → y = x := by
  have hi := inv_run inv_init hp h
  constructor
  · intro ho
    obtain ⟨n, hn⟩ := hi.there _ _ ho
    rcases hi.owned n k hn with ⟨-, ⟨x, hx⟩, -⟩ | ⟨-, h2⟩
    · exact ⟨x, n, hx, hn, fun y hy => hi.one y x n hy hx⟩
    · -- opened once only
      obtain ⟨l1, l2, he⟩ := List.append_of_mem ho.1
      have h3 := h2.1
      rw [he] at h3
      simp only [List.mem_append, List.mem_cons, Ev.opened.injEq, reduceCtorEq, false_and, false_or] at h3
      rcases h3 with h3 | h3
      · exact absurd h3 (own_only_partial as hp s h he .other)
      · obtain ⟨m1, m2, rfl⟩ := List.append_of_mem h3
        exact absurd (by simp) (own_only_partial as hp s h (l := l1 ++ .opened .handle k :: m1) (e := .opened .other k) (m := m2) (by rw [he]; simp) .handle)
  · rintro ⟨x, n, hx, hn, -⟩
    rcases hi.owned n k hn with ⟨-, -, h3⟩ | ⟨h2, -⟩
    · exact h3
    · rw [(hi.held x n hx).2] at h2; cases h2

/-- When no handle is left, every socket opened for one has been closed. -/
theorem none_left_open_partial (as : List Act) (hp : ∀ a ∈ as, polite a = true) (s : State) (h : run init as = some s) (hx : ∀ x, s.val x = none) (k : Sock) (hk : Ev.opened .handle k ∈ s.log) :
    ∃ w, Ev.closed w k ∈ s.log := by
  apply Classical.byContradiction
  intro hn
  obtain ⟨x, n, h1, -⟩ := (open_iff_held_partial as hp s h k).1 ⟨hk, fun w hw => hn ⟨w, hw⟩⟩
  rw [hx x] at h1; cases h1

/-- A handle that is moved from, or reset, holds nothing; one that is assigned to holds what the other one held. -/
theorem moves (s s' : State) (x y : Var) (v w : Option Fd) (hx : s.val x = some v) (hy : s.val y = some w) (h : step s (.assign x y) = some s') :
    s'.val y = some none ∧ (x ≠ y → s'.val x = some w) := by
  simp only [step, hx, hy, ne_eq, reduceCtorEq, not_false_eq_true, if_true, Option.some.injEq] at h
  subst h
  simp only [takeFrom, closeFD_of]
  refine ⟨by simp [upd], fun hne => ?_⟩
  simp [upd, hne, Ne.symm hne, hy]

theorem resets (s s' : State) (x : Var) (h : step s (.reset x) = some s') : s'.val x = some none := by
  simp only [step] at h
  split at h <;> cases h
  simp [upd]

/-- `connectToSocket` and its caller, when the result is not moved. -/
def connectAndSend : List Act := [.otherOpens 0, .create 1, .wrap 2 (some 3), .assign 1 2, .destroy 2, .otherOpens 4, .destroy 1, .otherOpens 3, .otherCloses 3]

example : (∀ a ∈ connectAndSend, polite a = true) ∧
    (run init connectAndSend).map State.log = some [.opened .other 0, .opened .handle 1, .opened .other 2, .closed .handle 1, .opened .other 3, .closed .other 3] := by decide +kernel

/-- If the result of `connectToSocket` is moved, the new handle first closes whatever number happens to be in its place: here a socket of others. -/
theorem foreign_closed : ∃ s, run init [.otherOpens 0, .create 1, .wrap 2 (some 3), .assign 1 2, .destroy 2, .construct 5 1 (some 0), .destroy 1] = some s ∧ Ev.closed .handle 0 ∈ s.log ∧ Ev.opened .other 0 ∈ s.log ∧
    Ev.opened .handle 0 ∉ s.log := ⟨_, rfl, by decide +kernel, by decide +kernel, by decide +kernel⟩

/-- Or the very descriptor it is given. -/
theorem given_is_closed : ∃ s, run init [.wrap 1 (some 3), .construct 5 1 (some 3)] = some s ∧ s.val 5 = some (some 3) ∧ s.tbl 3 = none := ⟨_, rfl, by decide +kernel, by decide +kernel⟩

/-- A handle that is constructed from another one closes nothing exactly if no descriptor number happens to be in its place. -/
theorem construct_harmless_iff (s s' : State) (x y : Var) (g : Option Fd) (hs : step s (.construct x y g) = some s') :
    s'.log = s.log ↔ g = none := by
  simp only [step] at hs
  split at hs <;> cases hs
  cases g with
  | none => simp [takeFrom, closeFD]
  | some n =>
    simp only [takeFrom, closeFD, close, reduceCtorEq, iff_false]
    split <;> simp

end Maf.Fd
