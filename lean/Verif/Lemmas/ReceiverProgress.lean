import Verif.Lemmas.Receiver
/-
The listening thread gets on with its work, and ends when it is stopped.
-/
namespace Maf.Listen

/-! ### State and queue -/

structure SInv (s : State) : Prop where
  early : s.pc = .off ∨ s.pc = .check ∨ s.pc = .begin → s.st = .initialized
  late : s.st = .initialized → s.pc = .off ∨ s.pc = .check ∨ s.pc = .begin
  stopped : s.st = .stopped → ∃ n, .stopCalled n ∈ s.log
  room : s.backlog.length ≤ maxPending
  isDone : ∀ n, s.spc n = .done → .stopReturned n ∈ s.log
  past : ∀ n, s.spc n = .load ∨ (∃ c, s.spc n = .store c) ∨ s.spc n = .wake → s.st ≠ .initialized

theorem sinv_init : SInv init := by constructor <;> simp [init]

theorem log_step {s s' : State} {a : Act} (hs : step s a = some s') : ∃ es, s'.log = s.log ++ es := by
  cases a with
  | connect => simp only [step] at hs; split at hs <;> cases hs; exact ⟨_, rfl⟩
  | write c m => simp only [step] at hs; split at hs <;> cases hs; exact ⟨_, rfl⟩
  | hangUp c => simp only [step] at hs; split at hs <;> cases hs; exact ⟨_, rfl⟩
  | start => simp only [step] at hs; split at hs <;> cases hs; exact ⟨_, rfl⟩
  | go =>
    simp only [step, stepLoop] at hs
    have nil : ∀ l : List Ev, ∃ es, l = l ++ es := fun l => ⟨[], by simp⟩
    split at hs
    · cases hs
    · split at hs <;> cases hs
      · exact nil _
      · exact ⟨_, rfl⟩
    · cases hs; exact nil _
    · split at hs
      · cases hs; exact nil _
      · split at hs <;> cases hs
        · exact ⟨_, rfl⟩
        · exact nil _
    · cases hs; exact nil _
    · have e : (toRunning s).log = s.log := by unfold toRunning; split <;> rfl
      split at hs
      · cases hs; exact ⟨_, rfl⟩
      · split at hs <;> cases hs <;> exact ⟨[], by simp [e]⟩
    · split at hs <;> cases hs
      · unfold takeConn; split
        · exact nil _
        · exact ⟨_, rfl⟩
        · exact ⟨_, rfl⟩
      · exact nil _
    · split at hs <;> cases hs
      · unfold readSlot; split
        · exact nil _
        · split
          · exact ⟨_, rfl⟩
          · exact nil _
      · exact nil _
    · cases hs
  | acceptFails => simp only [step] at hs; split at hs <;> cases hs; exact ⟨_, rfl⟩
  | stop b => simp only [step] at hs; cases hs; exact ⟨_, rfl⟩
  | goStop n =>
    simp only [step, stepStop] at hs
    have nil : ∀ l : List Ev, ∃ es, l = l ++ es := fun l => ⟨[], by simp⟩
    split at hs
    · cases hs
    · split at hs <;> cases hs <;> exact nil _
    · split at hs <;> cases hs <;> exact nil _
    · cases hs; exact nil _
    · cases hs; exact nil _
    · split at hs <;> cases hs; exact ⟨_, by simp [setStop, hang, newConn]; rfl⟩
    · split at hs <;> cases hs; exact ⟨_, rfl⟩
    · cases hs

theorem mem_step {s s' : State} {a : Act} (hs : step s a = some s') {e : Ev} (he : e ∈ s.log) : e ∈ s'.log := by
  obtain ⟨es, h⟩ := log_step hs; rw [h]; simp [he]

theorem mem_run {as : List Act} {s s' : State} (hr : run s as = some s') {e : Ev} (he : e ∈ s.log) : e ∈ s'.log := by
  induction as generalizing s with
  | nil => cases hr; exact he
  | cons a as ih =>
    simp only [run] at hr
    cases hs : step s a with
    | none => rw [hs] at hr; cases hr
    | some s1 => rw [hs] at hr; exact ih hr (mem_step hs he)

theorem SInv.mono {s s' : State} (h : SInv s) (hp : s'.pc = s.pc) (hst : s'.st = s.st) (hb : s'.backlog.length ≤ maxPending) (hl : ∀ e, e ∈ s.log → e ∈ s'.log)
    (hs : s'.spc = s.spc) : SInv s' := by
  constructor
  · rw [hp, hst]; exact h.early
  · rw [hp, hst]; exact h.late
  · rw [hst]; intro h1; obtain ⟨n, h2⟩ := h.stopped h1; exact ⟨n, hl _ h2⟩
  · exact hb
  · intro n hn; rw [hs] at hn; exact hl _ (h.isDone n hn)
  · rw [hs, hst]; exact h.past

/-- The listening thread goes on. -/
theorem SInv.move {s s' : State} (h : SInv s) (hb : s'.backlog.length ≤ s.backlog.length) (hl : ∀ e, e ∈ s.log → e ∈ s'.log) (hs : s'.spc = s.spc)
    (h0 : s'.st = .initialized → s.st = .initialized)
    (h1 : s'.pc = .off ∨ s'.pc = .check ∨ s'.pc = .begin ↔ s'.st = .initialized) (h2 : s'.st = .stopped → s.st = .stopped) : SInv s' := by
  constructor
  · exact h1.1
  · exact h1.2
  · intro h3; obtain ⟨n, h2⟩ := h.stopped (h2 h3); exact ⟨n, hl _ h2⟩
  · exact Nat.le_trans hb h.room
  · intro n hn; rw [hs] at hn; exact hl _ (h.isDone n hn)
  · rw [hs]; intro n hn hc; exact h.past n hn (h0 hc)

theorem late_of {s : State} (h : SInv s) (h1 : s.pc ≠ .off) (h2 : s.pc ≠ .check) (h3 : s.pc ≠ .begin) : s.st ≠ .initialized := fun hc => by
  rcases h.late hc with h | h | h
  · exact h1 h
  · exact h2 h
  · exact h3 h

theorem sinv_go {s s' : State} (h : SInv s) (hs : stepLoop s = some s') : SInv s' := by
  have hm : ∀ e, e ∈ s.log → e ∈ s'.log := fun e he => mem_step (a := .go) hs he
  unfold stepLoop at hs
  cases hp : s.pc with
  | off => rw [hp] at hs; cases hs
  | ended => rw [hp] at hs; cases hs
  | check =>
    rw [hp] at hs; simp only at hs
    have hi := h.early (.inr (.inl hp))
    rw [if_pos hi] at hs; cases hs
    exact h.move (Nat.le_refl _) hm rfl id (by simp [hi]) id
  | begin =>
    rw [hp] at hs; simp only at hs; cases hs
    exact h.move (Nat.le_refl _) hm rfl (by simp) (by simp) (by simp)
  | top =>
    rw [hp] at hs; simp only at hs
    have hl := late_of h (by simp [hp]) (by simp [hp]) (by simp [hp])
    split at hs
    · cases hs; exact h.move (Nat.le_refl _) hm rfl (by simp) (by simp) (by simp)
    split at hs <;> cases hs
    · exact h.move (Nat.le_refl _) hm rfl id (by simp [endThread, hl]) id
    · exact h.move (Nat.le_refl _) hm rfl id (by simp [hl]) id
  | select =>
    rw [hp] at hs; simp only at hs; cases hs
    have hl := late_of h (by simp [hp]) (by simp [hp]) (by simp [hp])
    exact h.move (Nat.le_refl _) hm rfl id (by simp [hl]) id
  | woke r b =>
    rw [hp] at hs; simp only at hs
    have hl := late_of h (by simp [hp]) (by simp [hp]) (by simp [hp])
    have e1 : (toRunning s).backlog = s.backlog := by unfold toRunning; split <;> rfl
    have e2 : (toRunning s).spc = s.spc := by unfold toRunning; split <;> rfl
    have e3 : (toRunning s).st ≠ .initialized := by unfold toRunning; split <;> simp [hl]
    split at hs
    · cases hs; exact h.move (Nat.le_refl _) hm rfl id (by simp [endThread, hl]) id
    rename_i hns
    have e4 : (toRunning s).st ≠ .stopped := by unfold toRunning; split <;> simp [hns]
    split at hs <;> cases hs
    · exact h.move (by simp [e1]) hm e2 (fun hc => absurd hc e3) (by simp [e3]) (fun hc => absurd hc e4)
    · exact h.move (by simp [e1]) hm e2 (fun hc => absurd hc e3) (by simp [e3]) (fun hc => absurd hc e4)
  | accept r b =>
    rw [hp] at hs; simp only at hs
    have hl := late_of h (by simp [hp]) (by simp [hp]) (by simp [hp])
    split at hs <;> cases hs
    · revert hm; unfold takeConn; split
      · intro hm; exact h.move (Nat.le_refl _) hm rfl id (by simp [hl]) id
      · rename_i hb _; intro hm; exact h.move (by simp [hb]) hm rfl id (by simp [hl]) id
      · rename_i hb _; intro hm; exact h.move (by simp [hb]) hm rfl id (by simp [hl]) id
    · exact h.move (Nat.le_refl _) hm rfl id (by simp [hl]) id
  | slot i r =>
    rw [hp] at hs; simp only at hs
    have hl := late_of h (by simp [hp]) (by simp [hp]) (by simp [hp])
    split at hs <;> cases hs
    · revert hm; unfold readSlot; split
      · intro hm; exact h.move (Nat.le_refl _) hm rfl id (by simp [hl]) id
      · split
        · intro hm; exact h.move (Nat.le_refl _) hm rfl id (by simp [hl]) id
        · intro hm; exact h.move (Nat.le_refl _) hm rfl id (by simp [hl]) id
    · exact h.move (Nat.le_refl _) hm rfl id (by simp [hl]) id

theorem room_newConn {s : State} (hf : full s = false) : (newConn s).backlog.length ≤ maxPending := by
  simp only [full, decide_eq_false_iff_not] at hf
  simp only [newConn, List.length_append, List.length_singleton]; omega

theorem SInv.stop {s : State} (h : SInv s) {n : Nat} {p : SPc} {l : List Ev} (hl : ∀ e, e ∈ s.log → e ∈ l) (h1 : p = .done → .stopReturned n ∈ l)
    (h2 : p = .load ∨ (∃ c, p = .store c) ∨ p = .wake → s.st ≠ .initialized) : SInv { setStop s n p with log := l } := by
  constructor
  · exact h.early
  · exact h.late
  · intro h1; obtain ⟨n, h2⟩ := h.stopped h1; exact ⟨n, hl _ h2⟩
  · exact h.room
  · intro m hm; simp only [setStop, upd] at hm; split at hm
    · rename_i hmn; subst hmn; exact h1 hm
    · exact hl _ (h.isDone m hm)
  · intro m hm; simp only [setStop, upd] at hm; split at hm
    · exact h2 hm
    · exact h.past m hm

theorem sinv_step {s s' : State} {a : Act} (ht : TInv s) (h : SInv s) (hs : step s a = some s') : SInv s' := by
  have hm : ∀ e, e ∈ s.log → e ∈ s'.log := fun e he => mem_step hs he
  cases a with
  | connect => simp only [step] at hs; split at hs <;> cases hs; rename_i hf; exact h.mono rfl rfl (room_newConn (by simpa using hf)) hm rfl
  | write c m => simp only [step] at hs; split at hs <;> cases hs; exact h.mono rfl rfl h.room hm rfl
  | hangUp c => simp only [step] at hs; split at hs <;> cases hs; exact h.mono rfl rfl h.room hm rfl
  | start =>
    simp only [step] at hs; split at hs <;> cases hs
    rename_i hp
    exact h.move (Nat.le_refl _) hm rfl id (by simp [h.early (.inl hp)]) id
  | go => exact sinv_go h hs
  | acceptFails =>
    simp only [step] at hs; split at hs <;> cases hs
    rename_i hp
    have hl := late_of h (by simp [hp]) (by simp [hp]) (by simp [hp])
    exact h.move (Nat.le_refl _) hm rfl id (by simp [endThread, hl]) id
  | stop b =>
    simp only [step] at hs; cases hs
    have h1 := SInv.stop (n := s.stops) (p := if b then .ask else .running) h hm (by split <;> simp) (by split <;> simp)
    exact ⟨h1.early, h1.late, h1.stopped, h1.room, h1.isDone, h1.past⟩
  | goStop n =>
    simp only [step, stepStop] at hs
    split at hs
    · cases hs
    · split at hs <;> cases hs <;> exact h.stop (fun _ => id) (by simp) (by simp)
    · split at hs <;> cases hs
      · rename_i hr
        exact h.stop (fun _ => id) (by simp) (fun _ hc => by rw [hc] at hr; cases hr)
      · exact h.stop (fun _ => id) (by simp) (by simp)
    · rename_i hp; cases hs; exact h.stop (fun _ => id) (by simp) (fun _ => h.past n (.inl hp))
    · rename_i cur hp; cases hs
      have hni := h.past n (.inr (.inl ⟨cur, hp⟩))
      constructor
      · intro hpc; exact absurd (h.early hpc) hni
      · intro hc; cases hc
      · intro _; exact ⟨n, (ht.call n).1 (by simp [hp])⟩
      · exact h.room
      · intro m hmd; simp only [setStop, upd] at hmd; split at hmd
        · split at hmd <;> cases hmd
        · exact h.isDone m hmd
      · intro m _ hc; cases hc
    · rename_i hp; split at hs <;> cases hs
      rename_i hf
      have h1 : SInv (hang (newConn s) s.conns) := h.mono rfl rfl (room_newConn (by simpa using hf)) (fun e he => by simp [hang, newConn, he]) rfl
      exact h1.stop (fun _ => id) (by simp) (by simp)
    · split at hs <;> cases hs
      exact h.stop hm (by simp) (by simp)
    · cases hs

/-- Both invariants, in every reachable state. -/
theorem reach {as : List Act} {s s' : State} (h : Inv s ∧ SInv s) (hr : run s as = some s') : Inv s' ∧ SInv s' := by
  induction as generalizing s with
  | nil => cases hr; exact h
  | cons a as ih =>
    simp only [run] at hr
    cases hs : step s a with
    | none => rw [hs] at hr; cases hr
    | some s1 => rw [hs] at hr; exact ih ⟨inv_step h.1 hs, sinv_step h.1.t h.2 hs⟩ hr

theorem reach_init {as : List Act} {s : State} (hr : run init as = some s) : Inv s ∧ SInv s := reach ⟨inv_init, sinv_init⟩ hr

/-! ### How long a message may take -/

/-- Steps until `select` returns next. -/
def toSelect : Pc → Nat
  | .check => 4
  | .begin => 3
  | .top => 2
  | .select => 1
  | .woke _ _ => 35
  | .accept _ _ => 34
  | .slot i _ => 30 - i + 3
  | _ => 0

/-- Steps until slot `j`, with connection `c`, is read. -/
def slotCost (c j : Nat) : Pc → Nat
  | .woke r _ => if c ∈ r then j + 3 else j + 38
  | .accept r _ => if c ∈ r then j + 2 else j + 37
  | .slot i r => if c ∈ r then j - i + 1 else 30 - i + 3 + (j + 3)
  | p => toSelect p + (j + 3)

/-- Steps until a connection is accepted. -/
def accCost : Pc → Nat
  | .woke _ true => 2
  | .accept _ true => 1
  | p => toSelect p + 2

/-- The thread will be done with `c` after `n` steps. -/
def Due (s : State) (c n : Nat) : Prop :=
  (∃ j, s.slot j = some c ∧ slotCost c j s.pc ≤ n) ∨ ∃ k, s.backlog[k]? = some c ∧ accCost s.pc + 35 * k + 70 ≤ n

/-- Nothing but the place of the thread changes, and it comes nearer. -/
theorem Due.nearer {s s' : State} {c n : Nat} (h : Due s c n) (hb : s'.backlog = s.backlog) (hs : s'.slot = s.slot)
    (h1 : ∀ j, s.slot j = some c → slotCost c j s'.pc + 1 ≤ slotCost c j s.pc) (h2 : accCost s'.pc + 1 ≤ accCost s.pc) : ∃ n', n = n' + 1 ∧ Due s' c n' := by
  rcases h with ⟨j, hj, hn⟩ | ⟨k, hk, hn⟩
  · have := h1 j hj
    exact ⟨n - 1, by omega, .inl ⟨j, by rw [hs]; exact hj, by omega⟩⟩
  · exact ⟨n - 1, by omega, .inr ⟨k, by rw [hb]; exact hk, by omega⟩⟩

theorem due_go {s s' : State} {c n : Nat} (hi : Inv s) (hsi : SInv s) (hns : s.st ≠ .stopped) (hd : s.data c ≠ .nothing) (h : Due s c n) (hs : stepLoop s = some s') :
    Gone s'.log c ∨ ∃ n', n = n' + 1 ∧ Due s' c n' := by
  unfold stepLoop at hs
  cases hp : s.pc with
  | off => rw [hp] at hs; cases hs
  | ended => rw [hp] at hs; cases hs
  | check =>
    rw [hp] at hs; simp only at hs
    rw [if_pos (hsi.early (.inr (.inl hp)))] at hs; cases hs
    exact .inr (h.nearer rfl rfl (by simp [hp, slotCost, toSelect]; intros; omega) (by simp [hp, accCost, toSelect]))
  | begin =>
    rw [hp] at hs; simp only at hs; cases hs
    exact .inr (h.nearer rfl rfl (by simp [hp, slotCost, toSelect]; intros; omega) (by simp [hp, accCost, toSelect]))
  | top =>
    rw [hp] at hs; simp only [if_neg hns] at hs
    split at hs <;> cases hs <;>
      exact .inr (h.nearer rfl rfl (by simp [hp, slotCost, toSelect]; intros; omega) (by simp [hp, accCost, toSelect]))
  | select =>
    rw [hp] at hs; simp only at hs; cases hs
    rcases h with ⟨j, hj, hn⟩ | ⟨k, hk, hn⟩
    · have hr : c ∈ readySet s := mem_readySet.2 ⟨⟨j, (hi.c.sl j c hj).1, hj⟩, hd⟩
      rw [hp] at hn; simp only [slotCost, toSelect] at hn
      exact .inr ⟨n - 1, by omega, .inl ⟨j, hj, by simp only [slotCost, if_pos hr]; omega⟩⟩
    · have hne : s.backlog.isEmpty = false := by cases hb : s.backlog with
        | nil => rw [hb] at hk; simp at hk
        | cons a t => rfl
      rw [hp] at hn; simp only [accCost, toSelect] at hn
      exact .inr ⟨n - 1, by omega, .inr ⟨k, hk, by simp only [hne, Bool.not_false, accCost]; omega⟩⟩
  | woke r b =>
    rw [hp] at hs; simp only [if_neg hns] at hs
    have e1 : (toRunning s).backlog = s.backlog := by unfold toRunning; split <;> rfl
    have e2 : (toRunning s).slot = s.slot := by unfold toRunning; split <;> rfl
    split at hs <;> cases hs
    · rename_i he
      simp only [Bool.and_eq_true, List.isEmpty_iff, Bool.not_eq_true'] at he
      obtain ⟨rfl, rfl⟩ := he
      exact .inr (h.nearer e1 e2 (by simp [hp, slotCost, toSelect]; intros; omega) (by simp [hp, accCost, toSelect]))
    · refine .inr (h.nearer e1 e2 ?_ ?_)
      · intro j _; simp only [hp, slotCost]; split <;> omega
      · cases b <;> simp [hp, accCost, toSelect]
  | accept r b =>
    rw [hp] at hs; simp only at hs
    split at hs <;> cases hs
    · rename_i hb; subst hb
      have hr : ∀ x ∈ r, ∃ i, s.slot i = some x := fun x hx => (hi.c.rdy r true (by rw [hp]; rfl) x hx).2
      -- once accepted
      have inSlot : ∀ j, j < maxClients → c ∉ r → slotCost c j (.slot 0 r) ≤ 70 := by
        intro j hj hc; simp only [slotCost, if_neg hc, maxClients] at *; omega
      unfold takeConn
      cases hb : s.backlog with
      | nil =>
        obtain ⟨a, t, h1, -⟩ := hi.c.head r (by rw [hp]; rfl)
        rw [hb] at h1; cases h1
      | cons a t =>
        rcases h with ⟨j, hj, hn⟩ | ⟨k, hk, hn⟩
        · rw [hp] at hn
          have hn' : slotCost c j (.slot 0 r) + 1 ≤ n := by
            simp only [slotCost] at hn ⊢; split at hn <;> simp_all <;> omega
          cases hf : freeSlot s with
          | some i =>
            have hji : j ≠ i := fun hc => by rw [hc, (freeSlot_some hf).2] at hj; cases hj
            exact .inr ⟨n - 1, by omega, .inl ⟨j, by simp [upd, hji, hj], by simp only; omega⟩⟩
          | none => exact .inr ⟨n - 1, by omega, .inl ⟨j, hj, by simp only; omega⟩⟩
        · rw [hp] at hn; simp only [accCost] at hn
          rw [hb] at hk
          cases k with
          | zero =>
            simp at hk; subst hk
            cases hf : freeSlot s with
            | some i =>
              have hnr : a ∉ r := fun hc => not_slot hi.c (by rw [hb]; simp) (.inl (hr a hc))
              have := inSlot i (freeSlot_some hf).1 hnr
              exact .inr ⟨n - 1, by omega, .inl ⟨i, by simp [upd], by simp only; omega⟩⟩
            | none => exact .inl (gone_snoc.2 (by simp))
          | succ k =>
            simp only [List.getElem?_cons_succ] at hk
            have hc : accCost (.slot 0 r) = 35 := rfl
            cases hf : freeSlot s with
            | some i => exact .inr ⟨n - 1, by omega, .inr ⟨k, hk, by simp only [hc]; omega⟩⟩
            | none => exact .inr ⟨n - 1, by omega, .inr ⟨k, hk, by simp only [hc]; omega⟩⟩
    · rename_i hb; simp at hb; subst hb
      refine .inr (h.nearer rfl rfl ?_ (by simp [hp, accCost, toSelect]))
      intro j _; simp only [hp, slotCost]; split <;> omega
  | slot i r =>
    rw [hp] at hs; simp only at hs
    have hj' : ∀ j, s.slot j = some c → c ∈ r → i ≤ j := fun j hj hc => (hi.c.rdy' i r hp c hc).2 j hj
    have stay : ¬ (s.slot i = some c ∧ c ∈ r) → ∀ s'', s''.backlog = s.backlog → (∀ j, s.slot j = some c → s''.slot j = some c) → s''.pc = .slot (i + 1) r → i < maxClients →
        ∃ n', n = n' + 1 ∧ Due s'' c n' := by
      intro hno s'' hb hs hpc hlt
      simp only [maxClients] at hlt
      rcases h with ⟨j, hj, hn⟩ | ⟨k, hk, hn⟩
      · rw [hp] at hn
        have : slotCost c j (.slot (i + 1) r) + 1 ≤ n := by
          simp only [slotCost] at hn ⊢
          split at hn
          · rename_i hc
            rw [if_pos hc]
            have h1 := hj' j hj hc
            have h2 : i ≠ j := fun hc' => hno ⟨hc' ▸ hj, hc⟩
            omega
          · rename_i hc; rw [if_neg hc]; omega
        exact ⟨n - 1, by omega, .inl ⟨j, hs j hj, by rw [hpc]; omega⟩⟩
      · rw [hp] at hn
        have : accCost (.slot (i + 1) r) + 1 ≤ accCost (.slot i r) := by simp only [accCost, toSelect]; omega
        exact ⟨n - 1, by omega, .inr ⟨k, by rw [hb]; exact hk, by rw [hpc]; omega⟩⟩
    split at hs <;> cases hs
    · rename_i hlt
      unfold readSlot
      cases hx : s.slot i with
      | none => exact .inr (stay (by simp [hx]) _ rfl (fun _ => id) rfl hlt)
      | some x =>
        simp only
        by_cases hxr : x ∈ r
        · rw [if_pos hxr]
          by_cases hxc : x = c
          · subst hxc
            refine .inl (gone_snoc.2 (.inr ?_))
            unfold readEv; split
            · exact .inl ⟨_, rfl⟩
            · exact .inr (.inl rfl)
          · refine .inr (stay (by simp [hx, hxc]) _ rfl (fun j hj => ?_) rfl hlt)
            have hji : j ≠ i := fun hc => by rw [hc, hx] at hj; exact hxc (Option.some.inj hj)
            simp [upd, hji, hj]
        · rw [if_neg hxr]
          exact .inr (stay (fun hc => by rw [hx] at hc; exact hxr (Option.some.inj hc.1 ▸ hc.2)) _ rfl (fun _ => id) rfl hlt)
    · rename_i hlt
      simp only [maxClients] at hlt
      rcases h with ⟨j, hj, hn⟩ | ⟨k, hk, hn⟩
      · have hjm := (hi.c.sl j c hj).1
        simp only [maxClients] at hjm
        rw [hp] at hn
        by_cases hc : c ∈ r
        · have := hj' j hj hc; omega
        · simp only [slotCost, if_neg hc] at hn
          exact .inr ⟨n - 1, by omega, .inl ⟨j, hj, by simp only [slotCost, toSelect]; omega⟩⟩
      · rw [hp] at hn; simp only [accCost, toSelect] at hn
        exact .inr ⟨n - 1, by omega, .inr ⟨k, hk, by simp only [accCost, toSelect]; omega⟩⟩

/-- What others do makes nothing later. -/
theorem due_other {s s' : State} {c n : Nat} {a : Act} (h : Due s c n) (hns : s.pc ≠ .off) (ha : a ≠ .go) (ha' : a ≠ .acceptFails) (hs : step s a = some s') : Due s' c n := by
  have key : ∀ s', s'.pc = s.pc → s'.slot = s.slot → (∃ t, s'.backlog = s.backlog ++ t) → Due s' c n := by
    rintro s' h1 h2 ⟨t, h3⟩
    rcases h with ⟨j, hj, hn⟩ | ⟨k, hk, hn⟩
    · exact .inl ⟨j, by rw [h2]; exact hj, by rw [h1]; exact hn⟩
    · refine .inr ⟨k, ?_, by rw [h1]; exact hn⟩
      obtain ⟨hk', -⟩ := List.getElem?_eq_some_iff.1 hk
      rw [h3, List.getElem?_append_left hk']; exact hk
  have nil : ∀ l : List Nat, ∃ t, l = l ++ t := fun l => ⟨[], by simp⟩
  cases a with
  | connect => simp only [step] at hs; split at hs <;> cases hs; exact key _ rfl rfl ⟨_, rfl⟩
  | write x m => simp only [step] at hs; split at hs <;> cases hs; exact key _ rfl rfl (nil _)
  | hangUp x => simp only [step] at hs; split at hs <;> cases hs; exact key _ rfl rfl (nil _)
  | start => simp only [step] at hs; split at hs <;> cases hs; rename_i hp; exact absurd hp hns
  | go => exact absurd rfl ha
  | acceptFails => exact absurd rfl ha'
  | stop b => simp only [step] at hs; cases hs; exact key _ rfl rfl (nil _)
  | goStop m =>
    simp only [step, stepStop] at hs
    split at hs
    · cases hs
    · split at hs <;> cases hs <;> exact key _ rfl rfl (nil _)
    · split at hs <;> cases hs <;> exact key _ rfl rfl (nil _)
    · cases hs; exact key _ rfl rfl (nil _)
    · cases hs; exact key _ rfl rfl (nil _)
    · split at hs <;> cases hs; exact key _ rfl rfl ⟨_, rfl⟩
    · split at hs <;> cases hs; exact key _ rfl rfl (nil _)
    · cases hs

theorem slotCost_le (c j : Nat) (p : Pc) (hj : j < 30) : slotCost c j p ≤ 67 := by
  cases p <;> simp only [slotCost, toSelect] <;> (try split) <;> omega

theorem accCost_le (p : Pc) : accCost p ≤ 37 := by
  cases p with
  | woke r b => cases b <;> simp [accCost, toSelect]
  | accept r b => cases b <;> simp [accCost, toSelect]
  | _ => simp only [accCost, toSelect] <;> omega

/-- Nothing is due later than after 300 steps. -/
theorem due_all {s : State} (hi : Inv s) (hsi : SInv s) {c : Nat} (hc : c < s.conns) : Gone s.log c ∨ Due s c 300 := by
  rcases hi.c.there c hc with h1 | ⟨j, hj⟩ | h1
  · obtain ⟨k, hk, hk'⟩ := List.getElem_of_mem h1
    have := hsi.room
    simp only [maxPending] at this
    have := accCost_le s.pc
    exact .inr (.inr ⟨k, by rw [List.getElem?_eq_getElem hk, hk'], by omega⟩)
  · have := slotCost_le c j s.pc (hi.c.sl j c hj).1
    exact .inr (.inl ⟨j, hj, by omega⟩)
  · exact .inl h1

/-- The number of steps of the listening thread. -/
def gos : List Act → Nat
  | [] => 0
  | .go :: as => gos as + 1
  | _ :: as => gos as

theorem off_run {s s' : State} {a : Act} (h : TInv s) (hn : s.pc ≠ .off) (hs : step s a = some s') (h' : TInv s') : s'.pc ≠ .off :=
  h'.starting.2 (mem_step hs (h.starting.1 hn))

theorem gone_step {s s' : State} {a : Act} {c : Nat} (hs : step s a = some s') (h : Gone s.log c) : Gone s'.log c := by
  rcases h with (⟨m, h⟩ | h) | h
  · exact .inl (.inl ⟨m, mem_step hs h⟩)
  · exact .inl (.inr (mem_step hs h))
  · exact .inr (mem_step hs h)

theorem arrives_run {bs : List Act} {s s' : State} {c n : Nat} (h : Inv s ∧ SInv s) (hp : s.pc ≠ .off) (hd : s.data c ≠ .nothing) (hdue : Gone s.log c ∨ Due s c n)
    (hr : run s bs = some s') (hstop : ∀ k, .stopCalled k ∉ s'.log) (hacc : .acceptFails ∉ bs) (hn : n ≤ gos bs) : Gone s'.log c := by
  induction bs generalizing s n with
  | nil =>
    cases hr
    rcases hdue with hg | hdue
    · exact hg
    · have hn0 : n = 0 := Nat.le_zero.1 hn
      subst hn0
      rcases hdue with ⟨j, hj, hle⟩ | ⟨k, hk, hle⟩
      · exfalso
        have : 0 < slotCost c j s'.pc := by
          cases s'.pc <;> simp only [slotCost, toSelect] <;> (try split) <;> omega
        omega
      · omega
  | cons a as ih =>
    simp only [run] at hr
    cases hs : step s a with
    | none => rw [hs] at hr; cases hr
    | some s1 =>
      rw [hs] at hr
      have h1 : Inv s1 ∧ SInv s1 := ⟨inv_step h.1 hs, sinv_step h.1.t h.2 hs⟩
      have hp1 := off_run h.1.t hp hs h1.1.t
      have hd1 : s1.data c ≠ .nothing := by
        intro hc
        cases hdc : s.data c with
        | nothing => exact hd hdc
        | hungUp => have := (h1.1.c.datH c).2 (mem_step hs ((h.1.c.datH c).1 hdc)); rw [hc] at this; cases this
        | msg m => have := (h1.1.c.dat c m).2 (mem_step hs ((h.1.c.dat c m).1 hdc)); rw [hc] at this; cases this
      have hacc1 : Act.acceptFails ∉ as := fun hc => hacc (by simp [hc])
      rcases hdue with hg | hdue
      · exact ih (n := 0) h1 hp1 hd1 (.inl (gone_step hs hg)) hr hacc1 (Nat.zero_le _)
      · by_cases hago : a = .go
        · subst hago
          have hns : s.st ≠ .stopped := fun hc => by
            obtain ⟨k, hk⟩ := h.2.stopped hc
            exact hstop k (mem_run hr (mem_step hs hk))
          simp only [gos] at hn
          rcases due_go h.1 h.2 hns hd hdue hs with hg | ⟨n', rfl, hdue'⟩
          · exact ih (n := 0) h1 hp1 hd1 (.inl hg) hr hacc1 (Nat.zero_le _)
          · exact ih h1 hp1 hd1 (.inr hdue') hr hacc1 (Nat.le_of_succ_le_succ hn)
        · have hle : gos (a :: as) = gos as := by cases a <;> first | rfl | exact absurd rfl hago
          exact ih h1 hp1 hd1 (.inr (due_other hdue hp hago (fun hc => hacc (by simp [hc])) hs)) hr hacc1 (hle ▸ hn)

/-! ### Ending -/

/-- Steps of the listening thread until it sees that it is stopped. -/
def toEnd : Pc → Nat
  | .top => 1
  | .select => 2
  | .woke _ _ => 1
  | .accept _ _ => 33
  | .slot i _ => 30 - i + 2
  | _ => 0

/-- The thread will have ended after `n` steps. -/
def Ending (s : State) (n : Nat) : Prop := s.st = .stopped ∧ (s.pc = .ended ∨ toEnd s.pc ≤ n)

theorem ending_step {s s' : State} {a : Act} {n : Nat} (hsi : SInv s) (ht' : TInv s') (h : Ending s n) (hs : step s a = some s') :
    Ending s' n ∧ (a = .go → ∃ n', n = n' + 1 ∧ Ending s' n') := by
  obtain ⟨hst, hp⟩ := h
  have hne : ¬ (s.pc = .off ∨ s.pc = .check ∨ s.pc = .begin) := fun hc => by rw [hsi.early hc] at hst; cases hst
  by_cases hago : a = .go
  · subst hago
    have key : ∃ n', n = n' + 1 ∧ Ending s' n' := by
      simp only [step, stepLoop] at hs
      cases hpc : s.pc with
      | off => exact absurd (.inl hpc) hne
      | check => exact absurd (.inr (.inl hpc)) hne
      | begin => exact absurd (.inr (.inr hpc)) hne
      | ended => rw [hpc] at hs; cases hs
      | top =>
        rw [hpc] at hs; simp [hst] at hs; cases hs
        rw [hpc] at hp; simp [toEnd] at hp
        exact ⟨n - 1, by omega, hst, .inl rfl⟩
      | select =>
        rw [hpc] at hs; simp at hs; cases hs
        rw [hpc] at hp; simp [toEnd] at hp
        exact ⟨n - 1, by omega, hst, .inr (by simp [toEnd]; omega)⟩
      | woke r b =>
        rw [hpc] at hs; simp [hst] at hs; cases hs
        rw [hpc] at hp; simp [toEnd] at hp
        exact ⟨n - 1, by omega, hst, .inl rfl⟩
      | accept r b =>
        rw [hpc] at hp; simp [toEnd] at hp
        have : s'.st = s.st ∧ s'.pc = .slot 0 r := by
          rw [hpc] at hs; simp only at hs
          split at hs <;> cases hs
          · unfold takeConn; split <;> exact ⟨rfl, rfl⟩
          · exact ⟨rfl, rfl⟩
        exact ⟨n - 1, by omega, by rw [this.1]; exact hst, .inr (by rw [this.2]; simp [toEnd]; omega)⟩
      | slot i r =>
        rw [hpc] at hp; simp [toEnd] at hp
        rw [hpc] at hs; simp only at hs
        split at hs
        · rename_i hlt
          simp only [maxClients] at hlt
          have : s'.st = s.st ∧ s'.pc = .slot (i + 1) r := by
            cases hs
            unfold readSlot; split
            · exact ⟨rfl, rfl⟩
            · split <;> exact ⟨rfl, rfl⟩
          exact ⟨n - 1, by omega, by rw [this.1]; exact hst, .inr (by rw [this.2]; simp [toEnd]; omega)⟩
        · cases hs; exact ⟨n - 1, by omega, hst, .inr (by simp [toEnd]; omega)⟩
    obtain ⟨n', rfl, h1, h2⟩ := key
    exact ⟨⟨h1, h2.imp id fun h => Nat.le_succ_of_le h⟩, fun _ => ⟨n', rfl, h1, h2⟩⟩
  · refine ⟨?_, fun hc => absurd hc hago⟩
    have key : ∀ s' : State, s'.pc = s.pc → s'.st = .stopped → Ending s' n := fun s' h1 h2 => ⟨h2, by rw [h1]; exact hp⟩
    cases a with
    | connect => simp only [step] at hs; split at hs <;> cases hs; exact key _ rfl hst
    | write x m => simp only [step] at hs; split at hs <;> cases hs; exact key _ rfl hst
    | hangUp x => simp only [step] at hs; split at hs <;> cases hs; exact key _ rfl hst
    | start => simp only [step] at hs; split at hs <;> cases hs; rename_i hp; exact absurd (.inl hp) hne
    | go => exact absurd rfl hago
    | acceptFails => simp only [step] at hs; split at hs <;> cases hs; exact ⟨hst, .inl rfl⟩
    | stop b => simp only [step] at hs; cases hs; exact key _ rfl hst
    | goStop m =>
      simp only [step, stepStop] at hs
      split at hs
      · cases hs
      · split at hs <;> cases hs <;> exact key _ rfl hst
      · split at hs <;> cases hs <;> exact key _ rfl hst
      · cases hs; exact key _ rfl hst
      · cases hs; exact key _ rfl rfl
      · split at hs <;> cases hs; exact key _ rfl hst
      · split at hs <;> cases hs; exact key _ rfl hst
      · cases hs

theorem toEnd_le (p : Pc) : toEnd p ≤ 33 := by cases p <;> simp only [toEnd] <;> omega

theorem ends_run {bs : List Act} {s s' : State} {n : Nat} (h : Inv s ∧ SInv s) (he : Ending s n) (hr : run s bs = some s') (hn : n ≤ gos bs) : s'.pc = .ended := by
  induction bs generalizing s n with
  | nil =>
    cases hr
    rcases he.2 with h1 | h1
    · exact h1
    · refine Classical.byContradiction fun hnot => ?_
      have hne : ¬ (s'.pc = .off ∨ s'.pc = .check ∨ s'.pc = .begin) := fun hc => by have := he.1; rw [h.2.early hc] at this; cases this
      simp only [gos] at hn
      cases hp : s'.pc with
      | off => exact hne (.inl hp)
      | check => exact hne (.inr (.inl hp))
      | begin => exact hne (.inr (.inr hp))
      | ended => exact hnot hp
      | top => rw [hp] at h1; simp only [toEnd] at h1; omega
      | select => rw [hp] at h1; simp only [toEnd] at h1; omega
      | woke r b => rw [hp] at h1; simp only [toEnd] at h1; omega
      | accept r b => rw [hp] at h1; simp only [toEnd] at h1; omega
      | slot i r => rw [hp] at h1; simp only [toEnd] at h1; omega
  | cons a as ih =>
    simp only [run] at hr
    cases hs : step s a with
    | none => rw [hs] at hr; cases hr
    | some s1 =>
      rw [hs] at hr
      have h1 : Inv s1 ∧ SInv s1 := ⟨inv_step h.1 hs, sinv_step h.1.t h.2 hs⟩
      obtain ⟨h2, h3⟩ := ending_step h.2 h1.1.t he hs
      by_cases hago : a = .go
      · subst hago
        obtain ⟨n', rfl, h4⟩ := h3 rfl
        simp only [gos] at hn
        exact ih h1 h4 hr (Nat.le_of_succ_le_succ hn)
      · have hle : gos (a :: as) = gos as := by cases a <;> first | rfl | exact absurd rfl hago
        exact ih h1 h2 hr (hle ▸ hn)

/-! ### Being heard -/

/-- The number of steps of call `n` of stop. -/
def stopSteps (n : Nat) : List Act → Nat
  | [] => 0
  | .goStop m :: as => if m = n then stopSteps n as + 1 else stopSteps n as
  | _ :: as => stopSteps n as

/-- Steps until the call has set the state. -/
def toStore : SPc → Nat
  | .ask => 4
  | .running => 3
  | .load => 2
  | .store _ => 1
  | _ => 0

/-- Call `n` will have stopped the receiver after `k` of its steps. -/
def Hearing (s : State) (n k : Nat) : Prop := s.st ≠ .initialized ∧ (s.st = .stopped ∨ (0 < toStore (s.spc n) ∧ toStore (s.spc n) ≤ k))

theorem st_go {s s' : State} (hs : stepLoop s = some s') (h : s.st ≠ .initialized) : s'.st ≠ .initialized ∧ (s.pc ≠ .begin → s.st = .stopped → s'.st = .stopped) ∧ s'.spc = s.spc := by
  unfold stepLoop at hs
  split at hs
  · cases hs
  · split at hs <;> cases hs <;> exact ⟨h, fun _ => id, rfl⟩
  · rename_i hp; cases hs; exact ⟨by simp, fun hc => absurd hp hc, rfl⟩
  · split at hs
    · rename_i hr; cases hs; exact ⟨by simp, (fun _ hc => by rw [hr] at hc; cases hc), rfl⟩
    · split at hs <;> cases hs <;> exact ⟨h, fun _ => id, rfl⟩
  · cases hs; exact ⟨h, fun _ => id, rfl⟩
  · have e1 : (toRunning s).st ≠ .initialized := by unfold toRunning; split <;> simp [h]
    have e2 : (toRunning s).spc = s.spc := by unfold toRunning; split <;> rfl
    split at hs
    · cases hs; exact ⟨h, fun _ => id, rfl⟩
    · rename_i hn; split at hs <;> cases hs <;> exact ⟨e1, fun _ hc => absurd hc hn, e2⟩
  · split at hs <;> cases hs
    · unfold takeConn; split <;> exact ⟨h, fun _ => id, rfl⟩
    · exact ⟨h, fun _ => id, rfl⟩
  · split at hs <;> cases hs
    · unfold readSlot; split
      · exact ⟨h, fun _ => id, rfl⟩
      · split <;> exact ⟨h, fun _ => id, rfl⟩
    · exact ⟨h, fun _ => id, rfl⟩
  · cases hs

theorem hearing_step {s s' : State} {a : Act} {n k : Nat} (ht : TInv s) (hsi : SInv s) (h : Hearing s n k) (hcalled : s.spc n ≠ .none) (hs : step s a = some s') :
    Hearing s' n k ∧ (a = .goStop n → ∃ k', (k = k' + 1 ∨ k' = 0) ∧ Hearing s' n k') := by
  obtain ⟨hni, h⟩ := h
  have same : ∀ s' : State, s'.st = s.st → s'.spc n = s.spc n → Hearing s' n k := fun s' h1 h2 => ⟨by rw [h1]; exact hni, by rw [h1, h2]; exact h⟩
  have lift : ∀ k', k' ≤ k → Hearing s' n k' → Hearing s' n k := fun k' hk h => ⟨h.1, h.2.imp id fun h => ⟨h.1, Nat.le_trans h.2 hk⟩⟩
  have hne : s.pc ≠ .begin := fun hc => hni (hsi.early (.inr (.inr hc)))
  cases a with
  | connect => simp only [step] at hs; split at hs <;> cases hs; exact ⟨same _ rfl rfl, fun hc => by cases hc⟩
  | write x m => simp only [step] at hs; split at hs <;> cases hs; exact ⟨same _ rfl rfl, fun hc => by cases hc⟩
  | hangUp x => simp only [step] at hs; split at hs <;> cases hs; exact ⟨same _ rfl rfl, fun hc => by cases hc⟩
  | start => simp only [step] at hs; split at hs <;> cases hs; exact ⟨same _ rfl rfl, fun hc => by cases hc⟩
  | go =>
    obtain ⟨h1, h2, h3⟩ := st_go hs hni
    refine ⟨⟨h1, ?_⟩, fun hc => by cases hc⟩
    rw [h3]; exact h.imp (h2 hne) id
  | acceptFails => simp only [step] at hs; split at hs <;> cases hs; exact ⟨same _ rfl rfl, fun hc => by cases hc⟩
  | stop b =>
    simp only [step] at hs; cases hs
    have hlt := ht.callLt n hcalled
    refine ⟨same _ rfl ?_, fun hc => by cases hc⟩
    simp [setStop, upd, Nat.ne_of_lt hlt]
  | goStop m =>
    by_cases hmn : m = n
    · subst hmn
      have key : ∃ k', (k = k' + 1 ∨ k' = 0) ∧ Hearing s' m k' := by
        simp only [step, stepStop] at hs
        have stp : ∀ s' : State, s'.st = .stopped → ∃ k', (k = k' + 1 ∨ k' = 0) ∧ Hearing s' m k' := fun s' h => ⟨0, .inr rfl, by rw [h]; simp, .inl h⟩
        cases hp : s.spc m with
        | none => rw [hp] at hs; cases hs
        | done => rw [hp] at hs; cases hs
        | ask =>
          rw [hp] at hs h; simp only [toStore] at hs h
          split at hs <;> cases hs
          · rcases h with h | h
            · exact stp _ h
            · exact ⟨k - 1, .inl (by omega), hni, .inr (by simp [setStop, upd, toStore]; omega)⟩
          · rename_i hr
            refine stp _ ?_
            show s.st = .stopped
            cases hst : s.st <;> simp_all [isRunning]
        | running =>
          rw [hp] at hs h; simp only [toStore] at hs h
          split at hs <;> cases hs
          · rcases h with h | h
            · exact stp _ h
            · exact ⟨k - 1, .inl (by omega), hni, .inr (by simp [setStop, upd, toStore]; omega)⟩
          · rename_i hr
            refine stp _ ?_
            show s.st = .stopped
            cases hst : s.st <;> simp_all [isRunning]
        | load =>
          rw [hp] at hs h; simp only [toStore] at hs h; cases hs
          rcases h with h | h
          · exact stp _ h
          · exact ⟨k - 1, .inl (by omega), hni, .inr (by simp [setStop, upd, toStore]; omega)⟩
        | store cur => rw [hp] at hs; simp only at hs; cases hs; exact stp _ rfl
        | wake =>
          rw [hp] at hs h; simp only [toStore] at hs h; split at hs <;> cases hs
          rcases h with h | h
          · exact stp _ h
          · omega
        | join =>
          rw [hp] at hs h; simp only [toStore] at hs h; split at hs <;> cases hs
          rcases h with h | h
          · exact stp _ h
          · omega
      obtain ⟨k', h1, h2⟩ := key
      exact ⟨lift k' (by omega) h2, fun _ => ⟨k', h1, h2⟩⟩
    · refine ⟨?_, fun hc => by cases hc; exact absurd rfl hmn⟩
      have hu : ∀ p, upd s.spc m p n = s.spc n := fun p => by simp [upd, Ne.symm hmn]
      simp only [step, stepStop] at hs
      split at hs
      · cases hs
      · split at hs <;> cases hs <;> exact same _ rfl (hu _)
      · split at hs <;> cases hs <;> exact same _ rfl (hu _)
      · cases hs; exact same _ rfl (hu _)
      · cases hs; exact ⟨by simp [setStop], .inl rfl⟩
      · split at hs <;> cases hs; exact same _ rfl (hu _)
      · split at hs <;> cases hs; exact same _ rfl (hu _)
      · cases hs

theorem heard_run {bs : List Act} {s s' : State} {n k : Nat} (h : Inv s ∧ SInv s) (hh : Hearing s n k) (hcalled : s.spc n ≠ .none) (hr : run s bs = some s') (hk : k ≤ stopSteps n bs) :
    s'.st = .stopped := by
  induction bs generalizing s k with
  | nil =>
    cases hr
    rcases hh.2 with h1 | h1
    · exact h1
    · simp only [stopSteps] at hk; omega
  | cons a as ih =>
    simp only [run] at hr
    cases hs : step s a with
    | none => rw [hs] at hr; cases hr
    | some s1 =>
      rw [hs] at hr
      have h1 : Inv s1 ∧ SInv s1 := ⟨inv_step h.1 hs, sinv_step h.1.t h.2 hs⟩
      have hc1 : s1.spc n ≠ .none := (h1.1.t.call n).2 (mem_step hs ((h.1.t.call n).1 hcalled))
      obtain ⟨h2, h3⟩ := hearing_step h.1.t h.2 hh hcalled hs
      by_cases hago : a = .goStop n
      · subst hago
        obtain ⟨k', hk', h4⟩ := h3 rfl
        simp only [stopSteps, if_true] at hk
        exact ih h1 h4 hc1 hr (by omega)
      · have hle : stopSteps n (a :: as) = stopSteps n as := by
          cases a <;> first | rfl | (simp only [stopSteps]; rw [if_neg (fun hc => hago (by rw [hc]))])
        exact ih h1 h2 hc1 hr (hle ▸ hk)

end Maf.Listen
