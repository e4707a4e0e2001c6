import Verif.Lemmas.Hist
import Verif.Spec.Invocation
namespace Maf.Fut
variable {A : Type}

@[simp] theorem fate_snoc (l : List (Ev A)) (e : Ev A) : fate (l ++ [e]) = fateStep (fate l) e := by simp [fate]
@[simp] theorem now_snoc (l : List (Ev A)) (e : Ev A) : now (l ++ [e]) = nowStep (now l) e := by simp [now]

structure Inv (s : State A) : Prop where
  hist : Hist EvOk s.log
  now : now s.log = s.em.map Em.arg
  nowhere : s.place = .nowhere ↔ fate s.log = .never
  inSignal : s.place = .inSignal ↔ fate s.log = .open
  taken : s.place = .taken → fate s.log = .cancelled
  firing : s.place = .firing ↔ ∃ e, s.em = some e ∧ e.phase ≠ .walk
  firing_fate : ∀ e, s.em = some e → e.phase ≠ .walk → fate s.log = .fired e.arg
  value : ∀ a, s.cell = .value a → fate s.log = .fired a
  broken : s.cell = .broken → fate s.log = .cleared
  set : ∀ e, s.em = some e → e.phase = .set → s.cell = .value e.arg
  fired : ∀ a, fate s.log = .fired a → s.cell = .value a ∨ s.place = .firing
  cleared : fate s.log = .cleared → s.place = .gone ∧ (s.cell = .broken ∨ s.held = true)
  client_none : s.client = .none ↔ s.place = .nowhere
  valid : s.client = .valid → Ev.valid ∈ s.log
  fresh : (s.client = .none ∨ ∃ t, s.client = .saved t) → Ev.valid ∉ s.log ∧ Ev.invalid ∉ s.log
  unused : Ev.valid ∉ s.log → ¬ Used s.log
  used : s.client = .valid → (s.fut = true ↔ ¬ Used s.log)
  waiting : s.waiting ≠ none → s.client = .valid ∧ s.fut = true
  op_check : ∀ t, s.op = some (t, .check) → s.client = .saved t
  op_cancel : ∀ t, s.op = some (t, .cancel) → s.client = .valid
  op_destroy : ∀ t, s.op = some (t, .destroy) → s.client = .valid ∧ s.waiting = none
  op_some : s.op ≠ none → s.place ≠ .nowhere
  held : s.held = true → s.op ≠ none
  unheld : s.op ≠ none → s.held = false → s.place ≠ .inSignal
  cancelled : fate s.log = .cancelled → Ev.valid ∈ s.log
  gone : s.place = .gone → fate s.log = .cleared ∨ (∃ a, fate s.log = .fired a) ∨ (fate s.log = .cancelled ∧ s.client = .over)
  dead : s.alive = false → s.place ≠ .inSignal ∧ s.em = none

theorem inv_init : Inv (init A) := by
  constructor <;> simp [init, fate, Maf.Fut.now, Used, Hist.nil]

theorem used_snoc (l : List (Ev A)) (e : Ev A) : Used (l ++ [e]) ↔ Used l ∨ (∃ a, e = .returned a) ∨ e = .failed := by
  unfold Used
  simp only [List.mem_append, List.mem_singleton]
  constructor
  · rintro (⟨a, h | h⟩ | h | h)
    · exact .inl (.inl ⟨a, h⟩)
    · exact .inr (.inl ⟨a, h.symm⟩)
    · exact .inl (.inr h)
    · exact .inr (.inr h.symm)
  · rintro ((⟨a, h⟩ | h) | ⟨a, h⟩ | h)
    · exact .inl ⟨a, .inl h⟩
    · exact .inr (.inl h)
    · exact .inl ⟨a, .inr h.symm⟩
    · exact .inr (.inr h.symm)

theorem broken_cases (c : Cell A) : (c = .pending ∧ broken c = .broken) ∨ (∃ a, c = .value a ∧ broken c = .value a) ∨ (c = .broken ∧ broken c = .broken) := by
  cases c <;> simp [broken]

theorem inv_connect {s s' : State A} (h : Inv s) {t : Thread} (hs : step s (.connect t) = some s') : Inv s' := by
  obtain ⟨h1, h2, h3, h4, h5, h6, h7, h8, h9, h10, h11, h12, h13, h14, h15, h16, h17, h18, h19, h20, h21, h22, h23, h24, h25, h26, h27⟩ := h
  simp only [step] at hs
  split at hs
  · cases hs
    refine ⟨h1.one ?_, ?_, ?_, ?_, ?_, ?_, ?_, ?_, ?_, ?_, ?_, ?_, ?_, ?_, ?_, ?_, ?_, ?_, ?_, ?_, ?_, ?_, ?_, ?_, ?_, ?_, ?_⟩ <;> (try simp only [fate_snoc, now_snoc, used_snoc, fateStep, nowStep, EvOk, List.mem_append, List.mem_singleton]) <;> grind
  · cases hs

theorem inv_cancel {s s' : State A} (h : Inv s) {t : Thread} (hs : step s (.cancel t) = some s') : Inv s' := by
  obtain ⟨h1, h2, h3, h4, h5, h6, h7, h8, h9, h10, h11, h12, h13, h14, h15, h16, h17, h18, h19, h20, h21, h22, h23, h24, h25, h26, h27⟩ := h
  simp only [step] at hs
  split at hs
  · cases hs
    refine ⟨h1, ?_, ?_, ?_, ?_, ?_, ?_, ?_, ?_, ?_, ?_, ?_, ?_, ?_, ?_, ?_, ?_, ?_, ?_, ?_, ?_, ?_, ?_, ?_, ?_, ?_, ?_⟩ <;> (try simp only [fate_snoc, now_snoc, used_snoc, fateStep, nowStep, EvOk, List.mem_append, List.mem_singleton]) <;> grind
  · cases hs

theorem inv_destroy {s s' : State A} (h : Inv s) {t : Thread} (hs : step s (.destroy t) = some s') : Inv s' := by
  obtain ⟨h1, h2, h3, h4, h5, h6, h7, h8, h9, h10, h11, h12, h13, h14, h15, h16, h17, h18, h19, h20, h21, h22, h23, h24, h25, h26, h27⟩ := h
  simp only [step] at hs
  split at hs
  · cases hs
    refine ⟨h1, ?_, ?_, ?_, ?_, ?_, ?_, ?_, ?_, ?_, ?_, ?_, ?_, ?_, ?_, ?_, ?_, ?_, ?_, ?_, ?_, ?_, ?_, ?_, ?_, ?_, ?_⟩ <;> (try simp only [fate_snoc, now_snoc, used_snoc, fateStep, nowStep, EvOk, List.mem_append, List.mem_singleton]) <;> grind
  · cases hs

theorem inv_check {s s' : State A} (h : Inv s) (hs : step s .check = some s') : Inv s' := by
  obtain ⟨h1, h2, h3, h4, h5, h6, h7, h8, h9, h10, h11, h12, h13, h14, h15, h16, h17, h18, h19, h20, h21, h22, h23, h24, h25, h26, h27⟩ := h
  simp only [step] at hs
  split at hs
  · split at hs
    · cases hs
      refine ⟨h1, ?_, ?_, ?_, ?_, ?_, ?_, ?_, ?_, ?_, ?_, ?_, ?_, ?_, ?_, ?_, ?_, ?_, ?_, ?_, ?_, ?_, ?_, ?_, ?_, ?_, ?_⟩ <;> (try simp only [fate_snoc, now_snoc, used_snoc, fateStep, nowStep, EvOk, List.mem_append, List.mem_singleton]) <;> grind
    · cases hs
  · cases hs

theorem inv_emit {s s' : State A} (h : Inv s) {t : Thread} {a : A} (hs : step s (.emit t a) = some s') : Inv s' := by
  obtain ⟨h1, h2, h3, h4, h5, h6, h7, h8, h9, h10, h11, h12, h13, h14, h15, h16, h17, h18, h19, h20, h21, h22, h23, h24, h25, h26, h27⟩ := h
  simp only [step] at hs
  split at hs
  · cases hs
    refine ⟨h1.one ?_, ?_, ?_, ?_, ?_, ?_, ?_, ?_, ?_, ?_, ?_, ?_, ?_, ?_, ?_, ?_, ?_, ?_, ?_, ?_, ?_, ?_, ?_, ?_, ?_, ?_, ?_⟩ <;> (try simp only [fate_snoc, now_snoc, used_snoc, fateStep, nowStep, EvOk, List.mem_append, List.mem_singleton]) <;> grind
  · cases hs

theorem inv_reach {s s' : State A} (h : Inv s) (hs : step s .reach = some s') : Inv s' := by
  obtain ⟨h1, h2, h3, h4, h5, h6, h7, h8, h9, h10, h11, h12, h13, h14, h15, h16, h17, h18, h19, h20, h21, h22, h23, h24, h25, h26, h27⟩ := h
  simp only [step] at hs
  split at hs
  · split at hs
    · cases hs
      refine ⟨h1.one ?_, ?_, ?_, ?_, ?_, ?_, ?_, ?_, ?_, ?_, ?_, ?_, ?_, ?_, ?_, ?_, ?_, ?_, ?_, ?_, ?_, ?_, ?_, ?_, ?_, ?_, ?_⟩ <;> (try simp only [fate_snoc, now_snoc, used_snoc, fateStep, nowStep, EvOk, List.mem_append, List.mem_singleton]) <;> grind
    · cases hs
  · cases hs

theorem inv_setValue {s s' : State A} (h : Inv s) (hs : step s .setValue = some s') : Inv s' := by
  obtain ⟨h1, h2, h3, h4, h5, h6, h7, h8, h9, h10, h11, h12, h13, h14, h15, h16, h17, h18, h19, h20, h21, h22, h23, h24, h25, h26, h27⟩ := h
  simp only [step] at hs
  split at hs
  · cases hs
    refine ⟨h1, ?_, ?_, ?_, ?_, ?_, ?_, ?_, ?_, ?_, ?_, ?_, ?_, ?_, ?_, ?_, ?_, ?_, ?_, ?_, ?_, ?_, ?_, ?_, ?_, ?_, ?_⟩ <;> (try simp only [fate_snoc, now_snoc, used_snoc, fateStep, nowStep, EvOk, List.mem_append, List.mem_singleton]) <;> grind
  · cases hs

theorem inv_finish {s s' : State A} (h : Inv s) (hs : step s .finish = some s') : Inv s' := by
  obtain ⟨h1, h2, h3, h4, h5, h6, h7, h8, h9, h10, h11, h12, h13, h14, h15, h16, h17, h18, h19, h20, h21, h22, h23, h24, h25, h26, h27⟩ := h
  simp only [step] at hs
  split at hs
  · cases hs
    refine ⟨h1, ?_, ?_, ?_, ?_, ?_, ?_, ?_, ?_, ?_, ?_, ?_, ?_, ?_, ?_, ?_, ?_, ?_, ?_, ?_, ?_, ?_, ?_, ?_, ?_, ?_, ?_⟩ <;> (try simp only [fate_snoc, now_snoc, used_snoc, fateStep, nowStep, EvOk, List.mem_append, List.mem_singleton]) <;> grind
  · cases hs

theorem inv_endEmission {s s' : State A} (h : Inv s) (hs : step s .endEmission = some s') : Inv s' := by
  obtain ⟨h1, h2, h3, h4, h5, h6, h7, h8, h9, h10, h11, h12, h13, h14, h15, h16, h17, h18, h19, h20, h21, h22, h23, h24, h25, h26, h27⟩ := h
  simp only [step] at hs
  split at hs
  · split at hs
    · cases hs
      refine ⟨h1.one ?_, ?_, ?_, ?_, ?_, ?_, ?_, ?_, ?_, ?_, ?_, ?_, ?_, ?_, ?_, ?_, ?_, ?_, ?_, ?_, ?_, ?_, ?_, ?_, ?_, ?_, ?_⟩ <;> (try simp only [fate_snoc, now_snoc, used_snoc, fateStep, nowStep, EvOk, List.mem_append, List.mem_singleton]) <;> grind
    · cases hs
  · cases hs

theorem inv_wait {s s' : State A} (h : Inv s) {t : Thread} {l : Bool} (hs : step s (.wait t l) = some s') : Inv s' := by
  obtain ⟨h1, h2, h3, h4, h5, h6, h7, h8, h9, h10, h11, h12, h13, h14, h15, h16, h17, h18, h19, h20, h21, h22, h23, h24, h25, h26, h27⟩ := h
  simp only [step] at hs
  split at hs
  · split at hs
    · cases hs
      refine ⟨h1, ?_, ?_, ?_, ?_, ?_, ?_, ?_, ?_, ?_, ?_, ?_, ?_, ?_, ?_, ?_, ?_, ?_, ?_, ?_, ?_, ?_, ?_, ?_, ?_, ?_, ?_⟩ <;> (try simp only [fate_snoc, now_snoc, used_snoc, fateStep, nowStep, EvOk, List.mem_append, List.mem_singleton]) <;> grind
    · cases hs
      refine ⟨h1.one ?_, ?_, ?_, ?_, ?_, ?_, ?_, ?_, ?_, ?_, ?_, ?_, ?_, ?_, ?_, ?_, ?_, ?_, ?_, ?_, ?_, ?_, ?_, ?_, ?_, ?_, ?_⟩ <;> (try simp only [fate_snoc, now_snoc, used_snoc, fateStep, nowStep, EvOk, List.mem_append, List.mem_singleton]) <;> grind
  · cases hs

theorem inv_wake {s s' : State A} (h : Inv s) (hs : step s .wake = some s') : Inv s' := by
  obtain ⟨h1, h2, h3, h4, h5, h6, h7, h8, h9, h10, h11, h12, h13, h14, h15, h16, h17, h18, h19, h20, h21, h22, h23, h24, h25, h26, h27⟩ := h
  simp only [step] at hs
  split at hs
  · cases hs
  · split at hs
    · cases hs
      refine ⟨h1.one ?_, ?_, ?_, ?_, ?_, ?_, ?_, ?_, ?_, ?_, ?_, ?_, ?_, ?_, ?_, ?_, ?_, ?_, ?_, ?_, ?_, ?_, ?_, ?_, ?_, ?_, ?_⟩ <;> (try simp only [fate_snoc, now_snoc, used_snoc, fateStep, nowStep, EvOk, List.mem_append, List.mem_singleton]) <;> grind
    · cases hs
      refine ⟨h1.one ?_, ?_, ?_, ?_, ?_, ?_, ?_, ?_, ?_, ?_, ?_, ?_, ?_, ?_, ?_, ?_, ?_, ?_, ?_, ?_, ?_, ?_, ?_, ?_, ?_, ?_, ?_⟩ <;> (try simp only [fate_snoc, now_snoc, used_snoc, fateStep, nowStep, EvOk, List.mem_append, List.mem_singleton]) <;> grind
    · cases hs

theorem inv_timeout {s s' : State A} (h : Inv s) (hs : step s .timeout = some s') : Inv s' := by
  obtain ⟨h1, h2, h3, h4, h5, h6, h7, h8, h9, h10, h11, h12, h13, h14, h15, h16, h17, h18, h19, h20, h21, h22, h23, h24, h25, h26, h27⟩ := h
  simp only [step] at hs
  split at hs
  · cases hs
    refine ⟨h1.one ?_, ?_, ?_, ?_, ?_, ?_, ?_, ?_, ?_, ?_, ?_, ?_, ?_, ?_, ?_, ?_, ?_, ?_, ?_, ?_, ?_, ?_, ?_, ?_, ?_, ?_, ?_⟩ <;> (try simp only [fate_snoc, now_snoc, used_snoc, fateStep, nowStep, EvOk, List.mem_append, List.mem_singleton]) <;> grind
  · cases hs

theorem inv_clear {s s' : State A} (h : Inv s) {t : Thread} (hs : step s (.clear t) = some s') : Inv s' := by
  obtain ⟨h1, h2, h3, h4, h5, h6, h7, h8, h9, h10, h11, h12, h13, h14, h15, h16, h17, h18, h19, h20, h21, h22, h23, h24, h25, h26, h27⟩ := h
  have hb := broken_cases s.cell
  have hp : s.place = .nowhere ∨ s.place = .inSignal ∨ s.place = .firing ∨ s.place = .taken ∨ s.place = .gone := by cases s.place <;> simp
  simp only [step] at hs
  simp only [dropSlot] at hs
  split at hs
  · split at hs
    · cases hs
      refine ⟨h1.one ?_, ?_, ?_, ?_, ?_, ?_, ?_, ?_, ?_, ?_, ?_, ?_, ?_, ?_, ?_, ?_, ?_, ?_, ?_, ?_, ?_, ?_, ?_, ?_, ?_, ?_, ?_⟩ <;> (try simp only [fate_snoc, now_snoc, used_snoc, fateStep, nowStep, EvOk, List.mem_append, List.mem_singleton]) <;> grind
    · cases hs
      refine ⟨h1, ?_, ?_, ?_, ?_, ?_, ?_, ?_, ?_, ?_, ?_, ?_, ?_, ?_, ?_, ?_, ?_, ?_, ?_, ?_, ?_, ?_, ?_, ?_, ?_, ?_, ?_⟩ <;> (try simp only [fate_snoc, now_snoc, used_snoc, fateStep, nowStep, EvOk, List.mem_append, List.mem_singleton]) <;> grind
  · cases hs

theorem inv_destroySignal {s s' : State A} (h : Inv s) {t : Thread} (hs : step s (.destroySignal t) = some s') : Inv s' := by
  obtain ⟨h1, h2, h3, h4, h5, h6, h7, h8, h9, h10, h11, h12, h13, h14, h15, h16, h17, h18, h19, h20, h21, h22, h23, h24, h25, h26, h27⟩ := h
  have hb := broken_cases s.cell
  have hp : s.place = .nowhere ∨ s.place = .inSignal ∨ s.place = .firing ∨ s.place = .taken ∨ s.place = .gone := by cases s.place <;> simp
  simp only [step] at hs
  simp only [dropSlot] at hs
  split at hs
  · split at hs
    · cases hs
      refine ⟨h1.one ?_, ?_, ?_, ?_, ?_, ?_, ?_, ?_, ?_, ?_, ?_, ?_, ?_, ?_, ?_, ?_, ?_, ?_, ?_, ?_, ?_, ?_, ?_, ?_, ?_, ?_, ?_⟩ <;> (try simp only [fate_snoc, now_snoc, used_snoc, fateStep, nowStep, EvOk, List.mem_append, List.mem_singleton]) <;> grind
    · cases hs
      refine ⟨h1, ?_, ?_, ?_, ?_, ?_, ?_, ?_, ?_, ?_, ?_, ?_, ?_, ?_, ?_, ?_, ?_, ?_, ?_, ?_, ?_, ?_, ?_, ?_, ?_, ?_, ?_⟩ <;> (try simp only [fate_snoc, now_snoc, used_snoc, fateStep, nowStep, EvOk, List.mem_append, List.mem_singleton]) <;> grind
  · cases hs

theorem inv_endOp {s s' : State A} (h : Inv s) (hs : step s .endOp = some s') : Inv s' := by
  obtain ⟨h1, h2, h3, h4, h5, h6, h7, h8, h9, h10, h11, h12, h13, h14, h15, h16, h17, h18, h19, h20, h21, h22, h23, h24, h25, h26, h27⟩ := h
  have hb := broken_cases s.cell
  have hp : s.place = .nowhere ∨ s.place = .inSignal ∨ s.place = .firing ∨ s.place = .taken ∨ s.place = .gone := by cases s.place <;> simp
  simp only [step] at hs
  split at hs
  · next t o ho =>
    split at hs
    · next hl =>
      cases o with
      | check =>
        simp only [ending, release] at hs
        split at hs
        · cases hs
          refine ⟨h1.one ?_, ?_, ?_, ?_, ?_, ?_, ?_, ?_, ?_, ?_, ?_, ?_, ?_, ?_, ?_, ?_, ?_, ?_, ?_, ?_, ?_, ?_, ?_, ?_, ?_, ?_, ?_⟩ <;> (try simp only [fate_snoc, now_snoc, used_snoc, fateStep, nowStep, EvOk, List.mem_append, List.mem_singleton]) <;> grind
        · cases hs
          refine ⟨h1.one ?_, ?_, ?_, ?_, ?_, ?_, ?_, ?_, ?_, ?_, ?_, ?_, ?_, ?_, ?_, ?_, ?_, ?_, ?_, ?_, ?_, ?_, ?_, ?_, ?_, ?_, ?_⟩ <;> (try simp only [fate_snoc, now_snoc, used_snoc, fateStep, nowStep, EvOk, List.mem_append, List.mem_singleton]) <;> grind
      | cancel =>
        simp only [ending, release, disconnect] at hs
        split at hs
        · cases hs
          refine ⟨h1.one ?_, ?_, ?_, ?_, ?_, ?_, ?_, ?_, ?_, ?_, ?_, ?_, ?_, ?_, ?_, ?_, ?_, ?_, ?_, ?_, ?_, ?_, ?_, ?_, ?_, ?_, ?_⟩ <;> (try simp only [fate_snoc, now_snoc, used_snoc, fateStep, nowStep, EvOk, List.mem_append, List.mem_singleton]) <;> grind
        · cases hs
          refine ⟨h1, ?_, ?_, ?_, ?_, ?_, ?_, ?_, ?_, ?_, ?_, ?_, ?_, ?_, ?_, ?_, ?_, ?_, ?_, ?_, ?_, ?_, ?_, ?_, ?_, ?_, ?_⟩ <;> (try simp only [fate_snoc, now_snoc, used_snoc, fateStep, nowStep, EvOk, List.mem_append, List.mem_singleton]) <;> grind
      | destroy =>
        simp only [ending, release, disconnect] at hs
        split at hs
        · cases hs
          refine ⟨h1.one ?_, ?_, ?_, ?_, ?_, ?_, ?_, ?_, ?_, ?_, ?_, ?_, ?_, ?_, ?_, ?_, ?_, ?_, ?_, ?_, ?_, ?_, ?_, ?_, ?_, ?_, ?_⟩ <;> (try simp only [fate_snoc, now_snoc, used_snoc, fateStep, nowStep, EvOk, List.mem_append, List.mem_singleton]) <;> grind
        · cases hs
          refine ⟨h1, ?_, ?_, ?_, ?_, ?_, ?_, ?_, ?_, ?_, ?_, ?_, ?_, ?_, ?_, ?_, ?_, ?_, ?_, ?_, ?_, ?_, ?_, ?_, ?_, ?_, ?_⟩ <;> (try simp only [fate_snoc, now_snoc, used_snoc, fateStep, nowStep, EvOk, List.mem_append, List.mem_singleton]) <;> grind
    · cases hs
  · cases hs

theorem inv_step {s s' : State A} (h : Inv s) {a : Act A} (hs : step s a = some s') : Inv s' := by
  cases a with
  | connect t => exact inv_connect h hs
  | check => exact inv_check h hs
  | cancel t => exact inv_cancel h hs
  | destroy t => exact inv_destroy h hs
  | endOp => exact inv_endOp h hs
  | emit t a => exact inv_emit h hs
  | reach => exact inv_reach h hs
  | setValue => exact inv_setValue h hs
  | finish => exact inv_finish h hs
  | endEmission => exact inv_endEmission h hs
  | clear t => exact inv_clear h hs
  | destroySignal t => exact inv_destroySignal h hs
  | wait t l => exact inv_wait h hs
  | wake => exact inv_wake h hs
  | timeout => exact inv_timeout h hs

theorem inv_run {as : List (Act A)} : ∀ {s s' : State A}, Inv s → run s as = some s' → Inv s' := by
  induction as with
  | nil => intro s s' h hr; cases hr; exact h
  | cons a as ih =>
    intro s s' h hr
    simp only [run, Option.bind_eq_some_iff] at hr
    obtain ⟨s1, h1, h2⟩ := hr
    exact ih (inv_step h h1) h2

theorem ending_waiting (s : State A) (o : Op) : (ending s o).waiting = s.waiting ∧ (ending s o).em = s.em ∧ (ending s o).op = none := by
  cases o <;> simp only [ending, release, disconnect] <;> split <;> simp

theorem ending_log (s : State A) (o : Op) : (ending s o).log = s.log ∨ (ending s o).log = s.log ++ [.valid] ∨ (ending s o).log = s.log ++ [.invalid] ∨ (s.place = .inSignal ∧ (ending s o).log = s.log ++ [.cancelled]) := by
  cases o <;> simp only [ending, release, disconnect] <;> split <;> simp_all

/-- A thread that waits does not use the connection. -/
def Apart (s : State A) : Prop := ∀ t l o, s.waiting = some (t, l) → s.op ≠ some (t, o)

theorem idle_apart {s : State A} {t : Thread} (h : idle s t = true) : (∀ l, s.waiting ≠ some (t, l)) ∧ ∀ o, s.op ≠ some (t, o) := by
  refine ⟨fun l e => ?_, fun o e => ?_⟩ <;> simp [idle, busy, e] at h

theorem apart_step {s s' : State A} (hi : Inv s) (h : Apart s) {a : Act A} (hs : step s a = some s') : Apart s' := by
  have hw := hi.waiting
  unfold Apart at h ⊢
  intro t l o h1 h2
  cases a with
  | endOp =>
    simp only [step] at hs
    split at hs
    · next t' o' _ =>
      split at hs
      · cases hs; rw [(ending_waiting s o').2.2] at h2; cases h2
      · cases hs
    · cases hs
  | cancel t' =>
    simp only [step] at hs
    split at hs
    · next hc => cases hs; cases h2; exact (idle_apart hc.2.2).1 l h1
    · cases hs
  | wait t' l' =>
    simp only [step] at hs
    split at hs
    · next hc =>
      split at hs
      · cases hs; cases h1; exact (idle_apart hc.2.2.2).2 o h2
      · cases hs; exact h t l o h1 h2
    · cases hs
  | _ => simp only [step] at hs <;> grind [dropSlot]

theorem apart_run {as : List (Act A)} : ∀ {s s' : State A}, Inv s → Apart s → run s as = some s' → Apart s' := by
  induction as with
  | nil => intro s s' _ h hr; cases hr; exact h
  | cons a as ih =>
    intro s s' hi h hr
    simp only [run, Option.bind_eq_some_iff] at hr
    obtain ⟨s1, h1, h2⟩ := hr
    exact ih (inv_step hi h1) (apart_step hi h h1) h2

theorem run_append (as bs : List (Act A)) (s : State A) : run s (as ++ bs) = (run s as).bind fun s' => run s' bs := by
  induction as generalizing s with
  | nil => rfl
  | cons a as ih => simp only [List.cons_append, run]; cases step s a <;> simp [ih]

end Maf.Fut
