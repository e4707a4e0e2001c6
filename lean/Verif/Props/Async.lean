import Verif.Model.Async
import Verif.Props.ProcessorProgress
import Verif.Lemmas.Hist
/-
C79: a processor with a thread of its own.
-/
namespace Maf.Async

open Maf.Proc (Tid)

/-! ### Specification -/

/-- The log of some run. -/
def Log (l : List Ev) : Prop := ∃ as s, run init as = some s ∧ s.log = l

/-! ### Invariant -/

/-- What every event of a log obeys. -/
def EvOk (l : List Ev) : Ev → Prop
  | .launched k => (∀ j, .launched j ∈ l ↔ j < k) ∧ ∀ j, j < k → .ended j ∈ l ∧ .joined j ∈ l
  | .ignored => ∃ k, .launched k ∈ l ∧ .joined k ∉ l
  | .ended k => .launched k ∈ l ∧ .ended k ∉ l
  | .proc e => ∀ k, e.tid = some (thr k) → .launched k ∈ l ∧ .ended k ∉ l
  | .joined k => .ended k ∈ l
  | .returned t b => (b = false → ∀ k, .launched k ∈ l → .joined k ∈ l) ∧
      ∀ x y u, l = x ++ .stopCalled u :: y → (∀ v c, .returned v c ∉ y) → t = u ∧ .proc (.stopped u) ∈ y
  | .running b => b = true ↔ ∃ k, .launched k ∈ l ∧ .joined k ∉ l
  | _ => True

def procEv : Ev → Option Proc.Ev
  | .proc e => some e
  | _ => none

/-- the thread is in `stop` -/
def inStop (p : Proc.State) (t : Tid) : Prop := ∃ f r, p.stk t = f :: r ∧ (f = .stop1 ∨ f = .stop2)

structure Inv (s : State) : Prop where
  reach : ∃ acts, Proc.run Proc.init acts = some s.p
  plog : s.log.filterMap procEv = s.p.log
  lau : ∀ k, .launched k ∈ s.log ↔ k < s.n
  fresh : ∀ k, s.begun k = false → s.p.stk (thr k) = []
  beg : ∀ k, s.begun k = true → k < s.n
  fin : ∀ k, .ended k ∈ s.log ↔ ready s k = true
  fut : ∀ k, s.fut = some k → k < s.n
  join : ∀ k, .joined k ∈ s.log ↔ k < s.n ∧ s.fut ≠ some k
  over : ∀ k, k < s.n → s.fut ≠ some k → ready s k = true
  wait : s.call.isSome = true → s.fut.isSome = true
  stop : ∀ x y t, s.log = x ++ .stopCalled t :: y → (∀ v c, .returned v c ∉ y) → ∃ st, s.call = some (t, st) ∧ (.proc (.stopped t) ∈ y ∨ (∃ b, st = .calling b) ∨ (∃ b, st = .stopping b) ∧ inStop s.p t)
  live : ∀ t b, s.call = some (t, .calling b) → alive s t = true
  hist : Hist EvOk s.log

theorem inv_init : Inv init := by
  refine ⟨⟨[], rfl⟩, rfl, ?_, ?_, ?_, ?_, ?_, ?_, ?_, ?_, ?_, ?_, Hist.nil⟩ <;> simp [init, Proc.init, ready]

theorem proc_reach {p p' : Proc.State} {a : Proc.Act} (h : ∃ acts, Proc.run Proc.init acts = some p) (hs : Proc.step p a = some p') : ∃ acts, Proc.run Proc.init acts = some p' := by
  obtain ⟨acts, h⟩ := h
  refine ⟨acts ++ [a], ?_⟩
  have : ∀ (acts : List Proc.Act) (q : Proc.State), Proc.run q acts = some p → Proc.run q (acts ++ [a]) = some p' := by
    intro acts
    induction acts with
    | nil => intro q hq; cases hq; simp [Proc.run, hs]
    | cons b acts ih =>
      intro q hq
      simp only [Proc.run, List.cons_append] at hq ⊢
      cases hb : Proc.step q b with
      | none => rw [hb] at hq; cases hq
      | some q' => rw [hb] at hq; exact ih q' hq
  exact this acts _ h

theorem new_events {p p' : Proc.State} {a : Proc.Act} (hs : Proc.step p a = some p') : ∃ es, p'.log = p.log ++ es ∧ p'.log.drop p.log.length = es ∧ ∀ e ∈ es, e.tid = none ∨ e.tid = some a.tid := by
  obtain ⟨-, es, h, h2⟩ := Proc.step_other hs
  exact ⟨es, h, by rw [h]; simp, h2⟩

theorem thr_inj {j k : Nat} (h : thr j = thr k) : j = k := by unfold thr at h; omega
theorem thr_odd (k : Nat) : thr k % 2 = 1 := by unfold thr; omega

/-- The last part of a list. -/
theorem split_last {α : Type} {l r x y : List α} {e : α} (h : l ++ r = x ++ e :: y) (he : e ∉ r) : ∃ y', l = x ++ e :: y' ∧ y = y' ++ r := by
  rcases List.append_eq_append_iff.1 h with ⟨c, h1, h2⟩ | ⟨c, h1, h2⟩
  · exact absurd (by rw [h2]; simp) he
  · cases c with
    | nil => simp at h2; exact absurd (by rw [← h2]; simp) he
    | cons d c => simp at h2; obtain ⟨rfl, rfl⟩ := h2; exact ⟨c, h1, rfl⟩

theorem procs : ∀ es : List Proc.Ev, (es.map Ev.proc).filterMap procEv = es
  | [] => rfl
  | e :: es => by rw [List.map_cons, List.filterMap_cons, procs es]; rfl

/-- A step of the processor. -/
theorem inv_move {s : State} (h : Inv s) {p : Proc.State} {a : Proc.Act} (hs : Proc.step s.p a = some p) {bg : Nat → Bool} {tail : List Ev}
    (ha : ∀ k, a.tid = thr k → k < s.n ∧ ready s k = false)
    (hb1 : ∀ k, bg k = true → k < s.n) (hb2 : ∀ k, bg k = false → p.stk (thr k) = [])
    (hr : ∀ k, (bg k && (p.stk (thr k)).isEmpty) = true ↔ ready s k = true ∨ .ended k ∈ tail)
    (ht : tail = [] ∨ ∃ k, tail = [.ended k] ∧ k < s.n ∧ ready s k = false)
    (hst : ∀ t b, s.call = some (t, .stopping b) → inStop s.p t → inStop p t ∨ ∀ es, p.log = s.p.log ++ es → .stopped t ∈ es)
    (hal : ∀ t b, s.call = some (t, .calling b) → p.stk t = s.p.stk t ∨ p.stk t ≠ []) :
    Inv { moved s p with begun := bg, log := (moved s p).log ++ tail } := by
  obtain ⟨es, h1, h2, h3⟩ := new_events hs
  have hlog : (moved s p).log ++ tail = s.log ++ (es.map .proc ++ tail) := by simp [moved, h2]
  have hmem : ∀ e, (∀ x, e ≠ .proc x) → (∀ k, e ≠ .ended k) → (e ∈ (moved s p).log ++ tail ↔ e ∈ s.log) := fun e he1 he2 => by
    rw [hlog]; simp only [List.mem_append, List.mem_map]
    constructor
    · rintro (h | ⟨x, -, hx⟩ | hx)
      · exact h
      · exact absurd hx.symm (he1 x)
      · rcases ht with rfl | ⟨k, rfl, -⟩
        · simp at hx
        · simp at hx; exact absurd hx (he2 k)
    · exact .inl
  refine ⟨proc_reach h.reach hs, ?_, fun k => ?_, hb2, hb1, fun k => ?_, h.fut, fun k => ?_, fun k hk hf => (hr k).2 (.inl (h.over k hk hf)), h.wait, fun x y t hx hy => ?_, fun t b hc => ?_, ?_⟩
  · show ((moved s p).log ++ tail).filterMap procEv = p.log
    have h5 := procs es
    have h4 : tail.filterMap procEv = [] := by rcases ht with rfl | ⟨k, rfl, -⟩ <;> rfl
    rw [hlog, List.filterMap_append, List.filterMap_append, h4, h5, h.plog, h1]; simp
  · exact (hmem _ (by simp) (by simp)).trans (h.lau k)
  · show _ ∈ (moved s p).log ++ tail ↔ (bg k && (p.stk (thr k)).isEmpty) = true
    rw [hlog, hr k, ← h.fin k]; simp
  · exact (hmem _ (by simp) (by simp)).trans (h.join k)
  · have hx' : s.log ++ (es.map .proc ++ tail) = x ++ .stopCalled t :: y := hlog ▸ hx
    obtain ⟨y', e1, rfl⟩ := split_last hx' (by
      simp only [List.mem_append, List.mem_map, not_or]
      refine ⟨by simp, ?_⟩
      rcases ht with rfl | ⟨k, rfl, -⟩ <;> simp)
    obtain ⟨st, c1, c2⟩ := h.stop x y' t e1 (fun v c hm => hy v c (by simp [hm]))
    refine ⟨st, c1, ?_⟩
    rcases c2 with c2 | c2 | ⟨⟨b, rfl⟩, c2⟩
    · exact .inl (by simp [c2])
    · exact .inr (.inl c2)
    · rcases hst t b c1 c2 with c3 | c3
      · exact .inr (.inr ⟨⟨b, rfl⟩, c3⟩)
      · exact .inl (by simp [c3 es h1])
  · have h0 := h.live t b hc
    simp only [alive, Bool.or_eq_true] at h0 ⊢
    show (t % 2 == 0) = true ∨ (!(p.stk t).isEmpty) = true
    rcases hal t b hc with e | e
    · rw [e]; exact h0
    · right; simp [e]
  · show Hist EvOk ((moved s p).log ++ tail)
    rw [hlog, ← List.append_assoc]
    have hh : Hist EvOk (s.log ++ es.map .proc) := by
      have hsub : ∀ es' : List Proc.Ev, (∀ e ∈ es', e.tid = none ∨ e.tid = some a.tid) → Hist EvOk (s.log ++ es'.map .proc) := by
        intro es'
        refine snoc_induct (motive := fun es' => (∀ e ∈ es', e.tid = none ∨ e.tid = some a.tid) → Hist EvOk (s.log ++ es'.map .proc)) (fun _ => by simpa using h.hist) ?_ es'
        intro l e ih hl
        rw [List.map_append, ← List.append_assoc]
        refine (ih fun e he => hl e (by simp [he])).one fun k hk => ?_
        have hak : a.tid = thr k := by
          rcases hl e (by simp) with h | h
          · rw [h] at hk; cases hk
          · rw [h] at hk; exact Option.some.inj hk
        obtain ⟨k1, k2⟩ := ha k hak
        refine ⟨by simp [(h.lau k).2 k1], ?_⟩
        intro hm
        have : .ended k ∈ s.log := by simpa using hm
        rw [h.fin k, k2] at this; cases this
      exact hsub es h3
    rcases ht with rfl | ⟨k, rfl, k1, k2⟩
    · simpa using hh
    · refine hh.one ⟨by simp [(h.lau k).2 k1], fun hm => ?_⟩
      have : .ended k ∈ s.log := by simpa using hm
      rw [h.fin k, k2] at this; cases this

/-- What a step does to a call of `stop`. -/
theorem stop_goes {s : State} {p : Proc.State} {a : Proc.Act} (hs : Proc.step s.p a = some p) (hm : mayMove s a = true) :
    ∀ t b, s.call = some (t, .stopping b) → inStop s.p t → inStop p t ∨ ∀ es, p.log = s.p.log ++ es → .stopped t ∈ es := by
  intro t b hc ⟨f, r, hf, hff⟩
  simp only [mayMove, hc, Bool.or_eq_true, bne_iff_ne, ne_eq, beq_iff_eq] at hm
  have hb := (Proc.step_body hs).2
  rcases hm with (hm | rfl) | rfl
  · obtain ⟨h1, -⟩ := Proc.step_other hs
    exact .inl ⟨f, r, by rw [(h1 t (Ne.symm hm)).1]; exact hf, hff⟩
  · simp only [Proc.body, hf] at hb
    rcases hff with rfl | rfl
    · simp only at hb; cases hb
      exact .inl ⟨.stop2, r, by simp [Proc.setStk, Proc.emitLog, Proc.upd], .inr rfl⟩
    · simp only at hb; cases hb
  · simp only [Proc.body, hf] at hb
    rcases hff with rfl | rfl
    · simp only at hb; cases hb
    · simp only at hb; cases hb
      refine .inr fun es he => ?_
      simp only [Proc.emitLog, Proc.setStk] at he
      rw [← List.append_cancel_left he]; simp

theorem calling_stays {s : State} {p : Proc.State} {a : Proc.Act} (hs : Proc.step s.p a = some p) (hm : mayMove s a = true) :
    ∀ t b, s.call = some (t, .calling b) → p.stk t = s.p.stk t ∨ p.stk t ≠ [] := by
  intro t b hc
  simp only [mayMove, hc, bne_iff_ne, ne_eq] at hm
  obtain ⟨h1, -⟩ := Proc.step_other hs
  exact .inl (h1 t (Ne.symm hm)).1

/-- An event that has nothing to do with the processor. -/
theorem inv_note {s : State} (h : Inv s) {e : Ev} (h1 : ∀ x, e ≠ .proc x) (h2 : ∀ k, e ≠ .launched k) (h3 : ∀ k, e ≠ .ended k) (h4 : ∀ k, e ≠ .joined k) (h5 : ∀ t, e ≠ .stopCalled t) (he : EvOk s.log e) :
    Inv { s with log := s.log ++ [e] } := by
  have hmem : ∀ f, f ≠ e → (f ∈ s.log ++ [e] ↔ f ∈ s.log) := fun f hf => by simp [hf]
  refine ⟨h.reach, ?_, fun k => (hmem _ (h2 k).symm).trans (h.lau k), h.fresh, h.beg, fun k => (hmem _ (h3 k).symm).trans (h.fin k), h.fut, fun k => (hmem _ (h4 k).symm).trans (h.join k), h.over, h.wait, fun x y t hx hy => ?_, h.live, h.hist.one he⟩
  · rw [List.filterMap_append, h.plog]
    have : procEv e = none := by cases e <;> first | rfl | exact absurd rfl (h1 _)
    simp [this]
  · obtain ⟨y', e1, rfl⟩ := split_last hx (by simp; exact (h5 t).symm)
    obtain ⟨st, c1, c2⟩ := h.stop x y' t e1 (fun v c hm => hy v c (by simp [hm]))
    exact ⟨st, c1, c2.imp (fun c => by simp [c]) id⟩

/-- Nothing is called: no call is on the way. -/
theorem no_stop {s : State} (h : Inv s) (hc : s.call = none) {x y : List Ev} {u : Tid} (hx : s.log = x ++ .stopCalled u :: y) (hy : ∀ v c, .returned v c ∉ y) : False := by
  obtain ⟨st, h1, -⟩ := h.stop x y u hx hy
  rw [hc] at h1; cases h1

theorem canCall_iff {s : State} {t : Tid} (h : canCall s t = true) : Proc.canCall s.p t = true ∧ alive s t = true ∧ s.call = none ∧ s.p.ub = false := by
  simp only [canCall, Bool.and_eq_true, Option.isNone_iff_eq_none, Bool.not_eq_true'] at h
  exact ⟨h.1.1.1, h.1.1.2, h.1.2, h.2⟩

theorem ready_false {s : State} {k : Nat} (h : ¬ ready s k = true) : ready s k = false := by simpa using h

theorem moved_eq (s : State) (p : Proc.State) : moved s p = { moved s p with begun := s.begun, log := (moved s p).log ++ [] } := by simp [moved]

/-- A step of a thread that stays in `run`, or was not made by `launch`. -/
theorem inv_moved {s : State} (h : Inv s) {p : Proc.State} {a : Proc.Act} (hs : Proc.step s.p a = some p)
    (ha : ∀ k, a.tid = thr k → s.begun k = true ∧ ready s k = false ∧ p.stk (thr k) ≠ [])
    (hst : ∀ t b, s.call = some (t, .stopping b) → inStop s.p t → inStop p t ∨ ∀ es, p.log = s.p.log ++ es → .stopped t ∈ es)
    (hal : ∀ t b, s.call = some (t, .calling b) → p.stk t = s.p.stk t ∨ p.stk t ≠ []) : Inv (moved s p) := by
  obtain ⟨h1, -⟩ := Proc.step_other hs
  rw [moved_eq]
  refine inv_move h hs (fun k hk => ⟨h.beg k (ha k hk).1, (ha k hk).2.1⟩) h.beg (fun k hk => ?_) (fun k => ?_) (.inl rfl) hst hal
  · by_cases hk' : thr k = a.tid
    · rw [(ha k hk'.symm).1] at hk; cases hk
    · rw [(h1 _ hk').1]; exact h.fresh k hk
  · by_cases hk' : thr k = a.tid
    · have := ha k hk'.symm
      simp [this.2.1, this.2.2]
    · rw [(h1 _ hk').1]; simp [ready]

theorem inv_step {s s' : State} {x : Act} (h : Inv s) (hs : step s x = some s') : Inv s' := by
  cases x with
  | other t a =>
    simp only [step] at hs; split at hs
    · rename_i hc
      obtain ⟨hc1, hc2, hc3⟩ := hc
      cases hp : Proc.step s.p a with
      | none => rw [hp] at hs; cases hs
      | some p =>
        rw [hp] at hs; cases hs
        refine inv_moved h hp (fun k hk => ?_) (stop_goes hp hc3) (calling_stays hp hc3)
        have := thr_odd k
        rw [← hk, hc1, hc2] at this; cases this
    · cases hs
  | thread k a =>
    simp only [step] at hs; split at hs
    · rename_i hc
      obtain ⟨hc1, hc2, hc3, hc4⟩ := hc
      cases hp : Proc.step s.p a with
      | none => rw [hp] at hs; cases hs
      | some p =>
        rw [hp] at hs; cases hs
        have hk0 : ∀ j, a.tid = thr j → j = k := fun j hj => thr_inj (hj.symm.trans hc1)
        show Inv (moveThread s p k)
        unfold moveThread
        split
        · rename_i he
          obtain ⟨h1, -⟩ := Proc.step_other hp
          have e : ({ moved s p with log := (moved s p).log ++ [.ended k] } : State) = { moved s p with begun := s.begun, log := (moved s p).log ++ [.ended k] } := rfl
          rw [e]
          refine inv_move h hp (fun j hj => ?_) h.beg (fun j hj => ?_) (fun j => ?_) (.inr ⟨k, rfl, h.beg k hc2, ready_false hc3⟩) (stop_goes hp hc4) (calling_stays hp hc4)
          · have := hk0 j hj; subst this; exact ⟨h.beg _ hc2, ready_false hc3⟩
          · by_cases hjk : j = k
            · subst hjk; rw [hc2] at hj; cases hj
            · rw [(h1 _ (fun hx => hjk (hk0 j hx.symm))).1]; exact h.fresh j hj
          · by_cases hjk : j = k
            · subst hjk; simp [hc2, he]
            · rw [(h1 _ (fun hx => hjk (hk0 j hx.symm))).1]; simp [ready, hjk]
        · rename_i he
          refine inv_moved h hp (fun j hj => ?_) (stop_goes hp hc4) (calling_stays hp hc4)
          have := hk0 j hj; subst this
          exact ⟨hc2, ready_false hc3, by simpa using he⟩
    · cases hs
  | begin k =>
    simp only [step] at hs; split at hs
    · rename_i hc
      cases hp : Proc.step s.p (.callRun (thr k) .forever) with
      | none => rw [hp] at hs; cases hs
      | some p =>
        rw [hp] at hs; cases hs
        obtain ⟨h1, -⟩ := Proc.step_other hp
        have hnew : p.stk (thr k) ≠ [] := by
          have hb := (Proc.step_body hp).2
          simp only [Proc.body] at hb
          split at hb <;> cases hb
          simp [Proc.emitLog, Proc.setStk, Proc.upd]
        have hrk : ready s k = false := by simp [ready, hc.2]
        have e : ∀ bg, ({ moved s p with begun := bg } : State) = { moved s p with begun := bg, log := (moved s p).log ++ [] } := by simp [moved]
        show Inv { moved s p with begun := fun j => if j = k then true else s.begun j }
        rw [e]
        refine inv_move h hp (fun j hj => ?_) (fun j hj => ?_) (fun j hj => ?_) (fun j => ?_) (.inl rfl) (fun t b ht hin => ?_) (fun t b ht => ?_)
        · have := thr_inj hj.symm; subst this; exact ⟨hc.1, hrk⟩
        · by_cases hjk : j = k
          · subst hjk; exact hc.1
          · simp only [hjk, if_false] at hj; exact h.beg j hj
        · by_cases hjk : j = k
          · subst hjk; simp at hj
          · simp only [hjk, if_false] at hj
            rw [(h1 _ (fun hx => hjk (thr_inj hx))).1]; exact h.fresh j hj
        · by_cases hjk : j = k
          · subst hjk; simp [hrk, hnew]
          · rw [(h1 _ (fun hx => hjk (thr_inj hx))).1]; simp [ready, hjk]
        · by_cases htk : t = thr k
          · subst htk
            obtain ⟨f, r, hf, -⟩ := hin
            rw [h.fresh k hc.2] at hf; cases hf
          · obtain ⟨f, r, hf, hff⟩ := hin
            exact .inl ⟨f, r, by rw [(h1 t htk).1]; exact hf, hff⟩
        · by_cases htk : t = thr k
          · subst htk; exact .inr hnew
          · exact .inl (h1 t htk).1
    · cases hs
  | launch t =>
    simp only [step] at hs; split at hs
    · rename_i hc
      obtain ⟨-, -, hc, -⟩ := canCall_iff hc
      cases hs
      unfold launch
      cases hf : s.fut with
      | some k =>
        simp only
        rw [← hf]
        refine inv_note h (by simp) (by simp) (by simp) (by simp) (by simp) ⟨k, (h.lau k).2 (h.fut k hf), fun hm => ?_⟩
        exact ((h.join k).1 hm).2 hf
      | none =>
        simp only
        have hall : ∀ k, k < s.n → ready s k = true := fun k hk => h.over k hk (by rw [hf]; simp)
        refine ⟨h.reach, ?_, fun k => ?_, h.fresh, fun k hk => Nat.lt_succ_of_lt (h.beg k hk), fun k => ?_, fun k hk => ?_, fun k => ?_, fun k hk hne => ?_, fun _ => rfl, fun x y u hx hy => ?_, h.live, h.hist.one ⟨h.lau, fun j hj => ⟨(h.fin j).2 (hall j hj), (h.join j).2 ⟨hj, by rw [hf]; simp⟩⟩⟩⟩
        · simp [procEv, h.plog]
        · simp only [List.mem_append, List.mem_singleton, Ev.launched.injEq, h.lau]; omega
        · simp only [List.mem_append, List.mem_singleton, reduceCtorEq, or_false, h.fin]; rfl
        · cases hk; exact Nat.lt_succ_self _
        · simp only [List.mem_append, List.mem_singleton, reduceCtorEq, or_false, h.join, hf, ne_eq, not_false_eq_true, and_true, Option.some.injEq]
          omega
        · have : k < s.n := by simp only [ne_eq, Option.some.injEq] at hne; simp only at hk; omega
          exact hall k this
        · obtain ⟨y', e1, rfl⟩ := split_last hx (by simp)
          exact (no_stop h hc e1 (fun v c hm => hy v c (by simp [hm]))).elim
    · cases hs
  | stopAndWait t timed =>
    simp only [step] at hs; split at hs
    · rename_i hc
      obtain ⟨-, hal, hc, -⟩ := canCall_iff hc
      cases hs
      unfold stopAndWait
      cases hf : s.fut with
      | none =>
        simp only
        rw [← hf]
        refine inv_note h (by simp) (by simp) (by simp) (by simp) (by simp) ⟨fun _ k hk => (h.join k).2 ⟨(h.lau k).1 hk, by rw [hf]; simp⟩, fun x y u hx hy => (no_stop h hc hx hy).elim⟩
      | some k =>
        simp only
        rw [← hf]
        refine ⟨h.reach, by simp [procEv, h.plog], fun j => by simp [h.lau], h.fresh, h.beg, fun j => by simp [h.fin]; rfl, h.fut, fun j => by simp [h.join], h.over, fun _ => by simp [hf], fun x y u hx hy => ?_, fun u b hu => (by cases hu; exact hal), h.hist.one trivial⟩
        by_cases hu : u = t ∧ y = []
        · obtain ⟨rfl, rfl⟩ := hu; exact ⟨_, rfl, .inr (.inl ⟨timed, rfl⟩)⟩
        · rcases List.eq_nil_or_concat y with rfl | ⟨y', f, rfl⟩
          · obtain ⟨-, h2⟩ := List.append_inj' hx rfl; cases h2; exact absurd ⟨rfl, rfl⟩ hu
          · have h' : s.log ++ [.stopCalled t] = (x ++ .stopCalled u :: y') ++ [f] := by simpa using hx
            obtain ⟨h3, -⟩ := List.append_inj' h' rfl
            exact (no_stop h hc h3 (fun v c hm => hy v c (by simp [hm]))).elim
    · cases hs
  | callStop =>
    simp only [step, callStop] at hs
    split at hs
    · rename_i t timed hc
      cases hp : Proc.step s.p (.callStop t) with
      | none => rw [hp] at hs; cases hs
      | some p =>
        rw [hp] at hs; cases hs
        have hb := (Proc.step_body hp).2
        obtain ⟨es, g1, g2, -⟩ := new_events hp
        obtain ⟨h1, -⟩ := Proc.step_other hp
        have hne : ∀ k, (Proc.Act.callStop t).tid = thr k → s.begun k = true ∧ ready s k = false ∧ p.stk (thr k) ≠ [] := by
          intro k hk
          have hk : t = thr k := hk
          have h0 := h.live t timed hc
          simp only [alive, Bool.or_eq_true, beq_iff_eq, Bool.not_eq_true'] at h0
          have hk1 : s.p.stk (thr k) ≠ [] := by
            rcases h0 with h0 | h0
            · have := thr_odd k; rw [← hk, h0] at this; cases this
            · rw [hk] at h0; intro hx; rw [hx] at h0; cases h0
          have hk2 : s.begun k = true := by
            cases hbk : s.begun k with
            | true => rfl
            | false => exact absurd (h.fresh k hbk) hk1
          refine ⟨hk2, by simp [ready, hk1], ?_⟩
          simp only [Proc.body] at hb
          split at hb
          · cases hb
          · split at hb <;> cases hb
            · exact hk1
            · simp [Proc.setStk, Proc.upd, hk]
        have hi := inv_moved h hp hne (fun u b hu => by rw [hc] at hu; cases hu) (fun u b hu => by
          by_cases hut : u = t
          · subst hut
            simp only [Proc.body] at hb
            split at hb
            · cases hb
            · split at hb <;> cases hb
              · exact .inl rfl
              · right; simp [Proc.setStk, Proc.upd]
          · exact .inl (h1 u hut).1)
        refine ⟨hi.reach, hi.plog, hi.lau, hi.fresh, hi.beg, hi.fin, hi.fut, hi.join, hi.over, fun _ => hi.wait (by simp [moved, hc]), fun x y u hx hy => ?_, fun u b hu => (by cases hu), hi.hist⟩
        obtain ⟨st, d1, d2⟩ := hi.stop x y u hx hy
        have d1 : s.call = some (u, st) := d1
        rw [hc] at d1; cases d1
        refine ⟨_, rfl, ?_⟩
        simp only [Proc.body] at hb
        split at hb
        · cases hb
        · split at hb
          · cases hb
            have hx' : s.log ++ [.proc (.stopped t)] = x ++ .stopCalled t :: y := by
              simpa [moved, Proc.emitLog] using hx
            obtain ⟨y', e1, rfl⟩ := split_last hx' (by simp)
            exact .inl (by simp)
          · cases hb
            exact .inr (.inr ⟨⟨timed, rfl⟩, ⟨.stop1, s.p.stk t, by simp [moved, Proc.setStk, Proc.upd], .inl rfl⟩⟩)
    · cases hs
  | wait t timed =>
    simp only [step] at hs; split at hs
    · rename_i hc
      obtain ⟨-, -, hc, -⟩ := canCall_iff hc
      cases hs
      unfold wait
      cases hf : s.fut with
      | none =>
        simp only
        rw [← hf]
        refine inv_note h (by simp) (by simp) (by simp) (by simp) (by simp) ⟨fun _ k hk => (h.join k).2 ⟨(h.lau k).1 hk, by rw [hf]; simp⟩, fun x y u hx hy => (no_stop h hc hx hy).elim⟩
      | some k =>
        simp only
        rw [← hf]
        refine ⟨h.reach, by simp [procEv, h.plog], fun j => by simp [h.lau], h.fresh, h.beg, fun j => by simp [h.fin]; rfl, h.fut, fun j => by simp [h.join], h.over, fun _ => by simp [hf], fun x y u hx hy => ?_, fun u b hu => (by cases hu), h.hist.one trivial⟩
        obtain ⟨y', e1, rfl⟩ := split_last hx (by simp)
        exact (no_stop h hc e1 (fun v c hm => hy v c (by simp [hm]))).elim
    · cases hs
  | stopDone =>
    simp only [step, stopDone] at hs
    split at hs
    · rename_i t timed hc
      split at hs <;> cases hs
      rename_i hcc
      refine ⟨h.reach, h.plog, h.lau, h.fresh, h.beg, h.fin, h.fut, h.join, h.over, fun _ => h.wait (by simp [hc]), fun x y u hx hy => ?_, fun u b hu => (by cases hu), h.hist⟩
      obtain ⟨st, d1, d2⟩ := h.stop x y u hx hy
      rw [hc] at d1; cases d1
      refine ⟨_, rfl, .inl ?_⟩
      rcases d2 with d2 | ⟨b, d2⟩ | ⟨-, f, r, hf, hff⟩
      · exact d2
      · cases d2
      · exfalso
        simp only [Proc.canCall, hf] at hcc
        rcases hff with rfl | rfl <;> cases hcc
    · cases hs
  | get =>
    simp only [step, get] at hs
    split at hs
    · rename_i t b k hc hf
      split at hs <;> cases hs
      rename_i hr
      have hk := h.fut k hf
      have hj : Hist EvOk (s.log ++ [.joined k, .returned t false]) := by
        refine h.hist.two ((h.fin k).2 hr) ⟨fun _ j hj => ?_, fun x y u hx hy => ?_⟩
        · have hj : j < s.n := by rw [← h.lau]; simpa using hj
          by_cases e : j = k
          · subst e; simp
          · have := (h.join j).2 ⟨hj, by rw [hf]; simp; exact fun hx => e hx.symm⟩
            simp [this]
        · obtain ⟨y', e1, rfl⟩ := split_last hx (by simp)
          obtain ⟨st, d1, d2⟩ := h.stop x y' u e1 (fun v c hm => hy v c (by simp [hm]))
          rw [hc] at d1; cases d1
          refine ⟨rfl, ?_⟩
          rcases d2 with d2 | ⟨b, d2⟩ | ⟨⟨b, d2⟩, -⟩
          · simp [d2]
          · cases d2
          · cases d2
      refine ⟨h.reach, by simp [procEv, h.plog], fun j => by simp [h.lau], h.fresh, h.beg, fun j => by simp [h.fin]; rfl, (fun j hj => by cases hj), fun j => ?_, fun j hj _ => ?_, (fun hx => by cases hx), fun x y u hx hy => ?_, fun u b hu => (by cases hu), hj⟩
      · simp only [List.mem_append, List.mem_cons, List.not_mem_nil, or_false, Ev.joined.injEq, reduceCtorEq, h.join, hf, ne_eq, not_false_eq_true, and_true, Option.some.injEq]
        constructor
        · rintro (⟨h1, -⟩ | rfl)
          · exact h1
          · exact hk
        · intro hj
          by_cases e : k = j
          · exact .inr e.symm
          · exact .inl ⟨hj, e⟩
      · by_cases e : j = k
        · subst e; exact hr
        · exact h.over j hj (by rw [hf]; simp; exact fun hx => e hx.symm)
      · obtain ⟨y', e1, rfl⟩ := split_last hx (by simp)
        exact absurd (by simp) (hy t false)
    · cases hs
  | timeOut =>
    simp only [step, timeOut] at hs
    split at hs
    · rename_i t hc
      cases hs
      refine ⟨h.reach, by simp [procEv, h.plog], fun j => by simp [h.lau], h.fresh, h.beg, fun j => by simp [h.fin]; rfl, h.fut, fun j => by simp [h.join], h.over, (fun hx => by cases hx), fun x y u hx hy => ?_, fun u b hu => (by cases hu), h.hist.one ⟨(fun hb => by cases hb), fun x y u hx hy => ?_⟩⟩
      · obtain ⟨y', e1, rfl⟩ := split_last hx (by simp)
        exact absurd (by simp) (hy t true)
      · obtain ⟨st, d1, d2⟩ := h.stop x y u hx hy
        rw [hc] at d1; cases d1
        refine ⟨rfl, ?_⟩
        rcases d2 with d2 | ⟨b, d2⟩ | ⟨⟨b, d2⟩, -⟩
        · exact d2
        · cases d2
        · cases d2
    · cases hs
  | running t =>
    simp only [step] at hs; split at hs <;> cases hs
    refine inv_note h (by simp) (by simp) (by simp) (by simp) (by simp) ?_
    constructor
    · intro hf
      obtain ⟨k, hk⟩ := Option.isSome_iff_exists.1 hf
      exact ⟨k, (h.lau k).2 (h.fut k hk), fun hm => ((h.join k).1 hm).2 hk⟩
    · rintro ⟨k, h1, h2⟩
      cases hf : s.fut with
      | some _ => rfl
      | none => exact absurd ((h.join k).2 ⟨(h.lau k).1 h1, by rw [hf]; simp⟩) h2

theorem inv_run {as : List Act} {s s' : State} (h : Inv s) (hr : run s as = some s') : Inv s' := by
  induction as generalizing s with
  | nil => cases hr; exact h
  | cons a as ih =>
    simp only [run] at hr
    cases hs : step s a with
    | none => rw [hs] at hr; cases hr
    | some s1 => rw [hs] at hr; exact ih (inv_step h hs) hr

theorem Log.hist {l : List Ev} (h : Log l) : Hist EvOk l := by
  obtain ⟨as, s, hr, rfl⟩ := h
  exact (inv_run inv_init hr).hist

/-! ### Theorems -/

/-- C79: the processor never has two threads: when `launch` makes one, all those made before are over, and have been waited for. They
are numbered in order. -/
theorem launch_one {l r : List Ev} {k : Nat} (h : Log (l ++ .launched k :: r)) :
    (∀ j, .launched j ∈ l ↔ j < k) ∧ ∀ j, .launched j ∈ l → .ended j ∈ l ∧ .joined j ∈ l := by
  have h1 := h.hist.all _ _ _ rfl
  exact ⟨h1.1, fun j hj => h1.2 j ((h1.1 j).1 hj)⟩

/-- C79: a `launch` that does nothing: the processor was launched, and nobody has waited for its end yet. -/
theorem ignored_why {l r : List Ev} (h : Log (l ++ .ignored :: r)) : ∃ k, .launched k ∈ l ∧ .joined k ∉ l := h.hist.all _ _ _ rfl

/-- C79: a launched thread that is over is silent: nothing happens to the processor by it after its end; and nothing before
the launch. -/
theorem only_alive {l r : List Ev} {e : Proc.Ev} {k : Nat} (h : Log (l ++ .proc e :: r)) (he : e.tid = some (thr k)) :
    .launched k ∈ l ∧ .ended k ∉ l := h.hist.all _ _ _ rfl k he

/-- C79: a launched thread ends once. -/
theorem ends_once {l r : List Ev} {k : Nat} (h : Log (l ++ .ended k :: r)) : .launched k ∈ l ∧ .ended k ∉ l := h.hist.all _ _ _ rfl

/-- C79: when `stopAndWait` or `wait` returns, but not because of the timeout, no launched thread is left. -/
theorem returned_ended {l r : List Ev} {t : Tid} (h : Log (l ++ .returned t false :: r)) (k : Nat) (hk : .launched k ∈ l) : .ended k ∈ l := by
  obtain ⟨x, y, rfl⟩ := List.append_of_mem ((h.hist.all _ _ _ rfl).1 rfl k hk)
  have h1 : EvOk x (.joined k) := h.hist.all x (.joined k) (y ++ .returned t false :: r) (by simp)
  simp only [EvOk] at h1
  simp [h1]

/-- C79: after such a return, until the next `launch`, nothing is executed by a launched thread. -/
theorem returned_silent {l r : List Ev} {t : Tid} (h : Log (l ++ .returned t false :: r)) (hr : ∀ k, .launched k ∉ r) {e : Proc.Ev} (he : .proc e ∈ r) (k : Nat) :
    e.tid ≠ some (thr k) := by
  intro ht
  obtain ⟨x, y, rfl⟩ := List.append_of_mem he
  have h1 := only_alive (l := l ++ .returned t false :: x) (r := y) (by simpa using h) ht
  simp only [List.mem_append, List.mem_cons, reduceCtorEq, false_or, not_or] at h1
  rcases h1.1 with h2 | h2
  · exact h1.2.1 (returned_ended h k h2)
  · exact hr k (by simp [h2])

/-- C79: `stopAndWait` has stopped the processor before it returns (even by the timeout), to the one who called. -/
theorem stop_stops {l y r : List Ev} {t u : Tid} {b : Bool} (h : Log (l ++ .stopCalled t :: (y ++ .returned u b :: r))) (hy : ∀ v c, .returned v c ∉ y) :
    u = t ∧ .proc (.stopped t) ∈ y :=
  (h.hist.all (l ++ .stopCalled t :: y) (.returned u b) r (by simp)).2 l y t rfl hy

/-- C79: `running` says whether the processor was launched and nobody has waited for its end. -/
theorem running_iff {l r : List Ev} {b : Bool} (h : Log (l ++ .running b :: r)) : b = true ↔ ∃ k, .launched k ∈ l ∧ .joined k ∉ l := h.hist.all _ _ _ rfl

/-- C79: the wait ends with the thread. -/
theorem joined_ended {l r : List Ev} {k : Nat} (h : Log (l ++ .joined k :: r)) : .ended k ∈ l := h.hist.all _ _ _ rfl

/-- C79: what happens to the processor are the events of a run of the processor: everything proved about it holds. -/
theorem is_processor {l : List Ev} (h : Log l) : ∃ acts p, Proc.run Proc.init acts = some p ∧ p.log = l.filterMap procEv := by
  obtain ⟨as, s, hr, rfl⟩ := h
  have hi := inv_run inv_init hr
  obtain ⟨acts, ha⟩ := hi.reach
  exact ⟨acts, s.p, ha, hi.plog.symm⟩

/-- C79: a launched thread executes nothing once the processor is stopped, until it is reused. -/
theorem stopped_quiet {l r : List Ev} {t : Tid} (h : Log (l ++ .proc (.closed t) :: r)) (hr : ∀ u, .proc (.reopened u) ∉ r) (u : Tid) (w : Proc.Work) : .proc (.began u w) ∉ r := by
  obtain ⟨acts, p, ha, hp⟩ := is_processor h
  have mem : ∀ e, e ∈ r.filterMap procEv ↔ .proc e ∈ r := by
    intro e
    rw [List.mem_filterMap]
    constructor
    · rintro ⟨x, hx, hx2⟩
      cases x <;> simp [procEv] at hx2
      subst hx2; exact hx
    · intro hx; exact ⟨_, hx, rfl⟩
  have h1 := (Proc.stopped_executes_nothing acts p ha (l.filterMap procEv) (r.filterMap procEv) t (by rw [hp, List.filterMap_append, List.filterMap_cons]; rfl)
    (fun v hv => hr v ((mem _).1 hv))).1 u w
  exact fun hm => h1 ((mem _).2 hm)

theorem next_tid (t : Tid) (f : Proc.Frame) : (Proc.nextAct t f).tid = t := by cases f <;> rfl

/-- C79, partial (the full property: the wait ends): while somebody else waits for the thread of launch `k`, the processor being stopped: the wait can end, or the
thread can make its next step, or the thread needs a lock that another thread holds. -/
theorem wait_progress_partial {as : List Act} {s : State} (hr : run init as = some s) {t : Tid} {b : Bool} {k : Nat} (hc : s.call = some (t, .waiting b))
    (hf : s.fut = some k) (hp : s.p.closed = true) (hu : s.p.ub = false) (ht : t ≠ thr k) :
    (step s .get).isSome ∨ (step s (.begin k)).isSome ∨
    (∃ f rest, s.p.stk (thr k) = f :: rest ∧ (step s (.thread k (Proc.nextAct (thr k) f))).isSome) ∨ ∃ u, u ≠ thr k ∧ Proc.WaitsFor s.p (thr k) u := by
  have hi := inv_run inv_init hr
  by_cases hrd : ready s k = true
  · left; simp [step, get, hc, hf, hrd]
  by_cases hb : s.begun k = true
  · cases hs : s.p.stk (thr k) with
    | nil => exact absurd (by simp [ready, hb, hs]) hrd
    | cons f rest =>
      obtain ⟨acts, ha⟩ := hi.reach
      rcases Proc.can_go_on acts s.p ha hu (thr k) f rest hs with h1 | h1 | ⟨_, _, -, h1, -⟩
      · refine .inr (.inr (.inl ⟨f, rest, rfl, ?_⟩))
        obtain ⟨p, hp'⟩ := Option.isSome_iff_exists.1 h1
        have hm : mayMove s (Proc.nextAct (thr k) f) = true := by simp [mayMove, hc, next_tid, Ne.symm ht]
        simp [step, next_tid, hb, hrd, hm, hp']
      · exact .inr (.inr (.inr h1))
      · rw [hp] at h1; cases h1
  · right; left
    have hb : s.begun k = false := by simpa using hb
    simp [step, hi.fut k hf, hb, Proc.step, hu, Proc.body, Proc.canCall, hi.fresh k hb]

/-- C79: a launched thread that waits for work ends when the processor is stopped. -/
theorem idle_ends {as : List Act} {s : State} (hr : run init as = some s) {k : Nat} {x : Bool} (hs : s.p.stk (thr k) = [.loop .forever x]) (hp : s.p.closed = true) (hu : s.p.ub = false)
    (hc : ∀ st, s.call ≠ some (thr k, st)) : ∃ s', step s (.thread k (.take (thr k))) = some s' ∧ s'.log = s.log ++ [.proc (.runEnd (thr k)), .ended k] := by
  have hi := inv_run inv_init hr
  have hb : s.begun k = true := by
    cases hb : s.begun k with
    | true => rfl
    | false => have := hi.fresh k hb; rw [hs] at this; cases this
  have hm : mayMove s (.take (thr k)) = true := by
    unfold mayMove
    split <;> simp_all [Proc.Act.tid]
    all_goals exact fun h => hc h.symm
  refine ⟨_, by simp only [step]; rw [if_pos ⟨rfl, hb, by simp [ready, hs], hm⟩]; simp [Proc.step, hu, Proc.body, hs, hp]; rfl, ?_⟩
  simp [moveThread, Proc.endLoop, Proc.upd, moved]

/-! ### Refuted -/

/-- Who waits, without a timeout, for its own end. -/
def WaitsForSelf (s : State) (k : Nat) : Prop := s.call = some (thr k, .waiting false) ∧ s.fut = some k ∧ ready s k = false

theorem self_step {s s' : State} {a : Act} {k : Nat} (h : WaitsForSelf s k) (hs : step s a = some s') : WaitsForSelf s' k := by
  obtain ⟨hc, hf, hn⟩ := h
  have nocall : ∀ t, canCall s t = false := fun t => by simp [canCall, hc]
  have key : ∀ {p : Proc.State} {b : Proc.Act}, Proc.step s.p b = some p → b.tid ≠ thr k → (s.begun k && (p.stk (thr k)).isEmpty) = false := by
    intro p b hp hb
    rw [((Proc.step_other hp).1 (thr k) (Ne.symm hb)).1]; exact hn
  cases a with
  | other t a =>
    simp only [step] at hs; split at hs
    · rename_i hx
      cases hp : Proc.step s.p a with
      | none => rw [hp] at hs; cases hs
      | some p =>
        rw [hp] at hs; cases hs
        refine ⟨hc, hf, key hp ?_⟩
        have := thr_odd k
        intro e; rw [hx.1] at e; rw [← e, hx.2.1] at this; cases this
    · cases hs
  | thread j a =>
    simp only [step] at hs; split at hs
    · rename_i hx
      obtain ⟨-, -, -, hm⟩ := hx
      cases hp : Proc.step s.p a with
      | none => rw [hp] at hs; cases hs
      | some p =>
        rw [hp] at hs; cases hs
        show WaitsForSelf (moveThread s p j) k
        simp only [mayMove, hc, bne_iff_ne, ne_eq] at hm
        unfold moveThread
        split <;> exact ⟨hc, hf, key hp hm⟩
    · cases hs
  | begin j =>
    simp only [step] at hs; split at hs
    · cases hp : Proc.step s.p (.callRun (thr j) .forever) with
      | none => rw [hp] at hs; cases hs
      | some p =>
        rw [hp] at hs; cases hs
        refine ⟨hc, hf, ?_⟩
        show ((if k = j then true else s.begun k) && (p.stk (thr k)).isEmpty) = false
        by_cases e : k = j
        · subst e
          have hb := (Proc.step_body hp).2
          simp only [Proc.body] at hb
          split at hb <;> cases hb
          simp [Proc.emitLog, Proc.setStk, Proc.upd]
        · rw [if_neg e]; exact key hp (fun x => e (thr_inj x).symm)
    · cases hs
  | launch t => simp [step, nocall] at hs
  | stopAndWait t b => simp [step, nocall] at hs
  | wait t b => simp [step, nocall] at hs
  | running t => simp [step, nocall] at hs
  | callStop => simp [step, callStop, hc] at hs
  | stopDone => simp [step, stopDone, hc] at hs
  | get => simp [step, get, hc, hf, hn] at hs
  | timeOut => simp [step, timeOut, hc] at hs

/-- Who waits, without a timeout, for its own end waits forever. -/
theorem self_wait {as : List Act} {s s' : State} {k : Nat} (h : WaitsForSelf s k) (hr : run s as = some s') : WaitsForSelf s' k := by
  induction as generalizing s with
  | nil => cases hr; exact h
  | cons a as ih =>
    simp only [run] at hr
    cases hs : step s a with
    | none => rw [hs] at hr; cases hr
    | some s1 => rw [hs] at hr; exact ih (self_step h hs) hr

/-- A function is executed by the thread of launch 0. -/
def busy : List Act := [.launch 0, .begin 0, .other 2 (.callAsync 2 7), .other 2 (.pushCheck 2), .other 2 (.insert 2), .thread 0 (.take 1), .thread 0 (.invoke 1)]

/-- A function executed by the processor that calls `stopAndWait` never gets out of it: this includes the case that the
processor is destroyed by one of its own functions. -/
theorem stop_in_function : ∃ s, run init (busy ++ [.stopAndWait 1 false, .callStop, .thread 0 (.doClose 1), .thread 0 (.doClear 1), .stopDone]) = some s ∧ s.p.ub = false ∧
    WaitsForSelf s 0 ∧ ∀ as s', run s as = some s' → s'.call = some (1, .waiting false) := by
  refine ⟨_, rfl, rfl, ⟨rfl, rfl, rfl⟩, fun as s' hr => (self_wait (k := 0) ⟨rfl, rfl, rfl⟩ hr).1⟩

/-- The log of a run, for examples. -/
def logOf (as : List Act) : List Ev := ((run init as).map State.log).getD []

def halt (t : Nat) : List Act := [.stopAndWait t false, .callStop, .other t (.doClose t), .other t (.doClear t), .stopDone]

/-- Stopped and launched again (without `reuse`): the new thread ends at once, nothing is executed. -/
theorem launch_again_idle : ∃ l, Log l ∧ l = [.launched 0, .proc (.runStart 1), .stopCalled 0, .proc (.closed 0), .proc (.stopped 0), .proc (.runEnd 1), .ended 0, .joined 0, .returned 0 false,
    .launched 1, .proc (.runStart 3), .proc (.asked 2 (.exec 7)), .proc (.result 2 (.exec 7) false), .proc (.runEnd 3), .ended 1, .running true] :=
  ⟨logOf ([.launch 0, .begin 0] ++ halt 0 ++ [.thread 0 (.take 1), .get, .launch 0, .begin 1, .other 2 (.callAsync 2 7), .thread 1 (.take 3), .running 0]),
    ⟨[.launch 0, .begin 0] ++ halt 0 ++ [.thread 0 (.take 1), .get, .launch 0, .begin 1, .other 2 (.callAsync 2 7), .thread 1 (.take 3), .running 0], _, rfl, rfl⟩, by decide +kernel⟩

/-- The processor was stopped by somebody else, its thread is over, it is reused: `running` is true all the same, and `launch`
does nothing. -/
theorem launch_ignored : ∃ l, Log l ∧ l = [.launched 0, .proc (.runStart 1), .proc (.closed 2), .proc (.stopped 2), .proc (.runEnd 1), .ended 0, .proc (.reopened 2), .running true, .ignored] :=
  ⟨logOf [.launch 0, .begin 0, .other 2 (.callStop 2), .other 2 (.doClose 2), .other 2 (.doClear 2), .thread 0 (.take 1), .other 2 (.reuse 2), .running 0, .launch 0],
    ⟨[.launch 0, .begin 0, .other 2 (.callStop 2), .other 2 (.doClose 2), .other 2 (.doClear 2), .thread 0 (.take 1), .other 2 (.reuse 2), .running 0, .launch 0], _, rfl, rfl⟩, by decide +kernel⟩

/-- A stop before the new thread has got to `run` and `reuse` after it: the thread runs on, the wait does not end: the
thread waits for work, the call waits for the thread. -/
theorem stop_lost : ∃ s, run init ([.launch 0] ++ halt 0 ++ [.other 2 (.reuse 2), .begin 0]) = some s ∧ s.p.ub = false ∧ s.call = some (0, .waiting false) ∧
    s.fut = some 0 ∧ s.p.stk (thr 0) = [.loop .forever true] ∧ s.p.closed = false ∧ step s .get = none := ⟨_, rfl, rfl, rfl, rfl, rfl, rfl, rfl⟩

/-! ### Not vacuous -/

/-- Launched, used, stopped. -/
example : logOf (busy ++ [.thread 0 (.ret 1)] ++ halt 0 ++ [.thread 0 (.take 1), .get, .running 0, .stopAndWait 0 false]) =
    [.launched 0, .proc (.runStart 1), .proc (.asked 2 (.exec 7)), .proc (.accepted 2 (.exec 7)), .proc (.entered 2 (.exec 7)), .proc (.result 2 (.exec 7) true),
     .proc (.began 1 (.exec 7)), .proc (.ran 1 (.exec 7)), .proc (.finished 1 (.exec 7)), .stopCalled 0, .proc (.closed 0), .proc (.stopped 0),
     .proc (.runEnd 1), .ended 0, .joined 0, .returned 0 false, .running false, .returned 0 false] := by decide +kernel

/-- The timeout. -/
example : logOf (busy ++ [.stopAndWait 0 true, .callStop, .other 0 (.doClose 0), .other 0 (.doClear 0), .stopDone, .timeOut]) =
    [.launched 0, .proc (.runStart 1), .proc (.asked 2 (.exec 7)), .proc (.accepted 2 (.exec 7)), .proc (.entered 2 (.exec 7)), .proc (.result 2 (.exec 7) true),
     .proc (.began 1 (.exec 7)), .proc (.ran 1 (.exec 7)), .stopCalled 0, .proc (.closed 0), .proc (.stopped 0), .returned 0 true] := by decide +kernel

/-- The hypotheses of `wait_progress_partial` and `idle_ends`. -/
example : ∃ s, run init ([.launch 0, .begin 0] ++ halt 0) = some s ∧ s.call = some (0, .waiting false) ∧ s.fut = some 0 ∧ s.p.closed = true ∧ s.p.ub = false ∧
    s.p.stk (thr 0) = [.loop .forever true] := ⟨_, rfl, rfl, rfl, rfl, rfl, rfl⟩

end Maf.Async
