import Verif.Lemmas.NetworkProgress
import Verif.Spec.NetworkEnds
/-
Emissions in a network of signals come to an end.
-/
namespace Maf.Net

/-- The emission of a signal that is `d` below the highest, when no signal has more than `K` slots: at most so many steps; -/
def costA (K : Nat) : Nat → Nat
  | 0 => 1 + K * 4
  | d + 1 => 1 + K * (5 + costA K d)

/-- the call of one of its slots. -/
def costB (K : Nat) : Nat → Nat
  | 0 => 4
  | d + 1 => 5 + costA K d

theorem costA_eq (K d : Nat) : costA K d = 1 + K * costB K d := by cases d <;> rfl

theorem costA_mono (K : Nat) {d d' : Nat} (h : d ≤ d') : costA K d ≤ costA K d' := by
  induction d' generalizing d with
  | zero => cases Nat.le_zero.1 h; exact Nat.le_refl _
  | succ d' ih =>
    cases d with
    | zero => simp only [costA]; have := Nat.mul_le_mul_left K (show 4 ≤ 5 + costA K d' by omega); omega
    | succ d =>
      simp only [costA]
      have := Nat.mul_le_mul_left K (Nat.add_le_add_left (ih (Nat.le_of_succ_le_succ h)) 5)
      omega

theorem costB_pos (K d : Nat) : 4 ≤ costB K d := by cases d <;> simp [costB]; omega

theorem costB_lt (K : Nat) {d d' : Nat} (h : d < d') : costA K d + 5 ≤ costB K d' := by
  cases d' with
  | zero => omega
  | succ d' => simp only [costB]; have := costA_mono K (Nat.le_of_lt_succ h); omega

/-- Slots that the emission has not called yet. -/
def left (x : Sig.State Nat) : Nat :=
  match x.emission with
  | none => 0
  | some ⟨_, i, none⟩ => x.slots.length - i
  | some ⟨_, i, some _⟩ => x.slots.length - (i + 1)

section
variable (N K : Nat) (rank : SigId → Nat)

def cost (sigs : SigId → Sig.State Nat) : Frame → Nat
  | .wants g _ => costA K (N - rank g) + 1
  | .notifying g _ => 1 + left (sigs g) * costB K (N - rank g)
  | _ => 1

def costs (sigs : SigId → Sig.State Nat) (st : List Frame) : Nat := (st.map (cost N K rank sigs)).sum

structure Calm (s : State) : Prop where
  emits : ∀ t g w, .wants g w ∈ s.stk t → ∃ a, w = .emit a
  small : ∀ g, (s.sigs g).slots.length ≤ K
  tails : ∀ t, ∀ f ∈ (s.stk t).tail, f.isUser = false
  ranks : ∀ g sl h, sl < (s.sigs g).nextSlot → s.kinds g sl = .forward h → rank g < rank h

/-- A step of the library on thread `t`. -/
structure Down (s s' : State) (t : Tid) : Prop where
  others : ∀ u, u ≠ t → s'.stk u = s.stk u
  same : ∀ u, u ≠ t → costs N K rank s'.sigs (s.stk u) = costs N K rank s.sigs (s.stk u)
  down : costs N K rank s'.sigs (s'.stk t) < costs N K rank s.sigs (s.stk t)
  kinds : s'.kinds = s.kinds
  next : ∀ g, (s'.sigs g).nextSlot = (s.sigs g).nextSlot
  slots : ∀ g, (s'.sigs g).slots.length ≤ (s.sigs g).slots.length
  emits : ∀ g w, Frame.wants g w ∈ s'.stk t → Frame.wants g w ∈ s.stk t ∨ ∃ a, w = .emit a
  tails : ∀ f ∈ (s'.stk t).tail, f.isUser = true → f ∈ (s.stk t).tail

variable {N K rank}

theorem Down.calm {s s' : State} {t : Tid} (h : Down N K rank s s' t) (hc : Calm K rank s) : Calm K rank s' := by
  refine ⟨?_, fun g => Nat.le_trans (h.slots g) (hc.small g), ?_, ?_⟩
  · intro u g w hw
    by_cases e : u = t
    · subst e
      rcases h.emits g w hw with h1 | h1
      · exact hc.emits u g w h1
      · exact h1
    · rw [h.others u e] at hw; exact hc.emits u g w hw
  · intro u f hf
    by_cases e : u = t
    · subst e
      cases hu : f.isUser with
      | false => rfl
      | true => rw [← hu]; exact hc.tails u f (h.tails f hf hu)
    · rw [h.others u e] at hf; exact hc.tails u f hf
  · intro g sl k hsl hk
    rw [h.next] at hsl
    rw [h.kinds] at hk
    exact hc.ranks g sl k hsl hk

theorem costs_cons (sigs : SigId → Sig.State Nat) (f : Frame) (st : List Frame) : costs N K rank sigs (f :: st) = cost N K rank sigs f + costs N K rank sigs st := rfl

/-- Only the emissions of a signal depend on its state. -/
theorem costs_other {sigs : SigId → Sig.State Nat} {g : SigId} {x : Sig.State Nat} {st : List Frame} (hn : ∀ b, Frame.notifying g b ∉ st) : costs N K rank (upd sigs g x) st = costs N K rank sigs st := by
  induction st with
  | nil => rfl
  | cons f r ih =>
    rw [costs_cons, costs_cons, ih (fun b hb => hn b (List.mem_cons_of_mem _ hb))]
    cases f with
    | notifying g' b =>
      have : g' ≠ g := by rintro rfl; exact hn b (by simp)
      simp only [cost]; rw [upd_other _ _ this]
    | _ => rfl

/-- A step of the library moves one signal only. -/
theorem down_of {s s' : State} {t : Tid} {g : SigId} {x : Sig.State Nat} {st : List Frame} (hst : s'.stk = upd s.stk t st) (hsg : s'.sigs = upd s.sigs g x) (hk : s'.kinds = s.kinds)
    (hno : ∀ u, u ≠ t → ∀ b, Frame.notifying g b ∉ s.stk u) (hx : x.nextSlot = (s.sigs g).nextSlot) (hl : x.slots.length ≤ (s.sigs g).slots.length)
    (hd : costs N K rank (upd s.sigs g x) st < costs N K rank s.sigs (s.stk t)) (he : ∀ g w, Frame.wants g w ∈ st → Frame.wants g w ∈ s.stk t ∨ ∃ a, w = .emit a)
    (ht : ∀ f ∈ st.tail, f.isUser = true → f ∈ (s.stk t).tail) : Down N K rank s s' t := by
  refine ⟨fun u e => by rw [hst]; exact upd_other _ _ e, fun u e => by rw [hsg]; exact costs_other (hno u e), by rw [hst, hsg, upd_same]; exact hd, hk, fun g' => ?_, fun g' => ?_, by rw [hst, upd_same]; exact he,
    by rw [hst, upd_same]; exact ht⟩
  · rw [hsg]
    by_cases e : g' = g
    · subst e; rw [upd_same]; exact hx
    · rw [upd_other _ _ e]
  · rw [hsg]
    by_cases e : g' = g
    · subst e; rw [upd_same]; exact hl
    · rw [upd_other _ _ e]; exact Nat.le_refl _

theorem upd_self {β : Type} (f : Nat → β) (i : Nat) : upd f i (f i) = f := by funext j; unfold upd; split <;> simp_all
theorem upd_upd {β : Type} (f : Nat → β) (i : Nat) (v w : β) : upd (upd f i v) i w = upd f i w := by funext j; unfold upd; split <;> rfl

/-- What an iteration does, in detail. -/
theorem sig_iter {x x' : Sig.State Nat} (h : Sig.step x .iter = some x') : ∃ a i, x.emission = some ⟨a, i, none⟩ ∧ x'.nextSlot = x.nextSlot ∧
    ((x'.emission = none ∧ x'.slots = x.slots) ∨ (x'.emission = some ⟨a, i, none⟩ ∧ x'.slots = x.slots.eraseIdx i ∧ i < x.slots.length) ∨
      ∃ e, x'.emission = some ⟨a, i, some e⟩ ∧ x'.slots = x.slots ∧ i < x.slots.length) := by
  unfold Sig.step at h
  split at h
  · cases h
  simp only [Sig.body] at h
  split at h
  · next a i he =>
    refine ⟨a, i, he, ?_⟩
    split at h
    · cases h; exact ⟨rfl, .inl ⟨rfl, rfl⟩⟩
    · next hg => cases h; exact ⟨rfl, .inr (.inl ⟨he, rfl, (List.getElem?_eq_some_iff.1 hg).1⟩)⟩
    · next hg => cases h; exact ⟨rfl, .inr (.inr ⟨_, rfl, rfl, (List.getElem?_eq_some_iff.1 hg).1⟩)⟩
  · cases h

theorem awareReturn_slots (x : Sig.State Nat) (sl : SlotId) : (Sig.awareReturn x sl).slots = x.slots ∧ (Sig.awareReturn x sl).nextSlot = x.nextSlot := by
  unfold Sig.awareReturn
  split
  · exact ⟨rfl, rfl⟩
  · split
    · split <;> exact ⟨rfl, rfl⟩
    · exact ⟨rfl, rfl⟩

theorem sig_ret_left {x x' : Sig.State Nat} (h : Sig.step x .ret = some x') : left x' = left x ∧ x'.slots = x.slots ∧ x'.nextSlot = x.nextSlot := by
  unfold Sig.step at h
  split at h
  · cases h
  simp only [Sig.body] at h
  split at h
  · next a i tk sl he =>
    cases h
    obtain ⟨h1, h2⟩ := awareReturn_slots x sl
    refine ⟨?_, h1, h2⟩
    unfold left
    simp only [he, h1]
  · cases h

theorem sig_emit_left {x x' : Sig.State Nat} {a : Nat} (h : Sig.step x (.emit a) = some x') (hn : x.slots ≠ []) (hu : x'.ub = false) : left x' = x.slots.length ∧ x'.slots = x.slots ∧ x'.nextSlot = x.nextSlot := by
  unfold Sig.step at h
  split at h
  · cases h
  simp only [Sig.body] at h
  split at h
  · split at h
    · cases h; cases hu
    · cases h; exact ⟨rfl, rfl, rfl⟩
  · cases h

theorem lib_down {s s' : State} {t : Tid} {a : Act} (h : Good s) (hc : Calm K rank s) (hN : ∀ g, rank g ≤ N) (ha : a = .enter t ∨ a = .iter t ∨ a = .ret t) (hs : step s a = some s') (hu' : s'.ub = false) :
    Down N K rank s s' t := by
  unfold step at hs
  rw [if_neg (by simp [h.ub])] at hs
  rcases ha with rfl | rfl | rfl
  · simp only [body] at hs
    split at hs
    · next g w rest hr =>
      split at hs
      · obtain ⟨a, rfl⟩ := hc.emits t g w (by rw [hr]; simp)
        simp only [entered] at hs
        split at hs
        · cases hs
          refine ⟨fun u e => upd_other _ _ e, fun u e => rfl, ?_, rfl, fun g => rfl, fun g => Nat.le_refl _, ?_, ?_⟩
          · simp only [upd_same]; rw [hr, costs_cons]; simp only [cost]; omega
          · simp only [upd_same]; intro g' w' hw; exact .inl (by rw [hr]; exact List.mem_cons_of_mem _ hw)
          · simp only [upd_same]; intro f hf _; rw [hr]; exact List.mem_of_mem_tail hf
        · next hcn =>
          obtain ⟨x, es, a1, a2, a3, rfl⟩ := sigStep_spec hs
          simp only [Bool.or_eq_false_iff] at hu'
          simp only at a1
          obtain ⟨b1, b2, b3⟩ := sig_emit_left a1 (fun e => hcn (.inr e)) hu'.2
          obtain ⟨e1, e2⟩ := sig_emit_new a1 (fun e => hcn (.inr e)) hu'.2
          have hfree := (h.locks.em g).1 e1
          have hn : ∀ u, ∀ b, Frame.notifying g b ∉ s.stk u := fun u => locks_none h.locks (by rw [hfree]; simp)
          refine down_of (g := g) rfl rfl rfl (fun u _ => hn u) b3 (by rw [b2]; exact Nat.le_refl _) ?_ ?_ ?_
          · rw [hr, costs_cons, costs_cons, costs_other (fun b hb => hn t b (by rw [hr]; exact List.mem_cons_of_mem _ hb))]
            simp only [cost, upd_same]
            rw [b1, costA_eq]
            have := Nat.mul_le_mul_right (costB K (N - rank g)) (hc.small g)
            omega
          · intro g' w' hw
            rcases List.mem_cons.1 hw with e | hw
            · cases e
            · exact .inl (by rw [hr]; exact List.mem_cons_of_mem _ hw)
          · intro f hf _; rw [hr]; exact hf
      · cases hs
    · cases hs
  · simp only [body] at hs
    split at hs
    · next g b rest hr =>
      obtain ⟨hown, hn⟩ := locks_rest h.locks (pre := []) hr
      have hno : ∀ u, u ≠ t → ∀ b, Frame.notifying g b ∉ s.stk u := fun u e => locks_none h.locks (by rw [hown]; intro e'; cases e'; exact e rfl)
      cases h0 : sigStep s t g .iter with
      | none => rw [h0] at hs; cases hs
      | some s1 =>
        rw [h0] at hs
        obtain ⟨x, es, a1, a2, -, rfl⟩ := sigStep_spec h0
        simp only [upd_same] at hs
        obtain ⟨a, i, hem, hnx, hcase⟩ := sig_iter a1
        have hold : costs N K rank s.sigs (s.stk t) = 1 + ((s.sigs g).slots.length - i) * costB K (N - rank g) + costs N K rank s.sigs rest := by
          rw [hr, costs_cons]; simp only [cost, left, hem]
        have restEq : ∀ y, costs N K rank (upd s.sigs g y) rest = costs N K rank s.sigs rest := fun y => costs_other hn
        have hBpos := costB_pos K (N - rank g)
        rcases hcase with ⟨he, hsl⟩ | ⟨he, hsl, hi⟩ | ⟨e, he, hsl, hi⟩
        · rw [he] at hs
          cases hs
          refine down_of (g := g) rfl rfl rfl hno hnx (by rw [hsl]; exact Nat.le_refl _) ?_ ?_ ?_
          · rw [hold, restEq]; omega
          · intro g' w' hw; exact .inl (by rw [hr]; exact List.mem_cons_of_mem _ hw)
          · intro f hf _; rw [hr]; exact List.mem_of_mem_tail hf
        · rw [he] at hs
          cases hs
          have hlen : x.slots.length = (s.sigs g).slots.length - 1 := by rw [hsl, List.length_eraseIdx_of_lt hi]
          refine down_of (g := g) (st := .notifying g b :: rest) (by simp only; rw [← hr, upd_self]) rfl rfl hno hnx (by omega) ?_ ?_ ?_
          · rw [hold, costs_cons, restEq]
            simp only [cost, upd_same, left, he, hlen]
            have := Nat.mul_lt_mul_of_pos_right (show (s.sigs g).slots.length - 1 - i < (s.sigs g).slots.length - i by omega) (show 0 < costB K (N - rank g) by omega)
            omega
          · intro g' w' hw; exact .inl (by rw [hr]; exact hw)
          · intro f hf _; rw [hr]; exact hf
        · -- a slot is called
          rcases Sig.iter_cases a1 with ⟨he', _⟩ | ⟨_, _, he', _⟩ | ⟨a', i', tk, sl, he', hl, hmem, hsl'⟩
          · rw [he'] at he; cases he
          · rw [he'] at he; cases he
          rw [he'] at he; cases he
          rw [he'] at hs
          simp only at hs
          have hnext : sl < (s.sigs g).nextSlot := by
            have hI := h.inv.core.sound.inv g
            rw [hsl] at hmem
            refine hI.fresh (tk, sl) ?_
            unfold Sig.liveOf
            simp only [List.mem_filterMap]
            exact ⟨_, hmem, rfl⟩
          have hlen : x.slots.length = (s.sigs g).slots.length := by rw [hsl]
          have hstep : ((s.sigs g).slots.length - (i + 1)) * costB K (N - rank g) + costB K (N - rank g) = ((s.sigs g).slots.length - i) * costB K (N - rank g) := by
            have : (s.sigs g).slots.length - i = ((s.sigs g).slots.length - (i + 1)) + 1 := by omega
            rw [this, Nat.succ_mul]
          have push : ∀ {s2 : State} {f : Frame}, f.isUser = true → s2.stk = upd s.stk t (f :: .notifying g b :: rest) → s2.sigs = upd s.sigs g x → s2.kinds = s.kinds → Down N K rank s s2 t := by
            intro s2 f hf e1 e2 e3
            refine down_of e1 e2 e3 hno hnx (by omega) ?_ ?_ ?_
            · rw [hold, costs_cons, costs_cons, restEq]
              have hcf : cost N K rank (upd s.sigs g x) f = 1 := by cases f <;> first | rfl | cases hf
              rw [hcf]
              simp only [cost, upd_same, left, he', hlen]
              omega
            · intro g' w' hw
              rcases List.mem_cons.1 hw with e | hw
              · subst e; cases hf
              · exact .inl (by rw [hr]; exact hw)
            · intro f' hf' hu
              rw [hr]
              rcases List.mem_cons.1 hf' with e | hf'
              · subst e; cases hu
              · exact hf'
          have post : ∀ {s1 : State}, s1.stk = s.stk → s1.sigs = upd s.sigs g x → s1.kinds = s.kinds → sigStep s1 t g .ret = some s' → Down N K rank s s' t := by
            intro s1 e1 e2 e3 h1
            obtain ⟨y, es', c1, c2, c3, rfl⟩ := sigStep_spec h1
            rw [e2, upd_same] at c1
            obtain ⟨d1, d2, d3⟩ := sig_ret_left c1
            refine down_of (g := g) (st := .notifying g b :: rest) (by simp only; rw [← hr, upd_self, e1]) (by simp only; rw [e2, upd_upd]) e3 hno (by rw [d3, hnx]) (by rw [d2]; omega) ?_ ?_ ?_
            · rw [hold, costs_cons, restEq]
              simp only [cost, upd_same]
              rw [d1]
              simp only [left, he', hlen]
              omega
            · intro g' w' hw; exact .inl (by rw [hr]; exact hw)
            · intro f hf _; rw [hr]; exact hf
          have hab : ∀ s2, abandon { s with sigs := upd s.sigs g x, ub := s.ub || x.ub, log := s.log ++ es.map (.sig t g) } t g sl = some s2 → s2.ub = true := by
            intro s2 h2
            have hS1 := h.inv.core.sound.moved (t := t) a1 a2 rfl
            have hA1 : Aware (upd s.sigs g x) := (h.inv.aware h.ub).moved a1 (.inl trivial)
            exact (abandon_spec (a := a) (i := i) (tk := tk) (hS1.inv g) (hA1 g) (hS1.shut g) (by simpa only [upd_same] using he') (by simpa only [upd_same] using hmem) h2).1
          unfold start at hs
          simp only at hs
          split at hs
          · cases hs; exact push (f := .user g sl a none) rfl rfl rfl rfl
          · refine post ?_ ?_ ?_ hs <;> rfl
          · split at hs
            · cases hs; exact push (f := .user g sl a (some _)) rfl rfl rfl rfl
            · rw [hab _ hs] at hu'; cases hu'
          · split at hs
            · refine post ?_ ?_ ?_ hs <;> rfl
            · rw [hab _ hs] at hu'; cases hu'
          · next k hk =>
            split at hs
            · cases hs
              have hlt := hc.ranks g sl k hnext hk
              have hNk := hN k
              have hB := costB_lt K (show N - rank k < N - rank g by omega)
              refine down_of (g := g) rfl rfl rfl hno hnx (by omega) ?_ ?_ ?_
              · rw [hold, costs_cons, costs_cons, costs_cons, restEq]
                simp only [cost, upd_same, left, he', hlen]
                omega
              · intro g' w' hw
                rcases List.mem_cons.1 hw with e | hw
                · cases e; exact .inr ⟨_, rfl⟩
                · rcases List.mem_cons.1 hw with e | hw
                  · cases e
                  · exact .inl (by rw [hr]; exact hw)
              · intro f' hf' hu
                rw [hr]
                rcases List.mem_cons.1 hf' with e | hf'
                · subst e; cases hu
                · rcases List.mem_cons.1 hf' with e | hf'
                  · subst e; cases hu
                  · exact hf'
            · rw [hab _ hs] at hu'; cases hu'
    · cases hs
  · have slotRet : ∀ {f : Frame} {g : SigId} {sl : SlotId} {rest : List Frame} {s1 : State}, s.stk t = f :: rest → inSlot g sl f → s1.sigs = s.sigs → s1.kinds = s.kinds → s1.stk = upd s.stk t rest →
        sigStep s1 t g .ret = some s' → Down N K rank s s' t := by
      intro f g sl rest s1 hr hi e1 e3 e2 h1
      have ht : Agree s.sigs (f :: rest) := hr ▸ h.agree t
      obtain ⟨b, r, rfl⟩ : ∃ b r, rest = .notifying g b :: r := by
        have := ht.linked.1
        cases f with
        | user g' sl' a o => obtain ⟨rfl, rfl⟩ := hi; exact this
        | fwd g' sl' h' a => obtain ⟨rfl, rfl⟩ := hi; exact this
        | _ => exact hi.elim
      have hcf : cost N K rank s.sigs f = 1 := by cases f <;> first | rfl | exact hi.elim
      obtain ⟨hown, hn⟩ := locks_rest h.locks (pre := [f]) hr
      obtain ⟨x, es, a1, a2, a3, rfl⟩ := sigStep_spec h1
      rw [e1] at a1
      obtain ⟨d1, d2, d3⟩ := sig_ret_left a1
      refine down_of (g := g) (x := x) (st := .notifying g b :: r) e2 (by simp only; rw [e1]) e3 (fun u e => locks_none h.locks (by rw [hown]; intro e'; cases e'; exact e rfl)) d3 (by rw [d2]; exact Nat.le_refl _) ?_ ?_ ?_
      · rw [hr, costs_cons, costs_cons, costs_cons, costs_other hn, hcf]
        simp only [cost, upd_same, d1]
        omega
      · intro g' w' hw; exact .inl (by rw [hr]; exact List.mem_cons_of_mem _ hw)
      · intro f' hf' _; rw [hr]; exact List.mem_of_mem_tail hf'
    simp only [body] at hs
    split at hs
    · next g sl a o rest hr =>
      refine slotRet (sl := sl) hr ⟨rfl, rfl⟩ ?_ ?_ ?_ hs
      · exact (unlock_same _ _ _ _ _).2.1
      · cases o <;> rfl
      · exact (unlock_same _ _ _ _ _).1
    · next g sl h' a rest hr =>
      exact slotRet (sl := sl) (s1 := { s with stk := upd s.stk t rest, log := s.log ++ [.forwarded t g sl h' a] }) hr ⟨rfl, rfl⟩ rfl rfl rfl hs
    · next g sl a rest hr =>
      cases hs
      refine ⟨fun u e => upd_other _ _ e, fun u e => rfl, ?_, rfl, fun g => rfl, fun g => Nat.le_refl _, ?_, ?_⟩
      · simp only [upd_same]; rw [hr, costs_cons]; simp only [cost]; omega
      · simp only [upd_same]; intro g' w' hw; exact .inl (by rw [hr]; exact List.mem_cons_of_mem _ hw)
      · simp only [upd_same]; intro f hf _; rw [hr]; exact List.mem_of_mem_tail hf
    · cases hs

theorem sum_lt {T : List Tid} {c c' : Tid → Nat} {t : Tid} (ht : t ∈ T) (hl : c' t < c t) (he : ∀ u, u ≠ t → c' u = c u) : (T.map c').sum < (T.map c).sum := by
  have le : ∀ T : List Tid, (T.map c').sum ≤ (T.map c).sum := by
    intro T
    induction T with
    | nil => exact Nat.le_refl _
    | cons u T ih =>
      simp only [List.map_cons, List.sum_cons]
      by_cases e : u = t
      · subst e; omega
      · rw [he u e]; omega
  induction T with
  | nil => cases ht
  | cons u T ih =>
    simp only [List.map_cons, List.sum_cons]
    by_cases e : u = t
    · subst e; have := le T; omega
    · have hm : t ∈ T := by
        rcases List.mem_cons.1 ht with h | h
        · exact absurd h.symm e
        · exact h
      have := ih hm
      rw [he u e]; omega

/-- The steps that are left, at most. -/
def total (N K : Nat) (rank : SigId → Nat) (T : List Tid) (s : State) : Nat := (T.map fun t => costs N K rank s.sigs (s.stk t)).sum

theorem Good.next {s s' : State} {a : Act} (h : Good s) (hs : step s a = some s') (hu : s'.ub = false) : Good s' :=
  ⟨hu, inv_step h.inv hs, locks_step h.locks hs hu, agree_step h.inv h.locks h.agree hs hu, known_step hs h.known⟩

theorem lib_run {T : List Tid} {as : List Act} {s s' : State} (h : Good s) (hc : Calm K rank s) (hN : ∀ g, rank g ≤ N) (hT : ∀ t, t ∉ T → s.stk t = []) (ha : ∀ a ∈ as, GoesOn T a) (hr : run s as = some s')
    (hu : s'.ub = false) : as.length + total N K rank T s' ≤ total N K rank T s ∧ Good s' ∧ Calm K rank s' ∧ ∀ t, t ∉ T → s'.stk t = [] := by
  induction as generalizing s with
  | nil => cases hr; exact ⟨by simp, h, hc, hT⟩
  | cons a as ih =>
    simp only [run] at hr
    cases hs : step s a with
    | none => rw [hs] at hr; cases hr
    | some s1 =>
      rw [hs] at hr
      have hu1 : s1.ub = false := by
        cases as with
        | nil => cases hr; exact hu
        | cons b as =>
          change run s1 (b :: as) = some s' at hr
          simp only [run] at hr
          cases hb : step s1 b with
          | none => rw [hb] at hr; cases hr
          | some s2 => exact step_ub hb
      obtain ⟨t, ht, ha1⟩ := ha a (by simp)
      have hd := lib_down h hc hN ha1 hs hu1
      have hT1 : ∀ t, t ∉ T → s1.stk t = [] := by
        intro u hu2
        rw [hd.others u (by rintro rfl; exact hu2 ht)]; exact hT u hu2
      obtain ⟨i1, i2⟩ := ih (h.next hs hu1) (hd.calm hc) hT1 (fun b hb => ha b (by simp [hb])) hr
      refine ⟨?_, i2⟩
      have : total N K rank T s1 < total N K rank T s := sum_lt ht hd.down (fun u e => by rw [hd.others u e]; exact hd.same u e)
      simp only [List.length_cons]; omega

end

theorem sig_length {x x' : Sig.State Nat} {a : Sig.Act Nat} (h : Sig.step x a = some x') : x'.slots.length ≤ x.slots.length + 1 := by
  have disc : ∀ (x : Sig.State Nat) n, (Sig.disconnect x n).1.slots.length ≤ x.slots.length := by
    intro x n
    unfold Sig.disconnect
    split
    · next sl _ =>
      split
      · have hr : (Sig.remove x sl).1.slots.length ≤ x.slots.length := by
          unfold Sig.remove
          split
          · exact Nat.le_refl _
          · split
            · exact Nat.le_refl _
            · split
              · simp only; rw [List.length_eraseIdx]; split <;> omega
              · simp
        split
        · next h => rw [h] at hr; exact hr
        · next h => rw [h] at hr; exact hr
      · exact Nat.le_refl _
    · exact Nat.le_refl _
  have reco : ∀ (x : Sig.State Nat) n, (Sig.reconnect x n).1.slots.length ≤ x.slots.length + 1 := by
    intro x n
    unfold Sig.reconnect
    split
    · next sl _ =>
      split
      · have hr : (Sig.addUnique x sl).1.slots.length ≤ x.slots.length + 1 := by
          unfold Sig.addUnique Sig.add
          split <;> simp
        split
        · next h => rw [h] at hr; exact hr
        · next h => rw [h] at hr; exact hr
      · exact Nat.le_succ _
    · exact Nat.le_succ _
  unfold Sig.step at h
  split at h
  · cases h
  cases a with
  | connect | connectAware =>
    simp only [Sig.body] at h
    split at h
    · cases h; simp [Sig.add]
    · cases h
  | keep =>
    simp only [Sig.body] at h
    split at h
    · cases h; exact Nat.le_succ _
    · cases h
  | disconnect n =>
    simp only [Sig.body] at h
    split at h
    · cases h; exact Nat.le_succ_of_le (disc x n)
    · cases h
  | reconnect n =>
    simp only [Sig.body] at h
    split at h
    · cases h; exact reco x n
    · cases h
  | drop n =>
    simp only [Sig.body] at h
    split at h
    · cases h; rw [(Sig.drop_same x n).1]; exact Nat.le_succ _
    · cases h
  | scopeEnd n =>
    simp only [Sig.body] at h
    split at h
    · cases h
      rw [(Sig.drop_same _ n).1]
      split
      · exact Nat.le_succ_of_le (disc x n)
      · exact Nat.le_succ _
    · cases h
  | clear =>
    simp only [Sig.body] at h
    split at h
    · split at h <;> cases h
      · exact Nat.le_succ _
      · simp
    · cases h
  | emit b =>
    simp only [Sig.body] at h
    split at h
    · split at h
      · cases h; exact Nat.le_succ _
      · split at h <;> cases h <;> exact Nat.le_succ _
    · cases h
  | iter =>
    simp only [Sig.body] at h
    split at h
    · split at h
      · cases h; exact Nat.le_succ _
      · cases h; simp only; rw [List.length_eraseIdx]; split <;> omega
      · cases h; exact Nat.le_succ _
    · cases h
  | ret =>
    simp only [Sig.body] at h
    split at h
    · cases h; simp only; rw [(awareReturn_slots _ _).1]; exact Nat.le_succ _
    · cases h
  | destroy =>
    simp only [Sig.body] at h
    split at h
    · split at h <;> cases h
      · exact Nat.le_succ _
      · simp
    · cases h

theorem bound_run {as : List Act} {s s' : State} (hr : run s as = some s') (h : ∃ K, ∀ g, (s.sigs g).slots.length ≤ K) : ∃ K, ∀ g, (s'.sigs g).slots.length ≤ K := by
  have grow : ∀ (sigs : SigId → Sig.State Nat) g b x, (∃ K, ∀ g, (sigs g).slots.length ≤ K) → Sig.step (sigs g) b = some x → ∃ K, ∀ g', (upd sigs g x g').slots.length ≤ K := by
    rintro sigs g b x ⟨K, hK⟩ hb
    refine ⟨K + 1, fun g' => ?_⟩
    by_cases e : g' = g
    · subst e; rw [upd_same]; exact Nat.le_trans (sig_length hb) (Nat.succ_le_succ (hK g'))
    · rw [upd_other _ _ e]; exact Nat.le_succ_of_le (hK g')
  induction as generalizing s with
  | nil => cases hr; exact h
  | cons a as ih =>
    simp only [run] at hr
    cases hs : step s a with
    | none => rw [hs] at hr; cases hr
    | some s1 =>
      rw [hs] at hr
      refine ih hr ?_
      exact sigs_step (fun sigs _ _ => ∃ K, ∀ g, (sigs g).slots.length ≤ K) (fun sigs _ _ g b x h hb _ _ => grow sigs g b x h hb) (fun sigs _ _ g k x h hb => grow sigs g _ x h hb) hs h

end Maf.Net
