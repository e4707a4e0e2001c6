import Verif.Lemmas.ProcessorMap
import Verif.Props.Signal
namespace Maf.Proc
open Sig (WithinEmission)

/-! ### What a step of a signal can do -/

def emArg {A : Type} (g : Sig.State A) : Option A := g.emission.map (·.arg)

/-- Neither an emission's start or end, nor a call. -/
def Quiet {A : Type} (es : List (Sig.Ev A)) : Prop :=
  ∀ e ∈ es, (∀ a, e ≠ .emitted a) ∧ e ≠ .emissionDone ∧ ∀ k sl a, e ≠ .called k sl a

theorem Quiet.within {A : Type} {es : List (Sig.Ev A)} (h : Quiet es) : WithinEmission es :=
  fun e he => ⟨(h e he).1, (h e he).2.1⟩

theorem quiet_nil {A : Type} : Quiet ([] : List (Sig.Ev A)) := by simp [Quiet]

def Same {A : Type} (s s' : Sig.State A) : Prop :=
  ∃ es, s'.log = s.log ++ es ∧ Quiet es ∧ s'.emission = s.emission

theorem Same.of {A : Type} {s s' : Sig.State A} (hl : s'.log = s.log) (he : s'.emission = s.emission) : Same s s' :=
  ⟨[], by simp [hl], quiet_nil, he⟩

theorem same_add {A : Type} (s : Sig.State A) (sl : Nat) : Same s (Sig.add s sl) :=
  ⟨[.added s.next sl], rfl, by simp [Quiet], rfl⟩

theorem same_remove {A : Type} (s : Sig.State A) (sl : Nat) : Same s (Sig.remove s sl).1 := by
  simp only [Sig.remove]
  repeat' split
  · exact Same.of rfl rfl
  · exact Same.of rfl rfl
  · exact ⟨_, rfl, by simp [Quiet], rfl⟩
  · exact ⟨_, rfl, by simp [Quiet], rfl⟩

theorem Same.congr {A : Type} {s s1 s2 : Sig.State A} (h : Same s s1) (hl : s2.log = s1.log) (he : s2.emission = s1.emission) :
    Same s s2 := by
  obtain ⟨es, h1, h2, h3⟩ := h
  exact ⟨es, by rw [hl, h1], h2, by rw [he, h3]⟩

theorem same_disconnect {A : Type} (s : Sig.State A) (n : Nat) : Same s (Sig.disconnect s n).1 := by
  simp only [Sig.disconnect]
  repeat' split
  · next sl _ _ _ s1 hr => have := same_remove s sl; rw [hr] at this; exact this.congr rfl rfl
  · next sl _ _ _ s1 hr => have := same_remove s sl; rw [hr] at this; exact this
  · exact Same.of rfl rfl
  · exact Same.of rfl rfl

theorem drop_fields {A : Type} (s : Sig.State A) (n : Nat) :
    (Sig.dropHandle s n).log = s.log ∧ (Sig.dropHandle s n).emission = s.emission := by
  simp only [Sig.dropHandle]; split <;> exact ⟨rfl, rfl⟩

/-- Everything but `emit`, `iter` and `ret` keeps the emission in progress. -/
theorem sig_other {A : Type} {s s' : Sig.State A} {a : Sig.Act A} (h : Sig.step s a = some s')
    (ha : (∀ m, a ≠ .emit m) ∧ a ≠ .iter ∧ a ≠ .ret) : Same s s' := by
  simp only [Sig.step] at h
  split at h
  · cases h
  cases a <;> simp only [Sig.body] at h
  · split at h <;> cases h; exact (same_add s _).congr rfl rfl
  · split at h <;> cases h; exact (same_add s _).congr rfl rfl
  · split at h <;> cases h; exact Same.of rfl rfl
  · split at h <;> cases h; exact same_disconnect _ _
  · split at h <;> cases h
    simp only [Sig.reconnect]
    split
    · split
      · split
        · next hu => simp only [Sig.addUnique] at hu; split at hu <;> cases hu; exact (same_add s _).congr rfl rfl
        · next hu => simp only [Sig.addUnique] at hu; split at hu <;> cases hu; exact Same.of rfl rfl
      · exact Same.of rfl rfl
    · exact Same.of rfl rfl
  · split at h <;> cases h; exact Same.of (drop_fields _ _).1 (drop_fields _ _).2
  · split at h <;> cases h
    have hq : ∀ (s1 : Sig.State A) n, Same s s1 → Same s (Sig.dropHandle s1 n) := fun s1 n h =>
      h.congr (drop_fields s1 n).1 (drop_fields s1 n).2
    apply hq
    split
    · exact same_disconnect _ _
    · exact Same.of rfl rfl
  · split at h
    · split at h <;> cases h
      · exact Same.of rfl rfl
      · refine ⟨_, rfl, ?_, rfl⟩
        intro e he
        simp only [List.mem_filterMap] at he
        obtain ⟨x, -, hx⟩ := he
        cases hs : x.slot <;> simp [hs] at hx
        subst hx; simp
    · cases h
  · exact absurd rfl (ha.1 _)
  · exact absurd rfl ha.2.1
  · exact absurd rfl ha.2.2
  · repeat' split at h
    all_goals cases h
    · exact Same.of rfl rfl
    · refine ⟨_, rfl, ?_, rfl⟩
      intro e he
      simp only [List.mem_filterMap] at he
      obtain ⟨x, -, hx⟩ := he
      cases hs : x.slot <;> simp [hs] at hx
      subst hx; simp

theorem sig_ret {A : Type} {s s' : Sig.State A} (h : Sig.step s .ret = some s') :
    (∃ es, s'.log = s.log ++ es ∧ Quiet es) ∧ emArg s' = emArg s ∧ s'.emission.isSome := by
  simp only [Sig.step, Sig.body] at h
  split at h
  · cases h
  · split at h
    · next he => cases h; exact ⟨⟨_, rfl, by simp [Quiet]⟩, by simp [emArg, he], rfl⟩
    · cases h

theorem sig_emit {A : Type} {s s' : Sig.State A} {m : A} (h : Sig.step s (.emit m) = some s') (hne : s.slots ≠ []) :
    (s.emission.isSome ∧ s'.ub = true ∧ s'.log = s.log) ∨
    (s.emission = none ∧ s'.log = s.log ++ [.emitted m] ∧ emArg s' = some m) := by
  simp only [Sig.step, Sig.body, hne, if_false] at h
  split at h
  · cases h
  · split at h
    · split at h
      · next he => cases h; exact Or.inl ⟨he, rfl, rfl⟩
      · next he => cases h; exact Or.inr ⟨by simpa using he, rfl, rfl⟩
    · cases h

theorem sig_iter {A : Type} {s s' : Sig.State A} (h : Sig.step s .iter = some s') :
    ∃ m, emArg s = some m ∧
    ((s'.emission = none ∧ s'.log = s.log ++ [.emissionDone]) ∨
     (emArg s' = some m ∧ ∃ es, s'.log = s.log ++ es ∧ WithinEmission es ∧ ∀ k sl b, Sig.Ev.called k sl b ∈ es → b = m)) := by
  simp only [Sig.step, Sig.body] at h
  split at h
  · cases h
  · split at h
    · next a i he =>
      refine ⟨a, by simp [emArg, he], ?_⟩
      split at h
      · cases h; exact Or.inl ⟨rfl, rfl⟩
      · cases h; exact Or.inr ⟨by simp [emArg, he], [], by simp, by simp [WithinEmission], by simp⟩
      · next t sl _ => cases h; exact Or.inr ⟨by simp [emArg], [.called t sl a], rfl, by simp [WithinEmission], by simp⟩
    · cases h

/-- A null entry is left by a disconnection during an emission. -/
def NullI {A : Type} (s : Sig.State A) : Prop :=
  ∀ e ∈ s.slots, e.slot = none → ∃ x t sl y, s.log = x ++ .removed t sl :: y ∧ Sig.current x ≠ none

theorem NullI.grow {A : Type} {s s' : Sig.State A} (h : NullI s) (hl : ∃ es, s'.log = s.log ++ es)
    (hsub : ∀ e ∈ s'.slots, e.slot = none → e ∈ s.slots) : NullI s' := by
  obtain ⟨es, hl⟩ := hl
  intro e he hn
  obtain ⟨x, t, sl, y, h1, h2⟩ := h e (hsub e he hn) hn
  exact ⟨x, t, sl, y ++ es, by rw [hl, h1]; simp, h2⟩

theorem null_add {A : Type} {s : Sig.State A} (h : NullI s) (sl : Nat) : NullI (Sig.add s sl) :=
  h.grow ⟨_, rfl⟩ (by
    intro e he hn; simp only [Sig.add, List.mem_append, List.mem_singleton] at he
    rcases he with he | rfl
    · exact he
    · cases hn)

theorem null_remove {A : Type} {s : Sig.State A} (hi : Sig.Inv s) (h : NullI s) (sl : Nat) : NullI (Sig.remove s sl).1 := by
  simp only [Sig.remove]
  repeat' split
  · exact h
  · exact h
  · exact h.grow ⟨_, rfl⟩ (fun e he _ => List.mem_of_mem_eraseIdx he)
  · next i _ e0 _ hem =>
    intro e he hn
    rcases List.mem_or_eq_of_mem_set he with he | rfl
    · obtain ⟨x, t, sl', y, h1, h2⟩ := h e he hn
      exact ⟨x, t, sl', y ++ [.removed e0.ticket sl], by simp [h1], h2⟩
    · refine ⟨s.log, e0.ticket, sl, [], by simp, ?_⟩
      rw [hi.cur]
      cases hh : s.emission <;> simp [hh] at hem ⊢

theorem null_disconnect {A : Type} {s : Sig.State A} (hi : Sig.Inv s) (h : NullI s) (n : Nat) : NullI (Sig.disconnect s n).1 := by
  simp only [Sig.disconnect]
  repeat' split
  · next sl _ _ _ s1 hr => have := null_remove hi h sl; rw [hr] at this; exact this
  · next sl _ _ _ s1 hr => have := null_remove hi h sl; rw [hr] at this; exact this
  · exact h
  · exact h

theorem null_drop {A : Type} {s : Sig.State A} (h : NullI s) (n : Nat) : NullI (Sig.dropHandle s n) := by
  simp only [Sig.dropHandle]; split <;> exact h

theorem null_step {A : Type} {s s' : Sig.State A} {a : Sig.Act A} (hi : Sig.Inv s) (hn : NullI s) (h : Sig.step s a = some s') :
    NullI s' := by
  simp only [Sig.step] at h
  split at h
  · cases h
  cases a <;> simp only [Sig.body] at h
  · split at h <;> cases h; exact null_add hn _
  · split at h <;> cases h; exact null_add hn _
  · split at h <;> cases h; exact hn
  · split at h <;> cases h; exact null_disconnect hi hn _
  · split at h <;> cases h
    simp only [Sig.reconnect]
    split
    · split
      · split
        · next hu => simp only [Sig.addUnique] at hu; split at hu <;> cases hu; exact null_add hn _
        · next hu => simp only [Sig.addUnique] at hu; split at hu <;> cases hu; exact hn
      · exact hn
    · exact hn
  · split at h <;> cases h; exact null_drop hn _
  · split at h <;> cases h
    apply null_drop
    split
    · exact null_disconnect hi hn _
    · exact hn
  · split at h
    · split at h <;> cases h
      · exact hn
      · intro e he; simp at he
    · cases h
  · repeat' split at h
    all_goals cases h
    · exact hn
    · exact hn
    · exact hn.grow ⟨_, rfl⟩ (fun e he _ => he)
  · repeat' split at h
    all_goals cases h
    · exact hn.grow ⟨_, rfl⟩ (fun e he _ => he)
    · exact hn.grow ⟨[], by simp⟩ (fun e he _ => List.mem_of_mem_eraseIdx he)
    · exact hn.grow ⟨_, rfl⟩ (fun e he _ => he)
  · repeat' split at h
    all_goals cases h
    next sl _ =>
    refine hn.grow ⟨_, rfl⟩ (fun e he _ => ?_)
    have : (Sig.awareReturn s sl).slots = s.slots := by
      simp only [Sig.awareReturn]; repeat' split
      all_goals rfl
    simp only [this] at he; exact he
  · repeat' split at h
    all_goals cases h
    · exact hn
    · intro e he; simp at he

theorem Reach.null {g : Sig.State Msg} (h : Reach g) : NullI g := by
  obtain ⟨acts, ha⟩ := h
  have : ∀ (l : List (Sig.Act Msg)) (s0 : Sig.State Msg), Sig.Inv s0 → NullI s0 → Sig.run s0 l = some g → NullI g := by
    intro l
    induction l with
    | nil => intro s0 _ hn h; cases h; exact hn
    | cons b l ih =>
      intro s0 hi hn h
      simp only [Sig.run] at h
      cases hb : Sig.step s0 b with
      | none => rw [hb] at h; cases h
      | some s1 => rw [hb] at h; exact ih s1 (Sig.inv_step hi hb) (null_step hi hn hb) h
  exact this acts _ Sig.inv_init (by simp [NullI, Sig.init]) ha

/-- A list of slots that is not empty has a connected slot, or some slot was disconnected
during an emission. -/
theorem slots_ne {g : Sig.State Msg} (h : Reach g) (hne : g.slots ≠ []) :
    Sig.connections g.log ≠ [] ∨ ∃ x t sl y, g.log = x ++ .removed t sl :: y ∧ Sig.current x ≠ none := by
  obtain ⟨e, es, he⟩ := List.exists_cons_of_ne_nil hne
  cases hs : e.slot with
  | none => exact Or.inr (h.null e (by rw [he]; simp) hs)
  | some sl =>
    left
    rw [h.inv.conns]
    intro hc
    have : (e.ticket, sl) ∈ Sig.liveOf g.slots := Sig.mem_liveOf.2 (by rw [he, ← hs]; simp)
    rw [hc] at this; cases this

theorem slots_nil {g : Sig.State Msg} (h : Reach g) (hne : g.slots = []) : Sig.connections g.log = [] := by
  rw [h.inv.conns, hne]; rfl

end Maf.Proc
