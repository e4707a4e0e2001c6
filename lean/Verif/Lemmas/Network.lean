import Verif.Lemmas.Signal
import Verif.Lemmas.Hist
import Verif.Model.Network
/-
What one step of a signal changes.
-/
namespace Maf.Sig
variable {A : Type}

theorem remove_log (s : State A) (sl : SlotId) :
    ∃ es, (remove s sl).1.log = s.log ++ es ∧ (∀ tk sl' x, Ev.called tk sl' x ∉ es) ∧ (remove s sl).1.nextSlot = s.nextSlot ∧ (remove s sl).1.aware = s.aware ∧
      (remove s sl).1.alive = s.alive ∧ (remove s sl).1.emission = s.emission ∧ (remove s sl).1.handles = s.handles ∧ (remove s sl).1.ub = s.ub := by
  unfold remove
  split
  · exact ⟨[], by simp, by simp, rfl, rfl, rfl, rfl, rfl, rfl⟩
  · split
    · exact ⟨[], by simp, by simp, rfl, rfl, rfl, rfl, rfl, rfl⟩
    · split
      · exact ⟨[.removed _ sl], rfl, by simp, rfl, rfl, rfl, rfl, rfl, rfl⟩
      · exact ⟨[.removed _ sl], rfl, by simp, rfl, rfl, rfl, rfl, rfl, rfl⟩

/-- The parts that most steps leave alone. -/
def Quiet (s s' : State A) : Prop :=
  ∃ es, s'.log = s.log ++ es ∧ (∀ tk sl x, Ev.called tk sl x ∉ es) ∧ s'.nextSlot = s.nextSlot ∧ s'.aware = s.aware ∧ s'.alive = s.alive ∧ s'.emission = s.emission

theorem Quiet.refl (s : State A) : Quiet s s := ⟨[], by simp, by simp, rfl, rfl, rfl, rfl⟩

theorem Quiet.trans {s s' s'' : State A} (h : Quiet s s') (h' : Quiet s' s'') : Quiet s s'' := by
  obtain ⟨es, a1, a2, a3, a4, a5, a6⟩ := h
  obtain ⟨fs, b1, b2, b3, b4, b5, b6⟩ := h'
  refine ⟨es ++ fs, by rw [b1, a1, List.append_assoc], ?_, b3.trans a3, b4.trans a4, b5.trans a5, b6.trans a6⟩
  intro tk sl x hm
  rcases List.mem_append.1 hm with h | h
  · exact a2 _ _ _ h
  · exact b2 _ _ _ h

theorem quiet_disconnect (s : State A) (h : Nat) : Quiet s (disconnect s h).1 := by
  unfold disconnect
  split
  · next sl _ =>
    split
    · obtain ⟨es, h1, h2, h3, h4, h5, h6, h7, h8⟩ := remove_log s sl
      split
      · next s1 e => rw [e] at h1 h3 h4 h5 h6; exact ⟨es, h1, h2, h3, h4, h5, h6⟩
      · next s1 e => rw [e] at h1 h3 h4 h5 h6; exact ⟨es, h1, h2, h3, h4, h5, h6⟩
    · exact Quiet.refl _
  · exact Quiet.refl _

theorem quiet_add (s : State A) (sl : SlotId) : Quiet s (add s sl) := ⟨[.added s.next sl], rfl, by simp, rfl, rfl, rfl, rfl⟩

theorem quiet_reconnect (s : State A) (h : Nat) : Quiet s (reconnect s h).1 := by
  unfold reconnect
  split
  · next sl _ =>
    split
    · unfold addUnique
      split
      · next s1 e =>
        split at e
        · simp at e
        · simp at e; subst e; exact quiet_add s sl
      · next s1 e =>
        split at e
        · simp at e; subst e; exact Quiet.refl _
        · simp at e
    · exact Quiet.refl _
  · exact Quiet.refl _

theorem quiet_drop (s : State A) (h : Nat) : Quiet s (dropHandle s h) := by
  unfold dropHandle; split <;> exact ⟨[], by simp, by simp, rfl, rfl, rfl, rfl⟩

theorem awareReturn_more (s : State A) (sl : SlotId) : (awareReturn s sl).aware = s.aware ∧ (awareReturn s sl).emission = s.emission := by
  unfold awareReturn
  split
  · exact ⟨rfl, rfl⟩
  · split
    · split <;> exact ⟨rfl, rfl⟩
    · exact ⟨rfl, rfl⟩

/-- Every step only adds to the history; only `iter` calls slots. -/
theorem step_adds {s s' : State A} {a : Act A} (h : step s a = some s') :
    ∃ es, s'.log = s.log ++ es ∧ (a ≠ .iter → ∀ tk sl x, Ev.called tk sl x ∉ es) ∧ (a ≠ .connect → a ≠ .connectAware → s'.nextSlot = s.nextSlot ∧ s'.aware = s.aware) ∧
      (a ≠ .destroy → s'.alive = s.alive) ∧ s.nextSlot ≤ s'.nextSlot := by
  have quiet : ∀ {s'}, Quiet s s' → ∃ es, s'.log = s.log ++ es ∧ (a ≠ .iter → ∀ tk sl x, Ev.called tk sl x ∉ es) ∧ (a ≠ .connect → a ≠ .connectAware → s'.nextSlot = s.nextSlot ∧ s'.aware = s.aware) ∧
      (a ≠ .destroy → s'.alive = s.alive) ∧ s.nextSlot ≤ s'.nextSlot := by
    rintro s' ⟨es, h1, h2, h3, h4, h5, h6⟩
    exact ⟨es, h1, fun _ => h2, fun _ _ => ⟨h3, h4⟩, fun _ => h5, by rw [h3]; exact Nat.le_refl _⟩
  unfold step at h
  split at h
  · cases h
  cases a with
  | connect =>
    simp only [body] at h
    split at h
    · cases h; exact ⟨[.added s.next s.nextSlot], rfl, by simp, by simp, fun _ => rfl, Nat.le_succ _⟩
    · cases h
  | connectAware =>
    simp only [body] at h
    split at h
    · cases h; exact ⟨[.added s.next s.nextSlot], rfl, by simp, by simp, fun _ => rfl, Nat.le_succ _⟩
    · cases h
  | keep =>
    simp only [body] at h
    split at h
    · cases h; exact quiet (Quiet.refl _)
    · cases h
  | disconnect n =>
    simp only [body] at h
    split at h
    · cases h; exact quiet (quiet_disconnect _ _)
    · cases h
  | reconnect n =>
    simp only [body] at h
    split at h
    · cases h; exact quiet (quiet_reconnect _ _)
    · cases h
  | drop n =>
    simp only [body] at h
    split at h
    · cases h; exact quiet (quiet_drop _ _)
    · cases h
  | scopeEnd n =>
    simp only [body] at h
    split at h
    · cases h
      split
      · exact quiet ((quiet_disconnect _ _).trans (quiet_drop _ _))
      · exact quiet (quiet_drop _ _)
    · cases h
  | clear =>
    simp only [body] at h
    split at h
    · split at h
      · cases h; exact ⟨[], by simp, by simp, fun _ _ => ⟨rfl, rfl⟩, fun _ => rfl, Nat.le_refl _⟩
      · cases h
        refine ⟨_, rfl, ?_, fun _ _ => ⟨rfl, rfl⟩, fun _ => rfl, Nat.le_refl _⟩
        intro _ tk sl x hm
        simp at hm
    · cases h
  | emit x =>
    simp only [body] at h
    split at h
    · split at h
      · cases h; exact ⟨[], by simp, by simp, fun _ _ => ⟨rfl, rfl⟩, fun _ => rfl, Nat.le_refl _⟩
      · split at h
        · cases h; exact ⟨[], by simp, by simp, fun _ _ => ⟨rfl, rfl⟩, fun _ => rfl, Nat.le_refl _⟩
        · cases h; exact ⟨[.emitted x], rfl, by simp, fun _ _ => ⟨rfl, rfl⟩, fun _ => rfl, Nat.le_refl _⟩
    · cases h
  | iter =>
    simp only [body] at h
    split at h
    · split at h
      · cases h; exact ⟨[.emissionDone], rfl, by simp, fun _ _ => ⟨rfl, rfl⟩, fun _ => rfl, Nat.le_refl _⟩
      · cases h; exact ⟨[], by simp, by simp, fun _ _ => ⟨rfl, rfl⟩, fun _ => rfl, Nat.le_refl _⟩
      · cases h; exact ⟨[.called _ _ _], rfl, by simp, fun _ _ => ⟨rfl, rfl⟩, fun _ => rfl, Nat.le_refl _⟩
    · cases h
  | ret =>
    simp only [body] at h
    split at h
    · next x i tk sl _ =>
      cases h
      obtain ⟨_, _, _, h4, h5⟩ := awareReturn_same s sl
      exact ⟨[.returned tk], rfl, by simp, fun _ _ => ⟨h4, (awareReturn_more s sl).1⟩, fun _ => h5, by simp only [h4]; exact Nat.le_refl _⟩
    · cases h
  | destroy =>
    simp only [body] at h
    split at h
    · split at h
      · cases h; exact ⟨[], by simp, by simp, fun _ _ => ⟨rfl, rfl⟩, by simp, Nat.le_refl _⟩
      · cases h
        refine ⟨_, rfl, ?_, fun _ _ => ⟨rfl, rfl⟩, by simp, Nat.le_refl _⟩
        intro _ tk sl x hm
        simp at hm
    · cases h

/-- The connections which slots own are not used by anybody else. -/
def AwareOk (s : State A) : Prop := ∀ p ∈ s.aware, s.handles[p.2]? = some (.weak p.1)

theorem awareOk_same {s s' : State A} (h : AwareOk s) (h1 : s'.aware = s.aware) (h2 : ∀ p ∈ s.aware, s'.handles[p.2]? = s.handles[p.2]?) : AwareOk s' := by
  intro p hp
  rw [h1] at hp
  rw [h2 p hp]; exact h p hp

theorem getElem?_set_other {α : Type} {l : List α} {i j : Nat} {x : α} (h : j ≠ i) : (l.set i x)[j]? = l[j]? := by
  rw [List.getElem?_set]; simp [Ne.symm h]

theorem awareOk_step {s s' : State A} {a : Act A} (h : AwareOk s) (hs : step s a = some s')
    (ha : ∀ n, (a = .disconnect n ∨ a = .reconnect n ∨ a = .drop n ∨ a = .scopeEnd n) → ∀ p ∈ s.aware, p.2 ≠ n) : AwareOk s' := by
  have disc : ∀ (s : State A) n, (∀ p ∈ s.aware, p.2 ≠ n) → ∀ p ∈ s.aware, (disconnect s n).1.handles[p.2]? = s.handles[p.2]? := by
    intro s n hn p hp
    unfold disconnect
    split
    · next sl _ =>
      split
      · obtain ⟨_, _, _, _, _, _, _, h7, _⟩ := remove_log s sl
        split
        · next s1 e =>
                         have h7' : s1.handles = s.handles := by rw [e] at h7; exact h7
                         rw [h7']; exact getElem?_set_other (hn p hp)
        · next s1 e =>
                         have h7' : s1.handles = s.handles := by rw [e] at h7; exact h7
                         rw [h7']
      · exact getElem?_set_other (hn p hp)
    · rfl
  have drop : ∀ (s : State A) n, (∀ p ∈ s.aware, p.2 ≠ n) → ∀ p ∈ s.aware, (dropHandle s n).handles[p.2]? = s.handles[p.2]? := by
    intro s n hn p hp
    unfold dropHandle; split <;> exact getElem?_set_other (hn p hp)
  unfold step at hs
  split at hs
  · cases hs
  have left : ∀ p ∈ s.aware, p.2 < s.handles.length := by
    intro p hp
    have := h p hp
    exact (List.getElem?_eq_some_iff.1 this).1
  cases a with
  | connect =>
    simp only [body] at hs
    split at hs
    · cases hs
      refine awareOk_same h rfl ?_
      intro p hp
      exact List.getElem?_append_left (left p hp)
    · cases hs
  | connectAware =>
    simp only [body] at hs
    split at hs
    · cases hs
      intro p hp
      rcases List.mem_append.1 hp with hp | hp
      · simp only
        rw [List.getElem?_append_left (left p hp)]; exact h p hp
      · simp at hp; subst hp
        simp only
        rw [List.getElem?_append_right (by simp)]
        simp
    · cases hs
  | keep =>
    simp only [body] at hs
    split at hs
    · cases hs; exact awareOk_same h rfl (fun _ _ => rfl)
    · cases hs
  | disconnect n =>
    simp only [body] at hs
    split at hs
    · cases hs
      obtain ⟨_, _, _, _, h4, _, _⟩ := quiet_disconnect s n
      exact awareOk_same h h4 (disc s n (ha n (by simp)))
    · cases hs
  | reconnect n =>
    simp only [body] at hs
    split at hs
    · cases hs
      obtain ⟨_, _, _, _, h4, _, _⟩ := quiet_reconnect s n
      refine awareOk_same h h4 ?_
      intro p hp
      have hn := ha n (by simp) p hp
      unfold reconnect
      split
      · split
        · unfold addUnique
          split
          · next e =>
            split at e
            · simp at e
            · simp at e; subst e; exact getElem?_set_other hn
          · next e =>
            split at e
            · simp at e; subst e; exact getElem?_set_other hn
            · simp at e
        · rfl
      · rfl
    · cases hs
  | drop n =>
    simp only [body] at hs
    split at hs
    · cases hs
      obtain ⟨_, _, _, _, h4, _, _⟩ := quiet_drop s n
      exact awareOk_same h h4 (drop s n (ha n (by simp)))
    · cases hs
  | scopeEnd n =>
    have hn := ha n (by simp)
    simp only [body] at hs
    split at hs
    · cases hs
      split
      · obtain ⟨_, _, _, _, h4, _, _⟩ := quiet_disconnect s n
        obtain ⟨_, _, _, _, h4', _, _⟩ := quiet_drop (disconnect s n).1 n
        refine awareOk_same h (h4'.trans h4) ?_
        intro p hp
        rw [drop _ n (by rw [h4]; exact hn) p (by rw [h4]; exact hp)]
        exact disc s n hn p hp
      · obtain ⟨_, _, _, _, h4, _, _⟩ := quiet_drop s n
        exact awareOk_same h h4 (drop s n hn)
    · cases hs
  | clear =>
    simp only [body] at hs
    split at hs
    · split at hs <;> cases hs <;> exact awareOk_same h rfl (fun _ _ => rfl)
    · cases hs
  | emit x =>
    simp only [body] at hs
    split at hs
    · split at hs
      · cases hs; exact h
      · split at hs <;> cases hs <;> exact awareOk_same h rfl (fun _ _ => rfl)
    · cases hs
  | iter =>
    simp only [body] at hs
    split at hs
    · split at hs <;> cases hs <;> exact awareOk_same h rfl (fun _ _ => rfl)
    · cases hs
  | ret =>
    simp only [body] at hs
    split at hs
    · next x i tk sl _ =>
      cases hs
      refine awareOk_same h (awareReturn_more s sl).1 ?_
      intro p hp
      simp only [awareReturn]
      split
      · rfl
      · next n hn =>
        split
        · next hh =>
          have hm : (sl, n) ∈ s.aware := by
            rw [List.lookup_eq_some_iff] at hn
            obtain ⟨l1, l2, e, _⟩ := hn
            rw [e]; simp
          have := h _ hm
          simp only at this
          rw [this] at hh; cases hh
        · rfl
    · cases hs
  | destroy =>
    simp only [body] at hs
    split at hs
    · split at hs <;> cases hs <;> exact awareOk_same h rfl (fun _ _ => rfl)
    · cases hs

end Maf.Sig

namespace Maf.Sig
variable {A : Type}

/-- A signal that has been destroyed has no slots; nobody has kept the connection of a slot. -/
def Shut (s : State A) : Prop := (s.alive = false → s.slots = [] ∧ s.emission = none) ∧ s.kept = []

theorem disconnect_dead {s : State A} (h : s.alive = false) (n : Nat) : (disconnect s n).1.slots = s.slots := by
  unfold disconnect
  split
  · rw [if_neg (by simp [h])]
  · rfl

theorem reconnect_dead {s : State A} (h : s.alive = false) (n : Nat) : (reconnect s n).1.slots = s.slots := by
  unfold reconnect
  split
  · rw [if_neg (by simp [h])]
  · rfl

theorem disconnect_kept (s : State A) (n : Nat) : (disconnect s n).1.kept = s.kept := by
  unfold disconnect
  split
  · next sl _ =>
    have : (remove s sl).1.kept = s.kept := by
      unfold remove
      split
      · rfl
      · split
        · rfl
        · split <;> rfl
    split
    · split
      · next e => rw [e] at this; exact this
      · next e => rw [e] at this; exact this
    · rfl
  · rfl

theorem reconnect_kept (s : State A) (n : Nat) : (reconnect s n).1.kept = s.kept := by
  unfold reconnect
  split
  · split
    · unfold addUnique
      split
      · next e => split at e <;> simp at e; subst e; rfl
      · next e => split at e <;> simp at e; subst e; rfl
    · rfl
  · rfl

theorem drop_same (s : State A) (n : Nat) : (dropHandle s n).slots = s.slots ∧ (dropHandle s n).kept = s.kept ∧ (dropHandle s n).alive = s.alive ∧ (dropHandle s n).emission = s.emission := by
  unfold dropHandle; split <;> exact ⟨rfl, rfl, rfl, rfl⟩

theorem awareReturn_kept (s : State A) (sl : SlotId) : (awareReturn s sl).kept = s.kept := by
  unfold awareReturn
  split
  · rfl
  · split
    · split <;> rfl
    · rfl

theorem shut_step {s s' : State A} {a : Act A} (h : Shut s) (hs : step s a = some s') (ha : a ≠ .keep) : Shut s' := by
  obtain ⟨h1, h2⟩ := h
  unfold step at hs
  split at hs
  · cases hs
  cases a with
  | connect | connectAware =>
    simp only [body] at hs
    split at hs
    · next hc => cases hs; simp at hc; exact ⟨by simp [add, hc.1], h2⟩
    · cases hs
  | keep => exact absurd rfl ha
  | disconnect n =>
    simp only [body] at hs
    split at hs
    · cases hs
      obtain ⟨_, _, _, _, _, h5, h6⟩ := quiet_disconnect s n
      refine ⟨fun hd => ?_, (disconnect_kept s n).trans h2⟩
      rw [h5] at hd
      exact ⟨(disconnect_dead hd n).trans (h1 hd).1, h6.trans (h1 hd).2⟩
    · cases hs
  | reconnect n =>
    simp only [body] at hs
    split at hs
    · cases hs
      obtain ⟨_, _, _, _, _, h5, h6⟩ := quiet_reconnect s n
      refine ⟨fun hd => ?_, (reconnect_kept s n).trans h2⟩
      rw [h5] at hd
      exact ⟨(reconnect_dead hd n).trans (h1 hd).1, h6.trans (h1 hd).2⟩
    · cases hs
  | drop n =>
    simp only [body] at hs
    split at hs
    · cases hs
      obtain ⟨a1, a2, a3, a4⟩ := drop_same s n
      exact ⟨fun hd => by rw [a1, a4]; exact h1 (a3 ▸ hd), a2.trans h2⟩
    · cases hs
  | scopeEnd n =>
    simp only [body] at hs
    split at hs
    · cases hs
      split
      · obtain ⟨a1, a2, a3, a4⟩ := drop_same (disconnect s n).1 n
        obtain ⟨_, _, _, _, _, h5, h6⟩ := quiet_disconnect s n
        refine ⟨fun hd => ?_, a2.trans ((disconnect_kept s n).trans h2)⟩
        rw [a3, h5] at hd
        rw [a1, a4]
        exact ⟨(disconnect_dead hd n).trans (h1 hd).1, h6.trans (h1 hd).2⟩
      · obtain ⟨a1, a2, a3, a4⟩ := drop_same s n
        exact ⟨fun hd => by rw [a1, a4]; exact h1 (a3 ▸ hd), a2.trans h2⟩
    · cases hs
  | clear =>
    simp only [body] at hs
    split at hs
    · next hc =>
      simp at hc
      split at hs
      · cases hs; exact ⟨h1, h2⟩
      · cases hs; exact ⟨by simp [hc.1], h2⟩
    · cases hs
  | emit x =>
    simp only [body] at hs
    split at hs
    · next hc =>
      simp at hc
      split at hs
      · cases hs; exact ⟨h1, h2⟩
      · split at hs <;> cases hs <;> exact ⟨by simp [hc.1], h2⟩
    · cases hs
  | iter =>
    simp only [body] at hs
    split at hs
    · next he =>
      have hal : s.alive = true := by
        cases hal : s.alive with
        | true => rfl
        | false => rw [(h1 hal).2] at he; cases he
      split at hs <;> cases hs <;> exact ⟨by simp [hal], h2⟩
    · cases hs
  | ret =>
    simp only [body] at hs
    split at hs
    · next x i tk sl he =>
      have hal : s.alive = true := by
        cases hal : s.alive with
        | true => rfl
        | false => rw [(h1 hal).2] at he; cases he
      cases hs
      obtain ⟨_, _, _, _, h5⟩ := awareReturn_same s sl
      refine ⟨fun hd => ?_, (awareReturn_kept s sl).trans h2⟩
      simp only [h5, hal] at hd
      cases hd
    · cases hs
  | destroy =>
    simp only [body] at hs
    split at hs
    · split at hs
      · cases hs; exact ⟨h1, h2⟩
      · next hc => cases hs; exact ⟨fun _ => ⟨rfl, by simpa using hc⟩, h2⟩
    · cases hs

/-- One iteration. -/
theorem iter_cases {s s' : State A} (h : step s .iter = some s') :
    (s'.emission = none ∧ s'.log = s.log ++ [.emissionDone]) ∨ (∃ a i, s'.emission = some ⟨a, i, none⟩ ∧ s'.log = s.log) ∨
      ∃ a i tk sl, s'.emission = some ⟨a, i, some ⟨tk, some sl⟩⟩ ∧ s'.log = s.log ++ [.called tk sl a] ∧ (⟨tk, some sl⟩ : Entry) ∈ s'.slots ∧ s'.slots = s.slots := by
  unfold step at h
  split at h
  · cases h
  simp only [body] at h
  split at h
  · next he =>
    split at h
    · cases h; exact .inl ⟨rfl, rfl⟩
    · cases h; exact .inr (.inl ⟨_, _, he, rfl⟩)
    · next hg => cases h; exact .inr (.inr ⟨_, _, _, _, rfl, rfl, List.mem_of_getElem? hg, rfl⟩)
  · cases h

/-- A slot that disconnects itself by means of its own connection, which nobody else keeps: undefined behaviour. -/
theorem self_disconnect {s s1 s2 : State A} {h : Nat} {sl : SlotId} {a : A} {i tk : Nat} (hI : Inv s) (hA : AwareOk s) (hS : Shut s)
    (hl : s.aware.lookup sl = some h) (he : s.emission = some ⟨a, i, some ⟨tk, some sl⟩⟩) (hm : (⟨tk, some sl⟩ : Entry) ∈ s.slots)
    (h1 : step s (.disconnect h) = some s1) (h2 : step s1 .ret = some s2) : s2.ub = true := by
  have hmem : (sl, h) ∈ s.aware := by
    rw [List.lookup_eq_some_iff] at hl
    obtain ⟨l1, l2, e, _⟩ := hl
    rw [e]; simp
  have hw := hA _ hmem
  simp only at hw
  have hal : s.alive = true := by
    cases hal : s.alive with
    | true => rfl
    | false => have := (hS.1 hal).2; rw [he] at this; cases this
  have hhas : has s sl = true := has_iff.2 ⟨tk, hm⟩
  unfold step at h1
  split at h1
  · cases h1
  simp only [body] at h1
  split at h1
  · cases h1
    rcases remove_spec hI.core sl with ⟨-, -, h0⟩ | ⟨b1, -, b3, -, -, b6, -, b8, b9, -, -, -, b13, -⟩
    · rw [hhas] at h0; cases h0
    · have hd : (disconnect s h).1 = { (remove s sl).1 with handles := (remove s sl).1.handles.set h (.shared sl) } := by
        unfold disconnect
        rw [hw]
        simp only [hal, if_true]
        cases hr : remove s sl with
        | mk r1 r2 => rw [hr] at b1; simp only at b1; subst b1; rfl
      rw [hd] at h2
      unfold step at h2
      split at h2
      · cases h2
      simp only [body] at h2
      split at h2
      · next x j tk' sl' he' =>
        simp only [b13, he, Option.some.injEq, Emission.mk.injEq, Entry.mk.injEq] at he'
        obtain ⟨_, _, _, rfl⟩ := he'
        cases h2
        have hlen : h < s.handles.length := (List.getElem?_eq_some_iff.1 hw).1
        have key : ∀ x : State A, x.aware = s.aware → x.handles[h]? = some (.shared sl) → has x sl = false → x.kept = [] → (awareReturn x sl).ub = true := by
          intro x x1 x2 x3 x4
          unfold awareReturn
          rw [x1, hl]
          simp [x2, x3, x4]
        refine key _ b8 ?_ ((has_congr rfl sl).trans b3) (b9.trans hS.2)
        simp [b6, hlen]
      · cases h2
  · cases h1

end Maf.Sig
