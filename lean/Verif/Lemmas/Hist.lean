/-
Rules over histories: every event of a log obeys a rule that may speak about what came before.
-/
namespace Maf

structure Hist {E : Type} (P : List E → E → Prop) (log : List E) : Prop where
  all : ∀ l e m, log = l ++ e :: m → P l e

variable {E : Type} {P : List E → E → Prop}

theorem Hist.nil : Hist P [] := by
  constructor; intro l e m h; simp at h

theorem Hist.one {log : List E} {e : E} (h : Hist P log) (he : P log e) : Hist P (log ++ [e]) := by
  constructor; intro l e' m hl
  rcases List.append_eq_append_iff.1 hl with ⟨a, ha, hb⟩ | ⟨a, ha, hb⟩
  · cases a with
    | nil => simp at ha hb; obtain ⟨rfl, -⟩ := hb; subst ha; exact he
    | cons x a => simp at hb
  · cases a with
    | nil => simp at ha hb; obtain ⟨rfl, -⟩ := hb; subst ha; exact he
    | cons x a => simp at hb; obtain ⟨rfl, rfl⟩ := hb; exact h.all _ _ _ ha

theorem Hist.two {log : List E} {e f : E} (h : Hist P log) (he : P log e)
    (hf : P (log ++ [e]) f) : Hist P (log ++ [e, f]) := by
  have := (h.one he).one hf; rwa [List.append_assoc] at this

theorem Hist.three {log : List E} {e f g : E} (h : Hist P log) (he : P log e)
    (hf : P (log ++ [e]) f) (hg : P (log ++ [e, f]) g) : Hist P (log ++ [e, f, g]) := by
  have := (h.two he hf).one hg; rwa [List.append_assoc] at this

theorem Hist.free {log es : List E} (h : Hist P log) (he : ∀ l, ∀ e ∈ es, P l e) : Hist P (log ++ es) := by
  induction es generalizing log with
  | nil => simpa using h
  | cons e es ih =>
    have := ih (log := log ++ [e]) (h.one (he _ _ (by simp))) (fun l e' h' => he l e' (by simp [h']))
    simpa using this

theorem Hist.left {l r : List E} (h : Hist P (l ++ r)) : Hist P l := by
  constructor; intro a e b hl; exact h.all a e (b ++ r) (by rw [hl]; simp)

/-- Induction from the left: what is kept by every further element. -/
theorem snoc_induct {motive : List E → Prop} (nil : motive []) (snoc : ∀ l e, motive l → motive (l ++ [e])) : ∀ l, motive l := by
  intro l
  have : ∀ a b : List E, motive a → motive (a ++ b) := by
    intro a b
    induction b generalizing a with
    | nil => intro h; simpa using h
    | cons x b ih => intro h; have := ih _ (snoc a x h); simpa using this
  simpa using this [] l nil

/-- What is kept by every further event. -/
theorem Hist.later {I : List E → Prop} {l : List E} (h0 : I l) (hs : ∀ l' e, I (l ++ l') → P (l ++ l') e → I (l ++ l' ++ [e])) {r : List E} (h : Hist P (l ++ r)) : I (l ++ r) := by
  revert h
  refine snoc_induct (motive := fun r => Hist P (l ++ r) → I (l ++ r)) (fun _ => by simpa using h0) ?_ r
  intro r e ih h
  have := hs r e (ih (by rw [← List.append_assoc] at h; exact h.left)) (h.all (l ++ r) e [] (by simp))
  simpa using this

/-- Two places in a list: the same, or one before the other. -/
theorem places {E : Type} {l1 l2 r1 r2 : List E} {x y : E} (h : l1 ++ x :: r1 = l2 ++ y :: r2) :
    (l1 = l2 ∧ x = y ∧ r1 = r2) ∨ (∃ c, l2 = l1 ++ x :: c ∧ r1 = c ++ y :: r2) ∨ ∃ c, l1 = l2 ++ y :: c ∧ r2 = c ++ x :: r1 := by
  rcases List.append_eq_append_iff.1 h with ⟨a, ha, hb⟩ | ⟨a, ha, hb⟩
  · cases a with
    | nil => simp at ha hb; exact .inl ⟨ha.symm, hb.1, hb.2⟩
    | cons z a => simp at hb; obtain ⟨rfl, rfl⟩ := hb; exact .inr (.inl ⟨a, ha, rfl⟩)
  · cases a with
    | nil => simp at ha hb; exact .inl ⟨ha, hb.1.symm, hb.2.symm⟩
    | cons z a => simp at hb; obtain ⟨rfl, rfl⟩ := hb; exact .inr (.inr ⟨a, ha, rfl⟩)

end Maf
