import Verif.Model.ProcessorChain
import Verif.Lemmas.Hist
/-
C103: a chain of processors applies its functions in the order they were added, each once.
-/
namespace Maf.Chain

variable {V : Type}

/-! ### Specification: every action makes one object, whose functions are those added on the way to it -/

/-- The functions of the object an action makes; `L`: those of the objects there are. -/
def made (L : List (List Nat)) : Act → List Nat
  | .new => []
  | .copy i => L.getD i []
  | .then i f => L.getD i [] ++ [f]

/-- The functions of every object, in the order they were added. -/
def lineages (acts : List Act) : List (List Nat) := acts.foldl (fun L a => L ++ [made L a]) []

/-- The value that went through all the functions. -/
def through (ap : Nat → V → V) (fs : List Nat) (x : V) : V := fs.foldl (fun v f => ap f v) x

/-- Something was added to object `i`. -/
def Extended (acts : List Act) (i : Nat) : Prop := ∃ f, Act.then i f ∈ acts

/-- The object an action starts from. -/
def Act.source : Act → Option Nat
  | .new => none
  | .copy i => some i
  | .then i _ => some i

/-- Nothing is done with an object after something was added to it. -/
def Careful (acts : List Act) : Prop := ∀ pre a post i, acts = pre ++ a :: post → a.source = some i → ¬ Extended pre i

/-! ### Proof -/

theorem run_snoc {s : State} : ∀ {as : List Act} {a : Act}, run s (as ++ [a]) = match run s as with | some s' => step s' a | none => none
  | [], a => by
    simp only [List.nil_append, run]
    cases step s a <;> rfl
  | b :: as, a => by
    simp only [List.cons_append, run]
    cases step s b with
    | none => rfl
    | some s' => exact run_snoc

theorem lineages_snoc (as : List Act) (a : Act) : lineages (as ++ [a]) = lineages as ++ [made (lineages as) a] := by simp [lineages]

theorem lineages_length : ∀ as : List Act, (lineages as).length = as.length := by
  intro as
  induction as using Maf.snoc_induct with
  | nil => rfl
  | snoc as a ih => rw [lineages_snoc]; simp [ih]

theorem through_snoc (ap : Nat → V → V) (fs : List Nat) (f : Nat) (x : V) : through ap (fs ++ [f]) x = ap f (through ap fs x) := by simp [through]

theorem careful_left {as : List Act} {a : Act} (h : Careful (as ++ [a])) : Careful as := by
  intro pre b post i hp hs
  exact h pre b (post ++ [a]) i (by rw [hp]; simp) hs

/-- What holds of every object: it is empty if something was added to it, and else applies its functions in order. -/
def Good (acts : List Act) (s : State) : Prop :=
  s.length = acts.length ∧ ∀ i, ¬ Extended acts i → ∀ c, s[i]? = some c →
    ∃ cb, c = some cb ∧ ∀ (V : Type) (ap : Nat → V → V) (x : V), cb.run ap x = .val (through ap ((lineages acts).getD i []) x) ((lineages acts).getD i [])

theorem good : ∀ (acts : List Act) (s : State), run [] acts = some s → Careful acts → Good acts s := by
  intro acts
  induction acts using Maf.snoc_induct with
  | nil =>
    intro s hr _
    simp only [run, Option.some.injEq] at hr
    subst hr
    exact ⟨rfl, fun i _ c hc => by simp at hc⟩
  | snoc as a ih =>
    intro s hr hc
    rw [run_snoc] at hr
    cases h0 : run [] as with
    | none => rw [h0] at hr; cases hr
    | some s0 =>
      rw [h0] at hr
      simp only [] at hr
      obtain ⟨hl, hg⟩ := ih s0 h0 (careful_left hc)
      have hLl := lineages_length as
      have hold : ∀ i, i < as.length → (lineages (as ++ [a])).getD i [] = (lineages as).getD i [] := by
        intro i hi
        rw [lineages_snoc, List.getD_eq_getElem?_getD, List.getD_eq_getElem?_getD, List.getElem?_append_left (by omega)]
      have hnew : (lineages (as ++ [a])).getD as.length [] = made (lineages as) a := by
        rw [lineages_snoc, List.getD_eq_getElem?_getD, ← hLl, List.getElem?_concat_length]; rfl
      have hnot : ∀ i, ¬ Extended (as ++ [a]) i → ¬ Extended as i := fun i h ⟨f, hf⟩ => h ⟨f, List.mem_append_left _ hf⟩
      cases a with
      | new =>
        simp only [step, Option.some.injEq] at hr
        subst hr
        refine ⟨by simp [hl], fun i hi c hci => ?_⟩
        by_cases hlt : i < as.length
        · rw [List.getElem?_append_left (by omega)] at hci
          rw [hold i hlt]
          exact hg i (hnot i hi) c hci
        · by_cases heq : i = as.length
          · subst heq
            rw [← hl, List.getElem?_concat_length] at hci
            rw [hnew]
            exact ⟨.ident, (Option.some.inj hci).symm, fun V ap x => rfl⟩
          · rw [List.getElem?_eq_none (by simp; omega)] at hci
            cases hci
      | copy j =>
        simp only [step] at hr
        cases hj : s0[j]? with
        | none => rw [hj] at hr; cases hr
        | some c0 =>
          rw [hj] at hr
          simp only [Option.map_some, Option.some.injEq] at hr
          subst hr
          have hje := hc as (.copy j) [] j rfl rfl
          refine ⟨by simp [hl], fun i hi c hci => ?_⟩
          by_cases hlt : i < as.length
          · rw [List.getElem?_append_left (by omega)] at hci
            rw [hold i hlt]
            exact hg i (hnot i hi) c hci
          · by_cases heq : i = as.length
            · subst heq
              rw [← hl, List.getElem?_concat_length] at hci
              rw [hnew]
              have := hg j hje c0 hj
              rw [← Option.some.inj hci]
              exact this
            · rw [List.getElem?_eq_none (by simp; omega)] at hci
              cases hci
      | «then» j f =>
        simp only [step] at hr
        cases hj : s0[j]? with
        | none => rw [hj] at hr; cases hr
        | some c0 =>
          rw [hj] at hr
          simp only [Option.map_some, Option.some.injEq] at hr
          subst hr
          have hje := hc as (.then j f) [] j rfl rfl
          refine ⟨by simp [hl], fun i hi c hci => ?_⟩
          have hij : i ≠ j := fun h => hi ⟨f, by rw [h]; simp⟩
          by_cases hlt : i < as.length
          · rw [List.getElem?_append_left (by simp; omega), List.getElem?_set_ne (Ne.symm hij)] at hci
            rw [hold i hlt]
            exact hg i (hnot i hi) c hci
          · by_cases heq : i = as.length
            · subst heq
              have hx : ((s0.set j none) ++ [some (Cb.next c0 f)])[as.length]? = some (some (Cb.next c0 f)) := by
                rw [← hl, show s0.length = (s0.set j none).length by simp, List.getElem?_concat_length]
              rw [hx] at hci
              rw [hnew]
              obtain ⟨cb, rfl, hcb⟩ := hg j hje c0 hj
              refine ⟨_, (Option.some.inj hci).symm, fun V ap x => ?_⟩
              simp only [Cb.run, hcb V ap x, made, through_snoc]
            · rw [List.getElem?_eq_none (by simp; omega)] at hci
              cases hci

/-! ### Theorems -/

/-- In a program that does nothing with an object once something was added to it, every object to which nothing was added applies, when called, the functions
added on the way to it, each once and in order, and returns what comes out. -/
theorem applies_in_order_partial {acts : List Act} {s : State} (hr : run [] acts = some s) (hc : Careful acts) {i : Nat} {c : Option Cb} (hi : s[i]? = some c) (hne : ¬ Extended acts i)
    (ap : Nat → V → V) (dflt x : V) :
    call ap dflt c x = .val (through ap ((lineages acts).getD i []) x) ((lineages acts).getD i []) ∧ valid c = true := by
  obtain ⟨cb, rfl, h⟩ := (good acts s hr hc).2 i hne c hi
  exact ⟨h V ap x, rfl⟩

/-- A chain written in one expression: `ProcessorChain<V>{}.then(f₁)…then(fₙ)`. -/
def fluent (fs : List Nat) : List Act := .new :: fs.mapIdx fun i f => .then i f

theorem fluent_snoc (fs : List Nat) (f : Nat) : fluent (fs ++ [f]) = fluent fs ++ [.then fs.length f] := by simp [fluent, List.mapIdx_append]

/-- Such a chain calls exactly these functions. -/
theorem fluent_applies (fs : List Nat) : ∃ s cb, run [] (fluent fs) = some s ∧ s.length = fs.length + 1 ∧ s[fs.length]? = some (some cb) ∧
    ∀ (V : Type) (ap : Nat → V → V) (dflt x : V), call ap dflt (some cb) x = .val (through ap fs x) fs := by
  induction fs using Maf.snoc_induct with
  | nil => exact ⟨[some .ident], .ident, rfl, rfl, rfl, fun V ap dflt x => rfl⟩
  | snoc fs f ih =>
    obtain ⟨s, cb, h1, h2, h3, h4⟩ := ih
    refine ⟨(s.set fs.length none) ++ [some (.next (some cb) f)], .next (some cb) f, ?_, by simp [h2], ?_, fun V ap dflt x => ?_⟩
    · rw [fluent_snoc, run_snoc, h1]
      simp [step, h3]
    · have : (fs ++ [f]).length = (s.set fs.length none).length := by simp [h2]
      rw [this, List.getElem?_concat_length]
    · have := h4 V ap dflt x
      simp only [call] at this
      simp only [call, Cb.run, this, through_snoc]

/-- Refuted otherwise: an object to which something was added has lost its functions, and a second addition makes a chain that throws when it is called. -/
theorem reuse_breaks : ∃ s, run [] [.new, .then 0 1, .then 0 2] = some s ∧ s[0]? = some none ∧ (∀ (ap : Nat → V → V) (dflt x : V), call ap dflt none x = .val dflt []) ∧
    s[2]? = some (some (.next none 2)) ∧ ∀ (ap : Nat → V → V) (dflt x : V), call ap dflt (some (.next none 2)) x = .throws :=
  ⟨[none, some (.next (some .ident) 1), some (.next none 2)], rfl, rfl, fun _ _ _ => rfl, rfl, fun _ _ _ => rfl⟩

/-- Refuted: `connected()` says the opposite. -/
theorem connected_inverted (c : Option Cb) : connected c = true ↔ c = none := by cases c <;> simp [connected]

/-! ### Examples -/

theorem careful_snoc {as : List Act} {a : Act} (h : Careful as) (ha : ∀ i, a.source = some i → ¬ Extended as i) : Careful (as ++ [a]) := by
  intro pre b post i hp hs
  rcases List.eq_nil_or_concat post with rfl | ⟨post', b', rfl⟩
  · have := List.append_inj' hp rfl
    obtain ⟨rfl, h2⟩ := this
    cases h2
    exact ha i hs
  · have : as ++ [a] = (pre ++ b :: post') ++ [b'] := by rw [hp]; simp
    have := List.append_inj' this rfl
    exact h pre b post' i this.1 hs

/-- A program with a copy and two chains: object 4 applies 2 and then 5. -/
example : Careful [.new, .copy 0, .then 0 1, .then 1 2, .then 3 5] ∧ ¬ Extended [.new, .copy 0, .then 0 1, .then 1 2, .then 3 5] 4 ∧
    (lineages [.new, .copy 0, .then 0 1, .then 1 2, .then 3 5]).getD 4 [] = [2, 5] ∧ ∃ s, run [] [.new, .copy 0, .then 0 1, .then 1 2, .then 3 5] = some s := by
  have h0 : Careful [] := fun pre a post i h _ => by simp at h
  have h1 := careful_snoc (a := .new) h0 (fun i h => by cases h)
  have h2 := careful_snoc (a := .copy 0) h1 (fun i h => by cases h; rintro ⟨f, hf⟩; simp at hf)
  have h3 := careful_snoc (a := .then 0 1) h2 (fun i h => by cases h; rintro ⟨f, hf⟩; simp at hf)
  have h4 := careful_snoc (a := .then 1 2) h3 (fun i h => by cases h; rintro ⟨f, hf⟩; simp at hf)
  have h5 := careful_snoc (a := .then 3 5) h4 (fun i h => by cases h; rintro ⟨f, hf⟩; simp at hf)
  exact ⟨h5, by rintro ⟨f, hf⟩; simp at hf, rfl, _, rfl⟩

end Maf.Chain
