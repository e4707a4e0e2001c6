import Verif.Spec.Handle
import Verif.Lemmas.Hist
/-
Lemmas for C80: the invariant of typed requests.
-/
namespace Maf.Hdl

/-! ### Invariant -/

def EvOk (l : List Ev) : Ev → Prop
  | .arrived r _ _ => ∀ r', (∃ c k, .arrived r' c k ∈ l) ↔ r' < r
  | .refused r => (∃ c k, .arrived r c k ∈ l) ∧ .started r ∉ l
  | .started r => (∃ c k, .arrived r c k ∈ l) ∧ .started r ∉ l ∧ .refused r ∉ l ∧ ∀ r', r' < r → .refused r' ∈ l ∨ .started r' ∈ l
  | .answered r c k _ => .arrived r c k ∈ l ∧ .started r ∈ l ∧ (Separate l → ¬ Over l r)
  | .updated r c k => .arrived r c k ∈ l ∧ .started r ∈ l ∧ (Separate l → ¬ Over l r)
  | .result r true .success => ∃ x c k a, l = x ++ [.answered r c k a] ∧ a ≠ .ignored
  | .result r false .success => ∃ x c k, l = x ++ [.updated r c k]
  | .result r _ .invalid => Separate l → Over l r
  | .result _ _ .failed => False
  | .aborted r => (∃ c k, .arrived r c k ∈ l) ∧ (Separate l → ¬ Answered l r ∧ .aborted r ∉ l)
  | .ended r => (∃ c k, .arrived r c k ∈ l) ∧ (Separate l → ¬ Answered l r ∧ .aborted r ∉ l)
  | .overwritten r => .started r ∈ l

structure Base (s : State) : Prop where
  arr : ∀ r c k, .arrived r c k ∈ s.log → s.client r = c ∧ s.key r = k
  num : ∀ r, (∃ c k, .arrived r c k ∈ s.log) ↔ r < s.n
  map : ∀ r ∈ s.map, r < s.n
  val : ∀ r, s.valid r = true → r < s.n
  inmap : ∀ r, s.valid r = true → r ∈ s.map
  sorted : s.tasks.Pairwise (· < ·)
  tasks : ∀ r, r ∈ s.tasks ↔ r < s.n ∧ .started r ∉ s.log ∧ .refused r ∉ s.log
  began : ∀ r, .started r ∈ s.log → r < s.n
  held : ∀ v r, s.var v = some (some r) → .started r ∈ s.log
  one : ∀ v w r, s.var v = some (some r) → s.var w = some (some r) → v = w
  hist : Hist EvOk s.log

structure Sep (s : State) : Prop where
  nodup : s.map.Nodup
  keys : ∀ r ∈ s.map, ∀ q ∈ s.map, s.key r = s.key q → r = q
  open_ : ∀ r, r ∈ s.map ↔ r < s.n ∧ ¬ Answered s.log r ∧ .aborted r ∉ s.log
  valid : ∀ r, s.valid r = true ↔ r ∈ s.map ∧ .ended r ∉ s.log
  gone : ∀ r, .started r ∈ s.log → (∃ v, s.var v = some (some r)) ∨ .overwritten r ∈ s.log ∨ Over s.log r

structure Inv (s : State) : Prop extends Base s where
  sep : Separate s.log → Sep s

theorem Separate.left {l r : List Ev} (h : Separate (l ++ r)) : Separate l := fun x y q c k q' c' hl hm => h x (y ++ r) q c k q' c' (by rw [hl]; simp) hm

theorem inv_init : Inv init := by
  refine ⟨⟨?_, ?_, ?_, ?_, ?_, .nil, ?_, ?_, ?_, ?_, Hist.nil⟩, fun _ => ⟨.nil, ?_, ?_, ?_, ?_⟩⟩ <;> simp [init]

theorem lookup_some {s : State} {k : Key} {q : Nat} (h : lookup s k = some q) : q ∈ s.map ∧ s.key q = k := by
  have h1 := List.find?_some h
  exact ⟨List.mem_of_find?_eq_some h, by simpa using h1⟩

theorem lookup_self {s : State} (h : Sep s) {r : Nat} (hr : s.valid r = true) : lookup s (s.key r) = some r := by
  have hm := ((h.valid r).1 hr).1
  cases hl : lookup s (s.key r) with
  | none =>
    have := List.find?_eq_none.1 hl r hm
    simp at this
  | some q =>
    obtain ⟨h1, h2⟩ := lookup_some hl
    rw [h.keys r hm q h1 h2.symm]

/-- A valid request is found, or another one with its id. -/
theorem lookup_valid {s : State} (h : Base s) {r : Nat} (hr : s.valid r = true) : lookup s (s.key r) ≠ none := by
  intro hl
  have := List.find?_eq_none.1 hl r (h.inmap r hr)
  simp at this

theorem Answered.app {l e : List Ev} {r : Nat} : Answered (l ++ e) r ↔ Answered l r ∨ Answered e r := by
  simp only [Answered, List.mem_append]
  constructor
  · rintro ⟨c, k, a, h | h⟩
    · exact .inl ⟨c, k, a, h⟩
    · exact .inr ⟨c, k, a, h⟩
  · rintro (⟨c, k, a, h⟩ | ⟨c, k, a, h⟩)
    · exact ⟨c, k, a, .inl h⟩
    · exact ⟨c, k, a, .inr h⟩

theorem Over.app {l e : List Ev} {r : Nat} (h : Over l r) : Over (l ++ e) r := by
  rcases h with h | h | h
  · exact .inl (Answered.app.2 (.inl h))
  · exact .inr (.inl (by simp [h]))
  · exact .inr (.inr (by simp [h]))

/-- A valid request is not over. -/
theorem not_over {s : State} (h : Sep s) {r : Nat} (hr : s.valid r = true) : ¬ Over s.log r := by
  obtain ⟨h1, h2⟩ := (h.valid r).1 hr
  obtain ⟨-, h3, h4⟩ := (h.open_ r).1 h1
  rintro (h | h | h)
  · exact h3 h
  · exact h4 h
  · exact h2 h

/-- One that is not valid is. -/
theorem over {s : State} (h : Sep s) {r : Nat} (hn : r < s.n) (hr : s.valid r = false) : Over s.log r := by
  by_cases hm : r ∈ s.map
  · by_cases he : .ended r ∈ s.log
    · exact .inr (.inr he)
    · rw [(h.valid r).2 ⟨hm, he⟩] at hr; cases hr
  · by_cases ha : Answered s.log r
    · exact .inl ha
    · by_cases hb : .aborted r ∈ s.log
      · exact .inr (.inl hb)
      · exact absurd ((h.open_ r).2 ⟨hn, ha, hb⟩) hm

/-- Events that say nothing about what is open. -/
def Quiet : Ev → Prop
  | .result .. | .updated .. => True
  | _ => False

/-- Steps that only log quiet events, or change nothing at all. -/
theorem inv_quiet {s : State} (h : Inv s) {es : List Ev} {ub : Bool} (hq : ∀ e ∈ es, Quiet e) (hh : Hist EvOk (s.log ++ es)) : Inv { s with ub := ub, log := s.log ++ es } := by
  have key : ∀ e, ¬ Quiet e → (e ∈ s.log ++ es ↔ e ∈ s.log) := fun e he => by
    simp only [List.mem_append]
    exact ⟨fun hx => hx.elim id fun hx => absurd (hq e hx) he, .inl⟩
  have k1 : ∀ r c k, .arrived r c k ∈ s.log ++ es ↔ .arrived r c k ∈ s.log := fun r c k => key _ id
  have k2 : ∀ r, .started r ∈ s.log ++ es ↔ .started r ∈ s.log := fun r => key _ id
  have k3 : ∀ r, .refused r ∈ s.log ++ es ↔ .refused r ∈ s.log := fun r => key _ id
  have k4 : ∀ r, .aborted r ∈ s.log ++ es ↔ .aborted r ∈ s.log := fun r => key _ id
  have k5 : ∀ r, .ended r ∈ s.log ++ es ↔ .ended r ∈ s.log := fun r => key _ id
  have k6 : ∀ r, Answered (s.log ++ es) r ↔ Answered s.log r := fun r =>
    ⟨fun ⟨c, k, a, hx⟩ => ⟨c, k, a, (key _ id).1 hx⟩, fun ⟨c, k, a, hx⟩ => ⟨c, k, a, (key _ id).2 hx⟩⟩
  have k7 : ∀ r, .overwritten r ∈ s.log ++ es ↔ .overwritten r ∈ s.log := fun r => key _ id
  refine ⟨⟨fun r c k hx => h.arr r c k ((k1 r c k).1 hx), fun r => ?_, h.map, h.val, h.inmap, h.sorted, fun r => ?_, fun r hx => h.began r ((k2 r).1 hx), fun v r hv => (k2 r).2 (h.held v r hv), h.one, hh⟩, fun hs => ?_⟩
  · simp only [k1]; exact h.num r
  · simp only [k2, k3]; exact h.tasks r
  · obtain ⟨a1, a2, a3, a4, a5⟩ := h.sep hs.left
    refine ⟨a1, a2, fun r => ?_, fun r => ?_, fun r hr => ?_⟩
    · simp only [k6, k4]; exact a3 r
    · simp only [k5]; exact a4 r
    · simp only [k7]
      rcases a5 r ((k2 r).1 hr) with hx | hx | hx
      · exact .inl hx
      · exact .inr (.inl hx)
      · exact .inr (.inr hx.app)

theorem Hist.of_mem {E : Type} {P : List E → E → Prop} {log : List E} (h : Hist P log) {e : E} (he : e ∈ log) : ∃ l m, log = l ++ e :: m ∧ P l e := by
  obtain ⟨l, m, hl⟩ := List.append_of_mem he
  exact ⟨l, m, hl, h.all l e m hl⟩

/-- Only requests that came in are in the log. -/
theorem known {s : State} (h : Base s) {r : Nat} (ho : Over s.log r) : r < s.n := by
  have hi : ∀ l m, s.log = l ++ m → (∃ c k, .arrived r c k ∈ l) → r < s.n := fun l m hl ⟨c, k, hx⟩ => (h.num r).1 ⟨c, k, by rw [hl]; simp [hx]⟩
  rcases ho with ⟨c, k, a, hx⟩ | hx | hx
  · obtain ⟨l, m, hl, hp⟩ := Hist.of_mem h.hist hx
    exact hi l _ hl ⟨c, k, hp.1⟩
  · obtain ⟨l, m, hl, hp⟩ := Hist.of_mem h.hist hx
    exact hi l _ hl hp.1
  · obtain ⟨l, m, hl, hp⟩ := Hist.of_mem h.hist hx
    exact hi l _ hl hp.1

theorem inv_ub {s : State} (h : Inv s) (b : Bool) : Inv { s with ub := b } := ⟨⟨h.arr, h.num, h.map, h.val, h.inmap, h.sorted, h.tasks, h.began, h.held, h.one, h.hist⟩, fun hs => ⟨(h.sep hs).nodup, (h.sep hs).keys, (h.sep hs).open_, (h.sep hs).valid, (h.sep hs).gone⟩⟩

theorem refused_lt {s : State} (h : Base s) {r : Nat} (hx : .refused r ∈ s.log) : r < s.n := by
  obtain ⟨l, m, hl, ⟨c, k, hp⟩, -⟩ := Hist.of_mem h.hist hx
  exact (h.num r).1 ⟨c, k, by rw [hl]; simp [hp]⟩

theorem inv_arrive {s : State} (h : Inv s) (c : Nat) (k : Key) (ok : Bool) : Inv (arrive s c k ok) := by
  have hb := h.toBase
  have hes : ∃ es, arrive s c k ok = { arrive s c k ok with log := s.log ++ es } ∧ es = (.arrived s.n c k :: if ok then [] else [.refused s.n]) := ⟨_, rfl, rfl⟩
  have hex : ¬ ∃ c k, Ev.arrived s.n c k ∈ s.log := fun hx => Nat.lt_irrefl _ ((h.num _).1 hx)
  have hst : .started s.n ∉ s.log := fun hx => Nat.lt_irrefl _ (h.began _ hx)
  have hrf : .refused s.n ∉ s.log := fun hx => Nat.lt_irrefl _ (refused_lt hb hx)
  have hov : ¬ Over s.log s.n := fun hx => Nat.lt_irrefl _ (known hb hx)
  have l1 : ∀ r c' k', .arrived r c' k' ∈ (arrive s c k ok).log ↔ .arrived r c' k' ∈ s.log ∨ (r = s.n ∧ c' = c ∧ k' = k) := fun r c' k' => by cases ok <;> simp [arrive]
  have l2 : ∀ r, .started r ∈ (arrive s c k ok).log ↔ .started r ∈ s.log := fun r => by cases ok <;> simp [arrive]
  have l3 : ∀ r, .refused r ∈ (arrive s c k ok).log ↔ .refused r ∈ s.log ∨ (ok = false ∧ r = s.n) := fun r => by cases ok <;> simp [arrive]
  have l4 : ∀ r, .aborted r ∈ (arrive s c k ok).log ↔ .aborted r ∈ s.log := fun r => by cases ok <;> simp [arrive]
  have l5 : ∀ r, .ended r ∈ (arrive s c k ok).log ↔ .ended r ∈ s.log := fun r => by cases ok <;> simp [arrive]
  have l6 : ∀ r, Answered (arrive s c k ok).log r ↔ Answered s.log r := fun r => by cases ok <;> simp [arrive, Answered]
  have l7 : ∀ r, .overwritten r ∈ (arrive s c k ok).log ↔ .overwritten r ∈ s.log := fun r => by cases ok <;> simp [arrive]
  have l8 : ∀ r, Over (arrive s c k ok).log r ↔ Over s.log r := fun r => by simp only [Over, l4, l5, l6]
  refine ⟨⟨fun r c' k' hx => ?_, fun r => ?_, fun r hr => ?_, fun r hr => ?_, fun r hr => ?_, ?_, fun r => ?_, fun r hx => Nat.lt_succ_of_lt (h.began r ((l2 r).1 hx)), fun v r hv => (l2 r).2 (h.held v r hv), h.one, ?_⟩, fun hs => ?_⟩
  · rcases (l1 r c' k').1 hx with hx | ⟨rfl, rfl, rfl⟩
    · have hlt := (h.num r).1 ⟨c', k', hx⟩
      have hne : r ≠ s.n := by omega
      simpa [arrive, upd, hne] using h.arr r c' k' hx
    · simp [arrive, upd]
  · simp only [l1]
    show _ ↔ r < s.n + 1
    constructor
    · rintro ⟨c', k', hx | ⟨rfl, -, -⟩⟩
      · exact Nat.lt_succ_of_lt ((h.num r).1 ⟨c', k', hx⟩)
      · exact Nat.lt_succ_self _
    · intro hr
      by_cases he : r = s.n
      · exact ⟨c, k, .inr ⟨he, rfl, rfl⟩⟩
      · obtain ⟨c', k', hx⟩ := (h.num r).2 (by omega)
        exact ⟨c', k', .inl hx⟩
  · have hr' : r ∈ s.map ++ [s.n] := hr
    show r < s.n + 1
    simp only [List.mem_append, List.mem_singleton] at hr'
    rcases hr' with hr' | rfl
    · exact Nat.lt_succ_of_lt (h.map r hr')
    · exact Nat.lt_succ_self _
  · show r < s.n + 1
    by_cases he : r = s.n
    · omega
    · have : s.valid r = true := by simpa [arrive, upd, he] using hr
      exact Nat.lt_succ_of_lt (h.val r this)
  · show r ∈ s.map ++ [s.n]
    by_cases he : r = s.n
    · simp [he]
    · have : s.valid r = true := by simpa [arrive, upd, he] using hr
      simp [h.inmap r this]
  · cases ok
    · exact h.sorted
    · show (s.tasks ++ [s.n]).Pairwise (· < ·)
      refine List.pairwise_append.2 ⟨h.sorted, by simp, fun a ha b hb' => ?_⟩
      simp only [List.mem_singleton] at hb'; subst hb'
      exact ((h.tasks a).1 ha).1
  · rw [l2, l3]
    show _ ↔ r < s.n + 1 ∧ _
    have ht : r ∈ (arrive s c k ok).tasks ↔ r ∈ s.tasks ∨ (ok = true ∧ r = s.n) := by cases ok <;> simp [arrive]
    rw [ht, h.tasks r]
    by_cases he : r = s.n
    · subst he; cases ok <;> simp [hst, hrf]
    · simp only [he, and_false, or_false]
      constructor
      · rintro ⟨h1, h2⟩; exact ⟨by omega, h2⟩
      · rintro ⟨h1, h2⟩; exact ⟨by omega, h2⟩
  · have e1 : EvOk s.log (.arrived s.n c k) := fun r' => h.num r'
    have e2 : EvOk (s.log ++ [.arrived s.n c k]) (.refused s.n) := ⟨⟨c, k, by simp⟩, by simp [hst]⟩
    cases ok
    · exact h.hist.two e1 e2
    · exact h.hist.one e1
  · obtain ⟨a1, a2, a3, a4, a5⟩ := h.sep (Separate.left (r := _) hs)
    have hno : ∀ q ∈ s.map, s.key q ≠ k := by
      intro q hq hk
      obtain ⟨c', k', hx⟩ := (h.num q).2 (h.map q hq)
      have hk' := (h.arr q c' k' hx).2
      rw [hk] at hk'; subst hk'
      have := hs s.log _ s.n c k q c' rfl hx
      obtain ⟨-, b1, b2⟩ := (a3 q).1 hq
      exact this.elim b1 b2
    have hkey : ∀ q ∈ s.map, (arrive s c k ok).key q = s.key q := fun q hq => by
      have := h.map q hq
      have hne : q ≠ s.n := by omega
      simp [arrive, upd, hne]
    have hkn : (arrive s c k ok).key s.n = k := by simp [arrive, upd]
    have hmm : ∀ r, r ∈ (arrive s c k ok).map ↔ r ∈ s.map ∨ r = s.n := fun r => by simp [arrive]
    have hnm : s.n ∉ s.map := fun hx => Nat.lt_irrefl _ (h.map _ hx)
    refine ⟨?_, fun r hr q hq hk => ?_, fun r => ?_, fun r => ?_, fun r hr => ?_⟩
    · show (s.map ++ [s.n]).Nodup
      refine List.nodup_append.2 ⟨a1, by simp, fun a ha b hb' => ?_⟩
      simp only [List.mem_singleton] at hb'; subst hb'
      rintro rfl; exact hnm ha
    · rcases (hmm r).1 hr with hr | rfl <;> rcases (hmm q).1 hq with hq | rfl
      · rw [hkey r hr, hkey q hq] at hk; exact a2 r hr q hq hk
      · rw [hkey r hr, hkn] at hk; exact absurd hk (hno r hr)
      · rw [hkey q hq, hkn] at hk; exact absurd hk.symm (hno q hq)
      · rfl
    · rw [hmm, l4, l6, a3]
      show _ ↔ r < s.n + 1 ∧ _
      by_cases he : r = s.n
      · subst he
        simp only [or_true, true_iff]
        exact ⟨Nat.lt_succ_self _, fun hx => hov (.inl hx), fun hx => hov (.inr (.inl hx))⟩
      · simp only [he, or_false]
        constructor
        · rintro ⟨h1, h2⟩; exact ⟨by omega, h2⟩
        · rintro ⟨h1, h2⟩; exact ⟨by omega, h2⟩
    · rw [hmm, l5]
      by_cases he : r = s.n
      · subst he
        have : (arrive s c k ok).valid s.n = true := by simp [arrive, upd]
        simp only [this, or_true, true_iff, true_and]
        exact fun hx => hov (.inr (.inr hx))
      · have : (arrive s c k ok).valid r = s.valid r := by simp [arrive, upd, he]
        simp only [this, he, or_false]; exact a4 r
    · rw [l7, l8]
      exact a5 r ((l2 r).1 hr)

theorem inv_start {s s' : State} (h : Inv s) {v : Nat} (hs : start s v = some s') : Inv s' := by
  unfold start at hs
  split at hs
  case h_2 => cases hs
  case h_1 r rest ht hv =>
  cases hs
  have hr := (h.tasks r).1 (by rw [ht]; simp)
  have hso := h.sorted
  rw [ht] at hso
  obtain ⟨hlt, hso⟩ := List.pairwise_cons.1 hso
  refine ⟨⟨fun r' c k hx => h.arr r' c k (by simpa using hx), fun r' => by simpa using h.num r', h.map, h.val, h.inmap, hso, fun r' => ?_, fun r' hx => ?_, fun w r' hw => ?_, fun w w' r' hw hw' => ?_, ?_⟩, fun hs => ?_⟩
  · show r' ∈ rest ↔ _
    have := h.tasks r'
    rw [ht] at this
    simp only [List.mem_append, List.mem_singleton, Ev.started.injEq, reduceCtorEq, or_false, not_or] at this ⊢
    by_cases he : r' = r
    · subst he
      simp only [not_true_eq_false, and_false, false_and, iff_false]
      exact fun hx => Nat.lt_irrefl _ (hlt _ hx)
    · simp only [List.mem_cons, he, false_or] at this
      rw [this]; simp [he]
  · simp only [List.mem_append, List.mem_singleton, Ev.started.injEq] at hx
    rcases hx with hx | rfl
    · exact h.began r' hx
    · exact hr.1
  · simp only [upd] at hw
    split at hw
    · cases hw; simp
    · simp [h.held w r' hw]
  · have hne : ∀ u, s.var u ≠ some (some r) := fun u hu => hr.2.1 (h.held u r hu)
    simp only [upd] at hw hw'
    split at hw <;> split at hw'
    · rename_i e1 e2; rw [e1, e2]
    · cases hw; exact absurd hw' (hne w')
    · cases hw'; exact absurd hw (hne w)
    · exact h.one w w' r' hw hw'
  · refine h.hist.one ⟨(h.num r).2 hr.1, hr.2.1, hr.2.2, fun r' hl => ?_⟩
    by_cases h1 : .refused r' ∈ s.log
    · exact .inl h1
    · by_cases h2 : .started r' ∈ s.log
      · exact .inr h2
      · have := (h.tasks r').2 ⟨Nat.lt_trans hl hr.1, h2, h1⟩
        rw [ht] at this
        rcases List.mem_cons.1 this with rfl | hx
        · exact absurd hl (Nat.lt_irrefl _)
        · exact absurd (hlt r' hx) (by omega)
  · obtain ⟨a1, a2, a3, a4, a5⟩ := h.sep hs.left
    refine ⟨a1, a2, fun r' => ?_, fun r' => ?_, fun r' hr' => ?_⟩
    · simpa [Answered] using a3 r'
    · simpa using a4 r'
    · simp only [List.mem_append, List.mem_singleton, Ev.started.injEq] at hr'
      rcases hr' with hr' | rfl
      · rcases a5 r' hr' with ⟨w, hw⟩ | hx | hx
        · refine .inl ⟨w, ?_⟩
          have : w ≠ v := by rintro rfl; rw [hv] at hw; cases hw
          simp [upd, this, hw]
        · exact .inr (.inl (by simp [hx]))
        · exact .inr (.inr hx.app)
      · exact .inl ⟨v, by simp [upd]⟩

/-- Steps that only change variables. -/
theorem inv_vars {s : State} (h : Inv s) {f : Nat → Option (Option Nat)} {es : List Ev}
    (he : ∀ e ∈ es, ∃ r v, e = .overwritten r ∧ s.var v = some (some r))
    (hold : ∀ w r, f w = some (some r) → ∃ u, s.var u = some (some r))
    (hone : ∀ w w' r, f w = some (some r) → f w' = some (some r) → w = w')
    (hcov : Separate s.log → ∀ u r, s.var u = some (some r) → (∃ w, f w = some (some r)) ∨ .overwritten r ∈ es ∨ Over s.log r) :
    Inv { s with var := f, log := s.log ++ es } := by
  have key : ∀ e, (∀ r, e ≠ .overwritten r) → (e ∈ s.log ++ es ↔ e ∈ s.log) := fun e hne => by
    simp only [List.mem_append]
    refine ⟨fun hx => hx.elim id fun hx => ?_, .inl⟩
    obtain ⟨r, v, rfl, -⟩ := he e hx
    exact absurd rfl (hne r)
  have k1 : ∀ r c k, .arrived r c k ∈ s.log ++ es ↔ .arrived r c k ∈ s.log := fun r c k => key _ (by simp)
  have k2 : ∀ r, .started r ∈ s.log ++ es ↔ .started r ∈ s.log := fun r => key _ (by simp)
  have k3 : ∀ r, .refused r ∈ s.log ++ es ↔ .refused r ∈ s.log := fun r => key _ (by simp)
  have k4 : ∀ r, .aborted r ∈ s.log ++ es ↔ .aborted r ∈ s.log := fun r => key _ (by simp)
  have k5 : ∀ r, .ended r ∈ s.log ++ es ↔ .ended r ∈ s.log := fun r => key _ (by simp)
  have k6 : ∀ r, Answered (s.log ++ es) r ↔ Answered s.log r := fun r =>
    ⟨fun ⟨c, k, a, hx⟩ => ⟨c, k, a, (key _ (by simp)).1 hx⟩, fun ⟨c, k, a, hx⟩ => ⟨c, k, a, (key _ (by simp)).2 hx⟩⟩
  have hh : ∀ es, (∀ e ∈ es, ∃ r v, e = .overwritten r ∧ s.var v = some (some r)) → Hist EvOk (s.log ++ es) := by
    refine snoc_induct (fun _ => by simpa using h.hist) (fun l e ih hx => ?_)
    rw [← List.append_assoc]
    refine (ih fun e' he' => hx e' (by simp [he'])).one ?_
    obtain ⟨r, v, rfl, hv⟩ := hx e (by simp)
    show .started r ∈ s.log ++ l
    simp [h.held v r hv]
  refine ⟨⟨fun r c k hx => h.arr r c k ((k1 r c k).1 hx), fun r => ?_, h.map, h.val, h.inmap, h.sorted, fun r => ?_, fun r hx => h.began r ((k2 r).1 hx), fun v r hv => ?_, hone, hh es he⟩, fun hs => ?_⟩
  · simp only [k1]; exact h.num r
  · simp only [k2, k3]; exact h.tasks r
  · obtain ⟨u, hu⟩ := hold v r hv
    exact (k2 r).2 (h.held u r hu)
  · obtain ⟨a1, a2, a3, a4, a5⟩ := h.sep hs.left
    refine ⟨a1, a2, fun r => ?_, fun r => ?_, fun r hr => ?_⟩
    · simp only [k6, k4]; exact a3 r
    · simp only [k5]; exact a4 r
    · rcases a5 r ((k2 r).1 hr) with ⟨u, hu⟩ | hx | hx
      · rcases hcov hs.left u r hu with hy | hy | hy
        · exact .inl hy
        · exact .inr (.inl (by simp [hy]))
        · exact .inr (.inr hy.app)
      · exact .inr (.inl (by simp [hx]))
      · exact .inr (.inr hx.app)

theorem inv_vars' {s : State} (h : Inv s) {f : Nat → Option (Option Nat)}
    (hold : ∀ w r, f w = some (some r) → ∃ u, s.var u = some (some r))
    (hone : ∀ w w' r, f w = some (some r) → f w' = some (some r) → w = w')
    (hcov : Separate s.log → ∀ u r, s.var u = some (some r) → (∃ w, f w = some (some r)) ∨ Over s.log r) :
    Inv { s with var := f } := by
  have := inv_vars h (f := f) (es := []) (by simp) hold hone (fun hs u r hu => (hcov hs u r hu).elim .inl fun x => .inr (.inr x))
  simpa using this

/-- A variable is set to something that is no request. -/
theorem inv_clear {s : State} (h : Inv s) {v : Nat} {x : Option (Option Nat)} (hx : ∀ r, x ≠ some (some r)) (hv : Separate s.log → ∀ r, s.var v = some (some r) → Over s.log r) :
    Inv { s with var := upd s.var v x } := by
  have ha : ∀ w r, upd s.var v x w = some (some r) → s.var w = some (some r) := fun w r hw => by
    simp only [upd] at hw
    split at hw
    · exact absurd hw (hx r)
    · exact hw
  refine inv_vars' h (fun w r hw => ⟨w, ha w r hw⟩) (fun w w' r hw hw' => h.one w w' r (ha w r hw) (ha w' r hw')) (fun hs u r hu => ?_)
  by_cases he : u = v
  · subst he; exact .inr (hv hs r hu)
  · exact .inl ⟨u, by simp [upd, he, hu]⟩

/-- The content of `v` goes to `w`. -/
theorem swap_hold {s : State} {v w : Nat} {d : Option Nat} (hv : s.var v = some d) (x r : Nat) (hx : upd (upd s.var v (some none)) w (some d) x = some (some r)) :
    (x = w ∧ s.var v = some (some r)) ∨ (x ≠ w ∧ x ≠ v ∧ s.var x = some (some r)) := by
  simp only [upd] at hx
  split at hx
  · rename_i e; cases hx; exact .inl ⟨e, hv⟩
  · split at hx
    · cases hx
    · rename_i e1 e2; exact .inr ⟨e1, e2, hx⟩

theorem inv_swap {s : State} (h : Inv s) {v w : Nat} {d : Option Nat} {es : List Ev} (hv : s.var v = some d) (hne : v ≠ w) (he : ∀ e ∈ es, ∃ r, e = .overwritten r ∧ s.var w = some (some r)) (hw : ∀ r, s.var w = some (some r) → .overwritten r ∈ es) :
    Inv { s with var := upd (upd s.var v (some none)) w (some d), log := s.log ++ es } := by
  refine inv_vars h (fun e hx => ?_) (fun x r hx => ?_) (fun x x' r hx hx' => ?_) (fun _ u r hu => ?_)
  · obtain ⟨r, h1, h2⟩ := he e hx
    exact ⟨r, w, h1, h2⟩
  · rcases swap_hold hv x r hx with ⟨-, h1⟩ | ⟨-, -, h1⟩
    · exact ⟨v, h1⟩
    · exact ⟨x, h1⟩
  · rcases swap_hold hv x r hx with ⟨h0, h1⟩ | ⟨h0, h0', h1⟩ <;> rcases swap_hold hv x' r hx' with ⟨h2, h3⟩ | ⟨h2, h2', h3⟩
    · rw [h0, h2]
    · exact absurd (h.one v x' r h1 h3).symm h2'
    · exact absurd (h.one x v r h1 h3) h0'
    · exact h.one x x' r h1 h3
  · by_cases h1 : u = w
    · subst h1; exact .inr (.inl (hw r hu))
    · by_cases h2 : u = v
      · subst h2
        rw [hv] at hu
        exact .inl ⟨w, by simp [upd, hu]⟩
      · exact .inl ⟨u, by simp [upd, h1, h2, hu]⟩

theorem inv_assign {s s' : State} (h : Inv s) {v w : Nat} (hs : assign s v w = some s') : Inv s' := by
  unfold assign at hs
  split at hs
  case h_2 => cases hs
  case h_1 d e hv hw =>
  split at hs
  · cases hs; exact h
  case isFalse hne =>
  cases hs
  refine inv_swap h hv hne (fun x hx => ?_) (fun r hr => ?_)
  · cases e with
    | none => simp [lost] at hx
    | some r => simp only [lost, List.mem_singleton] at hx; exact ⟨r, hx, hw⟩
  · rw [hw] at hr; cases hr; simp [lost]

theorem inv_move {s s' : State} (h : Inv s) {v w : Nat} (hs : move s v w = some s') : Inv s' := by
  unfold move at hs
  split at hs
  case h_2 => cases hs
  case h_1 d hv hw =>
  cases hs
  have := inv_swap h (w := w) (es := []) hv (by rintro rfl; rw [hv] at hw; cases hw) (by simp) (fun r hr => by rw [hw] at hr; cases hr)
  simpa using this

theorem mem_erase_ne {l : List Nat} (h : l.Nodup) (a r : Nat) : r ∈ l.erase a ↔ r ∈ l ∧ r ≠ a := by
  rw [List.Nodup.mem_erase_iff h]; exact And.comm

/-- A request is completed and taken out of the map. -/
theorem inv_over {s : State} (h : Inv s) {q r : Nat} {es : List Ev}
    (hq : Separate s.log → q = r) (he : ∀ e ∈ es, (∃ c k a, e = .answered r c k a) ∨ e = .aborted r ∨ Quiet e) (hx : ∃ e ∈ es, (∃ c k a, e = .answered r c k a) ∨ e = .aborted r) (hh : Hist EvOk (s.log ++ es)) :
    Inv { s with valid := upd s.valid q false, map := s.map.erase q, log := s.log ++ es } := by
  have key : ∀ e, (∀ r c k a, e ≠ .answered r c k a) → (∀ r, e ≠ .aborted r) → ¬ Quiet e → (e ∈ s.log ++ es ↔ e ∈ s.log) := fun e n1 n2 n3 => by
    simp only [List.mem_append]
    refine ⟨fun hx => hx.elim id fun hx => ?_, .inl⟩
    rcases he e hx with ⟨c, k, a, rfl⟩ | rfl | hx
    · exact absurd rfl (n1 _ c k a)
    · exact absurd rfl (n2 _)
    · exact absurd hx n3
  have k1 : ∀ r c k, .arrived r c k ∈ s.log ++ es ↔ .arrived r c k ∈ s.log := fun r c k => key _ (by simp) (by simp) id
  have k2 : ∀ r, .started r ∈ s.log ++ es ↔ .started r ∈ s.log := fun r => key _ (by simp) (by simp) id
  have k3 : ∀ r, .refused r ∈ s.log ++ es ↔ .refused r ∈ s.log := fun r => key _ (by simp) (by simp) id
  have k5 : ∀ r, .ended r ∈ s.log ++ es ↔ .ended r ∈ s.log := fun r => key _ (by simp) (by simp) id
  have k7 : ∀ r, .overwritten r ∈ s.log ++ es ↔ .overwritten r ∈ s.log := fun r => key _ (by simp) (by simp) id
  have k8 : ∀ r', ¬ (Answered (s.log ++ es) r' ∨ .aborted r' ∈ s.log ++ es) ↔ ¬ (Answered s.log r' ∨ .aborted r' ∈ s.log) ∧ r' ≠ r := fun r' => by
    constructor
    · intro hn
      refine ⟨fun hy => hn (hy.elim (fun hy => .inl (Answered.app.2 (.inl hy))) fun hy => .inr (by simp [hy])), ?_⟩
      rintro rfl
      obtain ⟨e, h1, ⟨c, k, a, rfl⟩ | rfl⟩ := hx
      · exact hn (.inl ⟨c, k, a, by simp [h1]⟩)
      · exact hn (.inr (by simp [h1]))
    · rintro ⟨hn, hne⟩ hy
      rcases hy with hy | hy
      · rcases Answered.app.1 hy with hy | ⟨c, k, a, hy⟩
        · exact hn (.inl hy)
        · rcases he _ hy with ⟨c', k', a', h1⟩ | h1 | h1
          · cases h1; exact hne rfl
          · cases h1
          · exact h1
      · rcases List.mem_append.1 hy with hy | hy
        · exact hn (.inr hy)
        · rcases he _ hy with ⟨c', k', a', h1⟩ | h1 | h1
          · cases h1
          · cases h1; exact hne rfl
          · exact h1
  have kov : Over (s.log ++ es) r := by
    have := mt (k8 r).1 (fun hy => hy.2 rfl)
    rcases Classical.not_not.1 this with h1 | h1
    · exact .inl h1
    · exact .inr (.inl h1)
  refine ⟨⟨fun r' c k hx => h.arr r' c k ((k1 r' c k).1 hx), fun r' => ?_, fun r' hr' => h.map r' (List.mem_of_mem_erase hr'), fun r' hr' => ?_, fun r' hr' => ?_, h.sorted, fun r' => ?_, fun r' hx => h.began r' ((k2 r').1 hx), fun v r' hv => (k2 r').2 (h.held v r' hv), h.one, hh⟩, fun hs => ?_⟩
  · simp only [k1]; exact h.num r'
  · simp only [upd] at hr'
    split at hr'
    · cases hr'
    · exact h.val r' hr'
  · simp only [upd] at hr'
    split at hr'
    · cases hr'
    · rename_i hne
      exact (List.mem_erase_of_ne hne).2 (h.inmap r' hr')
  · simp only [k2, k3]; exact h.tasks r'
  · obtain ⟨a1, a2, a3, a4, a5⟩ := h.sep hs.left
    have := hq hs.left; subst this
    refine ⟨a1.erase _, fun r' hr' q' hq' => a2 r' (List.mem_of_mem_erase hr') q' (List.mem_of_mem_erase hq'), fun r' => ?_, fun r' => ?_, fun r' hr' => ?_⟩
    · show r' ∈ s.map.erase q ↔ r' < s.n ∧ _
      rw [mem_erase_ne a1, a3, ← not_or, ← not_or, k8, and_assoc]
    · show upd s.valid q false r' = true ↔ r' ∈ s.map.erase q ∧ _
      rw [mem_erase_ne a1, k5]
      by_cases hne : r' = q
      · simp [upd, hne]
      · simp only [upd, hne, ite_false, ne_eq, not_false_eq_true, and_true]; exact a4 r'
    · simp only [k7]
      rcases a5 r' ((k2 r').1 hr') with hy | hy | hy
      · exact .inl hy
      · exact .inr (.inl hy)
      · exact .inr (.inr hy.app)

/-- A valid request that a variable holds is answered. -/
theorem inv_finish {s : State} (h : Inv s) {v r : Nat} (hv : s.var v = some (some r)) (hr : s.valid r = true) (a : Answer) :
    Inv (finish s r a) ∧ (finish s r a).var = s.var ∧ (Separate (finish s r a).log → Over (finish s r a).log r) := by
  have hst := h.held v r hv
  obtain ⟨c, k, hx⟩ := (h.num r).2 (h.val r hr)
  obtain ⟨rfl, rfl⟩ := h.arr r c k hx
  unfold finish
  split
  case h_1 hl =>
    exact absurd hl (lookup_valid h.toBase hr)
  case h_2 q hl =>
    have e1 : EvOk s.log (.answered r (s.client r) (s.key r) a) := ⟨hx, hst, fun hs => not_over (h.sep hs) hr⟩
    refine ⟨inv_over (r := r) h (fun hs => ?_) (fun e he => ?_) ⟨_, List.mem_cons_self, .inl ⟨_, _, _, rfl⟩⟩ ?_, rfl, fun _ => .inl ⟨s.client r, s.key r, a, by simp⟩⟩
    · rw [lookup_self (h.sep hs) hr] at hl; exact (Option.some.inj hl).symm
    · rcases List.mem_cons.1 he with rfl | he
      · exact .inl ⟨_, _, _, rfl⟩
      · unfold returns at he
        split at he
        · cases he
        · simp only [List.mem_singleton] at he; subst he; exact .inr (.inr trivial)
    · unfold returns
      split
      · exact h.hist.one e1
      · rename_i hne; exact h.hist.two e1 ⟨s.log, _, _, a, rfl, hne⟩

theorem inv_respond {s s' : State} (h : Inv s) {v : Nat} {a : Answer} (hs : respond s v a = some s') : Inv s' := by
  unfold respond at hs
  split at hs
  · cases hs
  · cases hs; exact inv_ub h true
  · rename_i r hv
    split at hs
    · rename_i hr; cases hs; exact (inv_finish h hv hr a).1
    · rename_i hr
      cases hs
      exact inv_quiet (ub := s.ub) h (by simp [Quiet]) (h.hist.one fun hs => over (h.sep hs) (h.began r (h.held v r hv)) (by simpa using hr))

theorem inv_update {s s' : State} (h : Inv s) {v : Nat} (hs : update s v = some s') : Inv s' := by
  unfold update at hs
  split at hs
  · cases hs
  · cases hs; exact inv_ub h true
  · rename_i r hv
    have hst := h.held v r hv
    split at hs
    · rename_i hr
      cases hs
      exact inv_quiet (ub := s.ub) h (by simp [Quiet]) (h.hist.one fun hs => over (h.sep hs) (h.began r hst) hr)
    · rename_i hr
      have hr : s.valid r = true := by simpa using hr
      obtain ⟨c, k, hx⟩ := (h.num r).2 (h.val r hr)
      obtain ⟨rfl, rfl⟩ := h.arr r c k hx
      split at hs
      · cases hs
        exact inv_quiet (ub := s.ub) h (by simp [Quiet]) (h.hist.two ⟨hx, hst, fun hs => not_over (h.sep hs) hr⟩ ⟨s.log, _, _, rfl⟩)
      · rename_i hl
        cases hs
        exact inv_quiet (ub := s.ub) h (by simp [Quiet]) (h.hist.one (hl (Option.isSome_iff_ne_none.2 (lookup_valid h.toBase hr))))

theorem inv_destroy {s s' : State} (h : Inv s) {v : Nat} (hs : destroy s v = some s') : Inv s' := by
  unfold destroy at hs
  split at hs
  · cases hs
  · rename_i hv
    cases hs
    exact inv_clear h (by simp) (fun _ r hr => by rw [hv] at hr; cases hr)
  · rename_i r hv
    split at hs
    · rename_i hr
      cases hs
      obtain ⟨h1, h2, h3⟩ := inv_finish h hv hr .ignored
      have := inv_clear h1 (v := v) (x := none) (by simp) (fun hs r' hr' => by rw [h2, hv] at hr'; cases hr'; exact h3 hs)
      rwa [h2] at this
    · rename_i hr
      cases hs
      exact inv_clear h (by simp) (fun hs r' hr' => by rw [hv] at hr'; cases hr'; exact over (h.sep hs) (h.began r (h.held v r hv)) (by simpa using hr))

theorem inv_abort {s : State} (h : Inv s) (k : Key) : Inv (abort s k) := by
  unfold abort
  split
  · exact h
  · rename_i q hl
    have hm := (lookup_some hl).1
    refine inv_over (r := q) h (fun _ => rfl) (by simp) ⟨_, List.mem_cons_self, .inr rfl⟩ (h.hist.one ⟨(h.num q).2 (h.map q hm), fun hs => ?_⟩)
    obtain ⟨-, h1, h2⟩ := ((h.sep hs).open_ q).1 hm
    exact ⟨h1, h2⟩

theorem inv_deinit {s : State} (h : Inv s) : Inv (deinit s) := by
  have key : ∀ e, (∀ r, e ≠ .ended r) → (e ∈ s.log ++ s.map.map .ended ↔ e ∈ s.log) := fun e hne => by
    simp only [List.mem_append, List.mem_map]
    refine ⟨fun hx => hx.elim id fun ⟨r, _, hx⟩ => absurd hx.symm (hne r), .inl⟩
  have k1 : ∀ r c k, .arrived r c k ∈ (deinit s).log ↔ .arrived r c k ∈ s.log := fun r c k => key _ (by simp)
  have k2 : ∀ r, .started r ∈ (deinit s).log ↔ .started r ∈ s.log := fun r => key _ (by simp)
  have k3 : ∀ r, .refused r ∈ (deinit s).log ↔ .refused r ∈ s.log := fun r => key _ (by simp)
  have k4 : ∀ r, .aborted r ∈ (deinit s).log ↔ .aborted r ∈ s.log := fun r => key _ (by simp)
  have k5 : ∀ r, .ended r ∈ (deinit s).log ↔ .ended r ∈ s.log ∨ r ∈ s.map := fun r => by simp [deinit]
  have k6 : ∀ r, Answered (deinit s).log r ↔ Answered s.log r := fun r =>
    ⟨fun ⟨c, k, a, hx⟩ => ⟨c, k, a, (key _ (by simp)).1 hx⟩, fun ⟨c, k, a, hx⟩ => ⟨c, k, a, (key _ (by simp)).2 hx⟩⟩
  have k7 : ∀ r, .overwritten r ∈ (deinit s).log ↔ .overwritten r ∈ s.log := fun r => key _ (by simp)
  have hh : ∀ l : List Nat, (∀ r ∈ l, r ∈ s.map) → Hist EvOk (s.log ++ l.map .ended) := by
    refine snoc_induct (fun _ => by simpa using h.hist) (fun l e ih hx => ?_)
    rw [List.map_append, ← List.append_assoc]
    refine (ih fun e' he' => hx e' (by simp [he'])).one ?_
    have hm := hx e (by simp)
    obtain ⟨c, k, hy⟩ := (h.num e).2 (h.map e hm)
    refine ⟨⟨c, k, by simp [hy]⟩, fun hs => ?_⟩
    obtain ⟨-, h1, h2⟩ := ((h.sep hs.left).open_ e).1 hm
    refine ⟨fun hz => (Answered.app.1 hz).elim h1 (by simp [Answered]), by simp [h2]⟩
  refine ⟨⟨fun r c k hx => h.arr r c k ((k1 r c k).1 hx), fun r => ?_, h.map, fun r hr => ?_, fun r hr => ?_, h.sorted, fun r => ?_, fun r hx => h.began r ((k2 r).1 hx), fun v r hv => (k2 r).2 (h.held v r hv), h.one, hh s.map fun _ => id⟩, fun hs => ?_⟩
  · simp only [k1]; exact h.num r
  · simp only [deinit, Bool.and_eq_true] at hr; exact h.val r hr.1
  · simp only [deinit, Bool.and_eq_true] at hr; exact h.inmap r hr.1
  · simp only [k2, k3]; exact h.tasks r
  · obtain ⟨a1, a2, a3, a4, a5⟩ := h.sep (Separate.left (r := _) hs)
    refine ⟨a1, a2, fun r => ?_, fun r => ?_, fun r hr => ?_⟩
    · simp only [k6, k4]; exact a3 r
    · rw [k5]
      have : (deinit s).valid r = true ↔ s.valid r = true ∧ r ∉ s.map := by simp [deinit]
      rw [this, a4 r]
      show _ ↔ r ∈ s.map ∧ _
      by_cases hm : r ∈ s.map <;> simp [hm]
    · simp only [k7]
      rcases a5 r ((k2 r).1 hr) with hy | hy | hy
      · exact .inl hy
      · exact .inr (.inl hy)
      · exact .inr (.inr hy.app)

theorem inv_body {s s' : State} (h : Inv s) {a : Act} (hs : body s a = some s') : Inv s' := by
  cases a with
  | arrive c k ok => cases hs; exact inv_arrive h c k ok
  | start v => exact inv_start h hs
  | respond v err => exact inv_respond h hs
  | update v => exact inv_update h hs
  | destroy v => exact inv_destroy h hs
  | assign v w => exact inv_assign h hs
  | move v w => exact inv_move h hs
  | new v =>
    simp only [body] at hs
    split at hs
    · rename_i hv
      cases hs
      exact inv_clear h (by simp) (fun _ r hr => by rw [hr] at hv; cases hv)
    · cases hs
  | abort k => cases hs; exact inv_abort h k
  | deinit => cases hs; exact inv_deinit h

theorem inv_step {s s' : State} (h : Inv s) {a : Act} (hs : step s a = some s') : Inv s' := by
  unfold step at hs
  split at hs
  · cases hs
  · exact inv_body h hs

theorem inv_run : ∀ (as : List Act) {s s' : State}, Inv s → run s as = some s' → Inv s'
  | [], _, _, h, hr => by cases hr; exact h
  | a :: as, s, s', h, hr => by
    simp only [run] at hr
    obtain ⟨s1, h1, h2⟩ := Option.bind_eq_some_iff.1 hr
    exact inv_run as (inv_step h h1) h2

theorem Log.hist {l : List Ev} (h : Log l) : Hist EvOk l := by
  obtain ⟨as, s, hr, rfl⟩ := h
  exact (inv_run as inv_init hr).hist

end Maf.Hdl
