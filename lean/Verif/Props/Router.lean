import Verif.Lemmas.RouterHistory
/-
C21, C22, C61: routing between processors.
-/
namespace Maf.Route

/-! ### Lemmas on histories -/

theorem idIn_keep {p : Pid} {id : Id} (l : List Ev) : ∀ {o : Option Id}, o ≠ none → l.foldl (idStep p) o ≠ none := by
  induction l with
  | nil => intro o h; exact h
  | cons e l ih =>
    intro o h
    rw [List.foldl_cons]
    apply ih
    cases e <;> simp [idStep, h]
    split <;> simp_all

theorem idIn_made {l : List Ev} {t : Tid} {p : Pid} {id : Id} (h : Ev.made t p id ∈ l) : idIn l p ≠ none := by
  obtain ⟨a, b, rfl⟩ := List.append_of_mem h
  rw [idIn_append, List.foldl_cons]
  exact idIn_keep (id := id) b (by simp [idStep])

theorem made_once {log a b a' b' : List Ev} {t t' : Tid} {p : Pid} {id id' : Id} (h : Hist EvOk log)
    (h1 : log = a ++ .made t p id :: b) (h2 : log = a' ++ .made t' p id' :: b') : a = a' ∧ t = t' ∧ id = id' := by
  rcases places (h1.symm.trans h2) with ⟨k1, k2, -⟩ | ⟨c, k1, -⟩ | ⟨c, k1, -⟩
  · cases k2; exact ⟨k1, rfl, rfl⟩
  · have := h.all a' _ _ h2
    simp only [EvOk] at this
    exact absurd this (idIn_made (t := t) (id := id) (by rw [k1]; simp))
  · have := h.all a _ _ h1
    simp only [EvOk] at this
    exact absurd this (idIn_made (t := t') (id := id') (by rw [k1]; simp))

theorem idIn_of_made {log l r : List Ev} {t : Tid} {p : Pid} {id : Id} (h : Hist EvOk log) (hl : log = l ++ r) (hm : Ev.made t p id ∈ l) : idIn l p = some id := by
  obtain ⟨a, b, rfl⟩ := List.append_of_mem hm
  have hno : ∀ e ∈ b, ∀ u id', e ≠ .made u p id' := by
    rintro e he u id' rfl
    obtain ⟨c, d, rfl⟩ := List.append_of_mem he
    have := made_once (t := t) (p := p) (id := id) (id' := id') (a := a) (b := c ++ .made u p id' :: d ++ r) (a' := a ++ .made t p id :: c) (t' := u) (b' := d ++ r) h (by rw [hl]; simp) (by rw [hl]; simp)
    have := congrArg List.length this.1
    simp at this
  rw [idIn_append, List.foldl_cons]
  have : idStep p (idIn a p) (.made t p id) = some id := by simp [idStep]
  rw [this]
  clear this hl hm
  induction b with
  | nil => rfl
  | cons e b ih =>
    rw [List.foldl_cons]
    have he := hno e (by simp)
    have : idStep p (some id) e = some id := by
      cases e <;> simp [idStep] at he ⊢
      intro e; exact absurd e.symm (by intro e; exact he e.symm)
    rw [this]
    exact ih fun e' h' => hno e' (by simp [h'])

theorem steady_joined {l1 l2 : List Ev} (h : Steady l2) : joinedIn (l1 ++ l2) = joinedIn l1 := by
  rw [joinedIn_append]
  generalize joinedIn l1 = acc
  induction l2 generalizing acc with
  | nil => rfl
  | cons e l2 ih =>
    rw [List.foldl_cons]
    have he := h e (by simp)
    have : joinStep acc e = acc := by
      cases e <;> simp [joinStep] at he ⊢
    rw [this]
    exact ih (fun e' h' => h e' (by simp [h'])) acc

/-! ## C21 -/

/-- C21: at any time, joined processors have pairwise different ids. -/
theorem joined_unique {as : List Act} {s : State} (hr : run init as = some s) :
    (joinedIn s.log).Pairwise fun p q => idIn s.log p ≠ idIn s.log q := by
  have h := reached hr
  have hlt : ∀ x ∈ s.joined, x < s.nextP := fun x hx => h.own.kn x (h.own.jk x hx).1
  rw [h.abs.joined]
  have := List.pairwise_map.1 h.own.nodup
  refine this.imp_of_mem ?_
  intro p q hp hq hne
  rw [h.abs.ids, h.abs.ids, if_pos (hlt p hp), if_pos (hlt q hq)]
  simpa using hne

/-- C21: anonymous processors never join. -/
theorem joined_named {as : List Act} {s : State} (hr : run init as = some s) :
    ∀ p ∈ joinedIn s.log, ∃ n, idIn s.log p = some (.name n) := by
  have h := reached hr
  intro p hp
  rw [h.abs.joined] at hp
  obtain ⟨k1, n, k2⟩ := h.own.jk p hp
  exact ⟨n, by rw [h.abs.ids, if_pos (h.own.kn p k1), k2]⟩

/-- C21: an anonymous id is never found: posting to it returns false. -/
theorem anonymous_unreachable {as : List Act} {s : State} (hr : run init as = some s) {t : Tid} {n : Nat} :
    (∀ p, Ev.lookup t (.anon n) (some p) ∉ s.log) ∧ ∀ m, Ev.result t (.anon n) m true ∉ s.log := by
  have h := reached hr
  constructor
  · intro p hm
    obtain ⟨l, l', he⟩ := List.append_of_mem hm
    obtain ⟨-, -, k, hk⟩ := h.hist.all _ _ _ he
    cases hk
  · intro m hm
    obtain ⟨l, l', he⟩ := List.append_of_mem hm
    rcases h.hist.all _ _ _ he with ⟨l1, l2, p, k, -⟩ | ⟨k, -⟩
    · obtain ⟨-, -, k, hk⟩ := h.hist.all l1 (.lookup t (.anon n) (some p)) (l2 ++ .handed t p m true :: .result t (.anon n) m true :: l') (by rw [he, k]; simp)
      cases hk
    · cases k

/-- C21: `create` with a name returns null only if it has found a joined processor with that id;
if it returns a processor, the processor is joined and alone with the id, or, the case the
property does not allow, another thread has joined with the id after this one looked. -/
theorem create_result {as : List Act} {s : State} (hr : run init as = some s) {t : Tid} {p : Pid} {n : Nat} {ok : Bool} {l1 l2 l3 : List Ev}
    (he : s.log = l1 ++ .made t p (.name n) :: l2 ++ .created t p ok :: l3) :
    (ok = false ∧ ∃ c q, l2 = c ++ [.lookup t (.name n) (some q)] ∧ q ∈ joinedIn (l1 ++ .made t p (.name n) :: c) ∧
      idIn (l1 ++ .made t p (.name n) :: c) q = some (.name n)) ∨
    (ok = true ∧ ∃ c, l2 = c ++ [.joined t p] ∧ ∀ q ∈ joinedIn (l1 ++ .made t p (.name n) :: c), idIn (l1 ++ .made t p (.name n) :: c) q ≠ some (.name n)) ∨
    (ok = true ∧ ∃ a b u q, l2 = a ++ .lookup t (.name n) none :: b ∧ (∀ q ∈ joinedIn (l1 ++ .made t p (.name n) :: a), idIn (l1 ++ .made t p (.name n) :: a) q ≠ some (.name n)) ∧
      Ev.joined u q ∈ b ∧ idIn (l1 ++ .made t p (.name n) :: l2) q = some (.name n)) := by
  have h := (reached hr).hist
  have he' : s.log = (l1 ++ .made t p (.name n) :: l2) ++ .created t p ok :: l3 := by rw [he]
  have hm : s.log = l1 ++ .made t p (.name n) :: (l2 ++ .created t p ok :: l3) := by rw [he]; simp
  -- the place of `made` in a prefix that ends with an event other than `made`
  have split : ∀ {c d : List Ev} {e : Ev} {k : Nat}, l1 ++ .made t p (.name n) :: l2 = c ++ e :: d → LastOf c t (.made t p (.name k)) →
      k = n ∧ ∃ c', c = l1 ++ .made t p (.name n) :: c' ∧ l2 = c' ++ e :: d := by
    intro c d e k hc hlast
    obtain ⟨x, y, hxy, -⟩ := hlast
    obtain ⟨rfl, -, k2⟩ := made_once (t := t) (a := x) (b := y ++ e :: d ++ .created t p ok :: l3) (id := .name k) h (by rw [he', hc, hxy]; simp) hm
    cases k2
    refine ⟨rfl, y, hxy, ?_⟩
    rw [hxy] at hc
    simpa using hc
  have hk := h.all _ _ _ he'
  cases ok with
  | false =>
    obtain ⟨l', id, q, k1, k2⟩ := hk
    left
    refine ⟨rfl, ?_⟩
    obtain ⟨x, y, hxy, -⟩ := k2
    obtain ⟨rfl, -, k3⟩ := made_once (t := t) (a := x) (b := y ++ .lookup t id (some q) :: .created t p false :: l3) (id := id) h (by rw [he', k1, hxy]; simp) hm
    subst k3
    have k4 : l2 = y ++ [.lookup t (.name n) (some q)] := by rw [hxy] at k1; simpa using k1
    have k5 := h.all l' (.lookup t (.name n) (some q)) (.created t p false :: l3) (by rw [he', k1]; simp)
    rw [hxy] at k5
    exact ⟨y, q, k4, k5.1, k5.2.1⟩
  | true =>
    right
    rcases hk with ⟨l', ⟨k, k1⟩ | k1 | k1⟩
    · obtain ⟨-, -, k3⟩ := made_once (t := t) (a := l') (b := .created t p true :: l3) (id := .anon k) h (by rw [he', k1]; simp) hm
      cases k3
    · left
      refine ⟨rfl, ?_⟩
      obtain ⟨m0, m1, m2, m3, k, b, e1, e2, e3, -, -, e6⟩ := h.all l' (.joined t p) (.created t p true :: l3) (by rw [he', k1]; simp)
      obtain ⟨rfl, c', hc, hc'⟩ := split (c := m0) (e := .lookup t (.name k) none) (d := m1 ++ .sweepBegin t (.status p true) :: m2 ++ [.sweepEnd t (.status p true) b] ++ [.joined t p])
        (by rw [k1, e1]; simp) e3
      have : l' = l1 ++ .made t p (.name k) :: (c' ++ .lookup t (.name k) none :: (m1 ++ .sweepBegin t (.status p true) :: m2 ++ [.sweepEnd t (.status p true) b])) := by
        rw [e1, hc]; simp
      refine ⟨c' ++ .lookup t (.name k) none :: (m1 ++ .sweepBegin t (.status p true) :: m2 ++ [.sweepEnd t (.status p true) b]), by rw [hc']; simp, ?_⟩
      rw [← this]; exact e6
    · right
      refine ⟨rfl, ?_⟩
      obtain ⟨m1, m2, k, u, q, e1, e2, e3, e4, e5⟩ := h.all l' (.refused t p) (.created t p true :: l3) (by rw [he', k1]; simp)
      obtain ⟨rfl, c', hc, hc'⟩ := split (c := m1) (e := .lookup t (.name k) none) (d := m2 ++ [.refused t p]) (by rw [k1, e1]; simp) e3
      have k5 := h.all m1 (.lookup t (.name k) none) (m2 ++ .refused t p :: .created t p true :: l3) (by rw [he', k1, e1]; simp)
      refine ⟨c', m2 ++ [.refused t p], u, q, hc', by rw [← hc]; exact k5, by simp [e4], ?_⟩
      rw [k1]; simpa [idStep] using e5

/-- C21: an id that is in use from the call of `create` to its return makes it return null. -/
theorem create_in_use_null {as : List Act} {s : State} (hr : run init as = some s) {t : Tid} {p : Pid} {n : Nat} {ok : Bool} {l1 l2 l3 : List Ev}
    (he : s.log = l1 ++ .made t p (.name n) :: l2 ++ .created t p ok :: l3)
    (hu : ∀ a b, l2 = a ++ b → ∃ q ∈ joinedIn (l1 ++ .made t p (.name n) :: a), q ≠ p ∧ idIn (l1 ++ .made t p (.name n) :: a) q = some (.name n)) : ok = false := by
  rcases create_result hr he with ⟨h, -⟩ | ⟨-, c, k1, k2⟩ | ⟨-, a, b, -, -, k1, k2, -⟩
  · exact h
  · obtain ⟨q, h1, -, h2⟩ := hu _ _ k1
    exact absurd h2 (k2 q h1)
  · obtain ⟨q, h1, -, h2⟩ := hu _ _ k1
    exact absurd h2 (k2 q h1)

/-- The ids given to anonymous processors, oldest first. -/
def anonsIn (l : List Ev) : List Id := l.filterMap fun | .made _ _ (.anon n) => some (.anon n) | _ => none

structure AnonI (s : State) : Prop where
  cnt : s.counter = (anonsIn s.log).length % 2 ^ 32
  ids : ∀ i, (h : i < (anonsIn s.log).length) → (anonsIn s.log)[i] = .anon ((i + 1) % 2 ^ 32)

theorem AnonI_step {s s' : State} {a : Act} (h : AnonI s) (hs : step s a = some s') : AnonI s' := by
  have hcase : (s'.counter = s.counter ∧ anonsIn s'.log = anonsIn s.log) ∨
      (s'.counter = (s.counter + 1) % 2 ^ 32 ∧ anonsIn s'.log = anonsIn s.log ++ [.anon ((s.counter + 1) % 2 ^ 32)]) := by
    clear h
    peel
    all_goals (try (simp only [endSweep, go]; split))
    all_goals (first | (left; simp [anonsIn]; done) | (right; simp [anonsIn]))
  obtain ⟨h1, h2⟩ := h
  rcases hcase with ⟨k1, k2⟩ | ⟨k1, k2⟩
  · constructor
    · rw [k1, k2, h1]
    · simp only [k2]; exact h2
  · constructor
    · rw [k1, k2, h1, List.length_append]; simp [Nat.add_mod]
    · simp only [k2]
      intro i hi
      rw [List.getElem_append]
      split
      · next h' => exact h2 i h'
      · next h' =>
        simp at hi
        have : i = (anonsIn s.log).length := by omega
        subst this
        simp [h1, Nat.add_mod]

theorem AnonI_run {s s' : State} {as : List Act} (h : AnonI s) (hr : run s as = some s') : AnonI s' := by
  induction as generalizing s with
  | nil => cases hr; exact h
  | cons a as ih =>
    simp only [run, Option.bind_eq_some_iff] at hr
    obtain ⟨s1, h1, h2⟩ := hr
    exact ih (AnonI_step h h1) h2

/-- C21, partial: anonymous processors get pairwise different ids, as long as at most 2^32 of them
have been made (`anonymous_ids_repeat`: not after that). -/
theorem anonymous_ids_partial {as : List Act} {s : State} (hr : run init as = some s) (hn : (anonsIn s.log).length ≤ 2 ^ 32) :
    (anonsIn s.log).Pairwise (· ≠ ·) := by
  have h : AnonI s := AnonI_run ⟨rfl, fun i h => absurd h (Nat.not_lt_zero _)⟩ hr
  rw [List.pairwise_iff_getElem]
  intro i j hi hj hij
  rw [h.ids i hi, h.ids j hj]
  intro e
  have e' : (i + 1) % 2 ^ 32 = (j + 1) % 2 ^ 32 := by simpa using e
  omega

theorem run_anon (n : Nat) : ∀ s : State, s.pc 0 = .idle → ∃ s', run s (List.replicate n (.createAnon 0)) = some s' ∧
    (anonsIn s'.log).length = (anonsIn s.log).length + n := by
  induction n with
  | zero => intro s _; exact ⟨s, rfl, rfl⟩
  | succ n ih =>
    intro s hs
    obtain ⟨s', h1, h2⟩ := ih { go s 0 .idle [.made 0 s.nextP (.anon ((s.counter + 1) % 2 ^ 32)), .created 0 s.nextP true] with
        nextP := s.nextP + 1, counter := (s.counter + 1) % 2 ^ 32, idOf := upd s.idOf s.nextP (.anon ((s.counter + 1) % 2 ^ 32)), known := upd s.known s.nextP true } (by simp [go])
    refine ⟨s', ?_, ?_⟩
    · rw [List.replicate_succ, run]
      simp only [step, hs, if_true, Option.bind_some]
      exact h1
    · rw [h2]
      simp [go, anonsIn]
      omega

/-- C21 fails in the end: after 2^32 anonymous processors the ids start again. -/
theorem anonymous_ids_repeat : ∃ as s, run init as = some s ∧ ¬ (anonsIn s.log).Pairwise (· ≠ ·) := by
  obtain ⟨s, h1, h2⟩ := run_anon (2 ^ 32 + 1) init rfl
  refine ⟨_, s, h1, ?_⟩
  have h : AnonI s := AnonI_run ⟨rfl, fun i h => absurd h (Nat.not_lt_zero _)⟩ h1
  have h2' : (anonsIn s.log).length = 2 ^ 32 + 1 := by rw [h2]; simp [init, anonsIn]
  intro hp
  rw [List.pairwise_iff_getElem] at hp
  have := hp 0 (2 ^ 32) (by omega) (by omega) (by decide)
  rw [h.ids 0, h.ids (2 ^ 32)] at this
  exact this (by decide)

/-- C21 fails: two threads that create the same id at once both get a processor, though only one
of them joins. -/
theorem create_race : ∃ s, run init [.create 0 7, .create 1 7, .createFind 0, .createFind 1, .add 0, .sweep 0, .add 1] = some s ∧
    Ev.created 0 0 true ∈ s.log ∧ Ev.created 1 1 true ∈ s.log ∧ idIn s.log 0 = some (.name 7) ∧ idIn s.log 1 = some (.name 7) ∧
    joinedIn s.log = [0] ∧ closedIn s.log 0 = false ∧ closedIn s.log 1 = false := by
  refine ⟨_, rfl, ?_, ?_, rfl, rfl, rfl, rfl, rfl⟩ <;> decide

/-- The hypotheses of the theorems above are met: two joined processors, a refused id, an
anonymous one. -/
example : ∃ s, run init [.create 0 7, .createFind 0, .add 0, .sweep 0, .create 1 8, .createFind 1, .add 1, .sweep 1, .sweep 1,
    .createAnon 0, .create 2 7, .createFind 2] = some s ∧
    joinedIn s.log = [0, 1] ∧ anonsIn s.log = [.anon 1] ∧ s.log.drop 15 = [.made 2 3 (.name 7), .lookup 2 (.name 7) (some 0), .created 2 3 false] :=
  ⟨_, rfl, rfl, rfl, rfl⟩

/-! ## C22 -/

/-- C22: `routing::post` returns true exactly if it found a processor joined under the id and that
processor took the message. -/
theorem post_result {as : List Act} {s : State} (hr : run init as = some s) {t : Tid} {id : Id} {m : Msg} {b : Bool} {l l' : List Ev}
    (he : s.log = l ++ .result t id m b :: l') :
    (∃ l1 l2 p, l = l1 ++ .lookup t id (some p) :: l2 ++ [.handed t p m b] ∧ (∀ e ∈ l2, e.tid ≠ some t) ∧
      p ∈ joinedIn l1 ∧ idIn l1 p = some id ∧ (b = true ↔ Takes (l1 ++ .lookup t id (some p) :: l2) p m)) ∨
    (b = false ∧ ∃ l1, l = l1 ++ [.lookup t id none] ∧ ∀ p ∈ joinedIn l1, idIn l1 p ≠ some id) := by
  have h := (reached hr).hist
  rcases h.all _ _ _ he with ⟨l1, l2, p, k1, k2⟩ | ⟨k1, l1, k2⟩
  · left
    have h1 := h.all l1 (.lookup t id (some p)) (l2 ++ .handed t p m b :: .result t id m b :: l') (by rw [he, k1]; simp)
    have h2 := h.all (l1 ++ .lookup t id (some p) :: l2) (.handed t p m b) (.result t id m b :: l') (by rw [he, k1]; simp)
    exact ⟨l1, l2, p, k1, k2, h1.1, h1.2.1, h2⟩
  · right
    exact ⟨k1, l1, k2, h.all l1 (.lookup t id none) (.result t id m b :: l') (by rw [he, k2]; simp)⟩

theorem visits_split {t : Tid} {l : List Ev} {v : Pid × Msg × Option Bool} (h : v ∈ visits t l) : ∃ a c, l = a ++ .visit t v.1 v.2.1 v.2.2 :: c := by
  simp only [visits, List.mem_filterMap] at h
  obtain ⟨e, he, hv⟩ := h
  obtain ⟨a, c, rfl⟩ := List.append_of_mem he
  cases e <;> simp at hv
  obtain ⟨rfl, rfl⟩ := hv
  exact ⟨a, c, rfl⟩

/-- C22: `postToAll`: every joined processor has exactly one turn; each turn says what it did with
the message. -/
theorem to_all {as : List Act} {s : State} (hr : run init as = some s) {t : Tid} {m : Msg} {b : Bool} {l l' : List Ev}
    (he : s.log = l ++ .sweepEnd t m b :: l') :
    ∃ l1 l2, l = l1 ++ .sweepBegin t m :: l2 ∧ Sweep l1 l2 t m b ∧
      (∀ q a o c, l2 = a ++ .visit t q m (some o) :: c → (o = true ↔ Takes (l1 ++ .sweepBegin t m :: a) q m)) ∧
      ∀ q a c, l2 = a ++ .visit t q m none :: c → handIn (l1 ++ .sweepBegin t m :: a) q m.ty = .absent := by
  have h := (reached hr).hist
  obtain ⟨l1, l2, k1, k2⟩ := h.all _ _ _ he
  refine ⟨l1, l2, k1, k2, ?_, ?_⟩
  · intro q a o c hl
    exact h.all _ (.visit t q m (some o)) (c ++ .sweepEnd t m b :: l') (by rw [he, k1, hl]; simp)
  · intro q a c hl
    exact h.all _ (.visit t q m none) (c ++ .sweepEnd t m b :: l') (by rw [he, k1, hl]; simp)

/-- C22: a joined processor that has a handler for the message all the time, and is not stopped,
gets the message; a processor that is not joined does not. -/
theorem to_all_reaches {as : List Act} {s : State} (hr : run init as = some s) {t : Tid} {m : Msg} {b : Bool} {l l' : List Ev}
    (he : s.log = l ++ .sweepEnd t m b :: l') :
    ∃ l1 l2, l = l1 ++ .sweepBegin t m :: l2 ∧
      (∀ q ∈ joinedIn l1, (∀ a c, l2 = a ++ c → Takes (l1 ++ .sweepBegin t m :: a) q m) → (q, m, some true) ∈ visits t l2 ∧ b = true) ∧
      ∀ q, q ∉ joinedIn l1 → ∀ v ∈ visits t l2, v.1 ≠ q := by
  obtain ⟨l1, l2, k1, k2, k3, k4⟩ := to_all hr he
  refine ⟨l1, l2, k1, ?_, ?_⟩
  · intro q hq ht
    rw [← k2.turns] at hq
    obtain ⟨v, hv, rfl⟩ := List.mem_map.1 hq
    obtain ⟨a, c, hac⟩ := visits_split hv
    have hm := k2.same v hv
    have htk := ht a _ hac
    rw [hm] at hac
    have : v = (v.1, m, some true) := by
      obtain ⟨v1, v2, v3⟩ := v
      simp only at hm hac htk ⊢
      subst hm
      cases v3 with
      | none => have := k4 _ _ _ hac; rw [htk.2] at this; cases this
      | some o => have := (k3 _ _ _ _ hac).2 htk; rw [this]
    rw [← this]
    exact ⟨hv, k2.taken.2 ⟨v, hv, by rw [this]⟩⟩
  · intro q hq v hv e
    apply hq
    rw [← k2.turns]
    exact List.mem_map.2 ⟨v, hv, e⟩

/-- C22, partial (`new_not_told`: the new one itself is told nothing): when a processor joins, each processor joined then has just been told, once, and nobody
joined or left meanwhile. -/
theorem join_told_partial {as : List Act} {s : State} (hr : run init as = some s) {t : Tid} {p : Pid} {l l' : List Ev}
    (he : s.log = l ++ .joined t p :: l') :
    ∃ l1 l2 b, l = l1 ++ .sweepBegin t (.status p true) :: l2 ++ [.sweepEnd t (.status p true) b] ∧
      (visits t l2).map (fun v => v.1) = joinedIn l ∧ (∀ v ∈ visits t l2, v.2.1 = .status p true) ∧ p ∉ joinedIn l := by
  have h := (reached hr).hist
  obtain ⟨l0, l1, l2, l3, n, b, e1, e2, e3, e4, e5, e6⟩ := h.all _ _ _ he
  have hs : joinedIn l = joinedIn l3 := by
    rw [e1, ← e2, List.append_assoc, steady_joined]
    intro e hm
    rcases List.mem_append.1 hm with hm | hm
    · rcases List.mem_cons.1 hm with rfl | hm
      · simp
      · exact e5.steady e hm
    · simp at hm; subst hm; simp
  refine ⟨l3, l2, b, by rw [e1, e2], by rw [hs]; exact e5.turns, e5.same, ?_⟩
  intro hp
  obtain ⟨x, y, hxy, -⟩ := e3
  exact e6 p hp (idIn_of_made (t := t) h he (by rw [e1, hxy]; simp))

/-- C22 fails for the new processor: it is never told about those already joined. -/
theorem new_not_told {as : List Act} {s : State} (hr : run init as = some s) (t : Tid) (p q : Pid) : Ev.informed t p q ∉ s.log := by
  intro h
  obtain ⟨l, l', he⟩ := List.append_of_mem h
  exact (reached hr).hist.all _ _ _ he

/-- The processors that joined, in order. -/
def joinsIn (l : List Ev) : List Pid := l.filterMap fun | .joined _ p => some p | _ => none

theorem joinsIn_append (a b : List Ev) : joinsIn (a ++ b) = joinsIn a ++ joinsIn b := by simp [joinsIn]

theorem pairwise_two {α : Type} {R : α → α → Prop} {l : List α} (h : l.Pairwise R) {x y : α} (hx : x ∈ l) (hy : y ∈ l) (hne : x ≠ y) : R x y ∨ R y x := by
  induction l with
  | nil => cases hx
  | cons a l ih =>
    rw [List.pairwise_cons] at h
    rcases List.mem_cons.1 hx with rfl | hx
    · rcases List.mem_cons.1 hy with rfl | hy
      · exact absurd rfl hne
      · exact .inl (h.1 y hy)
    · next hx =>
      rcases List.mem_cons.1 hy with rfl | hy
      · exact .inr (h.1 x ‹x ∈ l›)
      · exact ih h.2 hx hy

/-- Joined ones are known; those who have stopped are out. -/
structure GoneI (s : State) : Prop where
  once : (joinsIn s.log).Pairwise (· ≠ ·)
  known : ∀ p ∈ joinsIn s.log, s.known p = true
  leaving : ∀ t p, (s.pc t).stops = some p → s.pc t = .stop1 p ∨ s.pc t = .stop2 p ∨ p ∉ s.joined
  gone : ∀ t p, Ev.stopped t p true ∈ s.log → s.known p = true ∧ p ∉ s.joined

theorem GoneI_step {s s' : State} {a : Act} (h : GoneI s) (hf : Full s) (hs : step s a = some s') : GoneI s' := by
  have ho := hf.own
  have hst := hf.stop
  obtain ⟨hoth, -⟩ := step_other hs
  obtain ⟨-, o2, -⟩ := step_own hs
  have hkn : ∀ p, s.known p = true → s'.known p = true := by
    intro p hp
    rcases o2 with k | ⟨q, -, -, k⟩ | ⟨-, k, -⟩ <;> rw [k]
    · exact hp
    · simp only [upd]; split <;> simp [hp]
    · simp only [upd]; split <;> simp [hp]
  -- who is known and out stays out
  have hout : ∀ p, s.known p = true → p ∉ s.joined → p ∉ s'.joined := by
    intro p hp hj
    obtain ⟨j1, -⟩ := step_joined hs
    rcases j1 with k | ⟨q, k, -⟩ | ⟨p', m, acc, k1, k2, -⟩
    · rw [k]; exact hj
    · rw [k]; intro h; exact hj (List.mem_filter.1 h).1
    · rw [k2]
      intro h
      rcases List.mem_append.1 h with h | h
      · exact hj h
      · simp at h; subst h
        have := (ho.own a.tid p (by rw [k1]; rfl)).2.1
        rw [hp] at this; cases this
  have hjoin : joinsIn s'.log = joinsIn s.log ∨ ∃ p, s.known p = false ∧ s'.known p = true ∧ joinsIn s'.log = joinsIn s.log ++ [p] := by
    have h1 := ho.own a.tid
    clear hoth o2 hkn hout
    peel
    all_goals (try (simp only [endSweep, go]; split))
    all_goals (have hpc := ‹s.pc _ = _›)
    all_goals (first | (left; simp [joinsIn]; done) | skip)
    right
    simp only [Act.tid] at h1
    rw [hpc] at h1
    exact ⟨_, (h1 _ rfl).2.1, by simp, by simp [joinsIn]⟩
  have hself : (∀ p, (s'.pc a.tid).stops = some p → s'.pc a.tid = .stop1 p ∨ s'.pc a.tid = .stop2 p ∨ p ∉ s'.joined) ∧
      ∀ t p, Ev.stopped t p true ∈ s'.log → Ev.stopped t p true ∈ s.log ∨ (s.known p = true ∧ p ∉ s'.joined) := by
    have h1 := h.leaving a.tid
    have h2 := hst a.tid
    clear hoth o2 hkn hout hjoin
    peel
    all_goals (try (simp only [endSweep, go]; split))
    all_goals (have hpc := ‹s.pc _ = _›)
    all_goals simp only [Act.tid, upd_same] at h1 h2 ⊢
    all_goals rw [hpc] at h1 h2
    all_goals (refine ⟨?_, ?_⟩)
    all_goals (try (simp [Pc.stops]; done))
    all_goals (try (simp; done))
    all_goals (try (intro t p he; left; simpa using he; done))
    · intro t p he
      simp at he
      rcases he with he | ⟨rfl, rfl⟩
      · exact .inl he
      · refine .inr ⟨h2 _ rfl, fun hj => ?_⟩
        obtain ⟨-, n, hn⟩ := ho.jk _ hj
        have ha := ‹s.idOf _ = Id.anon _›
        rw [hn] at ha; cases ha
    · intro t p he
      simp at he
      rcases he with he | ⟨rfl, rfl⟩
      · exact .inl he
      · exact .inr ⟨h2 _ rfl, fun hj => find_none ‹find s _ = none› _ hj rfl⟩
    · intro p hp
      simp only [Pc.stops, Option.some.injEq] at hp
      subst hp
      refine .inr (.inr fun hm => ?_)
      obtain ⟨hj, hne⟩ := List.mem_filter.1 hm
      obtain ⟨hq, hqid⟩ := find_some ‹find s _ = some _›
      have hnd := List.pairwise_map.1 ho.nodup
      have hne' := bne_iff_ne.1 hne
      rcases pairwise_two hnd hj hq hne' with k | k
      · exact k hqid.symm
      · exact k hqid
    · intro p hp
      simp only [Pc.stops, Option.some.injEq] at hp
      subst hp
      rcases h1 _ rfl with k | k | k
      · cases k
      · cases k
      · exact .inr (.inr k)
    · intro t p he
      simp at he
      rcases he with he | ⟨rfl, rfl⟩
      · exact .inl he
      · refine .inr ⟨h2 _ rfl, ?_⟩
        rcases h1 _ rfl with k | k | k
        · cases k
        · cases k
        · exact k
    all_goals (intro p hp; rcases h1 p (by cases ‹Kont› <;> first | exact hp | cases hp) with k | k | k)
    all_goals (first | (cases k; done) | exact .inr (.inr k))
  constructor
  · rcases hjoin with k | ⟨p, k1, k2, k3⟩
    · rw [k]; exact h.once
    · rw [k3, List.pairwise_append]
      refine ⟨h.once, by simp, ?_⟩
      intro x hx y hy e
      simp at hy; subst hy; subst e
      have := h.known x hx; rw [k1] at this; cases this
  · intro p hp
    rcases hjoin with k | ⟨q, k1, k2, k3⟩
    · rw [k] at hp; exact hkn p (h.known p hp)
    · rw [k3] at hp
      rcases List.mem_append.1 hp with hp | hp
      · exact hkn p (h.known p hp)
      · simp at hp; subst hp; exact k2
  · intro t p htp
    by_cases ht : t = a.tid
    · subst ht; exact hself.1 p htp
    · rw [hoth t ht] at htp ⊢
      rcases h.leaving t p htp with k | k | k
      · exact .inl k
      · exact .inr (.inl k)
      · exact .inr (.inr (hout p (hst t p htp) k))
  · intro t p he
    rcases hself.2 t p he with k | ⟨k1, k2⟩
    · obtain ⟨k1, k2⟩ := h.gone t p k
      exact ⟨hkn p k1, hout p k1 k2⟩
    · exact ⟨hkn p k1, k2⟩

theorem reached_gone {as : List Act} {s : State} (hr : run init as = some s) : GoneI s := by
  have aux : ∀ (as : List Act) (s s' : State), Full s → GoneI s → run s as = some s' → GoneI s' := by
    intro as
    induction as with
    | nil => intro s s' _ hg hr; cases hr; exact hg
    | cons a as ih =>
      intro s s' hf hg hr
      simp only [run, Option.bind_eq_some_iff] at hr
      obtain ⟨s1, h1, h2⟩ := hr
      exact ih s1 s' (Full_step hf h1) (GoneI_step hg hf h1) h2
  refine aux as init s Full_init ⟨?_, ?_, ?_, ?_⟩ hr <;> simp [init, joinsIn, Pc.stops]

/-- C22: a processor joins at most once. -/
theorem joins_once {as : List Act} {s : State} (hr : run init as = some s) : (joinsIn s.log).Pairwise (· ≠ ·) := (reached_gone hr).once

/-- C22: a processor is not joined any more after a `stop` that found it running. -/
theorem stopped_not_joined {as : List Act} {s : State} (hr : run init as = some s) {t : Tid} {p : Pid} (h : Ev.stopped t p true ∈ s.log) :
    p ∉ joinedIn s.log := by
  rw [(reached hr).abs.joined]; exact ((reached_gone hr).gone t p h).2

/-- C22: `stop` of a named processor that was running: it found nobody joined under the id, or it
took the processor joined under the id out (it may be another one: `stop_evicts_other`), and then
told every processor joined, once each. -/
theorem leave_told {as : List Act} {s : State} (hr : run init as = some s) {t : Tid} {p : Pid} {l l' : List Ev}
    (he : s.log = l ++ .stopped t p true :: l') (hn : ∃ n, idIn l p = some (.name n)) :
    (∃ l1 id, l = l1 ++ [.lookup t id none] ∧ idIn l p = some id ∧ ∀ q ∈ joinedIn l1, idIn l1 q ≠ some id) ∨
    ∃ l0 c l1 l2 b q, l = l0 ++ .erased t p q :: c ++ .sweepBegin t (.status p false) :: l2 ++ [.sweepEnd t (.status p false) b] ∧
      l1 = l0 ++ .erased t p q :: c ∧ (∀ e ∈ c, e.tid ≠ some t) ∧ q ∈ joinedIn l0 ∧ idIn l0 q = idIn l0 p ∧
      Sweep l1 l2 t (.status p false) b := by
  have h := (reached hr).hist
  rcases h.all _ _ _ he with ⟨-, n, k⟩ | ⟨l1, id, k1, k2, -⟩ | ⟨l1, l2, b, q, k1, ⟨x, y, k2, k3⟩, k4⟩
  · obtain ⟨n', hn⟩ := hn
    rw [k] at hn; cases hn
  · left
    exact ⟨l1, id, k1, k2, h.all l1 (.lookup t id none) (.stopped t p true :: l') (by rw [he, k1]; simp)⟩
  · right
    obtain ⟨e1, e2, -⟩ := h.all x (.erased t p q) (y ++ .sweepBegin t (.status p false) :: l2 ++ [.sweepEnd t (.status p false) b] ++ .stopped t p true :: l')
      (by rw [he, k1, k2]; simp)
    exact ⟨x, y, l1, l2, b, q, by rw [k1, k2], k2, k3, e1, e2, k4⟩

/-- C21 and C22 fail for a processor that is stopped, reused and stopped again: the second `stop`
takes out another processor, made with the id in the meantime, which nobody has stopped. -/
theorem stop_evicts_other : ∃ s, run init [.create 0 7, .createFind 0, .add 0, .sweep 0, .stop 0 0, .close 0, .erase 0, .tell 0, .sweep 0,
      .create 0 7, .createFind 0, .add 0, .sweep 0, .reuse 0 0, .stop 0 0, .close 0, .erase 0, .tell 0, .sweep 0] = some s ∧
    Ev.erased 0 0 1 ∈ s.log ∧ closedIn s.log 1 = false ∧ (∀ t b, Ev.stopped t 1 b ∉ s.log) ∧ Ev.joined 0 1 ∈ s.log ∧ joinedIn s.log = [] := by
  refine ⟨_, rfl, by decide, rfl, ?_, by decide, rfl⟩
  intro t b h
  revert h
  simp [endSweep, go, init, find, upd]

/-- C22 fails for the new processor: 1 joins after 0 and has a handler for status messages as soon
as it can, but is never told about 0, which has been told about it. -/
theorem new_not_told_case : ∃ s, run init [.create 0 7, .createFind 0, .add 0, .sweep 0, .setHandlers 0 0 0 .live,
      .create 0 8, .createFind 0, .add 0, .sweep 0, .sweepPost 0, .sweep 0, .setHandlers 0 1 0 .live] = some s ∧
    joinedIn s.log = [0, 1] ∧ Ev.visit 0 0 (.status 1 true) (some true) ∈ s.log ∧
    (∀ t m o, Ev.visit t 1 m o ∉ s.log) ∧ ∀ t q, Ev.informed t 1 q ∉ s.log := by
  refine ⟨_, rfl, rfl, by decide, ?_, ?_⟩
  all_goals
    intro t q h
    revert h
    simp [endSweep, go, init, find, upd, accepts, Msg.ty]

/-- The hypotheses of the theorems above are met: a post, one to all, and a leaving told to one. -/
example : ∃ s, run init [.create 0 7, .createFind 0, .add 0, .sweep 0, .setHandlers 0 0 0 .live, .setHandlers 0 0 3 .live,
      .create 1 8, .createFind 1, .add 1, .sweep 1, .sweepPost 1, .sweep 1, .post 2 (.name 7) (.user 2 5), .postFind 2, .handOver 2,
      .postToAll 2 (.user 2 6), .sweep 2, .sweepPost 2, .sweep 2, .sweep 2,
      .stop 1 1, .close 1, .erase 1, .tell 1, .sweep 1, .sweepPost 1, .sweep 1] = some s ∧
    s.log.drop 15 = [.lookup 2 (.name 7) (some 0), .handed 2 0 (.user 2 5) true, .result 2 (.name 7) (.user 2 5) true,
      .sweepBegin 2 (.user 2 6), .visit 2 0 (.user 2 6) (some true), .visit 2 1 (.user 2 6) none, .sweepEnd 2 (.user 2 6) true,
      .closed 1 1, .erased 1 1 1, .sweepBegin 1 (.status 1 false), .visit 1 0 (.status 1 false) (some true), .sweepEnd 1 (.status 1 false) true, .stopped 1 1 true] :=
  ⟨_, rfl, rfl⟩

/-! ## C61 -/

/-- The action a thread in the middle of a call takes next. -/
def nextAct (t : Tid) : Pc → Option Act
  | .idle => none
  | .creating _ => some (.createFind t)
  | .toAdd _ => some (.add t)
  | .informing .. => some (.inform t)
  | .sweep .. => some (.sweep t)
  | .sweepPost .. => some (.sweepPost t)
  | .stop1 _ => some (.close t)
  | .stop2 _ => some (.erase t)
  | .left _ => some (.tell t)
  | .routing .. => some (.postFind t)
  | .routed .. => some (.handOver t)

/-- C61: no call on the router is stuck: a thread in the middle of a call can go on, or another one
has the lock and can go on. -/
theorem router_goes_on {as : List Act} {s : State} (hr : run init as = some s) {t : Tid} (h : s.pc t ≠ .idle) :
    (∃ a, nextAct t (s.pc t) = some a ∧ (step s a).isSome) ∨
    ∃ u, u ≠ t ∧ s.owner = some u ∧ ∃ a, nextAct u (s.pc u) = some a ∧ (step s a).isSome := by
  have hl := (reached hr).lock
  have own : ∀ u, s.owner = some u → ∃ a, nextAct u (s.pc u) = some a ∧ (step s a).isSome := by
    intro u hu
    have := (hl u).2 hu
    cases hpc : s.pc u with
    | informing p rest => cases rest <;> exact ⟨_, rfl, by simp [step, hpc]⟩
    | sweep m rest acc k =>
      refine ⟨_, rfl, ?_⟩
      cases rest <;> simp only [step, hpc]
      · simp
      · split <;> simp
    | sweepPost m q rest acc k => exact ⟨_, rfl, by simp [step, hpc]⟩
    | _ => rw [hpc] at this; simp [Pc.holds] at this
  cases ho : s.owner with
  | some u =>
    by_cases hu : u = t
    · subst hu; exact .inl (own u ho)
    · exact .inr ⟨u, hu, rfl, own u ho⟩
  | none =>
    left
    have hh : (s.pc t).holds = false := by
      cases hb : (s.pc t).holds with
      | false => rfl
      | true => have := (hl t).1 hb; rw [ho] at this; cases this
    cases hpc : s.pc t <;> simp only [hpc, Pc.holds] at h hh
    all_goals (first | (cases hh; done) | exact absurd rfl h | skip)
    all_goals refine ⟨_, rfl, ?_⟩
    all_goals simp only [step, hpc, ho]
    all_goals (try (simp; done))
    all_goals (repeat' split)
    all_goals simp_all

/-- One thread waits for another one. -/
example : ∃ s, run init [.create 0 7, .createFind 0, .add 0, .sweep 0, .postToAll 0 (.user 1 1), .create 1 8] = some s ∧
    s.pc 1 = .creating 1 ∧ s.owner = some 0 ∧ (step s (.createFind 1)).isNone ∧ (step s (.sweep 0)).isSome :=
  ⟨_, rfl, rfl, rfl, rfl, rfl⟩

end Maf.Route
