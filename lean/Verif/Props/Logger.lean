import Verif.Model.Logger
/-
C85: logging.
-/
namespace Maf.Log

/-! ### Specification -/

/-- Level `l` is among the levels. -/
def Has (levels : BitVec 8) (l : Level) : Prop := levels &&& bit l = bit l

instance (levels : BitVec 8) (l : Level) : Decidable (Has levels l) := inferInstanceAs (Decidable (_ = _))

/-- Some level of the mask is among the levels. -/
def Common (levels mask : BitVec 8) : Prop := ∃ i, levels.getLsbD i = true ∧ mask.getLsbD i = true

/-- What the function is given for a call: the head, the pieces in order, perhaps the place. -/
inductive Text : Call → String → Prop where
  | raw {m ps} : Text (.raw m ps) (String.join ps)
  | named {l ps} : Text (.named l ps) (String.join (head l :: ps))
  | bare {l ps pl} : l ≠ .debug → Text (.mac l ps pl) (String.join (head l :: ps))
  | placed {l ps pl} : Text (.mac l ps pl) (String.join (head l :: ps ++ pl))

/-- The messages that go to the first function. -/
def Quiet (mask : BitVec 8) : Prop := mask = bit .info ∨ mask = bit .debug ∨ mask = bit .verbose

def Reachable (s : State) : Prop := ∃ acts, run init0 acts = some s

/-- Call `i` has been logged, in `s`. -/
def Logged (s : State) (i : Nat) : Prop := ∃ f t, (i, f, t) ∈ s.given

/-- Call `i` has returned. -/
def Returned (s : State) (i : Nat) : Prop := ∃ j, s.jobs[i]? = some j ∧ (j.phase = .written ∨ j.phase = .skipped)

/-! ### Lemmas -/

theorem allowed_iff (a b : BitVec 8) : allowed a b = true ↔ Common a b := by
  unfold allowed Common
  constructor
  · intro h
    have hne : a &&& b ≠ 0 := by simpa using h
    refine Classical.byContradiction fun hno => hne (BitVec.eq_of_getLsbD_eq fun i hi => ?_)
    have : ¬ (a.getLsbD i = true ∧ b.getLsbD i = true) := fun hh => hno ⟨i, hh⟩
    cases ha : a.getLsbD i <;> cases hb : b.getLsbD i <;> simp_all
  · rintro ⟨i, ha, hb⟩
    have : a &&& b ≠ 0 := fun h0 => by
      have := congrArg (·.getLsbD i) h0
      simp [ha, hb] at this
    simpa using this

theorem allowed_level (a : BitVec 8) (l : Level) : allowed a (bit l) = true ↔ Has a l := by
  revert a; cases l <;> (unfold Has; simp only [allowed, bit]; decide +kernel)

theorem run_append (s : State) : ∀ (as bs : List Act), run s (as ++ bs) = (run s as).bind fun s' => run s' bs
  | [], _ => rfl
  | a :: as, bs => by
    simp only [List.cons_append, run]
    cases step s a with
    | none => rfl
    | some s1 => exact run_append s1 as bs

theorem get_set {l : List Job} {i k : Nat} {a x : Job} (h : (l.set i a)[k]? = some x) : (k = i ∧ x = a) ∨ (k ≠ i ∧ l[k]? = some x) := by
  rw [List.getElem?_set] at h
  split at h
  · split at h
    · cases h; exact .inl ⟨by omega, rfl⟩
    · cases h
  · exact .inr ⟨by omega, h⟩

theorem advance_jobs {s s' : State} {i : Nat} {j : Job} (h : advance s i j = some s') : ∃ ph, s'.jobs = s.jobs.set i { j with phase := ph } ∧ ph ≠ j.phase := by
  unfold advance at h
  split at h
  · rename_i hp; cases h; exact ⟨_, rfl, by rw [hp]; split <;> simp⟩
  · rename_i hp; cases h; exact ⟨_, rfl, by rw [hp]; simp⟩
  · rename_i hp; cases h; exact ⟨_, rfl, by rw [hp]; split <;> simp⟩
  · rename_i hp; cases h; exact ⟨_, rfl, by rw [hp]; simp⟩
  · cases h
  · cases h

/-- What a step does to the call `k`: nothing, begin it, or one step of it. -/
theorem step_job {s s' : State} {a : Act} (h : step s a = some s') {k : Nat} {x : Job} (hx : s'.jobs[k]? = some x) :
    s.jobs[k]? = some x ∨ (k = s.jobs.length ∧ a = .call x.call ∧ x.phase = first x.call) ∨ (a = .go k ∧ ∃ j, s.jobs[k]? = some j ∧ x.call = j.call ∧ advance s k j = some s' ∧ x.phase ≠ j.phase) := by
  cases a with
  | init l o e => simp only [step, Option.some.injEq] at h; subst h; exact .inl hx
  | stop => simp only [step, Option.some.injEq] at h; subst h; exact .inl hx
  | change m => simp only [step, Option.some.injEq] at h; subst h; exact .inl hx
  | enable m => simp only [step, Option.some.injEq] at h; subst h; exact .inl hx
  | disable m => simp only [step, Option.some.injEq] at h; subst h; exact .inl hx
  | call c =>
    simp only [step, Option.some.injEq] at h; subst h
    simp only [List.getElem?_append] at hx
    split at hx
    · exact .inl hx
    · rename_i hk
      have : k - s.jobs.length = 0 := by
        refine Classical.byContradiction fun h0 => ?_
        rw [List.getElem?_eq_none (by simp; omega)] at hx; cases hx
      rw [this] at hx
      cases hx
      exact .inr (.inl ⟨by omega, rfl, rfl⟩)
  | go i =>
    simp only [step] at h
    split at h
    · cases h
    · rename_i j hj
      obtain ⟨ph, he, hne⟩ := advance_jobs h
      rw [he] at hx
      rcases get_set hx with ⟨rfl, rfl⟩ | ⟨-, hx⟩
      · exact .inr (.inr ⟨rfl, j, hj, rfl, h, hne⟩)
      · exact .inl hx

/-- Calls stay. -/
theorem step_keeps {s s' : State} {a : Act} (h : step s a = some s') {k : Nat} {j : Job} (hj : s.jobs[k]? = some j) : ∃ x, s'.jobs[k]? = some x ∧ x.call = j.call := by
  have hlt : k < s.jobs.length := (List.getElem?_eq_some_iff.1 hj).1
  cases a with
  | init l o e => simp only [step, Option.some.injEq] at h; subst h; exact ⟨j, hj, rfl⟩
  | stop => simp only [step, Option.some.injEq] at h; subst h; exact ⟨j, hj, rfl⟩
  | change m => simp only [step, Option.some.injEq] at h; subst h; exact ⟨j, hj, rfl⟩
  | enable m => simp only [step, Option.some.injEq] at h; subst h; exact ⟨j, hj, rfl⟩
  | disable m => simp only [step, Option.some.injEq] at h; subst h; exact ⟨j, hj, rfl⟩
  | call c => simp only [step, Option.some.injEq] at h; subst h; exact ⟨j, by rw [List.getElem?_append_left hlt]; exact hj, rfl⟩
  | go i =>
    simp only [step] at h
    split at h
    · cases h
    · rename_i y hy
      obtain ⟨ph, he, -⟩ := advance_jobs h
      rw [he, List.getElem?_set]
      split
      · rename_i hik; subst hik
        rw [hj] at hy; cases hy
        exact ⟨{ j with phase := ph }, by simp [hlt], rfl⟩
      · exact ⟨j, hj, rfl⟩

theorem step_given {s s' : State} {a : Act} (h : step s a = some s') :
    s'.given = s.given ∨ ∃ i j t, a = .go i ∧ s.jobs[i]? = some j ∧ j.phase = .passed t ∧ s'.given = s.given ++ [(i, sink s j.call.mask, t)] := by
  cases a with
  | go i =>
    simp only [step] at h
    split at h
    · cases h
    · rename_i j hj
      unfold advance at h
      split at h
      · cases h; exact .inl rfl
      · cases h; exact .inl rfl
      · cases h; exact .inl rfl
      · rename_i t hp; cases h; exact .inr ⟨i, j, t, rfl, hj, hp, rfl⟩
      · cases h
      · cases h
  | _ => simp only [step, Option.some.injEq] at h; subst h; exact .inl rfl

/-! ### Invariant -/

/-- The pieces of a call in `log`. -/
inductive Pieces : Call → List String → Prop where
  | raw {m ps} : Pieces (.raw m ps) ps
  | named {l ps} : Pieces (.named l ps) (head l :: ps)
  | bare {l ps pl} : l ≠ .debug → Pieces (.mac l ps pl) (head l :: ps)
  | placed {l ps pl} : Pieces (.mac l ps pl) (head l :: ps ++ pl)

theorem Pieces.text {c : Call} {ps : List String} (h : Pieces c ps) : Text c (String.join ps) := by
  cases h with
  | raw => exact .raw
  | named => exact .named
  | bare h => exact .bare h
  | placed => exact .placed

structure JobOk (given : List (Nat × Nat × String)) (i : Nat) (j : Job) : Prop where
  inLog : ∀ ps, j.phase = .inLog ps → Pieces j.call ps
  passed : ∀ t, j.phase = .passed t → Text j.call t
  written : j.phase = .written → given.countP (·.1 == i) = 1 ∧ ∀ f t, (i, f, t) ∈ given → Text j.call t
  other : j.phase ≠ .written → given.countP (·.1 == i) = 0

structure Inv (s : State) : Prop where
  job : ∀ (i : Nat) (j : Job), s.jobs[i]? = some j → JobOk s.given i j
  known : ∀ i, s.jobs.length ≤ i → s.given.countP (·.1 == i) = 0

theorem inv_init : Inv init0 := ⟨fun i j h => by simp [init0] at h, fun i _ => rfl⟩

theorem macroPieces_ok (lv : BitVec 8) (c : Call) : Pieces c (macroPieces lv c) := by
  cases c with
  | raw m ps => exact .raw
  | named l ps => exact .named
  | mac l ps pl =>
    simp only [macroPieces]
    split
    · exact .placed
    · rename_i h
      exact .bare fun h0 => h (by simp [h0])

theorem countP_snoc (l : List (Nat × Nat × String)) (i k f : Nat) (t : String) : (l ++ [(i, f, t)]).countP (·.1 == k) = l.countP (·.1 == k) + if i = k then 1 else 0 := by
  simp [List.countP_append, List.countP_cons]

theorem inv_step {s s' : State} {a : Act} (hi : Inv s) (h : step s a = some s') : Inv s' := by
  cases a with
  | init l o e => simp only [step, Option.some.injEq] at h; subst h; exact ⟨hi.job, hi.known⟩
  | stop => simp only [step, Option.some.injEq] at h; subst h; exact ⟨hi.job, hi.known⟩
  | change m => simp only [step, Option.some.injEq] at h; subst h; exact ⟨hi.job, hi.known⟩
  | enable m => simp only [step, Option.some.injEq] at h; subst h; exact ⟨hi.job, hi.known⟩
  | disable m => simp only [step, Option.some.injEq] at h; subst h; exact ⟨hi.job, hi.known⟩
  | call c =>
    have hs := h
    simp only [step, Option.some.injEq] at h; subst h
    refine ⟨fun k x hx => ?_, fun k hk => hi.known k (by simp at hk; omega)⟩
    rcases step_job hs hx with h1 | ⟨hk, hc, hp⟩ | ⟨h1, -⟩
    · exact hi.job k x h1
    · have h0 := hi.known k (by omega)
      have hw : x.phase ≠ .written := by rw [hp]; cases x.call <;> simp [first]
      refine ⟨fun ps h1 => ?_, fun t h1 => ?_, fun h1 => absurd h1 hw, fun _ => h0⟩
      · rw [hp] at h1
        cases hxc : x.call with
        | raw m qs => rw [hxc] at h1; cases h1; exact .raw
        | named l qs => rw [hxc] at h1; cases h1; exact .named
        | mac l qs pl => rw [hxc] at h1; cases h1
      · rw [hp] at h1; cases hxc : x.call <;> rw [hxc] at h1 <;> cases h1
    · cases h1
  | go i =>
    simp only [step] at h
    split at h
    · cases h
    · rename_i j hj
      have hjo := hi.job i j hj
      have hlt : i < s.jobs.length := (List.getElem?_eq_some_iff.1 hj).1
      unfold advance at h
      split at h
      · rename_i hp
        cases h
        refine ⟨fun k x hx => ?_, fun k hk => hi.known k (by simpa using hk)⟩
        rcases get_set hx with ⟨rfl, rfl⟩ | ⟨-, hx⟩
        · have h0 := hjo.other (by rw [hp]; simp)
          refine ⟨fun ps h1 => ?_, fun t h1 => ?_, fun h1 => ?_, fun _ => h0⟩ <;> (split at h1 <;> cases h1)
        · exact hi.job k x hx
      · rename_i hp
        cases h
        refine ⟨fun k x hx => ?_, fun k hk => hi.known k (by simpa using hk)⟩
        rcases get_set hx with ⟨rfl, rfl⟩ | ⟨-, hx⟩
        · have h0 := hjo.other (by rw [hp]; simp)
          exact ⟨(fun ps h1 => by cases h1; exact macroPieces_ok _ _), (fun t h1 => by cases h1), (fun h1 => by cases h1), fun _ => h0⟩
        · exact hi.job k x hx
      · rename_i ps hp
        cases h
        refine ⟨fun k x hx => ?_, fun k hk => hi.known k (by simpa using hk)⟩
        rcases get_set hx with ⟨rfl, rfl⟩ | ⟨-, hx⟩
        · have h0 := hjo.other (by rw [hp]; simp)
          have hpc := hjo.inLog ps hp
          refine ⟨fun ps h1 => ?_, fun t h1 => ?_, fun h1 => ?_, fun _ => h0⟩
          · simp only at h1; split at h1 <;> cases h1
          · simp only at h1; split at h1 <;> cases h1
            exact hpc.text
          · simp only at h1; split at h1 <;> cases h1
        · exact hi.job k x hx
      · rename_i t hp
        cases h
        refine ⟨fun k x hx => ?_, fun k hk => ?_⟩
        · rcases get_set hx with ⟨rfl, rfl⟩ | ⟨hne, hx⟩
          · have h0 := hjo.other (by rw [hp]; simp)
            refine ⟨(fun ps h1 => by cases h1), (fun t h1 => by cases h1), fun _ => ⟨?_, ?_⟩, fun h1 => absurd rfl h1⟩
            · simp only [countP_snoc, h0, if_true]
            · intro f t' hm
              rcases List.mem_append.1 hm with hm | hm
              · have : 0 < s.given.countP (·.1 == k) := List.countP_pos_iff.2 ⟨_, hm, by simp⟩
                omega
              · have : t' = t := by simp at hm; exact hm.2
                rw [this]
                exact hjo.passed t hp
          · have hk := hi.job k x hx
            refine ⟨hk.inLog, hk.passed, fun h1 => ⟨?_, ?_⟩, fun h1 => ?_⟩
            · simp only [countP_snoc, (hk.written h1).1, if_neg (Ne.symm hne)]
            · intro f t' hm
              rcases List.mem_append.1 hm with hm | hm
              · exact (hk.written h1).2 f t' hm
              · simp at hm; exact absurd hm.1 hne
            · simp only [countP_snoc, hk.other h1, if_neg (Ne.symm hne)]
        · simp only [List.length_set] at hk
          simp only [countP_snoc, hi.known k hk]
          rw [if_neg (by omega)]
      · cases h
      · cases h

theorem inv_run : ∀ (as : List Act) {s s' : State}, Inv s → run s as = some s' → Inv s'
  | [], _, _, hi, h => by cases h; exact hi
  | a :: as, s, s', hi, h => by
    simp only [run] at h
    obtain ⟨s1, h1, h2⟩ := Option.bind_eq_some_iff.1 h
    exact inv_run as (inv_step hi h1) h2

theorem Reachable.inv {s : State} (h : Reachable s) : Inv s := by
  obtain ⟨as, h⟩ := h
  exact inv_run as inv_init h

theorem logged_iff {s : State} (hi : Inv s) {i : Nat} {j : Job} (hj : s.jobs[i]? = some j) : Logged s i ↔ j.phase = .written := by
  have ho := hi.job i j hj
  constructor
  · rintro ⟨f, t, hm⟩
    refine Classical.byContradiction fun hw => ?_
    have := ho.other hw
    have : 0 < s.given.countP (·.1 == i) := List.countP_pos_iff.2 ⟨_, hm, by simp⟩
    omega
  · intro hw
    have h1 := (ho.written hw).1
    have : 0 < s.given.countP (·.1 == i) := by omega
    obtain ⟨x, hx, he⟩ := List.countP_pos_iff.1 this
    obtain ⟨k, f, t⟩ := x
    have : k = i := by simpa using he
    subst this
    exact ⟨f, t, hx⟩

/-! ### Theorems -/

/-- A message is logged once at most, with its level's head, its pieces in order and perhaps the place. -/
theorem once {s : State} (h : Reachable s) {i : Nat} {j : Job} (hj : s.jobs[i]? = some j) :
    s.given.countP (·.1 == i) ≤ 1 ∧ ∀ f t, (i, f, t) ∈ s.given → Text j.call t := by
  have ho := h.inv.job i j hj
  by_cases hw : j.phase = .written
  · exact ⟨by rw [(ho.written hw).1]; omega, (ho.written hw).2⟩
  · refine ⟨by rw [ho.other hw]; omega, fun f t hm => ?_⟩
    have := ho.other hw
    have : 0 < s.given.countP (·.1 == i) := List.countP_pos_iff.2 ⟨_, hm, by simp⟩
    omega

/-- What is logged belongs to a call. -/
theorem only_calls {s : State} (h : Reachable s) {i : Nat} (hl : Logged s i) : ∃ j, s.jobs[i]? = some j := by
  obtain ⟨f, t, hm⟩ := hl
  by_cases hk : i < s.jobs.length
  · exact ⟨_, List.getElem?_eq_getElem hk⟩
  · have := h.inv.known i (by omega)
    have : 0 < s.given.countP (·.1 == i) := List.countP_pos_iff.2 ⟨_, hm, by simp⟩
    omega

/-- One message per step, to the first function for information, debug and verbose messages, to the second for all others. -/
theorem to_function {s s' : State} {a : Act} (h : step s a = some s') :
    s'.given = s.given ∨ ∃ i j t f, a = .go i ∧ s.jobs[i]? = some j ∧ s'.given = s.given ++ [(i, f, t)] ∧ (Quiet j.call.mask → f = s.out) ∧ (¬ Quiet j.call.mask → f = s.err) := by
  rcases step_given h with h1 | ⟨i, j, t, ha, hj, -, hg⟩
  · exact .inl h1
  · refine .inr ⟨i, j, t, _, ha, hj, hg, fun hq => ?_, fun hq => ?_⟩
    · unfold sink; rw [if_pos]; rcases hq with h | h | h <;> simp [h]
    · unfold sink; rw [if_neg]; intro h0; apply hq; simpa [Quiet, or_assoc] using h0

/-- Not yet past the last check. -/
def early : Phase → Bool
  | .begun | .entered | .inLog _ => true
  | _ => false

def past : Phase → Bool
  | .passed _ | .written => true
  | _ => false

theorem first_early (c : Call) : early (first c) = true := by cases c <;> rfl

/-- A step of an early call. -/
theorem step_early {s s' : State} {a : Act} (h : step s a = some s') {k : Nat} {j x : Job} (hj : s.jobs[k]? = some j) (hx : s'.jobs[k]? = some x) (he : early j.phase = true) :
    x.call = j.call ∧ (early x.phase = true ∨ (past x.phase = true ∧ Common s.levels j.call.mask) ∨ (x.phase = .skipped ∧ ¬ Common s.levels j.call.mask)) := by
  rcases step_job h hx with h1 | ⟨hk, -, -⟩ | ⟨ha, j', hj', hc, hadv, -⟩
  · rw [hj] at h1; cases h1; exact ⟨rfl, .inl he⟩
  · rw [List.getElem?_eq_none (by omega)] at hj; cases hj
  · rw [hj] at hj'; cases hj'
    refine ⟨hc, ?_⟩
    have hlt : k < s.jobs.length := (List.getElem?_eq_some_iff.1 hj).1
    have hal := allowed_iff s.levels j.call.mask
    unfold advance at hadv
    split at hadv <;> cases hadv
    · simp only [List.getElem?_set, hlt, if_true, Option.some.injEq] at hx
      subst hx
      cases hb : allowed s.levels j.call.mask with
      | true => exact .inl rfl
      | false => exact .inr (.inr ⟨rfl, fun hcm => by rw [hal.2 hcm] at hb; cases hb⟩)
    · simp only [List.getElem?_set, hlt, if_true, Option.some.injEq] at hx
      subst hx
      exact .inl rfl
    · simp only [List.getElem?_set, hlt, if_true, Option.some.injEq] at hx
      subst hx
      cases hb : allowed s.levels j.call.mask with
      | true => exact .inr (.inl ⟨rfl, hal.1 hb⟩)
      | false => exact .inr (.inr ⟨rfl, fun hcm => by rw [hal.2 hcm] at hb; cases hb⟩)
    · rename_i hp; rw [hp] at he; cases he

/-- A step of a late call. -/
theorem step_late {s s' : State} {a : Act} (h : step s a = some s') {k : Nat} {j x : Job} (hj : s.jobs[k]? = some j) (hx : s'.jobs[k]? = some x) :
    (past j.phase = true → past x.phase = true) ∧ (j.phase = .skipped → x.phase = .skipped) := by
  rcases step_job h hx with h1 | ⟨hk, -, -⟩ | ⟨ha, j', hj', hc, hadv, -⟩
  · rw [hj] at h1; cases h1; exact ⟨id, id⟩
  · rw [List.getElem?_eq_none (by omega)] at hj; cases hj
  · rw [hj] at hj'; cases hj'
    have hlt : k < s.jobs.length := (List.getElem?_eq_some_iff.1 hj).1
    unfold advance at hadv
    split at hadv <;> cases hadv <;> rename_i hp <;> simp only [List.getElem?_set, hlt, if_true, Option.some.injEq] at hx <;> subst hx <;>
      (refine ⟨fun h1 => ?_, fun h1 => ?_⟩ <;> rw [hp] at h1 <;> first | (cases h1; done) | rfl)

theorem early_run : ∀ (as : List Act) {s s' : State} {k : Nat} {j x : Job}, run s as = some s' → s.jobs[k]? = some j → s'.jobs[k]? = some x → early j.phase = true →
    (past x.phase = true → ∃ as1 as2 s1, as = as1 ++ as2 ∧ run s as1 = some s1 ∧ Common s1.levels j.call.mask) ∧
    (x.phase = .skipped → ∃ as1 as2 s1, as = as1 ++ as2 ∧ run s as1 = some s1 ∧ ¬ Common s1.levels j.call.mask)
  | [], _, _, _, j, x, h, hj, hx, he => by
    cases h
    rw [hj] at hx; cases hx
    refine ⟨fun h1 => ?_, fun h1 => ?_⟩
    · cases hp : j.phase <;> rw [hp] at h1 he <;> first | (cases h1; done) | cases he
    · rw [h1] at he; cases he
  | a :: as, s, s', k, j, x, h, hj, hx, he => by
    simp only [run] at h
    obtain ⟨s1, h1, h2⟩ := Option.bind_eq_some_iff.1 h
    obtain ⟨y, hy, -⟩ := step_keeps h1 hj
    obtain ⟨hc, hcase⟩ := step_early h1 hj hy he
    rcases hcase with hee | ⟨hpast, hcm⟩ | ⟨hsk, hcm⟩
    · obtain ⟨ih1, ih2⟩ := early_run as h2 hy hx hee
      rw [hc] at ih1 ih2
      refine ⟨fun hp => ?_, fun hp => ?_⟩
      · obtain ⟨as1, as2, s2, he1, he2, he3⟩ := ih1 hp
        exact ⟨a :: as1, as2, s2, by rw [he1]; rfl, by simp only [run, h1]; exact he2, he3⟩
      · obtain ⟨as1, as2, s2, he1, he2, he3⟩ := ih2 hp
        exact ⟨a :: as1, as2, s2, by rw [he1]; rfl, by simp only [run, h1]; exact he2, he3⟩
    · refine ⟨fun _ => ⟨[], a :: as, s, rfl, rfl, hcm⟩, fun hsk => ?_⟩
      have : past x.phase = true := past_run as h2 hy hx hpast
      rw [hsk] at this; cases this
    · refine ⟨fun hp => ?_, fun _ => ⟨[], a :: as, s, rfl, rfl, hcm⟩⟩
      have : x.phase = .skipped := skipped_run as h2 hy hx hsk
      rw [this] at hp; cases hp
where
  past_run : ∀ (as : List Act) {s s' : State} {k : Nat} {j x : Job}, run s as = some s' → s.jobs[k]? = some j → s'.jobs[k]? = some x → past j.phase = true → past x.phase = true
    | [], _, _, _, j, x, h, hj, hx, he => by cases h; rw [hj] at hx; cases hx; exact he
    | a :: as, s, s', k, j, x, h, hj, hx, he => by
      simp only [run] at h
      obtain ⟨s1, h1, h2⟩ := Option.bind_eq_some_iff.1 h
      obtain ⟨y, hy, -⟩ := step_keeps h1 hj
      exact past_run as h2 hy hx ((step_late h1 hj hy).1 he)
  skipped_run : ∀ (as : List Act) {s s' : State} {k : Nat} {j x : Job}, run s as = some s' → s.jobs[k]? = some j → s'.jobs[k]? = some x → j.phase = .skipped → x.phase = .skipped
    | [], _, _, _, j, x, h, hj, hx, he => by cases h; rw [hj] at hx; cases hx; exact he
    | a :: as, s, s', k, j, x, h, hj, hx, he => by
      simp only [run] at h
      obtain ⟨s1, h1, h2⟩ := Option.bind_eq_some_iff.1 h
      obtain ⟨y, hy, -⟩ := step_keeps h1 hj
      exact skipped_run as h2 hy hx ((step_late h1 hj hy).2 he)

theorem call_step {s s1 : State} {c : Call} (h1 : step s (.call c) = some s1) : s1.jobs[s.jobs.length]? = some ⟨c, first c⟩ ∧ s1.levels = s.levels ∧ s1.jobs.length = s.jobs.length + 1 := by
  simp only [step, Option.some.injEq] at h1; subst h1; simp

/-- A message is logged only if its level was allowed at some moment of the call (`c` is the call, it begins in `s`). -/
theorem logged_allowed {s s1 s2 : State} (h : Reachable s) {c : Call} {acts : List Act} (h1 : step s (.call c) = some s1) (h2 : run s1 acts = some s2)
    (hl : Logged s2 s.jobs.length) : ∃ as1 as2 s', acts = as1 ++ as2 ∧ run s1 as1 = some s' ∧ Common s'.levels c.mask := by
  obtain ⟨hj, -, -⟩ := call_step h1
  have hr : Reachable s2 := by
    obtain ⟨as, h⟩ := h
    exact ⟨as ++ .call c :: acts, by rw [run_append, h]; simp only [Option.bind_some, run, h1]; exact h2⟩
  obtain ⟨x, hx⟩ := only_calls hr hl
  have hw := (logged_iff hr.inv hx).1 hl
  exact (early_run acts h2 hj hx (first_early c)).1 (by rw [hw]; rfl)

/-- If the level is allowed during the whole call, the message has been logged when the call has returned. -/
theorem allowed_logged {s s1 s2 : State} (h : Reachable s) {c : Call} {acts : List Act} (h1 : step s (.call c) = some s1) (h2 : run s1 acts = some s2)
    (hall : ∀ as1 as2 s', acts = as1 ++ as2 → run s1 as1 = some s' → Common s'.levels c.mask) (hret : Returned s2 s.jobs.length) : Logged s2 s.jobs.length := by
  obtain ⟨hj, -, -⟩ := call_step h1
  have hr : Reachable s2 := by
    obtain ⟨as, h⟩ := h
    exact ⟨as ++ .call c :: acts, by rw [run_append, h]; simp only [Option.bind_some, run, h1]; exact h2⟩
  obtain ⟨x, hx, hp⟩ := hret
  rcases hp with hp | hp
  · exact (logged_iff hr.inv hx).2 hp
  · obtain ⟨as1, as2, s', he, hrun, hno⟩ := (early_run acts h2 hj hx (first_early c)).2 hp
    exact absurd (hall as1 as2 s' he hrun) hno

/-- A call can always go on until it has returned, in four steps at most. -/
def rest : Phase → Nat
  | .begun => 4
  | .entered => 3
  | .inLog _ => 2
  | .passed _ => 1
  | .written | .skipped => 0

theorem returns {s : State} {i : Nat} {j : Job} (hj : s.jobs[i]? = some j) (hr : ¬ Returned s i) : ∃ s' j', step s (.go i) = some s' ∧ s'.jobs[i]? = some j' ∧ rest j'.phase < rest j.phase ∧ rest j.phase ≤ 4 := by
  have hlt : i < s.jobs.length := (List.getElem?_eq_some_iff.1 hj).1
  simp only [step, hj]
  have h4 : rest j.phase ≤ 4 := by cases j.phase <;> simp [rest]
  cases hp : j.phase with
  | begun => simp only [advance, hp]; exact ⟨_, _, rfl, by simp [hlt]; rfl, by simp only; split <;> simp [rest], by simp [rest]⟩
  | entered => simp only [advance, hp]; exact ⟨_, _, rfl, by simp [hlt]; rfl, by simp [rest], by simp [rest]⟩
  | inLog ps => simp only [advance, hp]; exact ⟨_, _, rfl, by simp [hlt]; rfl, by simp only; split <;> simp [rest], by simp [rest]⟩
  | passed t => simp only [advance, hp]; exact ⟨_, _, rfl, by simp [hlt]; rfl, by simp [rest], by simp [rest]⟩
  | written => exact absurd ⟨j, hj, .inl hp⟩ hr
  | skipped => exact absurd ⟨j, hj, .inr hp⟩ hr

def place : Level → Nat
  | .info => 0
  | .warn => 1
  | .error => 2
  | .fatal => 3
  | .debug => 4
  | .verbose => 5

theorem place_lt (l : Level) : place l < 8 := by cases l <;> decide

theorem bit_get (l : Level) (i : Nat) : (bit l).getLsbD i = decide (i = place l) := by
  by_cases h : i < 8
  · have : ∀ k : Fin 8, (bit l).getLsbD k.1 = decide (k.1 = place l) := by cases l <;> decide
    exact this ⟨i, h⟩
  · rw [BitVec.getLsbD_of_ge _ _ (by omega)]
    have := place_lt l
    have : i ≠ place l := by omega
    simp [this]

/-- The levels after each function. -/
theorem levels_change {s s' : State} {a : Act} (h : step s a = some s') (l : Level) :
    (∀ m o e, a = .init m o e → (Has s'.levels l ↔ Has m l)) ∧
    (a = .stop → ¬ Has s'.levels l) ∧
    (∀ m, a = .change m → (Has s'.levels l ↔ Has m l)) ∧
    (∀ m, a = .disable m → (Has s'.levels l ↔ Has s.levels l ∧ ¬ Has m l)) ∧
    ((∃ c, a = .call c) ∨ (∃ i, a = .go i) → s'.levels = s.levels) := by
  refine ⟨?_, ?_, ?_, ?_, ?_⟩
  · rintro m o e rfl; simp only [step, Option.some.injEq] at h; subst h; exact Iff.rfl
  · rintro rfl; simp only [step, Option.some.injEq] at h; subst h; show ¬ Has 0 l; cases l <;> simp [Has, bit]
  · rintro m rfl; simp only [step, Option.some.injEq] at h; subst h; exact Iff.rfl
  · rintro m rfl; simp only [step, Option.some.injEq] at h; subst h
    show Has (s.levels &&& ~~~m) l ↔ _
    generalize s.levels = x
    rw [← allowed_level, ← allowed_level, ← allowed_level, allowed_iff, allowed_iff, allowed_iff]
    unfold Common
    simp only [bit_get, decide_eq_true_eq, exists_eq_right]
    have := place_lt l
    simp [this]
  · rintro (⟨c, rfl⟩ | ⟨i, rfl⟩)
    · simp only [step, Option.some.injEq] at h; subst h; rfl
    · simp only [step] at h
      split at h
      · cases h
      · unfold advance at h
        split at h <;> cases h <;> rfl

/-- The property for `enable`: it allows what it is given, and what was allowed before. What is proved: it allows nothing that was not
both. What is missing is false: `enable_allows_nothing`, `enable_forbids`. -/
theorem enable_partial {s s' : State} {m : BitVec 8} (h : step s (.enable m) = some s') (l : Level) : Has s'.levels l ↔ Has s.levels l ∧ Has m l := by
  simp only [step, Option.some.injEq] at h; subst h
  show Has (s.levels &&& m) l ↔ _
  generalize s.levels = x
  rw [← allowed_level, ← allowed_level, ← allowed_level, allowed_iff, allowed_iff, allowed_iff]
  unfold Common
  simp only [bit_get, decide_eq_true_eq, exists_eq_right]
  simp

/-- `enable` never allows a level. -/
theorem enable_allows_nothing (s : State) (l : Level) (h : ¬ Has s.levels l) : ∃ s', step s (.enable (bit l)) = some s' ∧ ¬ Has s'.levels l :=
  ⟨_, rfl, fun h' => h ((enable_partial rfl l).1 h').1⟩

/-- It forbids every other level that was allowed. -/
theorem enable_forbids (s : State) (l l' : Level) (hne : l' ≠ l) (_ : Has s.levels l') : ∃ s', step s (.enable (bit l)) = some s' ∧ ¬ Has s'.levels l' := by
  refine ⟨_, rfl, fun h' => ?_⟩
  have := ((enable_partial rfl l').1 h').2
  revert this hne
  cases l <;> cases l' <;> simp [Has, bit]

/-- The functions after `init`: those that were given; without the second, the first is used for both. -/
theorem init_functions {s s' : State} {m : BitVec 8} {o e : Option Nat} (h : step s (.init m o e) = some s') :
    (∀ f, o = some f → s'.out = f) ∧ (o = none → s'.out = s.out) ∧ (∀ f, e = some f → s'.err = f) ∧ (e = none → s'.err = s'.out) := by
  simp only [step, Option.some.injEq] at h; subst h
  refine ⟨?_, ?_, ?_, ?_⟩
  · rintro f rfl; rfl
  · rintro rfl; rfl
  · rintro f rfl; rfl
  · rintro rfl; rfl

/-- So a later `init` that gives no functions does not keep the second one: error messages go to the first. -/
theorem init_loses_err : ∃ s s', Reachable s ∧ s.err = 2 ∧ step s (.init fromError none none) = some s' ∧ s'.err = 1 :=
  ⟨_, _, ⟨[.init fromError (some 1) (some 2)], rfl⟩, rfl, rfl, rfl⟩

/-- The functions change by `init` only. -/
theorem functions_stay {s s' : State} {a : Act} (h : step s a = some s') (ha : ∀ m o e, a ≠ .init m o e) : s'.out = s.out ∧ s'.err = s.err := by
  cases a with
  | init m o e => exact absurd rfl (ha m o e)
  | go i =>
    simp only [step] at h
    split at h
    · cases h
    · unfold advance at h
      split at h <;> cases h <;> exact ⟨rfl, rfl⟩
  | _ => simp only [step, Option.some.injEq] at h; subst h; exact ⟨rfl, rfl⟩

/-- A message can be given to the function after `stopLogging` has returned, if its call had begun before. -/
theorem after_stop : ∃ s s1 s2, Reachable s ∧ ¬ Logged s 0 ∧ step s .stop = some s1 ∧ step s1 (.go 0) = some s2 ∧ Logged s2 0 :=
  ⟨_, _, _, ⟨[.init fromInfo (some 1) none, .call (.named .error ["x"]), .go 0], rfl⟩, (fun h => by obtain ⟨f, t, h⟩ := h; cases h), rfl, rfl, ⟨_, _, List.mem_cons_self ..⟩⟩

/-- But not if its call begins afterwards and nobody allows its level again. -/
theorem none_after_stop {s0 s s1 s2 : State} (h : Reachable s0) (hs : step s0 .stop = some s) {c : Call} {acts : List Act} (h1 : step s (.call c) = some s1)
    (ha : ∀ a ∈ acts, (∀ m o e, a ≠ .init m o e) ∧ ∀ m, a ≠ .change m) (h2 : run s1 acts = some s2) : ¬ Logged s2 s.jobs.length := by
  intro hl
  have hr : Reachable s := by
    obtain ⟨as, h⟩ := h
    exact ⟨as ++ [.stop], by rw [run_append, h]; simp only [Option.bind_some, run, hs]⟩
  obtain ⟨as1, as2, s', he, hrun, i, hc, -⟩ := logged_allowed hr h1 h2 hl
  have h0 : s1.levels = 0 := by
    rw [(call_step h1).2.1]
    simp only [step, Option.some.injEq] at hs; subst hs; rfl
  have : s'.levels = 0 := zero_run as1 (fun a hm => ha a (by rw [he]; exact List.mem_append_left _ hm)) h0 hrun
  rw [this] at hc
  simp at hc
where
  zero_run : ∀ (as : List Act) {s s' : State}, (∀ a ∈ as, (∀ m o e, a ≠ .init m o e) ∧ ∀ m, a ≠ .change m) → s.levels = 0 → run s as = some s' → s'.levels = 0
    | [], _, _, _, h0, h => by cases h; exact h0
    | a :: as, s, s', ha, h0, h => by
      simp only [run] at h
      obtain ⟨s1, h1, h2⟩ := Option.bind_eq_some_iff.1 h
      refine zero_run as (fun b hb => ha b (List.mem_cons_of_mem _ hb)) ?_ h2
      have hh := ha a (List.mem_cons_self ..)
      cases a with
      | init m o e => exact absurd rfl (hh.1 m o e)
      | change m => exact absurd rfl (hh.2 m)
      | stop => simp only [step, Option.some.injEq] at h1; subst h1; rfl
      | enable m => simp only [step, Option.some.injEq] at h1; subst h1; show s.levels &&& m = 0; rw [h0]; simp
      | disable m => simp only [step, Option.some.injEq] at h1; subst h1; show s.levels &&& ~~~m = 0; rw [h0]; simp
      | call c => rw [(levels_change h1 .info).2.2.2.2 (.inl ⟨c, rfl⟩)]; exact h0
      | go i => rw [(levels_change h1 .info).2.2.2.2 (.inr ⟨i, rfl⟩)]; exact h0

/-! ### The macros -/

/-- The severities, from the least. -/
def severity : Level → Nat
  | .verbose => 0
  | .debug => 1
  | .info => 2
  | .warn => 3
  | .error => 4
  | .fatal => 5

/-- A minimum of one of the levels compiles exactly the macros of this level and above: for information, warnings, errors and fatal
errors. False for debug and verbose messages (`debug_compiled`, `verbose_compiled`), and `MAF_LOG_LEVEL_SILENCE` compiles all of them
(`silence_compiles`). -/
theorem compiled_partial (min l : Level) (h1 : l ≠ .debug) (h2 : l ≠ .verbose) (h3 : min ≠ .verbose) : compiled (macroLevel min) l = true ↔ severity min ≤ severity l := by
  cases min <;> cases l <;> simp_all [compiled, macroLevel, severity]

theorem debug_compiled (min : Nat) : compiled min .debug = true := rfl

theorem verbose_compiled (min : Level) : compiled (macroLevel min) .verbose = true := by cases min <;> rfl

theorem verbose_compiles (l : Level) (h1 : l ≠ .debug) (h2 : l ≠ .verbose) : compiled (macroLevel .verbose) l = false := by cases l <;> simp_all [compiled, macroLevel]

theorem silence_compiles (l : Level) : compiled 0 l = true := by cases l <;> rfl

theorem pastLastSlash_eq : ∀ (cs last : List Char), (¬ '/' ∈ cs → pastLastSlash cs last = last) ∧ ∀ a b, cs = a ++ '/' :: b → ¬ '/' ∈ b → pastLastSlash cs last = b
  | [], last => ⟨fun _ => rfl, fun a b h => by cases a <;> cases h⟩
  | c :: cs, last => by
    refine ⟨fun h => ?_, fun a b h hb => ?_⟩
    · have hc : c ≠ '/' := fun h0 => h (by rw [h0]; exact List.mem_cons_self ..)
      rw [pastLastSlash, if_neg hc]
      exact (pastLastSlash_eq cs last).1 fun h0 => h (List.mem_cons_of_mem _ h0)
    · cases a with
      | nil => cases h; rw [pastLastSlash, if_pos rfl]; exact (pastLastSlash_eq cs cs).1 hb
      | cons x a =>
        cases h
        rw [pastLastSlash]
        split
        · exact (pastLastSlash_eq _ _).2 a b rfl hb
        · exact (pastLastSlash_eq _ _).2 a b rfl hb

/-- The file name: what comes after the last slash; without slash all of it. -/
theorem file_name (dir name : List Char) (h : ¬ '/' ∈ name) : shortFileName (dir ++ '/' :: name) = name ∧ shortFileName name = name :=
  ⟨(pastLastSlash_eq _ _).2 dir name rfl h, (pastLastSlash_eq _ _).1 h⟩

/-! ### Examples -/

/-- Two messages, one allowed; another thread forbids the level of the second between the macro's checks. -/
example : (run init0 [.init fromInfo (some 1) (some 2), .call (.mac .warn ["a", "b"] ["at"]), .call (.named .debug ["c"]), .go 0, .go 0, .go 1, .go 0, .go 0]).map (·.given) = some [(0, 2, "WARN    :    ab")] := by decide +kernel

example : (run init0 [.init fromInfo (some 1) (some 2), .call (.mac .warn ["a"] []), .go 0, .disable (bit .warn), .go 0, .go 0]).map (·.given) = some [] := by decide +kernel

example : ∃ s, Reachable s ∧ Logged s 0 ∧ Returned s 0 :=
  ⟨_, ⟨[.init fromInfo (some 1) none, .call (.named .error ["x"]), .go 0, .go 0], rfl⟩, ⟨_, _, List.mem_cons_self ..⟩, ⟨_, rfl, .inl rfl⟩⟩

example : Has fromInfo .warn ∧ ¬ Has fromInfo .debug := by decide

example : shortFileName "/repo/src/a.cpp".toList = "a.cpp".toList := by decide +kernel

end Maf.Log
