import Verif.Lemmas.Handle
/-
C80: typed requests.
-/
namespace Maf.Hdl

/-- The log after a list of actions. -/
def logOf (as : List Act) : List Ev := ((run init as).map State.log).getD []

theorem Log.of {as : List Act} (h : (run init as).isSome = true) : Log (logOf as) := by
  obtain ⟨s, hs⟩ := Option.isSome_iff_exists.1 h
  exact ⟨as, s, hs, by simp [logOf, hs]⟩

/-! ### Helpers for the examples -/

def keys : List Ev → List Key
  | [] => []
  | .arrived _ _ k :: l => k :: keys l
  | _ :: l => keys l

def ends (r : Nat) : Ev → Bool
  | .answered r' _ _ _ => r' == r
  | .aborted r' => r' == r
  | .ended r' => r' == r
  | _ => false

theorem keys_app (x y : List Ev) : keys (x ++ y) = keys x ++ keys y := by
  induction x with
  | nil => rfl
  | cons e x ih => cases e <;> simp [keys, ih]

theorem mem_keys {l : List Ev} {r c : Nat} {k : Key} (h : .arrived r c k ∈ l) : k ∈ keys l := by
  obtain ⟨x, y, rfl⟩ := List.append_of_mem h
  simp [keys_app, keys]

theorem separate_of_keys {l : List Ev} (h : (keys l).Nodup) : Separate l := by
  intro x y r c k r' c' hl hm
  rw [hl, keys_app] at h
  exact absurd rfl ((List.nodup_append.1 h).2.2 k (mem_keys hm) k (by simp [keys]))

theorem over_of_ends {l : List Ev} {r : Nat} (h : l.any (ends r) = false) : ¬ Over l r := by
  rw [List.any_eq_false] at h
  rintro (⟨c, k, a, hx⟩ | hx | hx)
  · exact h _ hx (by simp [ends])
  · exact h _ hx (by simp [ends])
  · exact h _ hx (by simp [ends])

/-! ### What holds of every program -/

/-- An answer goes to the client that sent the request, with the operation and id of the request, and only after the handler
has been called. -/
theorem to_right_client {l x y : List Ev} {r c : Nat} {k : Key} {a : Answer} (h : Log l) (hl : l = x ++ .answered r c k a :: y) : .arrived r c k ∈ x ∧ .started r ∈ x := by
  have := h.hist.all x _ y hl
  exact ⟨this.1, this.2.1⟩

/-- So does an update. -/
theorem update_to_right_client {l x y : List Ev} {r c : Nat} {k : Key} (h : Log l) (hl : l = x ++ .updated r c k :: y) : .arrived r c k ∈ x ∧ .started r ∈ x := by
  have := h.hist.all x _ y hl
  exact ⟨this.1, this.2.1⟩

/-- A request has one client, operation and id. -/
theorem one_client {l : List Ev} {r c c' : Nat} {k k' : Key} (h : Log l) (h1 : .arrived r c k ∈ l) (h2 : .arrived r c' k' ∈ l) : c = c' ∧ k = k' := by
  obtain ⟨as, s, hr, rfl⟩ := h
  have hi := inv_run as inv_init hr
  obtain ⟨a, b⟩ := hi.arr r c k h1
  obtain ⟨a', b'⟩ := hi.arr r c' k' h2
  exact ⟨a.symm.trans a', b.symm.trans b'⟩

/-- Requests are numbered in the order of arrival. -/
theorem numbered {l x y : List Ev} {r c : Nat} {k : Key} (h : Log l) (hl : l = x ++ .arrived r c k :: y) (r' : Nat) : (∃ c k, .arrived r' c k ∈ x) ↔ r' < r := h.hist.all x _ y hl r'

/-- The handler is called at most once for a request, only for a request that came in and that the executor took, and in the
order of arrival. -/
theorem handled_in_order {l x y : List Ev} {r : Nat} (h : Log l) (hl : l = x ++ .started r :: y) :
    (∃ c k, .arrived r c k ∈ x) ∧ .started r ∉ x ∧ .refused r ∉ x ∧ ∀ r', r' < r → .refused r' ∈ x ∨ .started r' ∈ x := h.hist.all x _ y hl

/-- A call on a handle that returns success has sent its message just before. -/
theorem success_sent {l x y : List Ev} {r : Nat} {final : Bool} (h : Log l) (hl : l = x ++ .result r final .success :: y) :
    (final = true ∧ ∃ z c k a, x = z ++ [.answered r c k a] ∧ a ≠ .ignored) ∨ (final = false ∧ ∃ z c k, x = z ++ [.updated r c k]) := by
  have := h.hist.all x _ y hl
  cases final with
  | true => exact .inl ⟨rfl, this⟩
  | false => exact .inr ⟨rfl, this⟩

/-- No two variables hold the same request. -/
theorem unique_handle {as : List Act} {s : State} (h : run init as = some s) {v w r : Nat} (hv : s.var v = some (some r)) (hw : s.var w = some (some r)) : v = w := (inv_run as inv_init h).one v w r hv hw

/-- Success and `InvalidCall` are all that a call can return. -/
theorem no_failure {l : List Ev} {r : Nat} {final : Bool} (h : Log l) : .result r final .failed ∉ l := by
  intro hx
  obtain ⟨x, y, rfl, hp⟩ := Hist.of_mem h.hist hx
  cases final <;> exact hp

/-- The full property: no program that uses handles has undefined behaviour. Missing: calls on a handle without request
(`moved_from_crash`); there is no other way. -/
theorem no_ub_partial {as : List Act} {s s' : State} (h : run init as = some s) {a : Act} (h1 : step s a = some s') (hu : s'.ub = true) : ∃ v, s.var v = some none ∧ ((∃ e, a = .respond v e) ∨ a = .update v) := by
  have hi := inv_run as inv_init h
  unfold step at h1
  split at h1
  · cases h1
  rename_i hb
  have hb : s.ub = false := by simpa using hb
  have hf : ∀ r a, s.valid r = true → (finish s r a).ub = false := fun r a hr => by
    unfold finish
    split
    · rename_i hl; exact absurd hl (lookup_valid hi.toBase hr)
    · exact hb
  cases a with
  | arrive c k ok => cases h1; rw [show (arrive s c k ok).ub = s.ub from rfl, hb] at hu; cases hu
  | start v =>
    simp only [body, start] at h1
    split at h1
    · cases h1; rw [hb] at hu; cases hu
    · cases h1
  | respond v err =>
    simp only [body, respond] at h1
    split at h1
    · cases h1
    · rename_i hv; exact ⟨v, hv, .inl ⟨err, rfl⟩⟩
    · split at h1
      · rename_i hr; cases h1; rw [hf _ _ hr] at hu; cases hu
      · cases h1; rw [hb] at hu; cases hu
  | update v =>
    simp only [body, update] at h1
    split at h1
    · cases h1
    · rename_i hv; exact ⟨v, hv, .inr rfl⟩
    · split at h1
      · cases h1; rw [hb] at hu; cases hu
      · split at h1 <;> · cases h1; rw [hb] at hu; cases hu
  | destroy v =>
    simp only [body, destroy] at h1
    split at h1
    · cases h1
    · cases h1; rw [hb] at hu; cases hu
    · split at h1
      · rename_i r hv hr; cases h1; rw [show State.ub _ = (finish s r .ignored).ub from rfl, hf _ _ hr] at hu; cases hu
      · cases h1; rw [hb] at hu; cases hu
  | assign v w =>
    simp only [body, assign] at h1
    split at h1
    · split at h1
      · cases h1; rw [hb] at hu; cases hu
      · cases h1; rw [hb] at hu; cases hu
    · cases h1
  | move v w =>
    simp only [body, move] at h1
    split at h1
    · cases h1; rw [hb] at hu; cases hu
    · cases h1
  | new v =>
    simp only [body] at h1
    split at h1
    · cases h1; rw [hb] at hu; cases hu
    · cases h1
  | abort k =>
    cases h1
    unfold abort at hu
    split at hu <;> · rw [hb] at hu; cases hu
  | deinit => cases h1; rw [show (deinit s).ub = s.ub from rfl, hb] at hu; cases hu

/-! ### What holds if ids are not shared -/

/-- The full property: a request has at most one final answer, and none after its client has aborted it or the provider has
ended it. Missing: clients choose the ids, so two requests with the same operation and id may be open at the same time
(`collision`). -/
theorem once_partial {l x y : List Ev} {r c : Nat} {k : Key} {a : Answer} (h : Log l) (hs : Separate l) (hl : l = x ++ .answered r c k a :: y) : ¬ Over x r := by
  subst hl
  exact (h.hist.all x _ y rfl).2.2 hs.left

/-- Nor is an update sent of a request that is over. -/
theorem update_open_partial {l x y : List Ev} {r c : Nat} {k : Key} (h : Log l) (hs : Separate l) (hl : l = x ++ .updated r c k :: y) : ¬ Over x r := by
  subst hl
  exact (h.hist.all x _ y rfl).2.2 hs.left

/-- The full property: every request whose handler was called is answered, aborted or ended, once the user's program has no
handle of it any more, whatever the program did. Missing: shared ids (`collision`), and handles that were overwritten
(`overwritten_unanswered`). -/
theorem every_partial {as : List Act} {s : State} (h : run init as = some s) (hs : Separate s.log) {r : Nat} (hst : .started r ∈ s.log) (hv : ∀ v, s.var v ≠ some (some r)) (ho : .overwritten r ∉ s.log) : Over s.log r := by
  rcases ((inv_run as inv_init h).sep hs).gone r hst with ⟨v, hx⟩ | hx | hx
  · exact absurd hx (hv v)
  · exact absurd hx ho
  · exact hx

/-- `respond` and `error` on a handle of a request that is not over send the answer to its client and return success. -/
theorem respond_answers_partial {as : List Act} {s : State} (h : run init as = some s) (hs : Separate s.log) {v r c : Nat} {k : Key} (hv : s.var v = some (some r)) (ha : .arrived r c k ∈ s.log) (ho : ¬ Over s.log r) (err : Bool) :
    ∃ s', body s (.respond v err) = some s' ∧ s'.log = s.log ++ [.answered r c k (if err then .error else .output), .result r true .success] ∧ s'.ub = s.ub := by
  have hi := inv_run as inv_init h
  obtain ⟨rfl, rfl⟩ := hi.arr r c k ha
  have hr : s.valid r = true := by
    cases hx : s.valid r with
    | true => rfl
    | false => exact absurd (over (hi.sep hs) (hi.began r (hi.held v r hv)) hx) ho
  exact ⟨finish s r (if err then .error else .output), by simp [body, respond, hv, hr], by cases err <;> simp [finish, lookup_self (hi.sep hs) hr, returns], by simp [finish, lookup_self (hi.sep hs) hr]⟩

/-- When a handle of a request that is not over is destroyed, its client is told that it is ignored. -/
theorem destroy_answers_partial {as : List Act} {s : State} (h : run init as = some s) (hs : Separate s.log) {v r c : Nat} {k : Key} (hv : s.var v = some (some r)) (ha : .arrived r c k ∈ s.log) (ho : ¬ Over s.log r) :
    ∃ s', body s (.destroy v) = some s' ∧ s'.log = s.log ++ [.answered r c k .ignored] ∧ s'.ub = s.ub := by
  have hi := inv_run as inv_init h
  obtain ⟨rfl, rfl⟩ := hi.arr r c k ha
  have hr : s.valid r = true := by
    cases hx : s.valid r with
    | true => rfl
    | false => exact absurd (over (hi.sep hs) (hi.began r (hi.held v r hv)) hx) ho
  exact ⟨{ finish s r .ignored with var := upd s.var v none }, by simp [body, destroy, hv, hr], by simp [finish, lookup_self (hi.sep hs) hr, returns], by simp [finish, lookup_self (hi.sep hs) hr]⟩

/-- `InvalidCall` means that the request is over. -/
theorem invalid_over_partial {l x y : List Ev} {r : Nat} {final : Bool} (h : Log l) (hs : Separate l) (hl : l = x ++ .result r final .invalid :: y) : Over x r := by
  subst hl
  have := h.hist.all x _ y rfl
  cases final <;> exact this hs.left

/-! ### What does not hold -/

/-- A program that moves a request into a variable that already holds one: the request that was there is never answered,
although no handle of it is left. -/
theorem overwritten_unanswered : ∃ as s, run init as = some s ∧ Separate s.log ∧ .started 0 ∈ s.log ∧ (∀ v, s.var v ≠ some (some 0)) ∧ ¬ Over s.log 0 := by
  refine ⟨[.arrive 1 ⟨7, 0⟩ true, .arrive 1 ⟨7, 1⟩ true, .start 0, .start 1, .assign 1 0, .destroy 1], _, rfl, separate_of_keys (by decide +kernel), by decide +kernel, fun v => ?_, over_of_ends (by decide +kernel)⟩
  show (upd (upd (upd (upd (upd (fun _ => none) 0 (some (some 0))) 1 (some (some 1))) 1 (some none)) 0 (some (some 1))) 1 none) v ≠ _
  simp only [upd]
  split
  · simp
  · split
    · simp
    · simp

/-- A request that the executor refuses is never answered: there is no handle of it at all, and no task. -/
theorem refused_unanswered : ∃ as s, run init as = some s ∧ Separate s.log ∧ .refused 0 ∈ s.log ∧ s.tasks = [] ∧ (∀ v, s.var v = none) ∧ ¬ Over s.log 0 :=
  ⟨[.arrive 1 ⟨7, 0⟩ false], _, rfl, separate_of_keys (by decide +kernel), by decide +kernel, rfl, fun _ => rfl, over_of_ends (by decide +kernel)⟩

/-- Two clients that use the same id: the answer of client 2's request completes the request of client 1, whose handler's
own answer is then refused; client 1 never gets one. And client 2's request counts as open: it is answered twice. -/
theorem collision : ∃ l, Log l ∧ .started 0 ∈ l ∧ .result 0 true .invalid ∈ l ∧ ¬ Over l 0 ∧ ∃ x y z, l = x ++ .answered 1 2 ⟨7, 0⟩ .output :: y ++ .answered 1 2 ⟨7, 0⟩ .output :: z :=
  ⟨logOf [.arrive 1 ⟨7, 0⟩ true, .arrive 2 ⟨7, 0⟩ true, .start 0, .start 1, .respond 1 false, .respond 0 false, .destroy 0, .respond 1 false],
    Log.of (by decide +kernel), by decide +kernel, by decide +kernel, over_of_ends (by decide +kernel),
    [.arrived 0 1 ⟨7, 0⟩, .arrived 1 2 ⟨7, 0⟩, .started 0, .started 1], [.result 1 true .success, .result 0 true .invalid], [.result 1 true .success], by decide +kernel⟩

/-- `respond` on a handle that was moved from. -/
theorem moved_from_crash : ∃ as s, run init as = some s ∧ Separate s.log ∧ s.ub = true := by
  exact ⟨[.arrive 1 ⟨7, 0⟩ true, .start 0, .move 0 1, .respond 0 false], _, rfl, separate_of_keys (by decide +kernel), by decide +kernel⟩

/-! ### Examples -/

/-- Two clients; one request is answered after an update, one is ignored, one aborted, one ended; a late answer is refused. -/
def demo : List Act :=
  [.arrive 1 ⟨7, 0⟩ true, .arrive 2 ⟨7, 1⟩ true, .arrive 1 ⟨8, 0⟩ true, .arrive 1 ⟨7, 2⟩ true, .start 0, .move 0 5, .update 5, .respond 5 true, .start 1, .start 2, .destroy 1, .abort ⟨8, 0⟩, .respond 2 false,
    .start 3, .deinit, .destroy 3, .destroy 2, .destroy 5, .destroy 0]

example : Log (logOf demo) ∧ Separate (logOf demo) ∧ logOf demo =
    [.arrived 0 1 ⟨7, 0⟩, .arrived 1 2 ⟨7, 1⟩, .arrived 2 1 ⟨8, 0⟩, .arrived 3 1 ⟨7, 2⟩, .started 0, .updated 0 1 ⟨7, 0⟩, .result 0 false .success,
      .answered 0 1 ⟨7, 0⟩ .error, .result 0 true .success, .started 1, .started 2, .answered 1 2 ⟨7, 1⟩ .ignored, .aborted 2, .result 2 true .invalid,
      .started 3, .ended 3] := ⟨Log.of (by decide +kernel), separate_of_keys (by decide +kernel), by decide +kernel⟩

/-- The state in which `respond_answers_partial` and `destroy_answers_partial` are used. -/
example : ∃ s, run init [.arrive 1 ⟨7, 0⟩ true, .start 0] = some s ∧ Separate s.log ∧ s.var 0 = some (some 0) ∧ .arrived 0 1 ⟨7, 0⟩ ∈ s.log ∧ ¬ Over s.log 0 :=
  ⟨_, rfl, separate_of_keys (by decide +kernel), by decide +kernel, by decide +kernel, over_of_ends (by decide +kernel)⟩

/-- An id is used again after its request was answered. -/
example : Separate [.arrived 0 1 ⟨7, 0⟩, .started 0, .answered 0 1 ⟨7, 0⟩ .output, .arrived 1 1 ⟨7, 0⟩] := by
  intro x y r c k r' c' hl hm
  rcases x with _ | ⟨e1, _ | ⟨e2, _ | ⟨e3, _ | ⟨e4, x⟩⟩⟩⟩ <;> simp at hl hm
  obtain ⟨rfl, rfl, rfl, -, -⟩ := hl
  simp at hm
  exact .inl ⟨1, ⟨7, 0⟩, .output, by simp [hm]⟩

end Maf.Hdl
