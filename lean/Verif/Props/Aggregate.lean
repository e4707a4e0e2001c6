import Verif.Lemmas.Aggregate

/-!
# Aggregates: seen member by member, compared member by member

The specification is in `Lemmas/Aggregate.lean`, first section: `Alike` (two values of one type), `NoCArray`,
`Narrow` (at most 100 members at every level), `sameV` (the same contents), `before` (nested lexicographic order),
`Weak` (a strict weak order on the leaves).
-/

namespace Maf
namespace Agg

variable {L : Type}

/-! ## C104: all members, once each, in order -/

/-- **C104.**  The view of an aggregate whose members are no C arrays and at most 100 is the list of all its members
in order, and `for_each_field` visits exactly them, in order. -/
theorem view_is_all_members (ms : Vals L) (hc : ∀ v ∈ ms.toList, ∀ a es, v ≠ .carr a es)
    (hl : ms.toList.length ≤ 100) :
    tupleView (.agg ms) = some ms ∧
    ∀ {σ : Type} (f : σ → Val L → σ) (s : σ), forEachField f s (.agg ms) = some (ms.toList.foldl f s) := by
  have hcap : cap (.agg ms) = ms.toList.length := by simpa [cap] using argsAll_noCArray ms hc
  have hv : tupleView (.agg ms) = some ms := by
    unfold tupleView bind
    rw [pick_eq, hcap]
    cases ms with
    | nil => simp [Vals.toList]
    | cons v vs =>
      have hp : 0 < (Vals.cons v vs).toList.length := by simp [Vals.toList]
      rw [if_neg (by omega), if_pos (by simp only [parts]; omega)]
      rfl
  exact ⟨hv, fun f s => by simp [forEachField, hv]⟩

/-- The elements of a `std::array` of 1 to 100 elements likewise. -/
theorem view_of_std_array (es : Vals L) (hc : ∀ v ∈ es.toList, ∀ a xs, v ≠ .carr a xs)
    (hl : es.toList.length ≤ 100) : tupleView (.stdarr es) = some es := by
  have hcap : cap (.stdarr es) = es.toList.length := by simpa [cap] using argsAll_noCArray es hc
  unfold tupleView bind
  rw [pick_eq, hcap]
  cases es with
  | nil => simp [Vals.toList]
  | cons v vs =>
    have hp : 0 < (Vals.cons v vs).toList.length := by simp [Vals.toList]
    rw [if_neg (by omega), if_pos (by simp only [parts]; omega)]
    rfl

/-- Whatever the members are (C arrays with at least one element included): if the program compiles, the view holds
every member, once, in order — none is ever left out silently. -/
theorem view_never_drops_a_member (ms : Vals L) (hp : ∀ v ∈ ms.toList, 0 < args v) (vs : Vals L)
    (h : tupleView (.agg ms) = some vs) : vs = ms := by
  rw [tupleView_agg] at h
  have hge := argsAll_ge ms hp
  split at h
  · rename_i h0
    have : ms.toList.length = 0 := by omega
    cases ms with
    | nil => exact (Option.some.inj h).symm
    | cons v vs => simp [Vals.toList] at this
  · split at h
    · exact (Option.some.inj h).symm
    · cases h

/-- More than 100 members: the program does not compile. -/
theorem too_many_members (ms : Vals L) (hp : ∀ v ∈ ms.toList, 0 < args v) (hl : 100 < ms.toList.length) :
    tupleView (.agg ms) = none := by
  have hge := argsAll_ge ms hp
  rw [tupleView_agg]
  rw [if_neg (by omega), if_neg (by omega)]

/-- A member that is a C array of two or more elements (in an aggregate of fewer than 100 members): the program does
not compile. -/
theorem array_member_does_not_compile (ms : Vals L) (hp : ∀ v ∈ ms.toList, 0 < args v)
    (h2 : ∃ v ∈ ms.toList, 2 ≤ args v) (hl : ms.toList.length < 100) : tupleView (.agg ms) = none := by
  have hgt := argsAll_gt ms hp h2
  rw [tupleView_agg]
  rw [if_neg (by omega), if_neg (by omega)]

/-- `struct { int a; struct { string b; int c; } d; std::array<int, 2> e; }` -/
def sample (a b c e f : Nat) : Val Nat :=
  .agg (.cons (.leaf a) (.cons (.agg (.cons (.leaf b) (.cons (.leaf c) .nil)))
    (.cons (.stdarr (.cons (.leaf e) (.cons (.leaf f) .nil))) .nil)))

example : tupleView (sample 1 2 3 4 5) = some (parts (sample 1 2 3 4 5)) :=
  (view_is_all_members _ (by intro v hv a es h; subst h; simp [Vals.toList] at hv) (by decide)).1
example : tupleView (.agg (.cons (.leaf (1 : Nat)) (.cons (.carr 64 (.cons (.leaf 1) (.cons (.leaf 2) .nil))) .nil)))
    = none :=
  array_member_does_not_compile _ (by intro v hv; simp [Vals.toList] at hv; rcases hv with rfl | rfl <;> decide)
    ⟨.carr 64 (.cons (.leaf 1) (.cons (.leaf 2) .nil)), by simp [Vals.toList], by decide⟩ (by decide)
/-- `n` plain members. -/
def wide : Nat → Vals Nat
  | 0 => .nil
  | n + 1 => .cons (.leaf n) (wide n)
theorem wide_mem : ∀ n v, v ∈ (wide n).toList → args v = 1
  | 0, v, h => by simp [wide, Vals.toList] at h
  | n + 1, v, h => by
    simp only [wide, Vals.toList, List.mem_cons] at h
    rcases h with rfl | h
    · simp [args]
    · exact wide_mem n v h
example : tupleView (.agg (wide 101)) = none :=
  too_many_members _ (fun v hv => by rw [wide_mem 101 v hv]; decide) (by decide +kernel)

/-! ## C105: comparison -/

/-- What the six operators answer, from "the same contents" and "before". -/
def answer (eq lt : L → L → Bool) (o : Op) (v w : Val L) : Bool :=
  match o with
  | .eq => sameV eq v w
  | .ne => !sameV eq v w
  | .lt => before lt v w
  | .gt => before lt w v
  | .ge => !before lt v w
  | .le => !before lt w v

/-- **C105 (no C arrays).**  Comparing two values of one aggregate type — nested aggregates and `std::array`s
included, whatever `==` and `<` do on the leaves — compiles and answers as comparing member by member does: `==` is
the same contents, `<` is decided by the first member that is before or after its counterpart. -/
theorem compare_is_memberwise_partial (eq lt : L → L → Bool) (o : Op) (v w : Val L) (hv : NoCArray v) (hw : NoCArray w)
    (nv : Narrow v) (nw : Narrow w) (ht : Alike v w) : compare eq lt o v w = some (answer eq lt o v w) := by
  obtain ⟨a, ha⟩ := flat_some v hv nv
  obtain ⟨b, hb⟩ := flat_some w hw nw
  obtain ⟨h1, h2, h3⟩ := tup_flat eq lt v w hv hw ht a b ha hb
  unfold compare answer
  rw [ha, hb]
  cases o <;> simp [h1, h2, h3]

/-- With leaves whose `==` is equality, two aggregates compare equal exactly when they are the same value. -/
theorem equal_iff_same_value_partial (eq lt : L → L → Bool) (he : ∀ x y, eq x y = true ↔ x = y) (v w : Val L)
    (hv : NoCArray v) (hw : NoCArray w) (nv : Narrow v) (nw : Narrow w) (ht : Alike v w) :
    (compare eq lt .eq v w = some true ↔ v = w) ∧ (compare eq lt .ne v w = some true ↔ v ≠ w) := by
  rw [compare_is_memberwise_partial eq lt .eq v w hv hw nv nw ht,
    compare_is_memberwise_partial eq lt .ne v w hv hw nv nw ht]
  have := same_iff eq he v w hv hw
  simp only [answer, Option.some.injEq]
  refine ⟨this, ?_⟩
  rw [Ne, ← this]
  cases sameV eq v w <;> simp

/-- With leaves ordered by a strict weak order, so are the aggregates: aggregates can be keys of ordered containers
and can be sorted. -/
theorem order_laws_partial (eq lt : L → L → Bool) (hlt : Weak lt) (u v w : Val L) (hu : NoCArray u) (hv : NoCArray v)
    (hw : NoCArray w) (nu : Narrow u) (nv : Narrow v) (nw : Narrow w) (huv : Alike u v) (hvw : Alike v w) :
    (compare eq lt .lt u v = some true → compare eq lt .lt v u = some false) ∧
    (compare eq lt .lt u v = some true → compare eq lt .lt v w = some true → compare eq lt .lt u w = some true) ∧
    (compare eq lt .lt u w = some true → compare eq lt .lt u v = some true ∨ compare eq lt .lt v w = some true) ∧
    (u = v → compare eq lt .lt u v = some false) := by
  have huw := alike_trans u v w huv hvw
  rw [compare_is_memberwise_partial eq lt .lt u v hu hv nu nv huv,
    compare_is_memberwise_partial eq lt .lt v u hv hu nv nu (alike_symm _ _ huv),
    compare_is_memberwise_partial eq lt .lt v w hv hw nv nw hvw,
    compare_is_memberwise_partial eq lt .lt u w hu hw nu nw huw]
  simp only [answer, Option.some.injEq]
  refine ⟨before_asymm hlt u v, ?_, before_tie hlt u v w huv hvw, ?_⟩
  · intro h1 h2
    rcases before_tie hlt u w v huw (alike_symm _ _ hvw) h1 with h | h
    · exact h
    · rw [before_asymm hlt v w h2] at h; cases h
  · rintro rfl; exact before_irrefl hlt u

/-- `struct { int k[1]; }` at address `addr`. -/
def boxed (addr k : Nat) : Val Nat := .agg (.cons (.carr addr (.cons (.leaf k) .nil)) .nil)

/-- **C105 is refuted for C arrays**: a member `int k[1]` compiles, and two structures with the same contents compare
unequal, because the arrays are compared by their addresses; the one at the lower address is the smaller, whatever
the contents. -/
theorem array_members_compared_by_address :
    (∀ (eq lt : Nat → Nat → Bool) (a b j k : Nat),
      compare eq lt .eq (boxed a j) (boxed b k) = some (decide (a = b)) ∧
      compare eq lt .lt (boxed a j) (boxed b k) = some (decide (a < b))) ∧
    ∃ a b : Nat, a ≠ b ∧ Alike (boxed a 7) (boxed b 7) ∧ sameV (· == ·) (boxed a 7) (boxed b 7) = true ∧
      compare (· == ·) (fun x y => decide (x < y)) .eq (boxed a 7) (boxed b 7) = some false := by
  have hf : ∀ a k, flat (boxed a k) = some [.ptr a] := by
    intro a k
    simp [boxed, flat, pick_eq, cap, argsAll, args, Vals.toList, flatAll]
  have h : ∀ (eq lt : Nat → Nat → Bool) (a b j k : Nat),
      compare eq lt .eq (boxed a j) (boxed b k) = some (decide (a = b)) ∧
      compare eq lt .lt (boxed a j) (boxed b k) = some (decide (a < b)) := by
    intro eq lt a b j k
    simp only [compare, hf]
    simp [tupEq, tupLt, leafEq, leafLt]
  refine ⟨h, 64, 128, by decide, ?_, by decide, ?_⟩
  · simp [boxed, Alike, AlikeAll]
  · exact (h _ _ 64 128 7 7).1

/-- The hypotheses hold of a nested structure. -/
theorem sample_ok (a b c e f : Nat) : NoCArray (sample a b c e f) ∧ Narrow (sample a b c e f) := by
  simp [sample, NoCArray, NoCArrayAll, Narrow, NarrowAll, Vals.toList]
theorem sample_alike (a b c e f a' b' c' e' f' : Nat) : Alike (sample a b c e f) (sample a' b' c' e' f') := by
  simp [sample, Alike, AlikeAll]
theorem natWeak : Weak (fun x y : Nat => decide (x < y)) :=
  ⟨by simp, by intro x y z; simp only [decide_eq_true_eq]; omega,
   by intro x y z; simp only [decide_eq_true_eq]; omega⟩

example : compare (· == ·) (fun x y => decide (x < y)) .lt (sample 1 2 3 4 5) (sample 1 2 3 4 6) = some true := by
  rw [compare_is_memberwise_partial _ _ _ _ _ (sample_ok ..).1 (sample_ok ..).1 (sample_ok ..).2 (sample_ok ..).2
    (sample_alike ..)]
  simp [answer, sample, before, beforeAll]
example : compare (· == ·) (fun x y => decide (x < y)) .eq (sample 1 2 3 4 5) (sample 1 2 3 4 5) = some true :=
  (equal_iff_same_value_partial (· == ·) (fun x y => decide (x < y)) (by simp) _ _ (sample_ok ..).1 (sample_ok ..).1
    (sample_ok ..).2 (sample_ok ..).2 (sample_alike ..)).1.mpr rfl
example : compare (· == ·) (fun x y => decide (x < y)) .lt (sample 1 2 3 4 6) (sample 1 2 3 4 5) = some false :=
  (order_laws_partial (· == ·) _ natWeak (sample 1 2 3 4 5) (sample 1 2 3 4 6) (sample 1 2 3 4 6)
    (sample_ok ..).1 (sample_ok ..).1 (sample_ok ..).1 (sample_ok ..).2 (sample_ok ..).2 (sample_ok ..).2
    (sample_alike ..) (sample_alike ..)).1 (by
      rw [compare_is_memberwise_partial _ _ _ _ _ (sample_ok ..).1 (sample_ok ..).1 (sample_ok ..).2 (sample_ok ..).2
        (sample_alike ..)]
      simp [answer, sample, before, beforeAll])

end Agg
end Maf
