import Verif.Model.JsonLoad

/-!
C100: loading from JSON.

Specification: `toJson` says which JSON stands for a value; loading it gives that value; what a JSON does not mention is not changed.
-/

namespace Maf.Json

mutual
/-- the JSON of a value -/
def toJson : (t : Ty) → Val t → Json
  | .bool, v => match (show Cell Bool from v) with
    | .val b => .bool b
    | .indeterminate => .null
  | .int _, v => match (show Cell Int from v) with
    | .val z => .num z
    | .indeterminate => .null
  | .str, s => .str s
  | .vec t, vs => .arr ((show List (Val t) from vs).map fun v => toJson t v)
  | .map t, ps => .obj ((show List (List Char × Val t) from ps).map fun p => (p.1, toJson t p.2))
  | .obj fs, vs => .obj (toJsons fs vs)
def toJsons : (fs : Flds) → Vals fs → List (List Char × Json)
  | .nil, _ => []
  | .cons n t _ fs, vs => (n, toJson t vs.1) :: toJsons fs vs.2
end

/-- the integers that can be loaded: those of the type, and of `int` if it has at most 32 bits -/
def Loadable (k : IntKind) (z : Int) : Prop := k.lo ≤ z ∧ z ≤ k.hi ∧ (k.narrow = true → z ≤ 2147483647)

def names : Flds → List (List Char)
  | .nil => []
  | .cons n _ _ fs => n :: names fs

mutual
/-- every scalar has a value, that can be loaded; members of an object have different names -/
def Whole : (t : Ty) → Val t → Prop
  | .bool, v => (show Cell Bool from v) ≠ .indeterminate
  | .int k, v => ∃ z, (show Cell Int from v) = .val z ∧ Loadable k z
  | .str, _ => True
  | .vec t, vs => ∀ v ∈ (show List (Val t) from vs), Whole t v
  | .map t, ps => ∀ p ∈ (show List (List Char × Val t) from ps), Whole t p.2
  | .obj fs, vs => (names fs).Nodup ∧ Wholes fs vs
def Wholes : (fs : Flds) → Vals fs → Prop
  | .nil, _ => True
  | .cons _ t _ fs, vs => Whole t vs.1 ∧ Wholes fs vs.2
end

theorem cast_same {k : IntKind} {z : Int} (h : k.lo ≤ z) (h2 : z ≤ k.hi) : k.cast z = z := by
  unfold IntKind.cast
  rw [Int.emod_eq_of_lt (by omega) (by omega)]
  omega

theorem getInt_whole {k : IntKind} {z : Int} (h : Loadable k z) : getInt k (.num z) = some z := by
  obtain ⟨h1, h2, h3⟩ := h
  unfold getInt
  simp only []
  by_cases hn : k.narrow = true
  · have : -2147483648 ≤ k.lo := by cases k <;> first | decide | cases hn
    rw [if_pos hn, if_pos ⟨by omega, h3 hn⟩, cast_same h1 h2]
  · rw [if_neg hn, if_pos ⟨h1, h2⟩]

theorem each_back {α β : Type} (f : β → Option α) (d : α → β) (xs : List α) (hd : ∀ x ∈ xs, f (d x) = some x) : each f (xs.map d) = some xs := by
  induction xs with
  | nil => rfl
  | cons x xs ih =>
    simp only [List.map_cons, each]
    rw [hd x List.mem_cons_self, ih fun y hy => hd y (List.mem_cons_of_mem _ hy)]

theorem exist_toJson (t : Ty) (v : Val t) (h : Whole t v) : exist t (toJson t v) = true := by
  match t with
  | .bool =>
    have : ∀ c : Cell Bool, c ≠ .indeterminate → exist .bool (toJson .bool c) = true := by
      intro c hc; cases c with
      | val b => simp [toJson, exist]
      | indeterminate => exact absurd rfl hc
    exact this v h
  | .int k =>
    obtain ⟨z, e, _⟩ := h
    have e2 : v = (Cell.val z : Cell Int) := e
    subst e2
    simp [toJson, exist]
  | .str => simp only [toJson, exist]
  | .vec t => simp only [toJson, exist]
  | .map t => simp only [toJson, exist]
  | .obj fs => simp only [toJson, exist]

theorem find_skip {n : List Char} {x : Json} {m : List Char} {ms : List (List Char × Json)} (h : m ≠ n) : find n ((m, x) :: ms) = find n ms := by
  rw [find, if_neg h]

/-- what a JSON object has for the members -/
def Has (j : Json) : (fs : Flds) → Vals fs → Prop
  | .nil, _ => True
  | .cons n t _ fs, vs => j.at n = toJson t vs.1 ∧ Has j fs vs.2

theorem has_obj : (fs : Flds) → (pre : List (List Char × Json)) → (vs : Vals fs) → (∀ p ∈ pre, p.1 ∉ names fs) → (names fs).Nodup → Has (.obj (pre ++ toJsons fs vs)) fs vs
  | .nil, _, _, _, _ => trivial
  | .cons n t i fs, pre, vs, hp, hn => by
    have hf : ∀ (q : List (List Char × Json)) ms, (∀ p ∈ q, p.1 ≠ n) → find n (q ++ ms) = find n ms := by
      intro q ms hq
      induction q with
      | nil => rfl
      | cons p q ih =>
        rw [List.cons_append, find_skip (hq p List.mem_cons_self)]
        exact ih fun p hp => hq p (List.mem_cons_of_mem _ hp)
    have hn2 : n ∉ names fs ∧ (names fs).Nodup := List.nodup_cons.mp hn
    refine ⟨?_, ?_⟩
    · show find n (pre ++ toJsons (.cons n t i fs) vs) = _
      rw [hf pre _ fun p hq e => hp p hq (by rw [e]; exact List.mem_cons_self), toJsons, find, if_pos rfl]
    · have := has_obj fs (pre ++ [(n, toJson t vs.1)]) vs.2 (by
        intro p hq
        rcases List.mem_append.mp hq with hq | hq
        · exact fun h => hp p hq (List.mem_cons_of_mem _ h)
        · rw [List.mem_singleton.mp hq]; exact hn2.1) hn2.2
      rw [toJsons]
      simpa [List.append_assoc] using this

mutual
theorem get_toJson : (t : Ty) → (v : Val t) → Whole t v → get t (toJson t v) = some v
  | .bool, v, h => by
    have : ∀ c : Cell Bool, c ≠ .indeterminate → get .bool (toJson .bool c) = some c := by
      intro c hc; cases c with
      | val b =>
        simp only [toJson, get, getBool]
        rfl
      | indeterminate => exact absurd rfl hc
    exact this v h
  | .int k, v, h => by
    obtain ⟨z, e, hz⟩ := h
    have e2 : v = (Cell.val z : Cell Int) := e
    subst e2
    have h1 : toJson (.int k) (Cell.val z : Cell Int) = .num z := by simp [toJson]
    rw [h1, get, getInt_whole hz]
    rfl
  | .str, v, _ => by simp only [toJson, get, getStr]
  | .vec t, vs, h => by
    simp only [toJson, get, Json.items]
    exact each_back (fun x => get t x) (fun v => toJson t v) vs fun v hv => get_toJson t v (h v hv)
  | .map t, ps, h => by
    simp only [toJson, get, Json.fields]
    exact each_back (fun p => (get t p.2).map fun v => (p.1, v)) (fun p : List Char × Val t => (p.1, toJson t p.2)) ps
      fun p hp => by simp only [get_toJson t p.2 (h p hp), Option.map_some]
  | .obj fs, vs, h => by
    rw [toJson, get]
    exact load_has fs _ (freshes fs) vs (has_obj fs [] vs (fun _ h => by cases h) h.1) h.2
theorem load_has : (fs : Flds) → (j : Json) → (old vs : Vals fs) → Has j fs vs → Wholes fs vs → load fs j old = some vs
  | .nil, _, _, _, _, _ => rfl
  | .cons n t i fs, j, old, vs, hj, hw => by
    rw [load, hj.1, exist_toJson t vs.1 hw.1, if_pos rfl, get_toJson t vs.1 hw.1, load_has fs j old.2 vs.2 hj.2 hw.2]
    rfl
end

/-- **C100, in part.** Loading the JSON of an object gives that object, whatever was there before, to any depth (missing: integers that cannot be loaded). -/
theorem loads_all_partial (fs : Flds) (old vs : Vals fs) (hn : (names fs).Nodup) (h : Wholes fs vs) : load fs (toJson (.obj fs) vs) old = some vs := by
  have e : toJson (.obj fs) vs = .obj (toJsons fs vs) := by simp only [toJson]
  rw [e]
  exact load_has fs _ old vs (has_obj fs [] vs (fun _ h => by cases h) hn) h

/-- member `i` and its value -/
def member : (fs : Flds) → Nat → Vals fs → Option (List Char × (t : Ty) × Val t)
  | .nil, _, _ => none
  | .cons n t _ _, 0, vs => some (n, ⟨t, vs.1⟩)
  | .cons _ _ _ fs, i + 1, vs => member fs i vs.2

/-- **C100.** A member the JSON has nothing of its kind for is not changed; another is what `get` makes of it, whatever it was before. -/
theorem each_member (fs : Flds) (j : Json) (old new : Vals fs) (h : load fs j old = some new) (i : Nat) (n : List Char) (t : Ty) (v : Val t) (hm : member fs i old = some (n, ⟨t, v⟩)) :
    ∃ w, member fs i new = some (n, ⟨t, w⟩) ∧ (exist t (j.at n) = false → w = v) ∧ (exist t (j.at n) = true → get t (j.at n) = some w) := by
  match fs, i with
  | .nil, _ => cases hm
  | .cons m u b fs, 0 =>
    rw [member] at hm
    simp only [Option.some.injEq, Prod.mk.injEq, Sigma.mk.injEq] at hm
    obtain ⟨e1, e2, e3⟩ := hm
    subst e1 e2
    have e3 := eq_of_heq e3
    subst e3
    rw [load] at h
    split at h
    · next w ws h1 h2 =>
      cases h
      refine ⟨w, rfl, fun he => ?_, fun he => ?_⟩
      · rw [he] at h1; simp at h1; exact h1.symm
      · rw [he, if_pos rfl] at h1; exact h1
    · cases h
  | .cons m u b fs, i + 1 =>
    have hm : member fs i old.2 = some (n, ⟨t, v⟩) := hm
    rw [load] at h
    split at h
    · next w ws h1 h2 =>
      cases h
      show ∃ x, member fs i ws = some (n, ⟨t, x⟩) ∧ _
      exact each_member fs j old.2 ws h2 i n t v hm
    · cases h

/-- **C100.** A member the JSON has the JSON of a value for has that value afterwards. -/
theorem member_set (fs : Flds) (j : Json) (old new : Vals fs) (h : load fs j old = some new) (i : Nat) (n : List Char) (t : Ty) (v w : Val t) (hm : member fs i old = some (n, ⟨t, v⟩))
    (hw : Whole t w) (hj : j.at n = toJson t w) : member fs i new = some (n, ⟨t, w⟩) := by
  obtain ⟨x, h1, _, h3⟩ := each_member fs j old new h i n t v hm
  rw [hj] at h3
  have h4 := h3 (exist_toJson t w hw)
  rw [get_toJson t w hw] at h4
  cases h4
  exact h1

/-- **C100.** A JSON that is no object changes nothing; neither does a text that is no JSON, which is not reported. -/
theorem nothing_loaded (fs : Flds) (j : Json) (old : Vals fs) (h : ∀ ms, j ≠ .obj ms) : load fs j old = some old := by
  have hat : ∀ n, j.at n = .null := by
    intro n; unfold Json.at
    split
    · next ms => exact absurd rfl (h ms)
    · rfl
  have hex : ∀ t, exist t .null = false := by intro t; cases t <;> rfl
  match fs with
  | .nil => rfl
  | .cons n t i fs => rw [load, hat, hex, nothing_loaded fs j old.2 h]; rfl

theorem bad_text_silent (parse : List Char → Option Json) (fs : Flds) (s : List Char) (old : Vals fs) (h : parse s = none) : loadStr parse fs s old = some old := by
  unfold loadStr; rw [h]; exact nothing_loaded fs .null old (fun _ h => by cases h)

/-- A type with a nested object, and a value. -/
def inner : Flds := .cons "x".toList (.int .i32) false (.cons "y".toList (.int .i32) true .nil)
def outer : Flds := .cons "name".toList .str false (.cons "at".toList (.obj inner) false (.cons "tags".toList (.map (.vec .bool)) false (.cons "id".toList (.int .u32) false .nil)))
def value (x y d : Int) : Vals outer := ("me".toList, (((Cell.val x : Cell Int), ((Cell.val y : Cell Int), ())), ([("k".toList, [(Cell.val true : Cell Bool)])], ((Cell.val d : Cell Int), ()))))

/-- The hypotheses are met. -/
example : (names outer).Nodup ∧ Wholes outer (value 1 2 3) := by
  refine ⟨by decide, trivial, ⟨by decide, ⟨1, rfl, by decide, by decide, by decide⟩, ⟨2, rfl, by decide, by decide, by decide⟩, trivial⟩, ?_, ⟨3, rfl, by decide, by decide, by decide⟩, trivial⟩
  have : ∀ p ∈ ([("k".toList, [(Cell.val true : Cell Bool)])] : List (List Char × List (Cell Bool))), ∀ v ∈ p.2, v ≠ .indeterminate := by decide
  exact this

/-! ### Refuted -/

/-- **C100, refuted.** An object inside an object is not updated but made anew: a member the JSON does not mention loses its value, and is indeterminate if it was
declared without a default value. -/
theorem nested_replaced : ∃ (j : Json) (a b : Int), load outer j (value 1 2 3) = some ("me".toList, ((Cell.indeterminate, ((Cell.val a : Cell Int), ())), ([("k".toList, [(Cell.val true : Cell Bool)])], ((Cell.val b : Cell Int), ())))) ∧
    j.at "at".toList = .obj [("y".toList, .num a)] ∧ b = 3 :=
  ⟨.obj [("at".toList, .obj [("y".toList, .num 7)])], 7, 3, rfl, rfl, rfl⟩

/-- **C100, refuted.** Elements of the wrong kind are made up: a list of texts is loaded as a list of zeros. -/
theorem elements_made_up : load (.cons "v".toList (.vec (.int .i32)) false .nil) (.obj [("v".toList, .arr [.str "1".toList, .null])]) ([(Cell.val 5 : Cell Int)], ()) =
    some ([(Cell.val 0 : Cell Int), (Cell.val 0 : Cell Int)], ()) := rfl

/-- Every kind of element, from every JSON of the wrong kind: false, zero, empty text. -/
theorem element_made_up (j : Json) : ((∀ b, j ≠ .bool b) → get .bool j = some (Cell.val false : Cell Bool)) ∧ ((∀ z, j ≠ .num z) → ∀ k : IntKind, k.lo ≤ 0 → 0 ≤ k.hi → get (.int k) j = some (Cell.val 0 : Cell Int)) ∧
    ((∀ s, j ≠ .str s) → get .str j = some ([] : List Char)) := by
  refine ⟨fun h => ?_, fun h k h1 h2 => ?_, fun h => ?_⟩
  · cases j with
    | bool b => exact absurd rfl (h b)
    | _ => rfl
  · cases j with
    | num z => exact absurd rfl (h z)
    | _ => first | rfl | (simp only [get, getInt]; first | rfl | simp [h1, h2])
  · cases j with
    | str s => exact absurd rfl (h s)
    | _ => rfl

/-- **C100, refuted.** A number between 2147483648 and 4294967295 is undefined behaviour, although the member could hold it. -/
theorem big_undefined (z : Int) (h1 : 2147483648 ≤ z) (h2 : z ≤ 4294967295) (old : Cell Int) :
    IntKind.lo .u32 ≤ z ∧ z ≤ IntKind.hi .u32 ∧ load (.cons "n".toList (.int .u32) false .nil) (.obj [("n".toList, .num z)]) (old, ()) = none := by
  refine ⟨by show (0 : Int) ≤ z; omega, h2, ?_⟩
  have hg : getInt .u32 (.num z) = none := by
    unfold getInt
    simp only []
    rw [if_pos (by decide : IntKind.narrow .u32 = true), if_neg (by omega)]
  have : get (.int .u32) (.num z) = none := by rw [get, hg]; rfl
  have hat : Json.at (.obj [("n".toList, .num z)]) "n".toList = .num z := by simp [Json.at, find]
  cases hl : load (.cons "n".toList (.int .u32) false .nil) (.obj [("n".toList, .num z)]) (old, ()) with
  | none => rfl
  | some new =>
    obtain ⟨w, _, _, h3⟩ := each_member _ _ _ _ hl 0 "n".toList (.int .u32) old rfl
    rw [hat] at h3
    have h4 := h3 rfl
    rw [this] at h4
    cases h4

/-- **C100, refuted.** A number too large for a member of 16 bits is loaded as another. -/
theorem small_wraps : load (.cons "n".toList (.int .i16) false .nil) (.obj [("n".toList, .num 40000)]) ((Cell.val 1 : Cell Int), ()) = some ((Cell.val (-25536) : Cell Int), ()) := rfl

end Maf.Json
