import Verif.Model.Aggregate

/-! Lemmas on taking aggregates apart. -/

namespace Maf
namespace Agg

variable {L : Type}

/-! ## What is claimed of a value, written on its structure only -/

mutual
/-- Two values of one type: the same structure. -/
def Alike : Val L → Val L → Prop
  | .leaf _, .leaf _ => True
  | .agg ms, .agg ns => AlikeAll ms ns
  | .stdarr ms, .stdarr ns => AlikeAll ms ns
  | .carr _ ms, .carr _ ns => AlikeAll ms ns
  | _, _ => False
/-- Member by member. -/
def AlikeAll : Vals L → Vals L → Prop
  | .nil, .nil => True
  | .cons v vs, .cons w ws => Alike v w ∧ AlikeAll vs ws
  | _, _ => False
end

mutual
/-- No C array anywhere inside. -/
def NoCArray : Val L → Prop
  | .leaf _ => True
  | .agg ms => NoCArrayAll ms
  | .stdarr ms => NoCArrayAll ms
  | .carr _ _ => False
/-- Member by member. -/
def NoCArrayAll : Vals L → Prop
  | .nil => True
  | .cons v vs => NoCArray v ∧ NoCArrayAll vs
end

mutual
/-- At most 100 members (elements) at every level. -/
def Narrow : Val L → Prop
  | .leaf _ => True
  | .agg ms => ms.toList.length ≤ 100 ∧ NarrowAll ms
  | .stdarr ms => ms.toList.length ≤ 100 ∧ NarrowAll ms
  | .carr _ ms => NarrowAll ms
/-- Member by member. -/
def NarrowAll : Vals L → Prop
  | .nil => True
  | .cons v vs => Narrow v ∧ NarrowAll vs
end

mutual
/-- The same contents, member by member at every level. -/
def sameV (eq : L → L → Bool) : Val L → Val L → Bool
  | .leaf x, .leaf y => eq x y
  | .agg ms, .agg ns => sameAll eq ms ns
  | .stdarr ms, .stdarr ns => sameAll eq ms ns
  | .carr _ ms, .carr _ ns => sameAll eq ms ns
  | _, _ => false
/-- Member by member. -/
def sameAll (eq : L → L → Bool) : Vals L → Vals L → Bool
  | .nil, .nil => true
  | .cons v vs, .cons w ws => sameV eq v w && sameAll eq vs ws
  | _, _ => false
end

mutual
/-- `v` comes before `w`: the members are compared in order, each the way its own type is compared, and the first
one that is before or after its counterpart decides. -/
def before (lt : L → L → Bool) : Val L → Val L → Bool
  | .leaf x, .leaf y => lt x y
  | .agg ms, .agg ns => beforeAll lt ms ns
  | .stdarr ms, .stdarr ns => beforeAll lt ms ns
  | .carr _ ms, .carr _ ns => beforeAll lt ms ns
  | _, _ => false
  termination_by v w => sizeOf v + sizeOf w
/-- In order; the first difference decides. -/
def beforeAll (lt : L → L → Bool) : Vals L → Vals L → Bool
  | .cons v vs, .cons w ws => if before lt v w then true else if before lt w v then false else beforeAll lt vs ws
  | _, _ => false
  termination_by v w => sizeOf v + sizeOf w
end

/-! ## Counting members -/

theorem args_noCArray (v : Val L) (h : ∀ a es, v ≠ .carr a es) : args v = 1 := by
  cases v with
  | leaf x => simp [args]
  | agg ms => simp [args]
  | stdarr es => simp [args]
  | carr a es => exact absurd rfl (h a es)

theorem argsAll_noCArray : ∀ (vs : Vals L), (∀ v ∈ vs.toList, ∀ a es, v ≠ .carr a es) →
    argsAll vs = vs.toList.length
  | .nil, _ => by simp [argsAll, Vals.toList]
  | .cons v vs, h => by
    have hv := args_noCArray v (h v (by simp [Vals.toList]))
    have ht := argsAll_noCArray vs (fun w hw => h w (by simp [Vals.toList, hw]))
    simp [argsAll, Vals.toList, hv, ht]
    omega

theorem noCArrayAll_mem : ∀ (vs : Vals L), NoCArrayAll vs → ∀ v ∈ vs.toList, ∀ a es, v ≠ .carr a es
  | .nil, _ => by intro v hv; simp [Vals.toList] at hv
  | .cons w ws, h => by
    intro v hv a es hc
    simp only [NoCArrayAll] at h
    simp only [Vals.toList, List.mem_cons] at hv
    rcases hv with rfl | hv
    · rw [hc] at h; simp [NoCArray] at h
    · exact noCArrayAll_mem ws h.2 v hv a es hc

theorem pick_eq (v : Val L) : ∀ n, pick v n = min n (cap v)
  | 0 => by simp [pick]
  | n + 1 => by
    have ih := pick_eq v n
    unfold pick constructible
    by_cases h : n + 1 ≤ cap v
    · rw [if_pos (by simpa using h)]; omega
    · rw [if_neg (by simpa using h), ih]; omega

theorem args_pos_of : ∀ (v : Val L), (∀ a es, v = .carr a es → 0 < argsAll es) → 0 < args v
  | .leaf _, _ => by simp [args]
  | .agg _, _ => by simp [args]
  | .stdarr _, _ => by simp [args]
  | .carr a es, h => by simpa [args] using h a es rfl

theorem argsAll_ge : ∀ (vs : Vals L), (∀ v ∈ vs.toList, 0 < args v) → vs.toList.length ≤ argsAll vs
  | .nil, _ => by simp [argsAll, Vals.toList]
  | .cons v vs, h => by
    have hv := h v (by simp [Vals.toList])
    have ht := argsAll_ge vs (fun w hw => h w (by simp [Vals.toList, hw]))
    simp [argsAll, Vals.toList]
    omega

theorem argsAll_gt : ∀ (vs : Vals L), (∀ v ∈ vs.toList, 0 < args v) → (∃ v ∈ vs.toList, 2 ≤ args v) →
    vs.toList.length < argsAll vs
  | .nil, _, ⟨v, hv, _⟩ => by simp [Vals.toList] at hv
  | .cons v vs, h, ⟨w, hw, h2⟩ => by
    have hv := h v (by simp [Vals.toList])
    have hr : ∀ u ∈ vs.toList, 0 < args u := fun u hu => h u (by simp [Vals.toList, hu])
    simp only [Vals.toList, List.mem_cons] at hw
    simp only [argsAll, Vals.toList, List.length_cons]
    rcases hw with rfl | hw
    · have := argsAll_ge vs hr; omega
    · have := argsAll_gt vs hr ⟨w, hw, h2⟩; omega

theorem tupleView_agg (ms : Vals L) : tupleView (.agg ms) =
    if min 100 (argsAll ms) = 0 then some .nil
    else if ms.toList.length = min 100 (argsAll ms) then some ms else none := by
  have h : pick (.agg ms) 100 = min 100 (argsAll ms) := pick_eq _ _
  unfold tupleView
  rw [h]
  rfl

/-! ## Flattening -/

theorem flat_agg (ms : Vals L) (h : NoCArrayAll ms) :
    flat (.agg ms) = if ms.toList.length ≤ 100 then flatAll ms else none := by
  have hc : cap (.agg ms) = ms.toList.length := by
    simpa [cap] using argsAll_noCArray ms (noCArrayAll_mem ms h)
  rw [flat, pick_eq, hc]
  cases ms with
  | nil => simp [Vals.toList, flatAll]
  | cons v vs =>
    have hp : 0 < (Vals.cons v vs).toList.length := by simp [Vals.toList]
    by_cases hl : (Vals.cons v vs).toList.length ≤ 100
    · rw [if_neg (by omega), if_pos (by omega), if_pos hl]
    · rw [if_neg (by omega), if_neg (by omega), if_neg hl]

theorem flat_stdarr (ms : Vals L) (h : NoCArrayAll ms) :
    flat (.stdarr ms) = if ms.toList.length ≤ 100 then flatAll ms else none := by
  have hc : cap (.stdarr ms) = ms.toList.length := by
    simpa [cap] using argsAll_noCArray ms (noCArrayAll_mem ms h)
  rw [flat, pick_eq, hc]
  cases ms with
  | nil => simp [Vals.toList, flatAll]
  | cons v vs =>
    have hp : 0 < (Vals.cons v vs).toList.length := by simp [Vals.toList]
    by_cases hl : (Vals.cons v vs).toList.length ≤ 100
    · rw [if_neg (by omega), if_pos (by omega), if_pos hl]
    · rw [if_neg (by omega), if_neg (by omega), if_neg hl]

mutual
theorem flat_some : ∀ (v : Val L), NoCArray v → Narrow v → ∃ l, flat v = some l
  | .leaf x, _, _ => ⟨[.val x], by simp [flat]⟩
  | .agg ms, h, hn => by
    simp only [NoCArray] at h
    simp only [Narrow] at hn
    rw [flat_agg ms h, if_pos hn.1]
    exact flatAll_some ms h hn.2
  | .stdarr ms, h, hn => by
    simp only [NoCArray] at h
    simp only [Narrow] at hn
    rw [flat_stdarr ms h, if_pos hn.1]
    exact flatAll_some ms h hn.2
  | .carr _ _, h, _ => by simp [NoCArray] at h
theorem flatAll_some : ∀ (vs : Vals L), NoCArrayAll vs → NarrowAll vs → ∃ l, flatAll vs = some l
  | .nil, _, _ => ⟨[], by simp [flatAll]⟩
  | .cons v vs, h, hn => by
    simp only [NoCArrayAll] at h
    simp only [NarrowAll] at hn
    obtain ⟨l, hl⟩ := flat_some v h.1 hn.1
    obtain ⟨m, hm⟩ := flatAll_some vs h.2 hn.2
    exact ⟨l ++ m, by simp [flatAll, hl, hm]⟩
end

theorem flatAll_cons {v : Val L} {vs : Vals L} {l : List (Leaf L)} (h : flatAll (.cons v vs) = some l) :
    ∃ a b, flat v = some a ∧ flatAll vs = some b ∧ l = a ++ b := by
  rw [flatAll] at h
  cases hv : flat v with
  | none => simp [hv] at h
  | some a =>
    cases hb : flatAll vs with
    | none => simp [hv, hb] at h
    | some b =>
      simp [hv, hb] at h
      exact ⟨a, b, rfl, rfl, h.symm⟩

theorem tupEq_append (eq : L → L → Bool) : ∀ (a b x y : List (Leaf L)), a.length = b.length →
    tupEq eq (a ++ x) (b ++ y) = (tupEq eq a b && tupEq eq x y)
  | [], [], x, y, _ => by simp [tupEq]
  | c :: a, d :: b, x, y, h => by
    simp only [List.length_cons, Nat.add_right_cancel_iff] at h
    simp [tupEq, tupEq_append eq a b x y h, Bool.and_assoc]
  | [], _ :: _, _, _, h => by simp at h
  | _ :: _, [], _, _, h => by simp at h

theorem tupLt_append (lt : L → L → Bool) : ∀ (a b x y : List (Leaf L)), a.length = b.length →
    tupLt lt (a ++ x) (b ++ y) = (if tupLt lt a b then true else if tupLt lt b a then false else tupLt lt x y)
  | [], [], x, y, _ => by simp [tupLt]
  | c :: a, d :: b, x, y, h => by
    simp only [List.length_cons, Nat.add_right_cancel_iff] at h
    simp only [List.cons_append, tupLt, tupLt_append lt a b x y h]
    by_cases h1 : leafLt lt c d = true <;> by_cases h2 : leafLt lt d c = true <;> simp [h1, h2]
  | [], _ :: _, _, _, h => by simp at h
  | _ :: _, [], _, _, h => by simp at h

mutual
theorem flat_length : ∀ (v w : Val L), NoCArray v → NoCArray w → Alike v w → ∀ a b, flat v = some a →
    flat w = some b → a.length = b.length
  | .leaf x, .leaf y, _, _, _ => by
    intro a b ha hb
    simp only [flat, Option.some.injEq] at ha hb
    subst ha hb; rfl
  | .agg ms, .agg ns, h, h', hl => by
    intro a b ha hb
    simp only [NoCArray] at h h'
    simp only [Alike] at hl
    rw [flat_agg ms h] at ha
    rw [flat_agg ns h'] at hb
    split at ha
    · split at hb
      · exact flatAll_length ms ns h h' hl a b ha hb
      · cases hb
    · cases ha
  | .stdarr ms, .stdarr ns, h, h', hl => by
    intro a b ha hb
    simp only [NoCArray] at h h'
    simp only [Alike] at hl
    rw [flat_stdarr ms h] at ha
    rw [flat_stdarr ns h'] at hb
    split at ha
    · split at hb
      · exact flatAll_length ms ns h h' hl a b ha hb
      · cases hb
    · cases ha
  | .carr _ _, _, h, _, _ => by simp [NoCArray] at h
  | .leaf _, .agg _, _, _, hl => by simp [Alike] at hl
  | .leaf _, .stdarr _, _, _, hl => by simp [Alike] at hl
  | .leaf _, .carr _ _, _, _, hl => by simp [Alike] at hl
  | .agg _, .leaf _, _, _, hl => by simp [Alike] at hl
  | .agg _, .stdarr _, _, _, hl => by simp [Alike] at hl
  | .agg _, .carr _ _, _, _, hl => by simp [Alike] at hl
  | .stdarr _, .leaf _, _, _, hl => by simp [Alike] at hl
  | .stdarr _, .agg _, _, _, hl => by simp [Alike] at hl
  | .stdarr _, .carr _ _, _, _, hl => by simp [Alike] at hl
theorem flatAll_length : ∀ (vs ws : Vals L), NoCArrayAll vs → NoCArrayAll ws → AlikeAll vs ws → ∀ a b,
    flatAll vs = some a → flatAll ws = some b → a.length = b.length
  | .nil, .nil, _, _, _ => by
    intro a b ha hb
    simp only [flatAll, Option.some.injEq] at ha hb
    subst ha hb; rfl
  | .cons v vs, .cons w ws, h, h', hl => by
    intro a b ha hb
    simp only [NoCArrayAll] at h h'
    simp only [AlikeAll] at hl
    obtain ⟨a1, a2, e1, e2, rfl⟩ := flatAll_cons ha
    obtain ⟨b1, b2, f1, f2, rfl⟩ := flatAll_cons hb
    have i1 := flat_length v w h.1 h'.1 hl.1 a1 b1 e1 f1
    have i2 := flatAll_length vs ws h.2 h'.2 hl.2 a2 b2 e2 f2
    simp [i1, i2]
  | .nil, .cons _ _, _, _, hl => by simp [AlikeAll] at hl
  | .cons _ _, .nil, _, _, hl => by simp [AlikeAll] at hl
end

mutual
theorem alike_symm : ∀ (v w : Val L), Alike v w → Alike w v
  | .leaf _, .leaf _, _ => by simp [Alike]
  | .agg ms, .agg ns, h => by simp only [Alike] at h ⊢; exact alikeAll_symm ms ns h
  | .stdarr ms, .stdarr ns, h => by simp only [Alike] at h ⊢; exact alikeAll_symm ms ns h
  | .carr _ ms, .carr _ ns, h => by simp only [Alike] at h ⊢; exact alikeAll_symm ms ns h
  | .leaf _, .agg _, hl => by simp [Alike] at hl
  | .leaf _, .stdarr _, hl => by simp [Alike] at hl
  | .leaf _, .carr _ _, hl => by simp [Alike] at hl
  | .agg _, .leaf _, hl => by simp [Alike] at hl
  | .agg _, .stdarr _, hl => by simp [Alike] at hl
  | .agg _, .carr _ _, hl => by simp [Alike] at hl
  | .stdarr _, .leaf _, hl => by simp [Alike] at hl
  | .stdarr _, .agg _, hl => by simp [Alike] at hl
  | .stdarr _, .carr _ _, hl => by simp [Alike] at hl
  | .carr _ _, .leaf _, hl => by simp [Alike] at hl
  | .carr _ _, .agg _, hl => by simp [Alike] at hl
  | .carr _ _, .stdarr _, hl => by simp [Alike] at hl
theorem alikeAll_symm : ∀ (v w : Vals L), AlikeAll v w → AlikeAll w v
  | .nil, .nil, _ => by simp [AlikeAll]
  | .cons v vs, .cons w ws, h => by
    simp only [AlikeAll] at h ⊢
    exact ⟨alike_symm v w h.1, alikeAll_symm vs ws h.2⟩
  | .nil, .cons _ _, hl => by simp [AlikeAll] at hl
  | .cons _ _, .nil, hl => by simp [AlikeAll] at hl
end

mutual
theorem tup_flat (eq lt : L → L → Bool) : ∀ (v w : Val L), NoCArray v → NoCArray w → Alike v w → ∀ a b,
    flat v = some a → flat w = some b →
    tupEq eq a b = sameV eq v w ∧ tupLt lt a b = before lt v w ∧ tupLt lt b a = before lt w v
  | .leaf x, .leaf y, _, _, _ => by
    intro a b ha hb
    simp only [flat, Option.some.injEq] at ha hb
    subst ha hb
    simp [tupEq, tupLt, leafEq, leafLt, sameV, before]
  | .agg ms, .agg ns, h, h', hl => by
    intro a b ha hb
    simp only [NoCArray] at h h'
    simp only [Alike] at hl
    rw [flat_agg ms h] at ha
    rw [flat_agg ns h'] at hb
    simp only [sameV, before]
    split at ha
    · split at hb
      · exact tup_flatAll eq lt ms ns h h' hl a b ha hb
      · cases hb
    · cases ha
  | .stdarr ms, .stdarr ns, h, h', hl => by
    intro a b ha hb
    simp only [NoCArray] at h h'
    simp only [Alike] at hl
    rw [flat_stdarr ms h] at ha
    rw [flat_stdarr ns h'] at hb
    simp only [sameV, before]
    split at ha
    · split at hb
      · exact tup_flatAll eq lt ms ns h h' hl a b ha hb
      · cases hb
    · cases ha
  | .carr _ _, _, h, _, _ => by simp [NoCArray] at h
  | .leaf _, .agg _, _, _, hl => by simp [Alike] at hl
  | .leaf _, .stdarr _, _, _, hl => by simp [Alike] at hl
  | .leaf _, .carr _ _, _, _, hl => by simp [Alike] at hl
  | .agg _, .leaf _, _, _, hl => by simp [Alike] at hl
  | .agg _, .stdarr _, _, _, hl => by simp [Alike] at hl
  | .agg _, .carr _ _, _, _, hl => by simp [Alike] at hl
  | .stdarr _, .leaf _, _, _, hl => by simp [Alike] at hl
  | .stdarr _, .agg _, _, _, hl => by simp [Alike] at hl
  | .stdarr _, .carr _ _, _, _, hl => by simp [Alike] at hl
theorem tup_flatAll (eq lt : L → L → Bool) : ∀ (vs ws : Vals L), NoCArrayAll vs → NoCArrayAll ws →
    AlikeAll vs ws → ∀ a b, flatAll vs = some a → flatAll ws = some b →
    tupEq eq a b = sameAll eq vs ws ∧ tupLt lt a b = beforeAll lt vs ws ∧ tupLt lt b a = beforeAll lt ws vs
  | .nil, .nil, _, _, _ => by
    intro a b ha hb
    simp only [flatAll, Option.some.injEq] at ha hb
    subst ha hb
    simp [tupEq, tupLt, sameAll, beforeAll]
  | .cons v vs, .cons w ws, h, h', hl => by
    intro a b ha hb
    simp only [NoCArrayAll] at h h'
    simp only [AlikeAll] at hl
    obtain ⟨a1, a2, e1, e2, rfl⟩ := flatAll_cons ha
    obtain ⟨b1, b2, f1, f2, rfl⟩ := flatAll_cons hb
    have len := flat_length v w h.1 h'.1 hl.1 a1 b1 e1 f1
    obtain ⟨p1, p2, p3⟩ := tup_flat eq lt v w h.1 h'.1 hl.1 a1 b1 e1 f1
    obtain ⟨q1, q2, q3⟩ := tup_flatAll eq lt vs ws h.2 h'.2 hl.2 a2 b2 e2 f2
    refine ⟨?_, ?_, ?_⟩
    · rw [tupEq_append eq a1 b1 a2 b2 len, p1, q1, sameAll]
    · rw [tupLt_append lt a1 b1 a2 b2 len, p2, p3, q2, beforeAll]
    · rw [tupLt_append lt b1 a1 b2 a2 len.symm, p2, p3, q3, beforeAll]
  | .nil, .cons _ _, _, _, hl => by simp [AlikeAll] at hl
  | .cons _ _, .nil, _, _, hl => by simp [AlikeAll] at hl
end

/-! ## The nested comparison -/

mutual
theorem same_iff (eq : L → L → Bool) (he : ∀ x y, eq x y = true ↔ x = y) : ∀ (v w : Val L), NoCArray v →
    NoCArray w → (sameV eq v w = true ↔ v = w)
  | .leaf x, .leaf y, _, _ => by simp [sameV, he]
  | .agg ms, .agg ns, h, h' => by
    simp only [NoCArray] at h h'
    simpa [sameV] using sameAll_iff eq he ms ns h h'
  | .stdarr ms, .stdarr ns, h, h' => by
    simp only [NoCArray] at h h'
    simpa [sameV] using sameAll_iff eq he ms ns h h'
  | .carr _ _, _, h, _ => by simp [NoCArray] at h
  | _, .carr _ _, _, h => by simp [NoCArray] at h
  | .leaf _, .agg _, _, _ => by simp [sameV]
  | .leaf _, .stdarr _, _, _ => by simp [sameV]
  | .agg _, .leaf _, _, _ => by simp [sameV]
  | .agg _, .stdarr _, _, _ => by simp [sameV]
  | .stdarr _, .leaf _, _, _ => by simp [sameV]
  | .stdarr _, .agg _, _, _ => by simp [sameV]
theorem sameAll_iff (eq : L → L → Bool) (he : ∀ x y, eq x y = true ↔ x = y) : ∀ (vs ws : Vals L),
    NoCArrayAll vs → NoCArrayAll ws → (sameAll eq vs ws = true ↔ vs = ws)
  | .nil, .nil, _, _ => by simp [sameAll]
  | .cons v vs, .cons w ws, h, h' => by
    simp only [NoCArrayAll] at h h'
    simp [sameAll, same_iff eq he v w h.1 h'.1, sameAll_iff eq he vs ws h.2 h'.2]
  | .nil, .cons _ _, _, _ => by simp [sameAll]
  | .cons _ _, .nil, _, _ => by simp [sameAll]
end

/-- `<` is a strict weak order on the leaves. -/
structure Weak (lt : L → L → Bool) : Prop where
  irrefl : ∀ x, lt x x = false
  trans : ∀ x y z, lt x y = true → lt y z = true → lt x z = true
  tie : ∀ x y z, lt x z = true → lt x y = true ∨ lt y z = true

mutual
theorem before_irrefl {lt : L → L → Bool} (hw : Weak lt) : ∀ (v : Val L), before lt v v = false
  | .leaf x => by simpa [before] using hw.irrefl x
  | .agg ms => by simpa [before] using beforeAll_irrefl hw ms
  | .stdarr ms => by simpa [before] using beforeAll_irrefl hw ms
  | .carr _ ms => by simpa [before] using beforeAll_irrefl hw ms
theorem beforeAll_irrefl {lt : L → L → Bool} (hw : Weak lt) : ∀ (v : Vals L), beforeAll lt v v = false
  | .nil => by simp [beforeAll]
  | .cons v vs => by simp [beforeAll, before_irrefl hw v, beforeAll_irrefl hw vs]
end

mutual
theorem alike_trans : ∀ (u v w : Val L), Alike u v → Alike v w → Alike u w
  | .leaf _, .leaf _, .leaf _, _, _ => by simp [Alike]
  | .agg a, .agg b, .agg c, h, h' => by
    simp only [Alike] at h h' ⊢; exact alikeAll_trans a b c h h'
  | .stdarr a, .stdarr b, .stdarr c, h, h' => by
    simp only [Alike] at h h' ⊢; exact alikeAll_trans a b c h h'
  | .carr _ a, .carr _ b, .carr _ c, h, h' => by
    simp only [Alike] at h h' ⊢; exact alikeAll_trans a b c h h'
  | .leaf _, .leaf _, .agg _, _, h | .leaf _, .leaf _, .stdarr _, _, h | .leaf _, .leaf _, .carr _ _, _, h
  | .agg _, .agg _, .leaf _, _, h | .agg _, .agg _, .stdarr _, _, h | .agg _, .agg _, .carr _ _, _, h
  | .stdarr _, .stdarr _, .leaf _, _, h | .stdarr _, .stdarr _, .agg _, _, h
  | .stdarr _, .stdarr _, .carr _ _, _, h
  | .carr _ _, .carr _ _, .leaf _, _, h | .carr _ _, .carr _ _, .agg _, _, h
  | .carr _ _, .carr _ _, .stdarr _, _, h => by simp [Alike] at h
  | .leaf _, .agg _, _, h, _ | .leaf _, .stdarr _, _, h, _ | .leaf _, .carr _ _, _, h, _
  | .agg _, .leaf _, _, h, _ | .agg _, .stdarr _, _, h, _ | .agg _, .carr _ _, _, h, _
  | .stdarr _, .leaf _, _, h, _ | .stdarr _, .agg _, _, h, _ | .stdarr _, .carr _ _, _, h, _
  | .carr _ _, .leaf _, _, h, _ | .carr _ _, .agg _, _, h, _ | .carr _ _, .stdarr _, _, h, _ => by
    simp [Alike] at h
theorem alikeAll_trans : ∀ (u v w : Vals L), AlikeAll u v → AlikeAll v w → AlikeAll u w
  | .nil, .nil, .nil, _, _ => by simp [AlikeAll]
  | .cons a as, .cons b bs, .cons c cs, h, h' => by
    simp only [AlikeAll] at h h' ⊢
    exact ⟨alike_trans a b c h.1 h'.1, alikeAll_trans as bs cs h.2 h'.2⟩
  | .nil, .nil, .cons _ _, _, h | .cons _ _, .cons _ _, .nil, _, h => by simp [AlikeAll] at h
  | .nil, .cons _ _, _, h, _ | .cons _ _, .nil, _, h, _ => by simp [AlikeAll] at h
end

mutual
/-- If `u` is before `w`, any third value of the type is after `u` or before `w`. -/
theorem before_tie {lt : L → L → Bool} (hw : Weak lt) : ∀ (u v w : Val L), Alike u v → Alike v w →
    before lt u w = true → before lt u v = true ∨ before lt v w = true
  | .leaf x, .leaf y, .leaf z, _, _ => by simpa [before] using hw.tie x y z
  | .agg a, .agg b, .agg c, h, h' => by
    simp only [Alike] at h h'; simpa [before] using beforeAll_tie hw a b c h h'
  | .stdarr a, .stdarr b, .stdarr c, h, h' => by
    simp only [Alike] at h h'; simpa [before] using beforeAll_tie hw a b c h h'
  | .carr _ a, .carr _ b, .carr _ c, h, h' => by
    simp only [Alike] at h h'; simpa [before] using beforeAll_tie hw a b c h h'
  | .leaf _, .leaf _, .agg _, _, h | .leaf _, .leaf _, .stdarr _, _, h | .leaf _, .leaf _, .carr _ _, _, h
  | .agg _, .agg _, .leaf _, _, h | .agg _, .agg _, .stdarr _, _, h | .agg _, .agg _, .carr _ _, _, h
  | .stdarr _, .stdarr _, .leaf _, _, h | .stdarr _, .stdarr _, .agg _, _, h
  | .stdarr _, .stdarr _, .carr _ _, _, h
  | .carr _ _, .carr _ _, .leaf _, _, h | .carr _ _, .carr _ _, .agg _, _, h
  | .carr _ _, .carr _ _, .stdarr _, _, h => by simp [Alike] at h
  | .leaf _, .agg _, _, h, _ | .leaf _, .stdarr _, _, h, _ | .leaf _, .carr _ _, _, h, _
  | .agg _, .leaf _, _, h, _ | .agg _, .stdarr _, _, h, _ | .agg _, .carr _ _, _, h, _
  | .stdarr _, .leaf _, _, h, _ | .stdarr _, .agg _, _, h, _ | .stdarr _, .carr _ _, _, h, _
  | .carr _ _, .leaf _, _, h, _ | .carr _ _, .agg _, _, h, _ | .carr _ _, .stdarr _, _, h, _ => by
    simp [Alike] at h
  termination_by u v w => sizeOf u + sizeOf v + sizeOf w
theorem beforeAll_tie {lt : L → L → Bool} (hw : Weak lt) : ∀ (u v w : Vals L), AlikeAll u v → AlikeAll v w →
    beforeAll lt u w = true → beforeAll lt u v = true ∨ beforeAll lt v w = true
  | .nil, .nil, .nil, _, _ => by simp [beforeAll]
  | .cons a as, .cons b bs, .cons c cs, h, h' => by
    simp only [AlikeAll] at h h'
    intro hb
    have hab := h.1
    have hbc := h'.1
    have hba := alike_symm a b hab
    have hcb := alike_symm b c hbc
    have t1 := before_tie hw a b c hab hbc
    have t2 := before_tie hw c b a hcb hba
    have t3 := fun hac => before_tie hw a c b hac hcb
    have t4 := fun hca => before_tie hw b a c hba hca
    have tr := beforeAll_tie hw as bs cs h.2 h'.2
    have hac : Alike a c := alike_trans a b c hab hbc
    have t3 := t3 hac
    have t4 := t4 hac
    have t5 := before_tie hw c a b (alike_symm a c hac) hab
    have t6 := before_tie hw b c a hbc (alike_symm a c hac)
    simp only [beforeAll] at hb ⊢
    revert t1 t2 t3 t4 t5 t6 hb tr
    cases before lt a b <;> cases before lt b a <;> cases before lt b c <;> cases before lt c b <;>
      cases before lt a c <;> cases before lt c a <;> simp
  | .nil, .nil, .cons _ _, _, h | .cons _ _, .cons _ _, .nil, _, h => by simp [AlikeAll] at h
  | .nil, .cons _ _, _, h, _ | .cons _ _, .nil, _, h, _ => by simp [AlikeAll] at h
  termination_by u v w => sizeOf u + sizeOf v + sizeOf w
end

mutual
theorem before_asymm {lt : L → L → Bool} (hw : Weak lt) : ∀ (v w : Val L), before lt v w = true →
    before lt w v = false
  | .leaf x, .leaf y => by
    simp only [before]
    intro h
    cases h' : lt y x with
    | false => rfl
    | true =>
      have := hw.trans x y x h h'
      rw [hw.irrefl] at this
      cases this
  | .agg a, .agg b => by simpa [before] using beforeAll_asymm hw a b
  | .stdarr a, .stdarr b => by simpa [before] using beforeAll_asymm hw a b
  | .carr _ a, .carr _ b => by simpa [before] using beforeAll_asymm hw a b
  | .leaf _, .agg _ | .leaf _, .stdarr _ | .leaf _, .carr _ _ | .agg _, .leaf _ | .agg _, .stdarr _
  | .agg _, .carr _ _ | .stdarr _, .leaf _ | .stdarr _, .agg _ | .stdarr _, .carr _ _ | .carr _ _, .leaf _
  | .carr _ _, .agg _ | .carr _ _, .stdarr _ => by simp [before]
  termination_by v w => sizeOf v + sizeOf w
theorem beforeAll_asymm {lt : L → L → Bool} (hw : Weak lt) : ∀ (v w : Vals L), beforeAll lt v w = true →
    beforeAll lt w v = false
  | .nil, .nil | .nil, .cons _ _ | .cons _ _, .nil => by simp [beforeAll]
  | .cons a as, .cons b bs => by
    have h1 := before_asymm hw a b
    have h2 := before_asymm hw b a
    have h3 := beforeAll_asymm hw as bs
    simp only [beforeAll]
    revert h1 h2 h3
    cases before lt a b <;> cases before lt b a <;> simp
  termination_by v w => sizeOf v + sizeOf w
end

end Agg
end Maf
