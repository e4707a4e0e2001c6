import Verif.Spec.Address
/-
C44: the order of addresses, and the sets that rely on it.
-/
namespace Maf.Addr

/-! ### Names -/

theorem nameLt_irrefl : ∀ a, nameLt a a = false
  | [] => rfl
  | a :: as => by simp [nameLt, nameLt_irrefl as]

theorem nameLt_trans : ∀ a b c, nameLt a b = true → nameLt b c = true → nameLt a c = true
  | [], b, c, h1, h2 => by
    cases b with
    | nil => simp [nameLt] at h1
    | cons b bs => cases c <;> simp_all [nameLt]
  | a :: as, [], c, h1, h2 => by simp [nameLt] at h1
  | a :: as, b :: bs, [], h1, h2 => by simp [nameLt] at h2
  | a :: as, b :: bs, c :: cs, h1, h2 => by
    simp only [nameLt, Bool.or_eq_true, Bool.and_eq_true, decide_eq_true_eq] at *
    rcases h1 with h1 | ⟨rfl, h1⟩ <;> rcases h2 with h2 | ⟨rfl, h2⟩
    · exact .inl (by omega)
    · exact .inl h1
    · exact .inl h2
    · exact .inr ⟨rfl, nameLt_trans as bs cs h1 h2⟩

theorem nameLt_total : ∀ a b, nameLt a b = false → nameLt b a = false → a = b
  | [], [], _, _ => rfl
  | [], b :: bs, h, _ => by simp [nameLt] at h
  | a :: as, [], _, h => by simp [nameLt] at h
  | a :: as, b :: bs, h1, h2 => by
    simp only [nameLt, Bool.or_eq_false_iff, Bool.and_eq_false_iff, decide_eq_false_iff_not] at h1 h2
    have : a = b := by omega
    subst this
    rw [nameLt_total as bs (h1.2.resolve_left (by simp)) (h2.2.resolve_left (by simp))]

/-- `==` is equality. -/
theorem eq_iff (a b : Address) : a.eq b = true ↔ a = b := by
  cases a; cases b; simp [Address.eq]

/-! ### The order -/

theorem lt_iff (a b : Address) : a.lt b = true ↔ nameLt a.name b.name = true ∨ a.port < b.port := by
  simp [Address.lt]

/-- C44: among the addresses of a set `S`, `<` is a strict weak ordering compatible with `==` if and only if
no two of them conflict, that is, one has the smaller name and the other one the smaller port. -/
theorem order_iff_partial (S : Address → Prop) : GoodOrder S Address.lt ↔ ∀ a b, S a → S b → ¬ Conflict a b := by
  constructor
  · rintro ⟨h1, h2, -⟩ a b ha hb ⟨c1, c2⟩
    have := h2 a b a ha hb ha ((lt_iff a b).2 (.inl c1)) ((lt_iff b a).2 (.inr c2))
    rw [h1 a ha] at this
    cases this
  · intro h
    refine ⟨?_, ?_, ?_⟩
    · intro a _
      simp [Address.lt, nameLt_irrefl]
    · intro a b c ha hb hc h1 h2
      rw [lt_iff] at *
      rcases h1 with h1 | h1 <;> rcases h2 with h2 | h2
      · exact .inl (nameLt_trans _ _ _ h1 h2)
      · -- the port of `a` is at most that of `b`
        have : ¬ b.port < a.port := fun k => h a b ha hb ⟨h1, k⟩
        exact .inr (by omega)
      · have : ¬ c.port < b.port := fun k => h b c hb hc ⟨h2, k⟩
        exact .inr (by omega)
      · exact .inr (by omega)
    · intro a b _ _ h1 h2
      have k1 : nameLt a.name b.name = false := by
        cases e : nameLt a.name b.name
        · rfl
        · simp [Address.lt, e] at h1
      have k2 : nameLt b.name a.name = false := by
        cases e : nameLt b.name a.name
        · rfl
        · simp [Address.lt, e] at h2
      have k3 : a.port = b.port := by
        simp [Address.lt, k1, k2] at h1 h2
        omega
      cases a; cases b
      simp only at k1 k2 k3
      rw [nameLt_total _ _ k1 k2, k3]

/-- Not for all addresses: of two addresses each can be smaller than the other. -/
theorem order_broken : ∃ a b : Address, a.lt b = true ∧ b.lt a = true :=
  ⟨⟨[97], 2⟩, ⟨[98], 1⟩, rfl, rfl⟩

/-- C44: registration ids: a strict partial order. -/
theorem regid_order_partial : (∀ a : RegID, a.lt a = false) ∧ ∀ a b c : RegID, a.lt b = true → b.lt c = true → a.lt c = true := by
  refine ⟨fun a => by simp [RegID.lt], fun a b c h1 h2 => ?_⟩
  simp only [RegID.lt, Bool.and_eq_true, decide_eq_true_eq] at *
  exact ⟨by omega, nameLt_trans _ _ _ h1.2 h2.2⟩

/-- But different ids can be equivalent, and equivalence is not transitive. -/
theorem regid_order_broken : ∃ a b c : RegID, (a.lt b = false ∧ b.lt a = false) ∧ (b.lt c = false ∧ c.lt b = false) ∧ a.lt c = true ∧ a ≠ b :=
  ⟨⟨1, [97]⟩, ⟨1, [98]⟩, ⟨2, [98]⟩, ⟨rfl, rfl⟩, ⟨rfl, rfl⟩, rfl, by decide⟩

/-! ### Sets -/

section
variable {K : Type} {S : K → Prop} {lt : K → K → Bool}

def Sorted (lt : K → K → Bool) (l : List K) : Prop := l.Pairwise fun a b => lt a b = true

theorem GoodOrder.asymm (h : GoodOrder S lt) {a b : K} (ha : S a) (hb : S b) (hab : lt a b = true) : lt b a = false := by
  cases e : lt b a with
  | false => rfl
  | true => have := h.trans a b a ha hb ha hab e; rw [h.irrefl a ha] at this; cases this

theorem lower_eq (h : GoodOrder S lt) {k : K} (hk : S k) : ∀ (t : Tree K) (y : Option K), (∀ x ∈ t.keys, S x) → Sorted lt t.keys →
    t.lower lt k y = (t.keys.find? fun x => !lt x k).or y
  | .leaf, y, _, _ => by simp [Tree.lower, Tree.keys]
  | .node l x r, y, hS, hs => by
    have hsp := List.pairwise_append.1 hs
    have hx : S x := hS x (by simp [Tree.keys])
    simp only [Tree.lower, Tree.keys]
    split
    · next hxk =>
      rw [lower_eq h hk r y (fun z hz => hS z (by simp [Tree.keys, hz])) (List.pairwise_cons.1 hsp.2.1).2]
      have : l.keys.find? (fun x => !lt x k) = none := by
        rw [List.find?_eq_none]
        intro z hz
        have := h.trans z x k (hS z (by simp [Tree.keys, hz])) hx hk (hsp.2.2 z hz x (by simp)) hxk
        simp [this]
      rw [List.find?_append, this]
      simp [hxk]
    · next hxk =>
      rw [lower_eq h hk l (some x) (fun z hz => hS z (by simp [Tree.keys, hz])) hsp.1]
      rw [List.find?_append]
      simp [hxk]

theorem find_iff (h : GoodOrder S lt) {k : K} (hk : S k) (t : Tree K) (hS : ∀ x ∈ t.keys, S x) (hs : Sorted lt t.keys) :
    (k ∈ t.keys → t.find lt k = some k) ∧ (k ∉ t.keys → t.find lt k = none) := by
  have e : t.find lt k = match t.keys.find? (fun x => !lt x k) with
      | none => none
      | some x => if lt k x then none else some x := by
    simp only [Tree.find, lower_eq h hk t none hS hs, Option.or_none]
    cases t.keys.find? fun x => !lt x k <;> rfl
  rw [e]
  constructor
  · intro hm
    obtain ⟨a, b, hab⟩ := List.append_of_mem hm
    have : t.keys.find? (fun x => !lt x k) = some k := by
      rw [hab]
      have : a.find? (fun x => !lt x k) = none := by
        rw [List.find?_eq_none]
        intro z hz
        unfold Sorted at hs
        rw [hab] at hs
        have := (List.pairwise_append.1 hs).2.2 z hz k (by simp)
        simp [this]
      rw [List.find?_append, this]
      simp [h.irrefl k hk]
    rw [this]
    simp [h.irrefl k hk]
  · intro hm
    cases e : t.keys.find? (fun x => !lt x k) with
    | none => rfl
    | some x =>
      have hx := List.mem_of_find?_eq_some e
      have hxk := List.find?_some e
      simp only
      split
      · rfl
      · next hkx =>
        refine absurd ?_ hm
        rw [h.compat k x hk (hS x hx) (by simpa using hkx) (by simpa using hxk)]
        exact hx

theorem insert_keys (h : GoodOrder S lt) {k : K} (hk : S k) : ∀ (t : Tree K) (p : Option K), (∀ x ∈ t.keys, S x) → Sorted lt t.keys →
    (∀ q, p = some q → S q ∧ lt k q = false ∧ ∀ x ∈ t.keys, lt q x = true) →
    Sorted lt (t.insert lt k p).keys ∧ ∀ x, x ∈ (t.insert lt k p).keys ↔ x ∈ t.keys ∨ (x = k ∧ p ≠ some k)
  | .leaf, none, _, _, _ => by simp [Tree.insert, Tree.keys, Sorted]
  | .leaf, some q, _, _, hp => by
    obtain ⟨hq, hkq, -⟩ := hp q rfl
    simp only [Tree.insert]
    split
    · next hqk =>
      have : q ≠ k := by rintro rfl; rw [h.irrefl q hq] at hqk; cases hqk
      simp [Tree.keys, Sorted, this]
    · next hqk =>
      have : k = q := h.compat k q hk hq hkq (by simpa using hqk)
      simp [Tree.keys, Sorted, this]
  | .node l x r, p, hS, hs, hp => by
    have hsp := List.pairwise_append.1 hs
    have hx : S x := hS x (by simp [Tree.keys])
    have hcons := List.pairwise_cons.1 hsp.2.1
    simp only [Tree.insert]
    split
    · next hkx =>
      have ih := insert_keys h hk l p (fun z hz => hS z (by simp [Tree.keys, hz])) hsp.1
        (fun q hq => ⟨(hp q hq).1, (hp q hq).2.1, fun z hz => (hp q hq).2.2 z (by simp [Tree.keys, hz])⟩)
      constructor
      · refine List.pairwise_append.2 ⟨ih.1, hsp.2.1, ?_⟩
        intro a ha b hb
        rcases (ih.2 a).1 ha with ha | ⟨rfl, -⟩
        · exact hsp.2.2 a ha b hb
        · rcases List.mem_cons.1 hb with rfl | hb
          · exact hkx
          · exact h.trans a x b hk hx (hS b (by simp [Tree.keys, hb])) hkx (hcons.1 b hb)
      · intro z
        simp only [Tree.keys, List.mem_append, List.mem_cons, ih.2]
        constructor
        · rintro ((h1 | h1) | h1)
          · exact .inl (.inl h1)
          · exact .inr h1
          · exact .inl (.inr h1)
        · rintro ((h1 | h1) | h1)
          · exact .inl (.inl h1)
          · exact .inr h1
          · exact .inl (.inr h1)
    · next hkx =>
      have hkx : lt k x = false := by simpa using hkx
      have ih := insert_keys h hk r (some x) (fun z hz => hS z (by simp [Tree.keys, hz])) hcons.2
        (fun q hq => by cases hq; exact ⟨hx, hkx, hcons.1⟩)
      have hxk : x ≠ k → lt x k = true := by
        intro hne
        cases e : lt x k with
        | true => rfl
        | false => exact absurd (h.compat k x hk hx hkx e).symm hne
      constructor
      · refine List.pairwise_append.2 ⟨hsp.1, List.pairwise_cons.2 ⟨?_, ih.1⟩, ?_⟩
        · intro b hb
          rcases (ih.2 b).1 hb with hb | ⟨rfl, hne⟩
          · exact hcons.1 b hb
          · exact hxk fun e => hne (by rw [e])
        · intro a ha b hb
          rcases List.mem_cons.1 hb with rfl | hb
          · exact hsp.2.2 a ha b (by simp)
          · rcases (ih.2 b).1 hb with hb | ⟨rfl, hne⟩
            · exact hsp.2.2 a ha b (by simp [hb])
            · exact h.trans a x b (hS a (by simp [Tree.keys, ha])) hx hk (hsp.2.2 a ha x (by simp)) (hxk fun e => hne (by rw [e]))
      · intro z
        simp only [Tree.keys, List.mem_append, List.mem_cons, ih.2]
        have hpk : p ≠ some k := by
          intro e
          have := (hp k e).2.2 x (by simp [Tree.keys])
          rw [hkx] at this; cases this
        constructor
        · rintro (h1 | h1 | h1 | ⟨h1, -⟩)
          · exact .inl (.inl h1)
          · exact .inl (.inr (.inl h1))
          · exact .inl (.inr (.inr h1))
          · exact .inr ⟨h1, hpk⟩
        · rintro ((h1 | h1 | h1) | ⟨h1, -⟩)
          · exact .inl h1
          · exact .inr (.inl h1)
          · exact .inr (.inr (.inl h1))
          · by_cases e : x = k
            · exact .inr (.inl (by rw [h1, e]))
            · exact .inr (.inr (.inr ⟨h1, by simpa using e⟩))

variable [DecidableEq K]

theorem apply_inv (h : GoodOrder S lt) {o : Op K} (ho : S o.key) {s s' : Tree K} (hS : ∀ x ∈ s.keys, S x) (hs : Sorted lt s.keys) (hr : apply lt s o = some s') :
    (∀ x ∈ s'.keys, S x) ∧ Sorted lt s'.keys ∧ ∀ x, decide (x ∈ s'.keys) = inSet x (decide (x ∈ s.keys)) o := by
  cases o with
  | insert k t =>
    simp only [apply, Option.ite_none_right_eq_some] at hr
    obtain ⟨e, hr⟩ := hr
    cases hr
    have := insert_keys h (k := k) ho s none hS hs (by simp)
    rw [← e] at this
    refine ⟨fun x hx => ?_, this.1, fun x => ?_⟩
    · rcases (this.2 x).1 hx with k | ⟨rfl, -⟩
      · exact hS x k
      · exact ho
    · have := this.2 x
      simp only [inSet]
      split
      · next e => subst e; simp [this]
      · next e => simp [this, Ne.symm e]
  | erase k t =>
    simp only [apply] at hr
    have hf := find_iff h ho s hS hs
    by_cases hm : k ∈ s.keys
    · simp only [Op.key] at hf
      rw [hf.1 hm] at hr
      simp only [Option.ite_none_right_eq_some] at hr
      obtain ⟨e, hr⟩ := hr
      cases hr
      rw [e]
      have hnd : s.keys.Nodup := by
        refine hs.imp_of_mem ?_
        rintro a b ha hb hab rfl
        rw [h.irrefl a (hS a ha)] at hab; cases hab
      refine ⟨fun x hx => hS x (List.mem_of_mem_erase hx), List.Pairwise.sublist List.erase_sublist hs, fun x => ?_⟩
      simp only [hnd.mem_erase_iff, inSet]
      split
      · next e => subst e; simp
      · next e => simp [Ne.symm e]
    · simp only [Op.key] at hf
      rw [hf.2 hm] at hr
      cases hr
      refine ⟨hS, hs, fun x => ?_⟩
      simp only [inSet]
      split
      · next e => subst e; simpa using hm
      · rfl

/-- An ordered set over a good order, rebalanced in any way, finds exactly what was inserted and not erased since. -/
theorem set_good (h : GoodOrder S lt) {os : List (Op K)} (hos : ∀ o ∈ os, S o.key) {s : Tree K} (hr : applyAll lt .leaf os = some s) {k : K} (hk : S k) :
    s.find lt k = if os.foldl (inSet k) false then some k else none := by
  suffices ∀ os s0, (∀ o ∈ os, S o.key) → (∀ x ∈ s0.keys, S x) → Sorted lt s0.keys → applyAll lt s0 os = some s →
      s.find lt k = if os.foldl (inSet k) (decide (k ∈ s0.keys)) then some k else none by
    have := this os .leaf hos (by simp [Tree.keys]) (by simp [Tree.keys, Sorted]) hr
    simpa [Tree.keys] using this
  intro os
  induction os with
  | nil =>
    intro s0 _ hS hs e
    simp only [applyAll] at e; cases e
    have := find_iff h hk s hS hs
    simp only [List.foldl_nil, decide_eq_true_eq]
    split
    · next hm => exact this.1 hm
    · next hm => exact this.2 hm
  | cons o os ih =>
    intro s0 ho hS hs e
    simp only [applyAll] at e
    cases hst : apply lt s0 o with
    | none => rw [hst] at e; cases e
    | some s1 =>
      rw [hst] at e
      have := apply_inv h (ho o (by simp)) hS hs hst
      rw [ih s1 (fun o' h' => ho o' (by simp [h'])) this.1 this.2.1 e, List.foldl_cons, this.2.2]

end

/-- C44: an ordered set of addresses no two of which conflict finds exactly what was inserted and not erased since. -/
theorem set_partial {S : Address → Prop} (hS : ∀ a b, S a → S b → ¬ Conflict a b) {os : List (Op Address)} (hos : ∀ o ∈ os, S o.key) {s : Tree Address}
    (hr : applyAll Address.lt .leaf os = some s) {k : Address} (hk : S k) : s.find Address.lt k = if os.foldl (inSet k) false then some k else none :=
  set_good ((order_iff_partial S).2 hS) hos hr hk

/-- In particular addresses with the same port. -/
theorem same_port_ok {p : Nat} : ∀ a b : Address, a.port = p → b.port = p → ¬ Conflict a b := by
  rintro a b rfl h ⟨-, c⟩; omega

/-- In general not: an address that was inserted is not found, and can be inserted again. -/
theorem set_loses : ∃ s, applyAll Address.lt .leaf [.insert ⟨[97], 2⟩ (.node .leaf ⟨[97], 2⟩ .leaf), .insert ⟨[98], 1⟩ (.node (.node .leaf ⟨[98], 1⟩ .leaf) ⟨[97], 2⟩ .leaf)] = some s ∧
    s.find Address.lt ⟨[98], 1⟩ = none ∧ s.find Address.lt ⟨[97], 2⟩ = some ⟨[97], 2⟩ := ⟨_, rfl, rfl, rfl⟩

/-- The hypotheses are met: two addresses with the same port, inserted, rebalanced, one erased. -/
example : ∃ s, applyAll Address.lt .leaf [.insert ⟨[98], 7⟩ (.node .leaf ⟨[98], 7⟩ .leaf), .insert ⟨[97], 7⟩ (.node .leaf ⟨[97], 7⟩ (.node .leaf ⟨[98], 7⟩ .leaf)), .erase ⟨[98], 7⟩ (.node .leaf ⟨[97], 7⟩ .leaf)] = some s ∧
    s.find Address.lt ⟨[97], 7⟩ = some ⟨[97], 7⟩ ∧ s.find Address.lt ⟨[98], 7⟩ = none := ⟨_, rfl, rfl, rfl⟩

end Maf.Addr
