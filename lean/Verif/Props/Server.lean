import Verif.Lemmas.ServerNotify
/-
C70: who is told that a service is available. C71: how changes are told.
-/
namespace Maf.Srv
open Maf.Calls

/-! ### Where things are in a history -/

/-- What comes after a part with the only `e` so far comes after `e`. -/
theorem split_after {E : Type} {l0 l1 u v : List E} {e : E} (h : l0 ++ e :: l1 = u ++ v) (hu : e ∈ u) (h0 : e ∉ l0) : ∃ w, u = l0 ++ e :: w ∧ l1 = w ++ v := by
  rcases List.append_eq_append_iff.1 h with ⟨a, rfl, hb⟩ | ⟨a, rfl, -⟩
  · cases a with
    | nil => simp at hu; exact absurd hu h0
    | cons x a =>
      simp at hb
      obtain ⟨rfl, rfl⟩ := hb
      exact ⟨a, rfl, rfl⟩
  · exact absurd (List.mem_append_left _ hu) h0

/-- An operation that is the first of its call. -/
theorem first_op {n : Nat} {l0 l1 : List Event} {q : Query} {a : Ans q} {ops : List (Op Query Ans)} (h : opsOf n (l0 ++ .did n q a :: l1) = ⟨q, a⟩ :: ops) (hn : ⟨q, a⟩ ∉ ops) :
    opsOf n l0 = [] ∧ opsOf n l1 = ops := by
  have he : opsOf n (l0 ++ .did n q a :: l1) = opsOf n l0 ++ ⟨q, a⟩ :: opsOf n l1 := by
    unfold opsOf
    rw [trace_append, allOps_append, ← List.singleton_append, trace_append, trace_one_own (S := sys) (n := n) (e := .did n q a) rfl, allOps_append]
    simp [allOps]
  rw [he] at h
  cases h0 : opsOf n l0 with
  | nil => rw [h0] at h; simp at h; exact ⟨rfl, h⟩
  | cons x xs =>
    rw [h0] at h
    simp at h
    obtain ⟨rfl, h⟩ := h
    exact absurd (by rw [← h]; simp) hn

theorem not_before {n : Nat} {l0 : List Event} {q : Query} {a : Ans q} (h : opsOf n l0 = []) : .did n q a ∉ l0 := fun hm => by
  have := mem_opsOf.2 hm; rw [h] at this; cases this

/-! ### Providers and availability -/

theorem made_mono {l m : List Event} {p : Pr} {sid : Sid} (h : Made l p sid) : Made (l ++ m) p sid := by
  obtain ⟨n, h⟩ := h; exact ⟨n, List.mem_append_left _ h⟩

/-- A provider that is one now has been one since it was made. -/
theorem prov_since {l m : List Event} (h : Run (l ++ m)) {p : Pr} {sid : Sid} (hm : Made l p sid) (hp : provIn (l ++ m) sid = some p) : provIn l sid = some p := by
  revert h hp
  refine snoc_induct (motive := fun m => Run (l ++ m) → provIn (l ++ m) sid = some p → provIn l sid = some p) (by intro _ h; simpa using h) ?_ m
  intro m e ih h hp
  rw [← List.append_assoc] at h hp
  refine ih h.left ?_
  rw [provIn_one] at hp
  cases e with
  | did n q a =>
    cases q
    case getProv s =>
      obtain ⟨p', y⟩ := a
      cases y with
      | false => exact hp
      | true =>
        simp only [provStep] at hp
        split at hp
        · next hs =>
          subst hs
          cases hp
          exact absurd (made_mono hm) (h.ok.2.1 s)
        · exact hp
    case takeProvs => cases hp
    all_goals exact hp
  | _ => exact hp

theorem avail_kept {l m : List Event} {p : Pr} {b : Bool} (hb : availIn l p = b) (hs : ∀ k s, .did k (.setAvail p (!b)) s ∉ m) : availIn (l ++ m) p = b := by
  revert hs
  refine snoc_induct (motive := fun m => (∀ k s, .did k (.setAvail p (!b)) s ∉ m) → availIn (l ++ m) p = b) (by intro _; simpa using hb) ?_ m
  intro m e ih hs
  rw [← List.append_assoc, availIn_one]
  have ih := ih fun k s h => hs k s (by simp [h])
  cases e with
  | did n q a =>
    cases q
    case setAvail p' b' =>
      simp only [availStep]
      split
      · next e =>
        subst e
        cases b <;> cases b' <;> first | rfl | exact absurd (by simp) (hs n a)
      · exact ih
    all_goals exact ih
  | _ => exact ih

/-! ### C70 -/

theorem start_ops {l : List Event} (h : Run l) {m : Nat} {p : Pr} {b : Bool} {x : Res} (hc : .called m (if b then .startServing p else .stopServing p) ∈ l) (hx : .returned m x ∈ l) :
    ∃ sid f ops, opsOf m l = ⟨.setAvail p b, sid⟩ :: ⟨.checkProv sid, f⟩ :: ops ∧ ((f = false ∧ ops = []) ∨
      f = true ∧ ∃ xs : List (Addr × Out), ops = ⟨.lockAddrs, xs.map fun x => x.1⟩ :: (tells sid b xs ++ [⟨.unlockAddrs (reached xs), ()⟩])) := by
  have hp := ops_path h hc hx
  have : prog (if b then .startServing p else .stopServing p) = (serve p b >>= fun _ => pure .unit) := by cases b <;> rfl
  rw [this] at hp
  simp only [path_bind_ret, path_pure] at hp
  obtain ⟨l1, l2, u, h1, h2, rfl, -⟩ := hp
  rw [List.append_nil] at h1
  obtain ⟨sid, f, h3, h4⟩ := serve_path h2
  rw [h1]
  rcases h4 with ⟨hf, h4⟩ | ⟨hf, xs, h4⟩
  · exact ⟨sid, f, [], h4, .inl ⟨hf, rfl⟩⟩
  · exact ⟨sid, f, _, h4, .inr ⟨hf, xs, rfl⟩⟩

theorem set_call {l : List Event} (h : Run l) {m : Nat} {p : Pr} {sid : Sid} (hd : .did m (.setAvail p true) sid ∈ l) : .called m (.startServing p) ∈ l := by
  obtain ⟨c, h1, h2⟩ := op_of h hd
  rcases h2 with rfl | ⟨-, h2⟩
  · exact h1
  · cases h2

/-- The same as `learns`: the client stays registered. -/
theorem learns_core {l l0 l1 k0 k1 : List Event} (h : Run l) {n m : Nat} {a : Addr} {p : Pr} {sid : Sid} {u : Unit} {x y : Res}
    (hl : l = l0 ++ .did m (.setAvail p true) sid :: l1) (hm : .returned m x ∈ l) (hstop : ∀ k s, .did k (.setAvail p false) s ∉ l1)
    (hk : l = k0 ++ .did n (.addAddr a) u :: k1) (hn : .returned n y ∈ l) (hkept : ∀ c d, k1 = c ++ d → a ∈ addrsIn (k0 ++ .did n (.addAddr a) u :: c))
    (hp : provIn l sid = some p) : ∃ e, e ∈ l1 ∧ e ∈ k1 ∧ News a sid true e := by
  have hset : .did m (.setAvail p true) sid ∈ l := by rw [hl]; simp
  have hmade : Made l0 p sid := (show Run (l0 ++ .did m (.setAvail p true) sid :: l1) from hl ▸ h).ok
  -- what call `m` does
  obtain ⟨sid', f, ops, h1, h2⟩ := start_ops h (b := true) (set_call h hset) hm
  have hsid : sid' = sid := by
    have := mem_opsOf.2 hset
    rw [h1] at this
    rcases List.mem_cons.1 this with e | this
    · cases e; rfl
    · rcases h2 with ⟨-, rfl⟩ | ⟨-, xs, rfl⟩
      · simp at this
      · simp [tells] at this
  subst hsid
  have hno : (⟨.setAvail p true, sid'⟩ : Op Query Ans) ∉ (⟨.checkProv sid', f⟩ :: ops : List (Op Query Ans)) := by
    rcases h2 with ⟨-, rfl⟩ | ⟨-, xs, rfl⟩ <;> simp [tells]
  obtain ⟨h3, h4⟩ := first_op (hl ▸ h1) hno
  have hset0 : .did m (.setAvail p true) sid' ∉ l0 := not_before h3
  have hf : f = true := by
    obtain ⟨c1, c2, hc, -, -⟩ := ops_split (X := []) (by rw [h4]; rfl)
    have hr : Run ((l0 ++ .did m (.setAvail p true) sid' :: c1) ++ .did m (.checkProv sid') f :: c2) := by
      have : l = (l0 ++ .did m (.setAvail p true) sid' :: c1) ++ .did m (.checkProv sid') f :: c2 := by rw [hl, hc]; simp
      exact this ▸ h
    refine hr.ok.1.2 ?_
    have : provIn (l0 ++ .did m (.setAvail p true) sid' :: c1) sid' = some p := prov_since hr (made_mono hmade) (by
      have : l = (l0 ++ .did m (.setAvail p true) sid' :: c1) ++ .did m (.checkProv sid') f :: c2 := by rw [hl, hc]; simp
      exact this ▸ hp)
    rw [this]; simp
  subst hf
  rcases h2 with ⟨h2, -⟩ | ⟨-, xs, rfl⟩
  · cases h2
  obtain ⟨x1, y1, hx1, hX, hY⟩ := ops_split (X := [⟨.setAvail p true, sid'⟩, ⟨.checkProv sid', true⟩]) (by rw [h1]; rfl)
  have hset1 : .did m (.setAvail p true) sid' ∈ x1 := mem_opsOf.1 (by rw [hX]; simp)
  -- what call `n` does
  have hcn : .called n (.incoming (.register a)) ∈ l := by
    obtain ⟨c, h5, h6⟩ := op_of h (show .did n (.addAddr a) u ∈ l by rw [hk]; simp)
    cases h6; exact h5
  obtain ⟨ps, gs, -, hg, h5⟩ := register_path (ops_path h hcn hn)
  obtain ⟨hg1, hg2, hg3⟩ := greetAll_path hg
  have hno : (⟨.addAddr a, ()⟩ : Op Query Ans) ∉ (⟨.lockProvs, ps⟩ :: (gs ++ [⟨.unlockProvs, ()⟩]) : List (Op Query Ans)) := by
    intro hm
    simp at hm
    rcases hg3 _ hm with ⟨s', p', f', -, e⟩ | ⟨s', e', e⟩ <;> cases e
  obtain ⟨h6, h7⟩ := first_op (hk ▸ h5) hno
  -- which is first
  have hpl : k0 ++ .did n (.addAddr a) u :: k1 = x1 ++ .did m .lockAddrs (xs.map fun x => x.1) :: y1 := by rw [← hk, ← hx1]
  rcases places hpl with ⟨-, e, -⟩ | ⟨c, rfl, rfl⟩ | ⟨c, rfl, -⟩
  · cases e
  · -- the client is registered when the change is told
    have hr : Run ((k0 ++ .did n (.addAddr a) u :: c) ++ .did m .lockAddrs (xs.map fun x => x.1) :: y1) := by rw [← hx1]; exact h
    have := hkept c _ rfl
    have has : a ∈ xs.map fun x => x.1 := by
      have hk := hr.ok.1
      rw [hk]
      simpa using this
    obtain ⟨⟨a', o⟩, hxs, rfl⟩ := List.mem_map.1 has
    have htell : .did m (.tell a' sid' true) o ∈ y1 := mem_opsOf.1 (by rw [hY]; exact List.mem_append_left _ (List.mem_map.2 ⟨(a', o), hxs, rfl⟩))
    refine ⟨_, ?_, List.mem_append_right _ (List.mem_cons_of_mem _ htell), rfl, rfl, rfl⟩
    exact mem_opsOf.1 (by rw [h4]; simp only [List.mem_cons, List.mem_append]; exact .inr (.inr (.inl (List.mem_map.2 ⟨(a', o), hxs, rfl⟩))))
  · -- the service is available when the client registers
    have hafter : ∀ {v e w}, k1 = v ++ e :: w → ∃ z, x1 ++ .did m .lockAddrs (xs.map fun x => x.1) :: c ++ .did n (.addAddr a) u :: v = l0 ++ .did m (.setAvail p true) sid' :: z ∧ l1 = z ++ e :: w := by
      intro v e w hv
      refine split_after ?_ (by simp [hset1]) hset0
      rw [← hl, hk, hv]; simp
    obtain ⟨z1, z2, hz, hZ1, hZ2⟩ := ops_split (X := []) (by rw [h7]; rfl)
    obtain ⟨w, hw1, hw2⟩ := hafter hz
    have hr : Run ((l0 ++ .did m (.setAvail p true) sid' :: w) ++ .did n .lockProvs ps :: z2) := by
      have : l = (l0 ++ .did m (.setAvail p true) sid' :: w) ++ .did n .lockProvs ps :: z2 := by rw [hl, hw2]; simp
      exact this ▸ h
    have hmem : (sid', p) ∈ ps := (hr.ok.1 sid' p).2 (prov_since hr (made_mono hmade) (by
      have : l = (l0 ++ .did m (.setAvail p true) sid' :: w) ++ .did n .lockProvs ps :: z2 := by rw [hl, hw2]; simp
      exact this ▸ hp))
    obtain ⟨f, hf, hgr⟩ := hg1 sid' p hmem
    obtain ⟨v, w', hv⟩ := List.append_of_mem (show .did n (.readAvail p) f ∈ k1 from mem_opsOf.1 (by rw [h7]; simp [hf]))
    have hft : f = true := by
      obtain ⟨z, hz1, hz2⟩ := hafter hv
      have hr : Run ((l0 ++ [.did m (.setAvail p true) sid'] ++ z) ++ .did n (.readAvail p) f :: w') := by
        have : l = (l0 ++ [.did m (.setAvail p true) sid'] ++ z) ++ .did n (.readAvail p) f :: w' := by rw [hl, hz2]; simp
        exact this ▸ h
      have := hr.ok
      rw [this]
      refine avail_kept (b := true) (by rw [availIn_one]; simp [availStep]) fun k s hq => hstop k s (by rw [hz2]; exact List.mem_append_left _ hq)
    obtain ⟨X, e, Y, hXY⟩ := hgr hft
    have hin : .did n (.greet a sid') e ∈ k1 := mem_opsOf.1 (by rw [h7, hXY]; simp)
    obtain ⟨v, w', hv⟩ := List.append_of_mem hin
    obtain ⟨z, -, hz2⟩ := hafter hv
    exact ⟨_, by rw [hz2]; simp, hin, rfl, rfl, rfl⟩

/-- C70: whoever has registered is told of every service that is available, however registering and starting to serve are interleaved: provider `p` of service `sid` has begun to serve and has not
stopped since (`l1`), client `a` has registered and has not been lost since (`k1`); both calls have returned. Then the client is sent a message after both. -/
theorem learns {l l0 l1 k0 k1 : List Event} (h : Run l) {n m : Nat} {a : Addr} {p : Pr} {sid : Sid} {u : Unit} {x y : Res}
    (hl : l = l0 ++ .did m (.setAvail p true) sid :: l1) (hm : .returned m x ∈ l) (hstop : ∀ k s, .did k (.setAvail p false) s ∉ l1)
    (hk : l = k0 ++ .did n (.addAddr a) u :: k1) (hn : .returned n y ∈ l) (hdrop : ∀ k u, .did k (.dropAddr a) u ∉ k1) (hreach : ∀ k s b, .did k (.tell a s b) .lost ∉ k1)
    (hp : provIn l sid = some p) : ∃ e, e ∈ l1 ∧ e ∈ k1 ∧ News a sid true e := by
  subst hk
  refine learns_core h hl hm hstop rfl hn (fun c d e => ?_) hp
  subst e
  have hr0 : Run (k0 ++ [.did n (.addAddr a) u] ++ (c ++ d)) := by simpa using h
  have hr1 : Run (k0 ++ [.did n (.addAddr a) u] ++ c) := by rw [← List.append_assoc] at hr0; exact hr0.left
  have ha : a ∈ addrsIn (k0 ++ [.did n (.addAddr a) u]) := by
    rw [addrsIn_one]
    simp only [addrStep]
    split
    · assumption
    · simp
  have hfree : addrLockIn (k0 ++ [.did n (.addAddr a) u]) = none := by rw [addrLockIn_one]; exact (show Run (k0 ++ .did n (.addAddr a) u :: (c ++ d)) by simpa using h).ok
  have := (addr_kept hr1 ha hfree (fun k u hm => hdrop k u (by simp [hm])) (fun k s b hm => hreach k s b (by simp [hm]))).1
  simpa using this

/-! ### C71 -/

theorem toldBy_append (n : Nat) (l r : List Event) : toldBy n (l ++ r) = toldBy n l ++ toldBy n r := by simp [toldBy]

/-- What a call tells is among its operations. -/
theorem toldBy_ops (n : Nat) (l : List Event) : toldBy n l = (opsOf n l).filterMap fun | ⟨.tell a sid b, _⟩ => some (a, sid, b) | _ => none := by
  induction l with
  | nil => rfl
  | cons e l ih =>
    rw [← List.singleton_append, toldBy_append, ih]
    unfold opsOf
    rw [trace_append, allOps_append, List.filterMap_append]
    congr 1
    cases e with
    | did k q a =>
      by_cases hk : k = n
      · subst hk
        rw [trace_one_own (S := sys) (n := k) (e := .did k q a) rfl]
        cases q <;> simp [toldBy, allOps]
      · rw [trace_one_other (S := sys) (e := .did k q a) hk]
        cases q <;> simp [toldBy, allOps, hk]
    | called k c =>
      by_cases hk : k = n
      · rw [trace_one_own (S := sys) (e := .called k c) hk]; rfl
      · rw [trace_one_other (S := sys) (e := .called k c) hk]; rfl
    | returned k c =>
      by_cases hk : k = n
      · rw [trace_one_own (S := sys) (e := .returned k c) hk]; rfl
      · rw [trace_one_other (S := sys) (e := .returned k c) hk]; rfl
    | crashed k =>
      by_cases hk : k = n
      · rw [trace_one_own (S := sys) (e := .crashed k) hk]; rfl
      · rw [trace_one_other (S := sys) (e := .crashed k) hk]; rfl

theorem told_tells (sid : Sid) (b : Bool) (xs : List (Addr × Out)) :
    (tells sid b xs).filterMap (fun | ⟨.tell a sid b, _⟩ => some (a, sid, b) | _ => none) = xs.map fun x => (x.1, sid, b) := by
  induction xs with
  | nil => rfl
  | cons x xs ih => simp only [tells, List.map_cons, List.filterMap_cons] at ih ⊢; rw [ih]

theorem one_outcome {xs : List (Addr × Out)} (hn : (xs.map fun x => x.1).Nodup) {a : Addr} {o o' : Out} (h : (a, o) ∈ xs) (h' : (a, o') ∈ xs) : o = o' := by
  induction xs with
  | nil => cases h
  | cons x xs ih =>
    rw [List.map_cons, List.nodup_cons] at hn
    have hno : ∀ o, x.1 = a → (a, o) ∉ xs := fun o e h => hn.1 (List.mem_map.2 ⟨(a, o), h, e.symm⟩)
    rcases List.mem_cons.1 h with e | h1
    · rcases List.mem_cons.1 h' with e' | h2
      · rw [← e] at e'; cases e'; rfl
      · exact absurd h2 (hno o' (by rw [← e]))
    · rcases List.mem_cons.1 h' with e' | h2
      · exact absurd h1 (hno o (by rw [← e']))
      · exact ih hn.2 h1 h2

/-- Those of a list without repetition that were reached. -/
theorem reached_filter {sid : Sid} {b : Bool} {xs : List (Addr × Out)} (hn : (xs.map fun x => x.1).Nodup) :
    reached xs = (xs.map fun x => x.1).filter fun a => decide ((⟨.tell a sid b, .lost⟩ : Op Query Ans) ∉ tells sid b xs) := by
  have hmem : ∀ (ys : List (Addr × Out)) a, (⟨.tell a sid b, .lost⟩ : Op Query Ans) ∈ tells sid b ys ↔ (a, .lost) ∈ ys := by
    intro ys a
    simp only [tells, List.mem_map]
    constructor
    · rintro ⟨⟨a', o⟩, h, e⟩; cases e; exact h
    · intro h; exact ⟨_, h, rfl⟩
  simp only [hmem]
  rw [reached, List.filter_map]
  congr 1
  refine List.filter_congr fun x hx => ?_
  obtain ⟨a, o⟩ := x
  have : (a, Out.lost) ∈ xs ↔ o = .lost := by
    constructor
    · intro h
      refine Classical.byContradiction fun ho => ?_
      exact ho (one_outcome hn hx h)
    · rintro rfl; exact hx
  simp only [Function.comp, this]
  cases o <;> rfl

/-- C71: when `startServing` or `stopServing` (`b`) has returned, it has told the change of its service to every registered client, once, and to nobody else (those that are registered when the telling begins), and
has erased those that could not be reached, and only those; unless its provider is no longer one of the server's. -/
theorem change_told {l : List Event} (h : Run l) {n : Nat} {p : Pr} {b : Bool} {x : Res} (hc : .called n (if b then .startServing p else .stopServing p) ∈ l) (hx : .returned n x ∈ l) :
    ∃ l1 sid l2, l = l1 ++ .did n (.setAvail p b) sid :: l2 ∧ Made l1 p sid ∧
      ((toldBy n l = [] ∧ ∃ v w, l2 = v ++ .did n (.checkProv sid) false :: w ∧ provIn (l1 ++ .did n (.setAvail p b) sid :: v) sid = none) ∨
       ∃ v w z ks u, l2 = v ++ .did n .lockAddrs (addrsIn (l1 ++ .did n (.setAvail p b) sid :: v)) :: (w ++ .did n (.unlockAddrs ks) u :: z) ∧
        toldBy n l = (addrsIn (l1 ++ .did n (.setAvail p b) sid :: v)).map (fun a => (a, sid, b)) ∧ toldBy n w = toldBy n l ∧
        ks = (addrsIn (l1 ++ .did n (.setAvail p b) sid :: v)).filter fun a => decide (.did n (.tell a sid b) .lost ∉ w)) := by
  obtain ⟨sid, f, ops, h1, h2⟩ := start_ops h hc hx
  obtain ⟨l1, l2, hl, hl1, hl2⟩ := ops_split (X := []) (by rw [h1]; rfl)
  have hmade : Made l1 p sid := (show Run (l1 ++ .did n (.setAvail p b) sid :: l2) from hl ▸ h).ok
  refine ⟨l1, sid, l2, hl, hmade, ?_⟩
  have htold : toldBy n l = ops.filterMap fun | ⟨.tell a sid b, _⟩ => some (a, sid, b) | _ => none := by rw [toldBy_ops, h1]; rfl
  rcases h2 with ⟨rfl, rfl⟩ | ⟨rfl, xs, rfl⟩
  · refine .inl ⟨by rw [htold]; rfl, ?_⟩
    obtain ⟨v, w, hv, -, -⟩ := ops_split (X := []) (by rw [hl2]; rfl)
    refine ⟨v, w, hv, ?_⟩
    have hr : Run ((l1 ++ .did n (.setAvail p b) sid :: v) ++ .did n (.checkProv sid) false :: w) := by
      have : l = (l1 ++ .did n (.setAvail p b) sid :: v) ++ .did n (.checkProv sid) false :: w := by rw [hl, hv]; simp
      exact this ▸ h
    have := hr.ok.1
    simpa using this
  · right
    obtain ⟨v, y, hv, -, hy⟩ := ops_split (X := [⟨.checkProv sid, true⟩]) (by rw [hl2]; rfl)
    obtain ⟨w, z, hw, hw1, -⟩ := ops_split (X := tells sid b xs) (Y := []) (by rw [hy])
    have hr : Run ((l1 ++ .did n (.setAvail p b) sid :: v) ++ .did n .lockAddrs (xs.map fun x => x.1) :: (w ++ .did n (.unlockAddrs (reached xs)) () :: z)) := by
      have : l = (l1 ++ .did n (.setAvail p b) sid :: v) ++ .did n .lockAddrs (xs.map fun x => x.1) :: (w ++ .did n (.unlockAddrs (reached xs)) () :: z) := by rw [hl, hv, hw]; simp
      exact this ▸ h
    have has := hr.ok.1
    have hnd := addrs_nodup hr.left
    have ht : (⟨.lockAddrs, xs.map fun x => x.1⟩ :: (tells sid b xs ++ [⟨.unlockAddrs (reached xs), ()⟩]) : List (Op Query Ans)).filterMap (fun | ⟨.tell a sid b, _⟩ => some (a, sid, b) | _ => none) =
        xs.map fun x => (x.1, sid, b) := by
      have := told_tells sid b xs
      simp only [List.filterMap_cons, List.filterMap_append, List.filterMap_nil, List.append_nil]
      exact this
    refine ⟨v, w, z, reached xs, (), by rw [← has, hv, hw], ?_, ?_, ?_⟩
    · rw [htold, ht, ← has]; simp
    · rw [htold, ht, toldBy_ops, hw1]; exact told_tells sid b xs
    · rw [← has]
      rw [← has] at hnd
      rw [reached_filter (sid := sid) (b := b) hnd]
      refine List.filter_congr fun a _ => ?_
      have : (⟨.tell a sid b, .lost⟩ : Op Query Ans) ∈ tells sid b xs ↔ .did n (.tell a sid b) .lost ∈ w := by rw [← hw1]; exact mem_opsOf
      simp only [this]

end Maf.Srv
