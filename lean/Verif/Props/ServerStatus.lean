import Verif.Props.ServerOrder
/-
C70: when everything has returned, what a registered client was last told is the truth.
-/
namespace Maf.Srv
open Maf.Calls

/-- Changes of provider `p`. -/
def Serves (p : Pr) (c : Call) : Prop := c = .startServing p ∨ c = .stopServing p

/-! ### The lock of the providers -/

/-- The providers are unlocked by who has locked them; clients are greeted while they are locked, after looking at the provider. -/
def ProvAt (pre : List (Op Query Ans)) (o : Op Query Ans) : Prop :=
  (o.1 = .unlockProvs → (∃ ps, ⟨.lockProvs, ps⟩ ∈ pre) ∧ ∀ u, ⟨.unlockProvs, u⟩ ∉ pre) ∧
  ∀ a s, o.1 = .greet a s → (∃ ps p X Y, pre = X ++ ⟨.readAvail p, true⟩ :: Y ∧ ⟨.lockProvs, ps⟩ ∈ X ∧ (s, p) ∈ ps) ∧ ∀ u, ⟨.unlockProvs, u⟩ ∉ pre

theorem greetAll_at {a : Addr} {all ps : List (Sid × Pr)} {pre : List (Op Query Ans)} (hs : ∀ x ∈ ps, x ∈ all) (h1 : ⟨.lockProvs, all⟩ ∈ pre) (h2 : ∀ u, ⟨.unlockProvs, u⟩ ∉ pre) : Along ProvAt pre (greetAll a ps) := by
  induction ps generalizing pre with
  | nil => trivial
  | cons x ps ih =>
    simp only [greetAll, atom, ask_bind, along_ask]
    refine fun f => ⟨⟨(by intro h; cases h), (by intro _ _ h; cases h)⟩, ?_⟩
    have hs' := fun y hy => hs y (List.mem_cons_of_mem _ hy)
    cases f with
    | false =>
      simp only [Bool.false_eq_true, if_false]
      exact ih hs' (by simp [h1]) (by intro u h; simp at h; exact h2 _ h)
    | true =>
      simp only [if_true, along_ask]
      refine fun e => ⟨⟨(by intro h; cases h), ?_⟩, ih hs' (by simp [h1]) (by intro u h; simp at h; exact h2 _ h)⟩
      intro a' s h
      cases h
      exact ⟨⟨all, x.2, pre, [], rfl, h1, hs x (by simp)⟩, by intro u h; simp at h; exact h2 _ h⟩

theorem forwardAll_path {a : Addr} {ps : List (Sid × Pr)} {ops : List (Op Query Ans)} (h : Path (forwardAll a ps) ops (.ret ())) : ∀ o ∈ ops, ∃ p m, o.1 = .deliver p m := by
  induction ps generalizing ops with
  | nil => simp only [forwardAll, path_pure] at h; obtain ⟨rfl, -⟩ := h; simp
  | cons x ps ih =>
    simp only [forwardAll, atom, ask_bind, path_ask_ret] at h
    obtain ⟨f, l, rfl, h⟩ := h
    intro o ho
    rcases List.mem_cons.1 ho with rfl | ho
    · exact ⟨_, _, rfl⟩
    · exact ih h o ho

theorem forwardAll_at {a : Addr} {ps : List (Sid × Pr)} {pre : List (Op Query Ans)} : Along ProvAt pre (forwardAll a ps) := by
  induction ps generalizing pre with
  | nil => trivial
  | cons x ps ih =>
    simp only [forwardAll, atom, ask_bind, along_ask]
    exact fun f => ⟨⟨(by intro h; cases h), (by intro _ _ h; cases h)⟩, ih⟩

theorem register_at (a : Addr) : Along ProvAt [] (prog (.incoming (.register a))) := by
  refine Along.bind ?_ fun _ _ _ => trivial
  simp only [onIncomingMessage, atom, ask_bind, along_ask]
  refine fun _ => ⟨⟨(by intro h; cases h), (by intro _ _ h; cases h)⟩, fun ps => ⟨⟨(by intro h; cases h), (by intro _ _ h; cases h)⟩, ?_⟩⟩
  refine (greetAll_at (all := ps) (fun _ h => h) (by simp) (by simp)).bind fun l _ hl => ?_
  refine fun _ => ⟨⟨fun _ => ⟨⟨ps, by simp⟩, fun u h => ?_⟩, (by intro _ _ h; cases h)⟩, trivial⟩
  simp at h
  rcases (greetAll_path hl).2.2 _ h with ⟨_, _, _, _, h⟩ | ⟨_, _, h⟩ <;> cases h

theorem unregister_at (a : Addr) : Along ProvAt [] (prog (.incoming (.unregister a none))) := by
  refine Along.bind ?_ fun _ _ _ => trivial
  simp only [onIncomingMessage, atom, ask_bind, along_ask]
  refine fun _ => ⟨⟨(by intro h; cases h), (by intro _ _ h; cases h)⟩, fun ps => ⟨⟨(by intro h; cases h), (by intro _ _ h; cases h)⟩, ?_⟩⟩
  refine forwardAll_at.bind fun l _ hl => ?_
  refine fun _ => ⟨⟨fun _ => ⟨⟨ps, by simp⟩, fun u h => ?_⟩, (by intro _ _ h; cases h)⟩, trivial⟩
  simp at h
  obtain ⟨_, _, h⟩ := forwardAll_path hl _ h
  cases h

theorem unlock_at {l r : List Event} {n : Nat} {u : Unit} (h : Run (l ++ .did n .unlockProvs u :: r)) : (∃ ps, .did n .lockProvs ps ∈ l) ∧ ∀ u, .did n .unlockProvs u ∉ l := by
  obtain ⟨c, h1, h2⟩ := op_of h (n := n) (q := .unlockProvs) (a := u) (by simp)
  obtain ⟨c', k, h3, h4⟩ := own_path h
  have hcc : c = c' := by
    obtain ⟨as, s, hr, hl⟩ := h
    exact called_one hr (hl ▸ h1) (by rw [hl]; exact List.mem_append_left _ h3)
  subst hcc
  have : Along ProvAt [] (prog c) := by
    obtain ⟨a, rfl | rfl⟩ := h2
    · exact register_at a
    · exact unregister_at a
  obtain ⟨⟨ps, h5⟩, h6⟩ := (this.at h4 u).1 rfl
  exact ⟨⟨ps, mem_opsOf.1 h5⟩, fun u hu => h6 u (mem_opsOf.2 hu)⟩

/-- Who has locked the providers and has not unlocked them keeps them locked. -/
theorem lock_held {l : List Event} (h : Run l) : ∀ k ps, .did k .lockProvs ps ∈ l → (∀ u, .did k .unlockProvs u ∉ l) → provLockIn l = some k := by
  revert h
  refine snoc_induct (motive := fun l => Run l → ∀ k ps, .did k .lockProvs ps ∈ l → (∀ u, .did k .unlockProvs u ∉ l) → provLockIn l = some k) (by intro _ _ _ h; cases h) ?_ l
  intro l e ih h k ps hl hu
  have ih := ih h.left
  rw [provLockIn_one]
  have hu' : ∀ u, .did k .unlockProvs u ∉ l := fun u h => hu u (List.mem_append_left _ h)
  have hold : .did k .lockProvs ps ∈ l ∨ e = .did k .lockProvs ps := by
    rcases List.mem_append.1 hl with h | h
    · exact .inl h
    · simp at h; exact .inr h.symm
  cases e with
  | did n q x =>
    cases q
    case lockProvs =>
      rcases hold with hl | hl
      · have h1 := ih k ps hl hu'
        rw [h.ok.2.2] at h1; cases h1
      · cases hl; rfl
    case unlockProvs =>
      rcases hold with hl | hl
      · have h1 := ih k ps hl hu'
        obtain ⟨⟨ps', h2⟩, h3⟩ := unlock_at h
        have h4 := ih n ps' h2 h3
        rw [h1] at h4
        cases h4
        exact absurd (by simp) (hu x)
      · cases hl
    all_goals
      rcases hold with hl | hl
      · exact ih k ps hl hu'
      · cases hl
  | _ =>
    rcases hold with hl | hl
    · exact ih k ps hl hu'
    · cases hl

theorem greet_at {l r : List Event} {n : Nat} {a : Addr} {sid : Sid} {o : Out} (h : Run (l ++ .did n (.greet a sid) o :: r)) :
    ∃ ps p x y, l = x ++ .did n (.readAvail p) true :: y ∧ .did n .lockProvs ps ∈ x ∧ (sid, p) ∈ ps ∧ ∀ u, .did n .unlockProvs u ∉ l := by
  obtain ⟨c, h1, h2⟩ := op_of h (n := n) (q := .greet a sid) (a := o) (by simp)
  obtain ⟨c', k, h3, h4⟩ := own_path h
  have hcc : c = c' := by
    obtain ⟨as, s, hr, hl⟩ := h
    exact called_one hr (hl ▸ h1) (by rw [hl]; exact List.mem_append_left _ h3)
  subst hcc
  cases h2
  obtain ⟨⟨ps, p, X, Y, h5, h6, h7⟩, h8⟩ := ((register_at a).at h4 o).2 a sid rfl
  obtain ⟨x, y, h9, h10, h11⟩ := ops_split h5
  exact ⟨ps, p, x, y, h9, mem_opsOf.1 (by rw [h10]; exact h6), h7, fun u hu => h8 u (mem_opsOf.2 hu)⟩

/-! ### Calls in turn -/

/-- The operations of calls that are made one after the other do not alternate. -/
theorem sep {N : Call → Prop} {x y z w : List Event} {n m : Nat} {q q' q'' : Query} {a : Ans q} {a' : Ans q'} {a'' : Ans q''}
    (h : Run (x ++ .did n q a :: (y ++ .did m q' a' :: (z ++ .did n q'' a'' :: w)))) (hs : Serial (S := sys) N (x ++ .did n q a :: (y ++ .did m q' a' :: (z ++ .did n q'' a'' :: w))))
    (hn : ∀ c, .called n c ∈ x → N c) (hm : ∀ c, .called m c ∈ x ++ .did n q a :: y → N c) : n = m := by
  have h2 : Run ((x ++ .did n q a :: y) ++ .did m q' a' :: (z ++ .did n q'' a'' :: w)) := by simpa using h
  have h3 : Run ((x ++ .did n q a :: (y ++ .did m q' a' :: z)) ++ .did n q'' a'' :: w) := by simpa using h
  obtain ⟨c, -, hc, -⟩ := own_path h
  obtain ⟨d, -, hd, -⟩ := own_path h2
  have hN := hn c hc
  have hN' := hm d hd
  have a1 : Active (S := sys) N m (x ++ .did n q a :: y) := by
    obtain ⟨as, s, hr, hl⟩ := h2
    exact did_active hr hl hd hN'
  have a2 : Active (S := sys) N n (x ++ .did n q a :: (y ++ .did m q' a' :: z)) := by
    obtain ⟨as, s, hr, hl⟩ := h3
    exact did_active hr hl (List.mem_append_left _ hc) hN
  obtain ⟨c', -, -, hx⟩ := a2
  have hs' : Serial (S := sys) N ((x ++ .did n q a :: y) ++ .did m q' a' :: (z ++ .did n q'' a'' :: w)) := by simpa using hs
  exact hs'.left.one ⟨c, List.mem_append_left _ hc, hN, fun r hr => hx r (by
    rcases List.mem_append.1 hr with hr | hr
    · exact List.mem_append_left _ hr
    · refine List.mem_append_right _ ?_
      rcases List.mem_cons.1 hr with hr | hr
      · rw [hr]; simp
      · simp [hr])⟩ a1

/-! ### C70 -/

theorem no_take {l : List Event} (h : Run l) (hd : ∀ n, .called n .deinit ∉ l) : ∀ n ps, .did n .takeProvs ps ∉ l := fun n ps hm => by
  obtain ⟨c, h1, h2⟩ := op_of h hm
  cases h2; exact hd n h1

/-- Unless there is `deinit`, a service has only one provider. -/
theorem one_made {l : List Event} (h : Run l) (hd : ∀ n, .called n .deinit ∉ l) {p p' : Pr} {sid : Sid} (hp : provIn l sid = some p) (hm : Made l p' sid) : p' = p := by
  obtain ⟨n, hm⟩ := hm
  obtain ⟨u, v, rfl⟩ := List.append_of_mem hm
  have h' : Run (u ++ [.did n (.getProv sid) (p', true)] ++ v) := by simpa using h
  have := prov_kept h' (prov_got h'.left) (fun n ps hm => no_take h hd n ps (by simp [hm]))
  have e : u ++ [.did n (.getProv sid) (p', true)] ++ v = u ++ .did n (.getProv sid) (p', true) :: v := by simp
  rw [e, hp] at this
  cases this; rfl

theorem set_by {l : List Event} (h : Run l) (hd : ∀ n, .called n .deinit ∉ l) {m : Nat} {p : Pr} {b : Bool} {s : Sid} (hm : .did m (.setAvail p b) s ∈ l) : .called m (if b then .startServing p else .stopServing p) ∈ l := by
  obtain ⟨c, h1, h2⟩ := op_of h hm
  rcases h2 with rfl | ⟨rfl, -⟩
  · exact h1
  · exact absurd h1 (hd m)

/-- The last change of a provider. -/
theorem last_set {l : List Event} {p : Pr} : (availIn l p = false ∧ ∀ k b s, .did k (.setAvail p b) s ∉ l) ∨
    ∃ l0 m s l1, l = l0 ++ .did m (.setAvail p (availIn l p)) s :: l1 ∧ ∀ k b s, .did k (.setAvail p b) s ∉ l1 := by
  refine snoc_induct (motive := fun l => (availIn l p = false ∧ ∀ k b s, .did k (.setAvail p b) s ∉ l) ∨ ∃ l0 m s l1, l = l0 ++ .did m (.setAvail p (availIn l p)) s :: l1 ∧ ∀ k b s, .did k (.setAvail p b) s ∉ l1)
    (.inl ⟨rfl, by simp⟩) ?_ l
  intro l e ih
  rw [availIn_one]
  have hother : (∀ k b s, e ≠ .did k (.setAvail p b) s) → availStep p (availIn l p) e = availIn l p := by
    intro h
    cases e with
    | did n q x =>
      cases q
      case setAvail p' b =>
        simp only [availStep]
        split
        · next hp => subst hp; exact absurd rfl (h n b x)
        · rfl
      all_goals rfl
    | _ => rfl
  by_cases he : ∃ k b s, e = .did k (.setAvail p b) s
  · obtain ⟨k, b, s, rfl⟩ := he
    refine .inr ⟨l, k, s, [], ?_, by simp⟩
    simp [availStep]
  · have he : ∀ k b s, e ≠ .did k (.setAvail p b) s := fun k b s h => he ⟨k, b, s, h⟩
    rw [hother he]
    rcases ih with ⟨h1, h2⟩ | ⟨l0, m, s, l1, h1, h2⟩
    · refine .inl ⟨h1, fun k b s h => ?_⟩
      rcases List.mem_append.1 h with h | h
      · exact h2 k b s h
      · simp at h; exact he k b s h.symm
    · refine .inr ⟨l0, m, s, l1 ++ [e], ?_, fun k b s h => ?_⟩
      · rw [← List.cons_append, ← List.append_assoc, ← h1]
      · rcases List.mem_append.1 h with h | h
        · exact h2 k b s h
        · simp at h; exact he k b s h.symm

/-- What a client was last told is what the last message says. -/
theorem news_last {l m : List Event} {a : Addr} {sid : Sid} {b : Bool} (h0 : newsIn l a sid = none) (hm : ∀ n u, .did n (.addAddr a) u ∉ m) :
    newsIn (l ++ m) a sid = some b ↔ ∃ x e y, m = x ++ e :: y ∧ News a sid b e ∧ ∀ f ∈ y, ∀ c, ¬News a sid c f := by
  revert hm b
  refine snoc_induct (motive := fun m => ∀ {b}, (∀ n u, .did n (.addAddr a) u ∉ m) → (newsIn (l ++ m) a sid = some b ↔ ∃ x e y, m = x ++ e :: y ∧ News a sid b e ∧ ∀ f ∈ y, ∀ c, ¬News a sid c f)) ?_ ?_ m
  · intro b _
    rw [List.append_nil, h0]
    constructor
    · intro h; cases h
    · rintro ⟨x, e, y, h, -⟩; cases x <;> cases h
  · intro m e ih b hm
    have ih := @ih b fun n u h => hm n u (by simp [h])
    rw [← List.append_assoc, newsIn_one]
    have hnews : ∀ c, News a sid c e → newsStep a sid (newsIn (l ++ m) a sid) e = some c := by
      intro c h
      cases e with
      | did n q x =>
        cases q
        case tell a' s' b' => obtain ⟨rfl, rfl, rfl⟩ := h; simp [newsStep]
        case greet a' s' => obtain ⟨rfl, rfl, rfl⟩ := h; simp [newsStep]
        all_goals exact h.elim
      | _ => exact h.elim
    by_cases he : ∃ c, News a sid c e
    · obtain ⟨c, hc⟩ := he
      rw [hnews c hc]
      constructor
      · intro h; cases h; exact ⟨m, e, [], rfl, hc, by simp⟩
      · rintro ⟨x, e', y, h1, h2, h3⟩
        rcases List.eq_nil_or_concat y with rfl | ⟨y, z, rfl⟩
        · have h1 : m ++ [e] = x ++ [e'] := h1
          obtain ⟨-, h1⟩ := List.append_inj' h1 rfl
          cases h1
          rw [← hnews b h2, hnews c hc]
        · exfalso
          have h1 : m ++ [e] = (x ++ e' :: y) ++ [z] := by rw [h1]; simp
          obtain ⟨-, h1⟩ := List.append_inj' h1 rfl
          cases h1
          exact h3 e (by simp) c hc
    · replace he : ∀ c, ¬News a sid c e := fun c h => he ⟨c, h⟩
      have hst : newsStep a sid (newsIn (l ++ m) a sid) e = newsIn (l ++ m) a sid := by
        cases e with
        | did n q x =>
          cases q
          case tell a' s' b' =>
            simp only [newsStep]
            split
            · next h => exact absurd ⟨h.1, h.2, rfl⟩ (he b')
            · rfl
          case greet a' s' =>
            simp only [newsStep]
            split
            · next h => exact absurd ⟨h.1, h.2, rfl⟩ (he true)
            · rfl
          case addAddr a' =>
            simp only [newsStep]
            split
            · next h => subst h; exact absurd (by simp) (hm n x)
            · rfl
          all_goals rfl
        | _ => rfl
      rw [hst, ih]
      constructor
      · rintro ⟨x, e', y, rfl, h2, h3⟩
        refine ⟨x, e', y ++ [e], by simp, h2, fun f hf => ?_⟩
        rcases List.mem_append.1 hf with hf | hf
        · exact h3 f hf
        · simp at hf; rw [hf]; exact he
      · rintro ⟨x, e', y, h1, h2, h3⟩
        rcases List.eq_nil_or_concat y with rfl | ⟨y, z, rfl⟩
        · obtain ⟨-, h1⟩ := List.append_inj' (show m ++ [e] = x ++ [e'] from h1) rfl
          cases h1
          exact absurd h2 (he b)
        · have h1 : m ++ [e] = (x ++ e' :: y) ++ [z] := by rw [h1]; simp
          obtain ⟨rfl, -⟩ := List.append_inj' h1 rfl
          exact ⟨x, e', y, rfl, h2, fun f hf => h3 f (by simp [hf])⟩

/-- What a change does after it has begun, if its provider is the server's: all who are registered are told. -/
theorem tellers {l l0 l1 : List Event} (h : Run l) {m : Nat} {p : Pr} {b : Bool} {sid : Sid} {x : Res} (hl : l = l0 ++ .did m (.setAvail p b) sid :: l1) (hc : .called m (if b then .startServing p else .stopServing p) ∈ l)
    (hx : .returned m x ∈ l) (hp : provIn l sid = some p) :
    ∃ w1 w2 as y, l1 = w1 ++ .did m (.checkProv sid) true :: (w2 ++ .did m .lockAddrs as :: y) ∧ as = addrsIn (l0 ++ .did m (.setAvail p b) sid :: (w1 ++ .did m (.checkProv sid) true :: w2)) ∧
      ∀ a ∈ as, ∃ o, .did m (.tell a sid b) o ∈ y := by
  have hset : .did m (.setAvail p b) sid ∈ l := by rw [hl]; simp
  have hmade : Made l0 p sid := (show Run (l0 ++ .did m (.setAvail p b) sid :: l1) from hl ▸ h).ok
  obtain ⟨sid', f, ops, h1, h2⟩ := start_ops h hc hx
  have hsid : sid' = sid := by
    have := mem_opsOf.2 hset
    rw [h1] at this
    rcases List.mem_cons.1 this with e | this
    · cases e; rfl
    · rcases h2 with ⟨-, rfl⟩ | ⟨-, xs, rfl⟩
      · simp at this
      · simp [tells] at this
  subst hsid
  have hno : (⟨.setAvail p b, sid'⟩ : Op Query Ans) ∉ (⟨.checkProv sid', f⟩ :: ops : List (Op Query Ans)) := by
    rcases h2 with ⟨-, rfl⟩ | ⟨-, xs, rfl⟩ <;> simp [tells]
  obtain ⟨h3, h4⟩ := first_op (hl ▸ h1) hno
  obtain ⟨w1, c2, hc1, -, hc2⟩ := ops_split (X := []) (by rw [h4]; rfl)
  have hl' : l = (l0 ++ .did m (.setAvail p b) sid' :: w1) ++ .did m (.checkProv sid') f :: c2 := by rw [hl, hc1]; simp
  have hf : f = true := by
    have hr := hl' ▸ h
    refine hr.ok.1.2 ?_
    have : provIn (l0 ++ .did m (.setAvail p b) sid' :: w1) sid' = some p := prov_since hr (made_mono hmade) (hl' ▸ hp)
    rw [this]; simp
  subst hf
  rcases h2 with ⟨h2, -⟩ | ⟨-, xs, rfl⟩
  · cases h2
  obtain ⟨w2, y, hw, -, hy⟩ := ops_split (X := []) (by rw [hc2]; rfl)
  refine ⟨w1, w2, _, y, by rw [hc1, hw], ?_, fun a ha => ?_⟩
  · have hr : Run ((l0 ++ .did m (.setAvail p b) sid' :: (w1 ++ .did m (.checkProv sid') true :: w2)) ++ .did m .lockAddrs (xs.map fun x => x.1) :: y) := by
      have : l = (l0 ++ .did m (.setAvail p b) sid' :: (w1 ++ .did m (.checkProv sid') true :: w2)) ++ .did m .lockAddrs (xs.map fun x => x.1) :: y := by rw [hl', hw]; simp
      exact this ▸ h
    exact hr.ok.1
  · obtain ⟨⟨a', o⟩, hxs, rfl⟩ := List.mem_map.1 ha
    exact ⟨o, mem_opsOf.1 (by rw [hy]; exact List.mem_append_left _ (List.mem_map.2 ⟨(a', o), hxs, rfl⟩))⟩

/-- A message about a change comes after the change. -/
theorem tell_set {l : List Event} (h : Run l) (hd : ∀ n, .called n .deinit ∉ l) {x y : List Event} {k : Nat} {a : Addr} {sid : Sid} {b : Bool} {o : Out} (hl : l = x ++ .did k (.tell a sid b) o :: y) :
    ∃ p u v, x = u ++ .did k (.setAvail p b) sid :: v := by
  subst hl
  obtain ⟨c, h1, h2⟩ := op_of h (n := k) (q := .tell a sid b) (a := o) (by simp)
  obtain ⟨c', kk, h3, h4⟩ := own_path h
  have hcc : c = c' := by
    obtain ⟨as, s, hr, hl⟩ := h
    exact called_one hr (hl ▸ h1) (by rw [hl]; exact List.mem_append_left _ h3)
  subst hcc
  rcases h2 with ⟨p, rfl⟩ | ⟨rfl, -⟩
  · have ht : ∀ (as : List Addr) (s : Sid) (pre : List (Op Query Ans)), ⟨.setAvail p b, s⟩ ∈ pre → Along (fun pre o => ∀ a s' b', o.1 = .tell a s' b' → ⟨.setAvail p b, s'⟩ ∈ pre) pre (tellAll s b as) := by
      intro as s
      induction as with
      | nil => intro _ _; trivial
      | cons a as ih =>
        intro pre hm
        simp only [tellAll, atom, ask_bind, along_ask]
        intro e
        refine ⟨(by intro _ _ _ h; cases h; exact hm), ?_⟩
        have ih := ih (pre ++ [⟨.tell a s b, e⟩]) (by simp [hm])
        cases e with
        | ok => exact ih.bind fun _ _ _ => trivial
        | failed => exact ih.bind fun _ _ _ => trivial
        | lost => exact ih
    have ha : Along (fun pre o => ∀ a s' b', o.1 = .tell a s' b' → ⟨.setAvail p b, s'⟩ ∈ pre) [] (prog (if b then .startServing p else .stopServing p)) := by
      have : prog (if b then .startServing p else .stopServing p) = (serve p b >>= fun _ => pure .unit) := by cases b <;> rfl
      rw [this]
      refine Along.bind ?_ fun _ _ _ => trivial
      simp only [serve, onServiceStatusChanged, notifyAll, atom, ask_bind, along_ask]
      refine fun sid => ⟨(by intro _ _ _ h; cases h), fun f => ⟨(by intro _ _ _ h; cases h), ?_⟩⟩
      cases f with
      | false => trivial
      | true =>
        refine fun as => ⟨(by intro _ _ _ h; cases h), Along.bind (ht as sid _ (by simp)) fun _ _ _ => ?_⟩
        exact fun _ => ⟨(by intro _ _ _ h; cases h), trivial⟩
    have := ha.at h4 o a sid b rfl
    obtain ⟨u, v, huv⟩ := List.append_of_mem (mem_opsOf.1 this)
    exact ⟨p, u, v, huv⟩
  · exact absurd h1 (hd k)

/-- C70 (partial: without `deinit`, and if the provider's changes are made one after the other): when all of them and all registrations of the client have returned, what a registered client was last sent about
the service since it registered is that it is available if and only if it is. Everything else is interleaved arbitrarily: other services, other clients, lookups, registrations during changes. -/
theorem status_known_partial {l : List Event} (h : Run l) (hd : ∀ n, .called n .deinit ∉ l) {p : Pr} {sid : Sid} {a : Addr} (hs : Serial (S := sys) (Serves p) l)
    (hr : ∀ n c, .called n c ∈ l → Serves p c → ∃ x, .returned n x ∈ l) (hg : ∀ n, .called n (.incoming (.register a)) ∈ l → ∃ x, .returned n x ∈ l)
    (hp : provIn l sid = some p) (ha : a ∈ addrsIn l) : newsIn l a sid = some true ↔ availIn l p = true := by
  -- the last registration
  obtain ⟨k0, n, u, k1, hk, hlast⟩ : ∃ k0 n u k1, l = k0 ++ .did n (.addAddr a) u :: k1 ∧ ∀ n u, .did n (.addAddr a) u ∉ k1 := by
    have hex : ∃ n u, .did n (.addAddr a) u ∈ l := by
      refine Classical.byContradiction fun hno => ?_
      exact not_registered (l := []) (m := l) h (by simp [addrsIn]) (fun n u hm => hno ⟨n, u, hm⟩) ha
    clear hs hr hg hp ha hd h
    revert hex
    refine snoc_induct (motive := fun l => (∃ n u, .did n (.addAddr a) u ∈ l) → ∃ k0 n u k1, l = k0 ++ .did n (.addAddr a) u :: k1 ∧ ∀ n u, .did n (.addAddr a) u ∉ k1) (by rintro ⟨_, _, h⟩; cases h) ?_ l
    intro l e ih hex
    by_cases he : ∃ n u, e = .did n (.addAddr a) u
    · obtain ⟨n, u, rfl⟩ := he
      exact ⟨l, n, u, [], rfl, by simp⟩
    · obtain ⟨n, u, hm⟩ := hex
      have hm : .did n (.addAddr a) u ∈ l := by
        rcases List.mem_append.1 hm with h | h
        · exact h
        · simp at h; exact absurd ⟨n, u, h.symm⟩ he
      obtain ⟨k0, n, u, k1, rfl, h2⟩ := ih ⟨n, u, hm⟩
      refine ⟨k0, n, u, k1 ++ [e], by simp, fun n u h => ?_⟩
      rcases List.mem_append.1 h with h | h
      · exact h2 n u h
      · simp at h; exact he ⟨n, u, h.symm⟩
  -- the client stays registered
  have hkept : ∀ c d, k1 = c ++ d → a ∈ addrsIn (k0 ++ .did n (.addAddr a) u :: c) := by
    intro c d hcd
    refine Classical.byContradiction fun hno => ?_
    have e : l = (k0 ++ .did n (.addAddr a) u :: c) ++ d := by rw [hk, hcd]; simp
    refine not_registered (e ▸ h) hno (fun n u hm => hlast n u (by rw [hcd]; exact List.mem_append_right _ hm)) (e ▸ ha)
  have hreg : ∃ y, .returned n y ∈ l := by
    obtain ⟨c, h1, h2⟩ := op_of h (show .did n (.addAddr a) u ∈ l by rw [hk]; simp)
    cases h2; exact hg n h1
  have hnews : ∀ b, newsIn l a sid = some b ↔ ∃ x e y, k1 = x ++ e :: y ∧ News a sid b e ∧ ∀ f ∈ y, ∀ c, ¬News a sid c f := by
    intro b
    have e : l = (k0 ++ [.did n (.addAddr a) u]) ++ k1 := by rw [hk]; simp
    rw [e]
    exact news_last (by rw [newsIn_one]; simp [newsStep]) hlast
  -- who changes the service
  have hpr : ∀ {k b s u v}, l = u ++ .did k (.setAvail p b) s :: v → s = sid := by
    intro k b s u v e
    have : Made u p s := (show Run (u ++ .did k (.setAvail p b) s :: v) from e ▸ h).ok
    exact made_one_service h (by rw [e]; exact made_mono this) (made_of_provIn hp)
  have hcall : ∀ {k b s}, .did k (.setAvail p b) s ∈ l → ∀ c, .called k c ∈ l → c = (if b then .startServing p else .stopServing p) := by
    intro k b s hm c hc
    have h1 := set_by h hd hm
    obtain ⟨as, st, hrun, rfl⟩ := h
    exact called_one hrun hc h1
  have hserve : ∀ {k b s}, .did k (.setAvail p b) s ∈ l → ∀ c, .called k c ∈ l → Serves p c := by
    intro k b s hm c hc
    rw [hcall hm c hc]
    cases b
    · exact .inr rfl
    · exact .inl rfl
  -- a message about the other status is not sent after the last change
  have hsep : ∀ {l0 m s l1 k b o x y}, l = l0 ++ .did m (.setAvail p b) s :: l1 → (∀ k b s, .did k (.setAvail p b) s ∉ l1) → l = x ++ .did k (.tell a sid (!b)) o :: y → ∃ c, y = c ++ .did m (.setAvail p b) s :: l1 := by
    intro l0 m s l1 k b o x y e hl1 e'
    rcases places (e.symm.trans e') with ⟨-, e2, -⟩ | ⟨c, rfl, rfl⟩ | ⟨c, -, rfl⟩
    · cases e2
    · exfalso
      obtain ⟨p', u', v', hx⟩ := tell_set h hd e'
      have hm' : .did k (.setAvail p' (!b)) sid ∈ l := by rw [e', hx]; simp
      have hpp : p' = p := by
        have : Made u' p' sid := by
          refine Run.ok (e := .did k (.setAvail p' (!b)) sid) (r := v' ++ .did k (.tell a sid (!b)) o :: y) ?_
          have e3 : l = u' ++ .did k (.setAvail p' (!b)) sid :: (v' ++ .did k (.tell a sid (!b)) o :: y) := by rw [e', hx]; simp
          exact e3 ▸ h
        refine one_made h hd hp ?_
        rw [e', hx]
        simpa using made_mono (m := .did k (.setAvail p' (!b)) sid :: (v' ++ .did k (.tell a sid (!b)) o :: y)) this
      subst hpp
      rcases places hx with ⟨-, e3, -⟩ | ⟨d, -, rfl⟩ | ⟨d, rfl, rfl⟩
      · injection e3 with _ e3 _
        injection e3 with _ e3
        cases b <;> cases e3
      · exact hl1 k (!b) sid (by simp)
      · have e4 : l = u' ++ .did k (.setAvail p' (!b)) sid :: (d ++ .did m (.setAvail p' b) s :: (c ++ .did k (.tell a sid (!b)) o :: y)) := by rw [e]; simp
        have hk : k = m := by
          refine sep (N := Serves p') (e4 ▸ h) (e4 ▸ hs) (fun c hc => hserve hm' c ?_) (fun c hc => hserve (k := m) (b := b) (s := s) ?_ c ?_)
          · rw [e4]; exact List.mem_append_left _ hc
          · rw [e]; simp
          · rw [e]; exact List.mem_append_left _ hc
        subst hk
        have h1 := set_by h hd hm'
        have := hcall (k := k) (b := b) (s := s) (by rw [e]; simp) _ h1
        cases b <;> cases this
    · exact ⟨c, rfl⟩
  -- a message that is older than the last change
  have hold : ∀ {l0 m s l1 b w1 w2 as y' x f y}, l = l0 ++ .did m (.setAvail p b) s :: l1 → l1 = w1 ++ .did m (.checkProv sid) true :: (w2 ++ .did m .lockAddrs as :: y') →
      as = addrsIn (l0 ++ .did m (.setAvail p b) s :: (w1 ++ .did m (.checkProv sid) true :: w2)) → (∀ a ∈ as, ∃ o, .did m (.tell a sid b) o ∈ y') → k1 = x ++ f :: y →
      (∃ c, y = c ++ .did m (.checkProv sid) true :: (w2 ++ .did m .lockAddrs as :: y')) → ∃ g ∈ y, News a sid b g := by
    intro l0 m s l1 b w1 w2 as y' x f y e1 e2 e3 e4 e5 ⟨c, e6⟩
    have hin : a ∈ as := by
      have := hkept (x ++ f :: (c ++ .did m (.checkProv sid) true :: w2)) (.did m .lockAddrs as :: y') (by rw [e5, e6]; simp)
      rw [e3]
      have e7 : l0 ++ .did m (.setAvail p b) s :: (w1 ++ .did m (.checkProv sid) true :: w2) = k0 ++ .did n (.addAddr a) u :: (x ++ f :: (c ++ .did m (.checkProv sid) true :: w2)) := by
        have e8 := hk
        rw [e1, e2, e5, e6] at e8
        have e9 : (l0 ++ .did m (.setAvail p b) s :: (w1 ++ .did m (.checkProv sid) true :: w2)) ++ .did m .lockAddrs as :: y' = (k0 ++ .did n (.addAddr a) u :: (x ++ f :: (c ++ .did m (.checkProv sid) true :: w2))) ++ .did m .lockAddrs as :: y' := by simpa using e8
        exact List.append_cancel_right e9
      rw [e7]; exact this
    obtain ⟨o, ho⟩ := e4 a hin
    exact ⟨.did m (.tell a sid b) o, by rw [e6]; simp [ho], rfl, rfl, rfl⟩
  constructor
  · intro hnt
    refine Classical.byContradiction fun hav => ?_
    have hav : availIn l p = false := by simpa using hav
    obtain ⟨x, f, y, hkx, hf, hy⟩ := (hnews true).1 hnt
    have hlx : l = (k0 ++ .did n (.addAddr a) u :: x) ++ f :: y := by rw [hk, hkx]; simp
    -- there is a last change, and it is after the message's cause
    have key : ∀ {l0 m s l1}, l = l0 ++ .did m (.setAvail p false) s :: l1 → (∀ k b s, .did k (.setAvail p b) s ∉ l1) →
        (∀ {w1 w2}, l1 = w1 ++ .did m (.checkProv sid) true :: w2 → ∃ c, y = c ++ .did m (.checkProv sid) true :: w2) → False := by
      intro l0 m s l1 e1 e2 e3
      obtain rfl := hpr e1
      have hc := set_by h hd (m := m) (p := p) (b := false) (s := s) (by rw [e1]; simp)
      obtain ⟨x', hx'⟩ := hr m _ hc (.inr rfl)
      obtain ⟨w1, w2, as, y', e4, e5, e6⟩ := tellers h e1 hc hx' hp
      obtain ⟨g, hg1, hg2⟩ := hold e1 e4 e5 e6 hkx (e3 e4)
      exact hy g hg1 _ hg2
    cases f with
    | did k q v =>
      cases q
      case tell a' s' b' =>
        obtain ⟨rfl, rfl, rfl⟩ := hf
        rcases last_set (l := l) (p := p) with ⟨-, hno⟩ | ⟨l0, m, s, l1, e1, e2⟩
        · obtain ⟨p', u', v', hx⟩ := tell_set h hd hlx
          have : Made u' p' s' := by
            refine Run.ok (e := .did k (.setAvail p' true) s') (r := v' ++ .did k (.tell a' s' true) v :: y) ?_
            have e3 : l = u' ++ .did k (.setAvail p' true) s' :: (v' ++ .did k (.tell a' s' true) v :: y) := by rw [hlx, hx]; simp
            exact e3 ▸ h
          have hpp : p' = p := by
            refine one_made h hd hp ?_
            rw [hlx, hx]
            simpa using made_mono (m := .did k (.setAvail p' true) s' :: (v' ++ .did k (.tell a' s' true) v :: y)) this
          subst hpp
          exact hno k true s' (by rw [hlx, hx]; simp)
        · rw [hav] at e1
          refine key e1 e2 fun {w1 w2} e3 => ?_
          obtain ⟨c, hc⟩ := hsep (b := false) e1 e2 hlx
          exact ⟨c ++ .did m (.setAvail p false) s :: w1, by rw [hc, e3]; simp⟩
      case greet a' s' =>
        obtain ⟨rfl, rfl, -⟩ := hf
        obtain ⟨ps, p', x1, y1, e1, e2, e3, e4⟩ := greet_at (hlx ▸ h)
        have hread : l = x1 ++ .did k (.readAvail p') true :: (y1 ++ .did k (.greet a' s') v :: y) := by rw [hlx, e1]; simp
        have hpp : p' = p := by
          obtain ⟨u', v', huv⟩ := List.append_of_mem e2
          have hr' : Run (u' ++ .did k .lockProvs ps :: (v' ++ .did k (.readAvail p') true :: (y1 ++ .did k (.greet a' s') v :: y))) := by
            have : l = u' ++ .did k .lockProvs ps :: (v' ++ .did k (.readAvail p') true :: (y1 ++ .did k (.greet a' s') v :: y)) := by rw [hread, huv]; simp
            exact this ▸ h
          have hm := made_of_provIn ((hr'.ok.1 s' p').1 e3)
          refine one_made h hd hp ?_
          rw [hread, huv]
          simpa using made_mono (m := .did k .lockProvs ps :: (v' ++ .did k (.readAvail p') true :: (y1 ++ .did k (.greet a' s') v :: y))) hm
        subst hpp
        have hav1 : true = availIn x1 p' := (show Run (x1 ++ .did k (.readAvail p') true :: (y1 ++ .did k (.greet a' s') v :: y)) from hread ▸ h).ok
        rcases last_set (l := l) (p := p') with ⟨-, hno⟩ | ⟨l0, m, s, l1, f1, f2⟩
        · have := avail_kept (l := []) (m := x1) (p := p') (b := false) rfl (fun k s hm => hno k _ s (by rw [hread]; exact List.mem_append_left _ hm))
          rw [List.nil_append, ← hav1] at this; cases this
        · rw [hav] at f1
          refine key f1 f2 fun {w1 w2} f3 => ?_
          -- the provider is looked at before it is changed
          obtain ⟨c, rfl⟩ : ∃ c, l0 = x1 ++ .did k (.readAvail p') true :: c := by
            rcases places (hread.symm.trans f1) with ⟨-, f4, -⟩ | ⟨c, hc, -⟩ | ⟨c, rfl, hc⟩
            · cases f4
            · exact ⟨c, hc⟩
            · exfalso
              have := avail_kept (l := l0 ++ [.did m (.setAvail p' false) s]) (m := c) (p := p') (b := false) (by rw [availIn_one]; simp [availStep]) (fun k s hm => f2 k _ s (by rw [hc]; simp [hm]))
              rw [List.append_assoc, List.singleton_append, ← hav1] at this; cases this
          have f4 : l = ((x1 ++ .did k (.readAvail p') true :: c) ++ .did m (.setAvail p' false) s :: w1) ++ .did m (.checkProv s') true :: w2 := by rw [f1, f3]; simp
          rcases places (hlx.symm.trans f4) with ⟨-, f5, -⟩ | ⟨d, -, hd'⟩ | ⟨d, hd', -⟩
          · cases f5
          · exact ⟨d, hd'⟩
          · exfalso
            have hrun := f4 ▸ h
            have hfree := hrun.ok.2
            have := lock_held hrun.left k ps (by simp [e2]) (fun u hu => e4 u (by rw [hd']; exact List.mem_append_left _ hu))
            rw [hfree] at this; cases this
      all_goals exact hf.elim
    | _ => exact hf.elim
  · intro hav
    rcases last_set (l := l) (p := p) with ⟨hno, -⟩ | ⟨l0, m, s, l1, e1, e2⟩
    · rw [hav] at hno; cases hno
    rw [hav] at e1
    obtain rfl := hpr e1
    have hc := set_by h hd (m := m) (p := p) (b := true) (s := s) (by rw [e1]; simp)
    obtain ⟨x, hx⟩ := hr m _ hc (.inl rfl)
    obtain ⟨y, hy⟩ := hreg
    obtain ⟨e, he1, he2, he3⟩ := learns_core h e1 hx (fun k s => e2 k _ s) hk hy hkept hp
    cases hn : newsIn l a s with
    | none =>
      exfalso
      have : ∀ m, (∃ e ∈ m, ∃ b, News a s b e) → ∃ b x e y, m = x ++ e :: y ∧ News a s b e ∧ ∀ f ∈ y, ∀ c, ¬News a s c f := by
        intro m
        refine snoc_induct (motive := fun m => (∃ e ∈ m, ∃ b, News a s b e) → ∃ b x e y, m = x ++ e :: y ∧ News a s b e ∧ ∀ f ∈ y, ∀ c, ¬News a s c f) (by rintro ⟨_, h, _⟩; cases h) ?_ m
        rintro m e ih ⟨f, hf, b, hb⟩
        by_cases he : ∃ c, News a s c e
        · obtain ⟨c, hc⟩ := he
          exact ⟨c, m, e, [], rfl, hc, by simp⟩
        · have hf : f ∈ m := by
            rcases List.mem_append.1 hf with hf | hf
            · exact hf
            · simp at hf; subst hf; exact absurd ⟨b, hb⟩ he
          obtain ⟨b, x, e', y, rfl, h2, h3⟩ := ih ⟨f, hf, b, hb⟩
          refine ⟨b, x, e', y ++ [e], by simp, h2, fun f hf c hc => ?_⟩
          rcases List.mem_append.1 hf with hf | hf
          · exact h3 f hf c hc
          · simp at hf; subst hf; exact he ⟨c, hc⟩
      obtain ⟨b, hb⟩ := this k1 ⟨e, he2, true, he3⟩
      rw [(hnews b).2 hb] at hn; cases hn
    | some b =>
      cases b with
      | true => rfl
      | false =>
        exfalso
        obtain ⟨x', f, y', hkx, hf, hyy⟩ := (hnews false).1 hn
        have hlx : l = (k0 ++ .did n (.addAddr a) u :: x') ++ f :: y' := by rw [hk, hkx]; simp
        cases f with
        | did k q v =>
          cases q
          case tell a' s' b' =>
            obtain ⟨rfl, rfl, rfl⟩ := hf
            obtain ⟨c, hc⟩ := hsep (b := true) e1 e2 hlx
            exact hyy e (by rw [hc]; simp [he1]) true he3
          case greet a' s' => cases hf.2.2
          all_goals exact hf.elim
        | _ => exact hf.elim

/-- A check of `Serial` and that all have returned, for an example. -/
def inTurnB (N : Call → Bool) : List Event → List Event → Bool
  | _, [] => true
  | pre, .called n c :: es => (!N c || pre.all fun | .called m d => !N d || pre.any (fun | .returned k _ => k == m | _ => false) | _ => true) && inTurnB N (pre ++ [.called n c]) es
  | pre, e :: es => inTurnB N (pre ++ [e]) es

theorem inTurnB_sound {N : Call → Bool} {pre es : List Event} (h : inTurnB N pre es = true) :
    ∀ l1 n c l2, es = l1 ++ .called n c :: l2 → N c = true → ∀ m d, .called m d ∈ pre ++ l1 → N d = true → ∃ x, .returned m x ∈ pre ++ l1 := by
  induction es generalizing pre with
  | nil => intro l1 n c l2 e; cases l1 <;> cases e
  | cons e es ih =>
    intro l1 n c l2 he hN m d hd hN'
    cases l1 with
    | nil =>
      cases he
      simp only [inTurnB, Bool.and_eq_true, hN, Bool.not_true, Bool.false_or, List.all_eq_true] at h
      rw [List.append_nil] at hd ⊢
      have h1 := h.1 _ hd
      simp only [hN', Bool.not_true, Bool.false_or, List.any_eq_true] at h1
      obtain ⟨f, hf, h1⟩ := h1
      cases f with
      | returned k x => simp at h1; subst h1; exact ⟨x, hf⟩
      | _ => cases h1
    | cons e' l1 =>
      cases he
      have h2 : inTurnB N (pre ++ [e]) (l1 ++ .called n c :: l2) = true := by
        cases e with
        | called => simp only [inTurnB, Bool.and_eq_true] at h; exact h.2
        | _ => exact h
      obtain ⟨x, hx⟩ := ih h2 l1 n c l2 rfl hN m d (by simpa using hd) hN'
      exact ⟨x, by simpa using hx⟩

def servesB (p : Pr) (c : Call) : Bool := c == .startServing p || c == .stopServing p

theorem serial_of {l : List Event} {p : Pr} (h : inTurnB (servesB p) [] l = true) : Serial (S := sys) (Serves p) l := by
  have hb : ∀ c, Serves p c → servesB p c = true := by
    rintro c (rfl | rfl) <;> simp [servesB]
  intro l1 n c l2 e hN m d hd hN'
  exact inTurnB_sound h l1 n c l2 e (hb c hN) m d hd (hb d hN')

/-- The hypotheses are met: a client registers while a service starts; then the service stops and starts again. -/
example : ∃ s, run (Calls.init sys) (.call (.getServiceProvider 1) :: go 0 2 ++ .call (.startServing 0) :: go 1 2 ++ .call (.incoming (.register 7)) :: go 2 3 ++ go 1 2 ++ go 2 3 ++ go 1 2 ++
      .call (.stopServing 0) :: go 3 6 ++ .call (.startServing 0) :: go 4 6) = some s ∧
    (∀ n, .called n .deinit ∉ s.log) ∧ Serial (S := sys) (Serves 0) s.log ∧ (∀ n c, .called n c ∈ s.log → ∃ x, .returned n x ∈ s.log) ∧ provIn s.log 1 = some 0 ∧ 7 ∈ addrsIn s.log ∧
    newsIn s.log 7 1 = some true ∧ availIn s.log 0 = true := by
  refine ⟨_, rfl, ?_, serial_of (by decide), ?_, by decide, by decide, by decide, by decide⟩
  · intro n h
    simp [Calls.init] at h
  · intro n c h
    simp [Calls.init] at h
    rcases h with ⟨rfl, -⟩ | ⟨rfl, -⟩ | ⟨rfl, -⟩ | ⟨rfl, -⟩ | ⟨rfl, -⟩ <;> exact ⟨_, by simp; exact .inr rfl⟩

end Maf.Srv
