import Verif.Props.Server
/-
C71: the order in which changes are told, and who is not told. C70: `deinit`, and what goes wrong.
-/
namespace Maf.Srv
open Maf.Calls

/-- What a call has done before an operation is what its program does before it. -/
theorem own_path {a b : List Event} {n : Nat} {q : Query} {x : Ans q} (h : Run (a ++ .did n q x :: b)) : ∃ c k, .called n c ∈ a ∧ Path (prog c) (opsOf n a) (.ask q k) := by
  obtain ⟨as, s, hr, hl⟩ := h
  obtain ⟨c, pre, k, h1, ht, hk⟩ := did_path hr hl
  refine ⟨c, k, h1, ?_⟩
  have h1 : opsOf n a = pre := by
    unfold opsOf
    rw [ht]
    have := allOps_evs (S := sys) n pre
    simpa [allOps] using this
  rw [h1]; exact hk

theorem opsOf_append (n : Nat) (l r : List Event) : opsOf n (l ++ r) = opsOf n l ++ opsOf n r := by unfold opsOf; rw [trace_append, allOps_append]

/-! ### One change after the other -/

/-- A message is sent after the clients are locked and before they are unlocked. -/
def TellAt (pre : List (Op Query Ans)) (o : Op Query Ans) : Prop := ∀ a s b, o.1 = .tell a s b → (∃ as, ⟨.lockAddrs, as⟩ ∈ pre) ∧ ∀ ks u, ⟨.unlockAddrs ks, u⟩ ∉ pre

theorem tellAll_at (sid : Sid) (b : Bool) (as : List Addr) (pre : List (Op Query Ans)) (h1 : ∃ as, ⟨.lockAddrs, as⟩ ∈ pre) (h2 : ∀ ks u, ⟨.unlockAddrs ks, u⟩ ∉ pre) : Along TellAt pre (tellAll sid b as) := by
  induction as generalizing pre with
  | nil => trivial
  | cons a as ih =>
    simp only [tellAll, atom, ask_bind, along_ask]
    intro e
    refine ⟨fun _ _ _ _ => ⟨h1, h2⟩, ?_⟩
    obtain ⟨as', h1⟩ := h1
    have ih := ih (pre ++ [⟨.tell a sid b, e⟩]) ⟨as', by simp [h1]⟩ (fun ks u h => by simp at h; exact h2 ks u h)
    cases e with
    | ok => exact ih.bind fun _ _ _ => trivial
    | failed => exact ih.bind fun _ _ _ => trivial
    | lost => exact ih

theorem serve_at (p : Pr) (b : Bool) : Along TellAt [] (prog (if b then .startServing p else .stopServing p)) := by
  have : prog (if b then .startServing p else .stopServing p) = (serve p b >>= fun _ => pure .unit) := by cases b <;> rfl
  rw [this]
  refine Along.bind ?_ fun _ _ _ => trivial
  simp only [serve, onServiceStatusChanged, notifyAll, atom, ask_bind, along_ask]
  refine fun sid => ⟨(by intro _ _ _ h; cases h), fun f => ⟨(by intro _ _ _ h; cases h), ?_⟩⟩
  cases f with
  | false => trivial
  | true =>
    refine fun as => ⟨(by intro _ _ _ h; cases h), Along.bind (tellAll_at sid b as _ ⟨as, by simp⟩ (by intro _ _ h; simp at h)) fun _ _ _ => ?_⟩
    exact fun _ => ⟨(by intro _ _ _ h; cases h), trivial⟩

theorem fold_in {ops : List (Op Query Ans)} (h1 : ∃ as, ⟨.lockAddrs, as⟩ ∈ ops) (h2 : ∀ ks u, ⟨.unlockAddrs ks, u⟩ ∉ ops) : ops.foldl roundStep none ≠ none := by
  revert h1 h2
  refine snoc_induct (motive := fun ops => (∃ as, (⟨.lockAddrs, as⟩ : Op Query Ans) ∈ ops) → (∀ ks u, (⟨.unlockAddrs ks, u⟩ : Op Query Ans) ∉ ops) → ops.foldl roundStep none ≠ none) (by rintro ⟨_, h⟩; cases h) ?_ ops
  intro l o ih h1 h2
  rw [List.foldl_append]
  obtain ⟨q, x⟩ := o
  obtain ⟨as, h1⟩ := h1
  by_cases hq : (⟨.lockAddrs, as⟩ : Op Query Ans) ∈ l
  · have ih := ih ⟨as, hq⟩ fun ks u h => h2 ks u (by simp [h])
    cases q
    case unlockAddrs ks => exact absurd (by simp) (h2 ks x)
    case tell a s b =>
      intro h
      simp only [List.foldl_cons, List.foldl_nil, roundStep, Option.map_eq_none_iff] at h
      exact ih h
    case lockAddrs => simp [roundStep]
    all_goals exact ih
  · simp at h1
    rcases h1 with h1 | h1
    · exact absurd h1 hq
    · obtain ⟨rfl, h1⟩ := h1
      simp [roundStep]

/-- C71: changes are told one after the other, to all clients in the same order: when a call has sent a message about its change and then another one has sent one about its, the first sends no more. -/
theorem told_in_turn {x y z : List Event} {n m : Nat} {a a' : Addr} {s s' : Sid} {f f' : Bool} {o o' : Out} (h : Run (x ++ .did n (.tell a s f) o :: (y ++ .did m (.tell a' s' f') o' :: z))) (hnm : n ≠ m)
    {p : Pr} {b : Bool} (hc : .called n (if b then .startServing p else .stopServing p) ∈ x) : ∀ a s f o, .did n (.tell a s f) o ∉ z := by
  intro a1 s1 f1 o1 hm
  obtain ⟨z1, z2, rfl⟩ := List.append_of_mem hm
  -- the program of call `n` allows the last message only if the clients have not been unlocked
  have hat : ∀ u v {a s f o}, Run (u ++ .did n (.tell a s f) o :: v) → .called n (if b then .startServing p else .stopServing p) ∈ u → (∃ as, ⟨.lockAddrs, as⟩ ∈ opsOf n u) ∧ ∀ ks w, ⟨.unlockAddrs ks, w⟩ ∉ opsOf n u := by
    intro u v a s f o hr hcu
    obtain ⟨c, k, hc', hp⟩ := own_path hr
    have : c = (if b then .startServing p else .stopServing p) := by
      obtain ⟨as, st, hrun, hl⟩ := hr
      exact called_one hrun (by rw [hl]; exact List.mem_append_left _ hc') (by rw [hl]; exact List.mem_append_left _ hcu)
    subst this
    exact (serve_at p b).at hp o a s f rfl
  have h1 := hat x _ h hc
  have h2 : Run ((x ++ .did n (.tell a s f) o :: (y ++ .did m (.tell a' s' f') o' :: z1)) ++ .did n (.tell a1 s1 f1) o1 :: z2) := by simpa using h
  have h3 := hat _ _ h2 (by simp [hc])
  have h4 : Run ((x ++ .did n (.tell a s f) o :: y) ++ .did m (.tell a' s' f') o' :: (z1 ++ .did n (.tell a1 s1 f1) o1 :: z2)) := by simpa using h
  -- when call `m` sends its message, it has the lock
  have hs := rnd_sync h4.left
  have hok := round_ok h4 (fun h => h)
  have hall : round (x ++ .did n (.tell a s f) o :: y) = rnd.of (S := sys) m (x ++ .did n (.tell a s f) o :: y) := by
    obtain ⟨as, st, hr, hl⟩ := h4
    exact (Mon.all_ok (S := sys) (M := rnd) rnd_locked (Post := fun _ y _ => y = none) prog_rnd (fun as s l r n q a hr h hn ho _ => rnd_take hr h hn ho) hr hl (fun h => h)).2
  obtain ⟨t, r, hok⟩ := hok
  have hlock : addrLockIn (x ++ .did n (.tell a s f) o :: y) = some m := by
    refine Classical.byContradiction fun hne => ?_
    have := hs.others m hne
    rw [← hall, hok] at this
    cases this
  have hfree := hs.others n (by rw [hlock]; intro e; cases e; exact hnm rfl)
  refine fold_in (ops := opsOf n (x ++ .did n (.tell a s f) o :: y)) ?_ ?_ hfree
  · obtain ⟨as, h1⟩ := h1.1
    exact ⟨as, by rw [opsOf_append]; exact List.mem_append_left _ h1⟩
  · intro ks w hmem
    refine h3.2 ks w ?_
    have : x ++ .did n (.tell a s f) o :: (y ++ .did m (.tell a' s' f') o' :: z1) = (x ++ .did n (.tell a s f) o :: y) ++ .did m (.tell a' s' f') o' :: z1 := by simp
    rw [this, opsOf_append]
    exact List.mem_append_left _ hmem

/-! ### Who is not told -/

/-- C71: only registered clients are told of changes. -/
theorem told_registered {l r : List Event} {n : Nat} {a : Addr} {s : Sid} {b : Bool} {o : Out} (h : Run (l ++ .did n (.tell a s b) o :: r)) : a ∈ addrsIn l := by
  obtain ⟨t, rest, ho⟩ := round_ok h (fun h => h)
  rw [round_addrs h.left t _ ho]
  simp

theorem not_registered {l m : List Event} {a : Addr} (h : Run (l ++ m)) (ha : a ∉ addrsIn l) (hn : ∀ n u, .did n (.addAddr a) u ∉ m) : a ∉ addrsIn (l ++ m) := by
  revert h hn
  refine snoc_induct (motive := fun m => Run (l ++ m) → (∀ n u, .did n (.addAddr a) u ∉ m) → a ∉ addrsIn (l ++ m)) (by intro _ _; simpa using ha) ?_ m
  intro m e ih h hn
  rw [← List.append_assoc] at h ⊢
  have ih := ih h.left fun n u h => hn n u (by simp [h])
  rw [addrsIn_one]
  cases e with
  | did n q x =>
    cases q
    case addAddr b =>
      simp only [addrStep]
      split
      · exact ih
      · intro hm
        rcases List.mem_append.1 hm with hm | hm
        · exact ih hm
        · simp at hm
          subst hm
          exact hn n x (by simp)
    case dropAddr b => exact fun hm => ih (List.mem_filter.1 hm).1
    case unlockAddrs ks =>
      obtain ⟨told, h1, rfl⟩ := round_ok h (fun h => h)
      have := round_addrs h.left told [] h1
      rw [List.append_nil] at this
      exact fun hm => ih (this ▸ (reached_sub told).subset hm)
    all_goals exact ih
  | _ => exact ih

/-- C71: who has unregistered is not told of changes any more, unless it registers again. -/
theorem unregistered_not_told {l m : List Event} {n : Nat} {a : Addr} {u : Unit} (h : Run (l ++ .did n (.dropAddr a) u :: m)) (hn : ∀ n u, .did n (.addAddr a) u ∉ m) :
    ∀ k s b o, .did k (.tell a s b) o ∉ m := by
  intro k s b o hm
  obtain ⟨x, y, rfl⟩ := List.append_of_mem hm
  have h1 : Run ((l ++ [.did n (.dropAddr a) u] ++ x) ++ .did k (.tell a s b) o :: y) := by simpa using h
  refine not_registered h1.left ?_ (fun n u h => hn n u (by simp [h])) (told_registered h1)
  rw [addrsIn_one]
  simp [addrStep]

/-- C71: who could not be reached is not told of changes any more, unless it registers again. -/
theorem lost_not_told {l m : List Event} {n : Nat} {a : Addr} {s : Sid} {b : Bool} (h : Run (l ++ .did n (.tell a s b) .lost :: m)) (hn : ∀ n u, .did n (.addAddr a) u ∉ m) :
    ∀ k s b o, .did k (.tell a s b) o ∉ m := by
  -- until the clients are unlocked it is among those told
  have key : ∀ x y, m = x ++ y → (∃ told rest, round (l ++ .did n (.tell a s b) .lost :: x) = some (told, rest) ∧ (a, .lost) ∈ told) ∨ a ∉ addrsIn (l ++ .did n (.tell a s b) .lost :: x) := by
    intro x
    refine snoc_induct (motive := fun x => ∀ y, m = x ++ y → (∃ told rest, round (l ++ .did n (.tell a s b) .lost :: x) = some (told, rest) ∧ (a, .lost) ∈ told) ∨ a ∉ addrsIn (l ++ .did n (.tell a s b) .lost :: x)) ?_ ?_ x
    · intro y hy
      obtain ⟨t, rest, ho⟩ := round_ok h (fun h => h)
      refine .inl ⟨t ++ [(a, .lost)], rest, ?_, by simp⟩
      rw [round_one, ho]; rfl
    · intro x e ih y hy
      subst hy
      have ih := ih (e :: y) (by simp)
      have h1 : Run ((l ++ .did n (.tell a s b) .lost :: x) ++ e :: y) := by simpa using h
      have he : l ++ .did n (.tell a s b) .lost :: (x ++ [e]) = (l ++ .did n (.tell a s b) .lost :: x) ++ [e] := by simp
      have h2 : Run ((l ++ .did n (.tell a s b) .lost :: x) ++ [e]) := by
        have : Run (((l ++ .did n (.tell a s b) .lost :: x) ++ [e]) ++ y) := by simpa using h1
        exact this.left
      rw [he]
      rcases ih with ⟨told, rest, h3, h4⟩ | h3
      · cases e with
        | did k q z =>
          rw [round_one, h3]
          by_cases hq : roundNeutral ⟨q, z⟩
          · rw [rnd_neutral _ _ hq]; exact .inl ⟨told, rest, rfl, h4⟩
          · have ho := round_ok h1 hq
            cases q <;> first | exact absurd trivial hq | skip
            · have ho : round _ = none := ho
              rw [h3] at ho; cases ho
            · obtain ⟨t, ho, rfl⟩ := ho
              rw [h3] at ho
              cases ho
              right
              rw [addrsIn_one]
              show a ∉ reached told
              intro hm
              obtain ⟨⟨a', o⟩, hx, rfl⟩ := List.mem_map.1 hm
              obtain ⟨hx1, hx2⟩ := List.mem_filter.1 hx
              have hnd := addrs_nodup h1.left
              rw [round_addrs h1.left told [] h3, List.append_nil] at hnd
              have := one_outcome hnd hx1 h4
              subst this
              simp at hx2
            · obtain ⟨t, r, ho⟩ := ho
              rw [h3] at ho
              cases ho
              exact .inl ⟨_, r, rfl, by simp [h4]⟩
        | _ => rw [round_skip _ _ (by simp)]; exact .inl ⟨told, rest, h3, h4⟩
      · refine .inr (not_registered h2 h3 fun k u hm => ?_)
        simp at hm
        subst hm
        exact hn k u (by simp)
  intro k s' b' o hm
  obtain ⟨x, y, rfl⟩ := List.append_of_mem hm
  have h1 : Run ((l ++ .did n (.tell a s b) .lost :: x) ++ .did k (.tell a s' b') o :: y) := by simpa using h
  rcases key x _ rfl with ⟨told, rest, h2, h3⟩ | h2
  · obtain ⟨t, r, ho⟩ := round_ok h1 (fun h => h)
    rw [h2] at ho
    cases ho
    have hnd := addrs_nodup h1.left
    rw [round_addrs h1.left told _ h2, List.nodup_append] at hnd
    exact hnd.2.2 a (List.mem_map.2 ⟨_, h3, rfl⟩) a (by simp) rfl
  · exact h2 (told_registered h1)

/-! ### The end of a server -/

def TellAfter (pre : List (Op Query Ans)) (o : Op Query Ans) : Prop := ∀ a s b, o.1 = .tell a s b → ⟨.checkProv s, true⟩ ∈ pre

theorem serve_after (p : Pr) (b : Bool) (pre : List (Op Query Ans)) : Along TellAfter pre (serve p b) := by
  simp only [serve, onServiceStatusChanged, notifyAll, atom, ask_bind, along_ask]
  refine fun sid => ⟨(by intro _ _ _ h; cases h), fun f => ⟨(by intro _ _ _ h; cases h), ?_⟩⟩
  cases f with
  | false => trivial
  | true =>
    have ht : ∀ as pre, ⟨.checkProv sid, true⟩ ∈ pre → Along TellAfter pre (tellAll sid b as) := by
      intro as
      induction as with
      | nil => intro _ _; trivial
      | cons a as ih =>
        intro pre hp
        simp only [tellAll, atom, ask_bind, along_ask]
        intro e
        refine ⟨fun _ _ _ h => (by cases h; exact hp), ?_⟩
        have ih := ih (pre ++ [⟨.tell a sid b, e⟩]) (by simp [hp])
        cases e with
        | ok => exact ih.bind fun _ _ _ => trivial
        | failed => exact ih.bind fun _ _ _ => trivial
        | lost => exact ih
    refine fun as => ⟨(by intro _ _ _ h; cases h), Along.bind (ht as _ (by simp)) fun _ _ _ => ?_⟩
    exact fun _ => ⟨(by intro _ _ _ h; cases h), trivial⟩

theorem deinit_after : Along TellAfter [] (prog .deinit) := by
  refine Along.bind ?_ fun _ _ _ => trivial
  have hs : ∀ pre ps, Along TellAfter pre (stopAll ps) := by
    intro pre ps
    induction ps generalizing pre with
    | nil => trivial
    | cons x ps ih => exact (serve_after _ _ _).bind fun _ _ _ => ih _
  have hd : ∀ pre ps, Along TellAfter pre (deinitAll ps) := by
    intro pre ps
    induction ps generalizing pre with
    | nil => trivial
    | cons x ps ih =>
      simp only [deinitAll, atom, ask_bind, along_ask]
      exact fun _ => ⟨(by intro _ _ _ h; cases h), ih _⟩
  simp only [deinit, atom, ask_bind, along_ask]
  exact fun ps => ⟨(by intro _ _ _ h; cases h), (hs _ ps).bind fun _ _ _ => hd _ ps⟩

theorem no_provs {l m : List Event} (h0 : ∀ s, provIn l s = none) (hn : ∀ k s p, .did k (.getProv s) (p, true) ∉ m) (s : Sid) : provIn (l ++ m) s = none := by
  revert hn
  refine snoc_induct (motive := fun m => (∀ k s p, .did k (.getProv s) (p, true) ∉ m) → provIn (l ++ m) s = none) (by intro _; simpa using h0 s) ?_ m
  intro m e ih hn
  have ih := ih fun k s p h => hn k s p (by simp [h])
  rw [← List.append_assoc, provIn_one]
  cases e with
  | did n q x =>
    cases q
    case getProv s' =>
      obtain ⟨p, y⟩ := x
      cases y with
      | false => exact ih
      | true => exact absurd (by simp) (hn n s' p)
    case takeProvs => rfl
    all_goals exact ih
  | _ => exact ih

/-- C70, refuted for the end of a server: `deinit` stops all services but tells no client, unless someone asks for a provider meanwhile. -/
theorem deinit_silent {x y : List Event} {n : Nat} {ps : List (Sid × Pr)} (h : Run (x ++ .did n .takeProvs ps :: y)) (hn : ∀ k s p, .did k (.getProv s) (p, true) ∉ y) : ∀ a s b o, .did n (.tell a s b) o ∉ y := by
  intro a s b o hm
  obtain ⟨y1, y2, rfl⟩ := List.append_of_mem hm
  have h1 : Run ((x ++ .did n .takeProvs ps :: y1) ++ .did n (.tell a s b) o :: y2) := by simpa using h
  obtain ⟨c, k, hc, hp⟩ := own_path h1
  have hcd : .called n .deinit ∈ x ++ .did n .takeProvs ps :: y1 := by
    obtain ⟨c', h2, h3⟩ := op_of h1.left (n := n) (q := .takeProvs) (a := ps) (by simp)
    cases h3; exact h2
  have : c = .deinit := by
    obtain ⟨as, st, hrun, hl⟩ := h1
    exact called_one hrun (by rw [hl]; exact List.mem_append_left _ hc) (by rw [hl]; exact List.mem_append_left _ hcd)
  subst this
  have hck := deinit_after.at hp o a s b rfl
  -- the providers are taken first
  obtain ⟨c, k', hc', hp'⟩ := own_path h
  have : c = .deinit := by
    obtain ⟨as, st, hrun, hl⟩ := h
    exact called_one hrun (by rw [hl]; exact List.mem_append_left _ hc') (by rw [hl]; rcases List.mem_append.1 hcd with hcd | hcd <;> simp at hcd ⊢ <;> simp [hcd])
  subst this
  have hfirst : opsOf n x = [] := by
    have : prog .deinit = .ask .takeProvs fun ps => (do stopAll ps; deinitAll ps : P Unit) >>= fun _ => pure .unit := rfl
    rw [this] at hp'
    cases hx : opsOf n x with
    | nil => rfl
    | cons o' ops =>
      exfalso
      -- a second `takeProvs` would be needed
      have hno : Along (fun pre o => o.1 = .takeProvs → pre = []) [] (prog .deinit) := by
        refine Along.bind ?_ fun _ _ _ => trivial
        have hsv : ∀ p b pre, Along (fun pre o => o.1 = .takeProvs → pre = []) pre (serve p b) := by
          intro p b pre
          simp only [serve, onServiceStatusChanged, notifyAll, atom, ask_bind, along_ask]
          refine fun sid => ⟨(by intro h; cases h), fun f => ⟨(by intro h; cases h), ?_⟩⟩
          cases f with
          | false => trivial
          | true =>
            have ht : ∀ as pre, Along (fun pre o => o.1 = .takeProvs → pre = []) pre (tellAll sid b as) := by
              intro as
              induction as with
              | nil => intro _; trivial
              | cons a as ih =>
                intro pre
                simp only [tellAll, atom, ask_bind, along_ask]
                intro e
                refine ⟨(by intro h; cases h), ?_⟩
                cases e with
                | ok => exact (ih _).bind fun _ _ _ => trivial
                | failed => exact (ih _).bind fun _ _ _ => trivial
                | lost => exact ih _
            exact fun as => ⟨(by intro h; cases h), Along.bind (ht as _) fun _ _ _ => fun _ => ⟨(by intro h; cases h), trivial⟩⟩
        have hs : ∀ pre ps, Along (fun pre o => o.1 = .takeProvs → pre = []) pre (stopAll ps) := by
          intro pre ps
          induction ps generalizing pre with
          | nil => trivial
          | cons x ps ih => exact (hsv _ _ _).bind fun _ _ _ => ih _
        have hd : ∀ pre ps, Along (fun pre o => o.1 = .takeProvs → pre = []) pre (deinitAll ps) := by
          intro pre ps
          induction ps generalizing pre with
          | nil => trivial
          | cons x ps ih =>
            simp only [deinitAll, atom, ask_bind, along_ask]
            exact fun _ => ⟨(by intro h; cases h), ih _⟩
        simp only [deinit, atom, ask_bind, along_ask]
        exact fun ps => ⟨fun _ => trivial, (hs _ ps).bind fun _ _ _ => hd _ ps⟩
      have := hno.at hp' ps rfl
      rw [hx] at this
      cases this
  have hin : .did n (.checkProv s) true ∈ y1 := by
    have : opsOf n (x ++ .did n .takeProvs ps :: y1) = ⟨.takeProvs, ps⟩ :: opsOf n y1 := by
      rw [opsOf_append, hfirst, ← List.singleton_append (l := y1), opsOf_append]
      unfold opsOf
      rw [trace_one_own (S := sys) (n := n) (e := .did n .takeProvs ps) rfl]
      rfl
    rw [this] at hck
    rcases List.mem_cons.1 hck with e | hck
    · cases e
    · exact mem_opsOf.1 hck
  obtain ⟨v, w, rfl⟩ := List.append_of_mem hin
  have h2 : Run (((x ++ [.did n .takeProvs ps]) ++ v) ++ .did n (.checkProv s) true :: (w ++ .did n (.tell a s b) o :: y2)) := by simpa using h1
  have := h2.ok.1.1 rfl
  exact this (no_provs (fun s => by rw [provIn_one]; rfl) (fun k s p hm => hn k s p (by simp [hm])) s)

/-! ### Examples -/

/-- Service 1 has provider 0, client 7 is registered, no service is available. -/
def oneClient : List (Act sys) := .call (.getServiceProvider 1) :: go 0 2 ++ .call (.incoming (.register 7)) :: go 1 5

/-- The hypotheses of `learns`, `change_told` are met, the client is told when it is registered first and when it registers last; client 8 cannot be reached. -/
example : ∃ s, run (Calls.init sys) (oneClient ++ .call (.incoming (.register 8)) :: go 2 5 ++ .call (.startServing 0) :: go 3 4 ++ .step 3 .lost :: go 3 2 ++ .call (.incoming (.register 9)) :: go 4 6) = some s ∧
    .did 3 (.tell 7 1 true) .ok ∈ s.log ∧ .did 3 (.tell 8 1 true) .lost ∈ s.log ∧ .did 4 (.greet 9 1) .ok ∈ s.log ∧ .returned 3 .unit ∈ s.log ∧ .returned 4 (.bool true) ∈ s.log ∧ s.sh.addrs = [7, 9] ∧
    provIn s.log 1 = some 0 := by
  refine ⟨_, rfl, by decide, by decide, by decide, by decide, by decide, rfl, rfl⟩

/-- Two changes: the second is told when the first has been told to all; the client that unregistered is not told. -/
example : ∃ s, run (Calls.init sys) (oneClient ++ .call (.incoming (.register 8)) :: go 2 5 ++ .call (.startServing 0) :: go 3 3 ++ .call (.stopServing 0) :: go 4 2 ++ go 3 4 ++ go 4 5 ++
      .call (.incoming (.unregister 8 none)) :: go 5 5 ++ .call (.startServing 0) :: go 6 6) = some s ∧
    toldBy 3 s.log = [(7, 1, true), (8, 1, true)] ∧ toldBy 4 s.log = [(7, 1, false), (8, 1, false)] ∧ toldBy 6 s.log = [(7, 1, true)] ∧ .returned 6 .unit ∈ s.log := by
  refine ⟨_, rfl, rfl, rfl, rfl, by decide⟩

/-- C70, refuted for overlapping calls: the service is started and stopped, and the clients are told of the stop first. -/
theorem crossed_changes : ∃ s, run (Calls.init sys) (oneClient ++ .call (.startServing 0) :: go 2 1 ++ .call (.stopServing 0) :: go 3 6 ++ go 2 5) = some s ∧
    .returned 2 .unit ∈ s.log ∧ .returned 3 .unit ∈ s.log ∧ newsIn s.log 7 1 = some true ∧ availIn s.log 0 = false := by
  refine ⟨_, rfl, by decide, by decide, rfl, rfl⟩

/-- C70, refuted for the end of the server: the client is not told. -/
theorem deinit_untold : ∃ s, run (Calls.init sys) (oneClient ++ .call (.startServing 0) :: go 2 6 ++ .call .deinit :: go 3 5) = some s ∧
    .returned 3 .unit ∈ s.log ∧ newsIn s.log 7 1 = some true ∧ availIn s.log 0 = false := by
  refine ⟨_, rfl, by decide, rfl, rfl⟩

/-- C70, refuted for busy clients: a client that is busy when the change is told stays registered, but is not told again. -/
theorem busy_untold : ∃ s, run (Calls.init sys) (oneClient ++ .call (.startServing 0) :: go 2 3 ++ .step 2 .failed :: go 2 2) = some s ∧
    .returned 2 .unit ∈ s.log ∧ .did 2 (.tell 7 1 true) .failed ∈ s.log ∧ .did 2 (.tell 7 1 true) .ok ∉ s.log ∧ s.sh.addrs = [7] ∧ availIn s.log 0 = true := by
  refine ⟨_, rfl, by decide, by decide, by decide, rfl, rfl⟩

/-- A client that unregisters for one service (as `ClientBase::deinit` does) is still told of changes of it. -/
theorem unregister_one_told : ∃ s, run (Calls.init sys) (oneClient ++ .call (.incoming (.unregister 7 (some 1))) :: go 2 3 ++ .call (.startServing 0) :: go 3 6) = some s ∧
    .returned 2 (.bool true) ∈ s.log ∧ .did 3 (.tell 7 1 true) .ok ∈ s.log := by
  refine ⟨_, rfl, by decide, by decide⟩

end Maf.Srv
