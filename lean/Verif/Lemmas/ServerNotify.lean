import Verif.Props.ServerProvider
/-
How the registered clients are told of a change.
-/
namespace Maf.Srv
open Maf.Calls

/-- The messages to the clients, with their outcomes. -/
def tells (sid : Sid) (b : Bool) (xs : List (Addr × Out)) : List (Op Query Ans) := xs.map fun x => ⟨.tell x.1 sid b, x.2⟩
/-- Those that are kept. -/
def reached (xs : List (Addr × Out)) : List Addr := (xs.filter fun x => x.2 != .lost).map fun x => x.1

theorem tellAll_path {sid : Sid} {b : Bool} {as : List Addr} {ops : List (Op Query Ans)} {ks : List Addr} (h : Path (tellAll sid b as) ops (.ret ks)) :
    ∃ xs : List (Addr × Out), xs.map (fun x => x.1) = as ∧ ops = tells sid b xs ∧ ks = reached xs := by
  induction as generalizing ops ks with
  | nil => simp only [tellAll, path_pure, Prog.ret.injEq] at h; obtain ⟨rfl, rfl⟩ := h; exact ⟨[], rfl, rfl, rfl⟩
  | cons a as ih =>
    simp only [tellAll, atom, ask_bind, path_ask_ret] at h
    obtain ⟨e, l, rfl, h⟩ := h
    cases e with
    | ok =>
      simp only [path_bind_ret, path_pure, Prog.ret.injEq] at h
      obtain ⟨l1, l2, ks', rfl, h1, rfl, rfl⟩ := h
      obtain ⟨xs, h2, h3, h4⟩ := ih h1
      exact ⟨(a, .ok) :: xs, by simp [h2], by simp [h3, tells], by simp [h4, reached]⟩
    | failed =>
      simp only [path_bind_ret, path_pure, Prog.ret.injEq] at h
      obtain ⟨l1, l2, ks', rfl, h1, rfl, rfl⟩ := h
      obtain ⟨xs, h2, h3, h4⟩ := ih h1
      exact ⟨(a, .failed) :: xs, by simp [h2], by simp [h3, tells], by simp [h4, reached]⟩
    | lost =>
      obtain ⟨xs, h2, h3, h4⟩ := ih h
      exact ⟨(a, .lost) :: xs, by simp [h2], by simp [h3, tells], by simp [h4, reached]⟩

theorem serve_path {p : Pr} {b : Bool} {ops : List (Op Query Ans)} (h : Path (serve p b) ops (.ret ())) :
    ∃ sid f, ops.head? = some ⟨.setAvail p b, sid⟩ ∧ ((f = false ∧ ops = [⟨.setAvail p b, sid⟩, ⟨.checkProv sid, f⟩]) ∨
      f = true ∧ ∃ xs : List (Addr × Out), ops = ⟨.setAvail p b, sid⟩ :: ⟨.checkProv sid, f⟩ :: ⟨.lockAddrs, xs.map fun x => x.1⟩ :: (tells sid b xs ++ [⟨.unlockAddrs (reached xs), ()⟩])) := by
  simp only [serve, onServiceStatusChanged, notifyAll, atom, ask_bind, path_ask_ret] at h
  obtain ⟨sid, l1, rfl, f, l2, rfl, h⟩ := h
  refine ⟨sid, f, rfl, ?_⟩
  cases f with
  | false =>
    simp only [Bool.false_eq_true, if_false, path_pure] at h
    obtain ⟨rfl, -⟩ := h
    exact .inl ⟨rfl, rfl⟩
  | true =>
    simp only [if_true, path_ask_ret, path_bind_ret] at h
    obtain ⟨as, l3, rfl, l4, l5, ks, rfl, h1, h2⟩ := h
    obtain ⟨xs, rfl, rfl, rfl⟩ := tellAll_path h1
    simp only [ask, path_ask_ret, path_ret] at h2
    obtain ⟨u, l6, rfl, rfl, -⟩ := h2
    exact .inr ⟨rfl, xs, rfl⟩

theorem greetAll_path {a : Addr} {ps : List (Sid × Pr)} {ops : List (Op Query Ans)} (h : Path (greetAll a ps) ops (.ret ())) :
    (∀ sid p, (sid, p) ∈ ps → ∃ f, ⟨.readAvail p, f⟩ ∈ ops ∧ (f = true → ∃ X e Y, ops = X ++ ⟨.greet a sid, e⟩ :: Y)) ∧
    (∀ a' sid e, ⟨.greet a' sid, e⟩ ∈ ops → a' = a ∧ ∃ p, (sid, p) ∈ ps ∧ ⟨.readAvail p, true⟩ ∈ ops) ∧
    ∀ o ∈ ops, (∃ sid p f, (sid, p) ∈ ps ∧ o = ⟨.readAvail p, f⟩) ∨ ∃ sid e, o = ⟨.greet a sid, e⟩ := by
  induction ps generalizing ops with
  | nil => simp only [greetAll, path_pure] at h; obtain ⟨rfl, -⟩ := h; simp
  | cons x ps ih =>
    simp only [greetAll, atom, ask_bind, path_ask_ret] at h
    obtain ⟨f, l, rfl, h⟩ := h
    cases f with
    | false =>
      simp only [Bool.false_eq_true, if_false] at h
      obtain ⟨h1, h2, h3⟩ := ih h
      refine ⟨fun sid p hp => ?_, fun a' sid e he => ?_, fun o ho => ?_⟩
      · rcases List.mem_cons.1 hp with rfl | hp
        · exact ⟨false, by simp, by simp⟩
        · obtain ⟨f, h4, h5⟩ := h1 sid p hp
          refine ⟨f, by simp [h4], fun hf => ?_⟩
          obtain ⟨X, e, Y, rfl⟩ := h5 hf
          exact ⟨_ :: X, e, Y, rfl⟩
      · simp at he
        obtain ⟨h4, p, h5, h6⟩ := h2 a' sid e he
        exact ⟨h4, p, by simp [h5], by simp [h6]⟩
      · rcases List.mem_cons.1 ho with rfl | ho
        · exact .inl ⟨x.1, x.2, false, by simp, rfl⟩
        · rcases h3 o ho with ⟨sid, p, f, h4, h5⟩ | h4
          · exact .inl ⟨sid, p, f, by simp [h4], h5⟩
          · exact .inr h4
    | true =>
      simp only [if_true, path_ask_ret] at h
      obtain ⟨e0, l, rfl, h⟩ := h
      obtain ⟨h1, h2, h3⟩ := ih h
      refine ⟨fun sid p hp => ?_, fun a' sid e he => ?_, fun o ho => ?_⟩
      · rcases List.mem_cons.1 hp with rfl | hp
        · exact ⟨true, by simp, fun _ => ⟨[_], e0, l, rfl⟩⟩
        · obtain ⟨f, h4, h5⟩ := h1 sid p hp
          refine ⟨f, by simp [h4], fun hf => ?_⟩
          obtain ⟨X, e, Y, rfl⟩ := h5 hf
          exact ⟨_ :: _ :: X, e, Y, rfl⟩
      · simp at he
        rcases he with ⟨⟨rfl, rfl⟩, rfl⟩ | he
        · exact ⟨rfl, x.2, by simp, by simp⟩
        · obtain ⟨h4, p, h5, h6⟩ := h2 a' sid e he
          exact ⟨h4, p, by simp [h5], by simp [h6]⟩
      · rcases List.mem_cons.1 ho with rfl | ho
        · exact .inl ⟨x.1, x.2, true, by simp, rfl⟩
        · rcases List.mem_cons.1 ho with rfl | ho
          · exact .inr ⟨x.1, e0, rfl⟩
          · rcases h3 o ho with ⟨sid, p, f, h4, h5⟩ | h4
            · exact .inl ⟨sid, p, f, by simp [h4], h5⟩
            · exact .inr h4

theorem register_path {a : Addr} {ops : List (Op Query Ans)} {x : Res} (h : Path (prog (.incoming (.register a))) ops (.ret x)) :
    ∃ ps gs, x = .bool true ∧ Path (greetAll a ps) gs (.ret ()) ∧ ops = ⟨.addAddr a, ()⟩ :: ⟨.lockProvs, ps⟩ :: (gs ++ [⟨.unlockProvs, ()⟩]) := by
  simp only [prog, onIncomingMessage, path_bind_ret, atom, ask_bind, path_ask_ret, path_pure] at h
  obtain ⟨l1, l2, b, rfl, ⟨u, l3, rfl, ps, l4, rfl, gs, l5, u', rfl, hg, u'', l6, rfl, rfl, hb⟩, rfl, hx⟩ := h
  cases hb
  cases hx
  exact ⟨ps, gs, rfl, hg, by simp⟩

/-! ### The section in which the clients are told -/

/-- Outside, or those told and those still to be told. -/
abbrev Round := Option (List (Addr × Out) × List Addr)

def roundNeutral (o : Op Query Ans) : Prop :=
  match o.1 with
  | .tell .. | .lockAddrs | .unlockAddrs _ => False
  | _ => True

def roundStep (st : Round) : Op Query Ans → Round
  | ⟨.lockAddrs, as⟩ => some ([], as)
  | ⟨.tell a _ _, e⟩ => st.map fun x => (x.1 ++ [(a, e)], x.2.tail)
  | ⟨.unlockAddrs _, _⟩ => none
  | _ => st

def roundOk (st : Round) : Op Query Ans → Prop
  | ⟨.lockAddrs, _⟩ => st = none
  | ⟨.tell a _ _, _⟩ => ∃ told rest, st = some (told, a :: rest)
  | ⟨.unlockAddrs ks, _⟩ => ∃ told, st = some (told, []) ∧ ks = reached told
  | _ => True

@[reducible] def rnd : Mon Query Ans := { σ := Round, free := none, step := roundStep, ok := roundOk, neutral := roundNeutral }

theorem rnd_neutral (o : Op Query Ans) (x : Round) (h : roundNeutral o) : roundStep x o = x := by
  obtain ⟨q, a⟩ := o
  cases q <;> first | exact h.elim | rfl

theorem rnd_locked : rnd.Locked (S := sys) addrLockIn where
  nil := rfl
  skip l e he := by
    cases e with
    | did n q a => exact absurd rfl (he n q a)
    | _ => rw [addrLockIn_one]; rfl
  idle l n q a hn := by
    refine ⟨fun st => rnd_neutral _ _ hn, ?_⟩
    rw [addrLockIn_one]
    cases q <;> first | exact hn.elim | rfl
  take l n q a hn hk := by
    rw [addrLockIn_one]
    cases q <;> first | exact absurd trivial hn | skip
    · exact ⟨by simp [rnd, roundStep], rfl⟩
    · obtain ⟨t, h, -⟩ := hk; cases h
    · obtain ⟨t, r, h⟩ := hk; cases h
  keep l n q a st hn hf hk := by
    rw [addrLockIn_one]
    cases q <;> first | exact absurd trivial hn | skip
    · exact absurd hk hf
    · exact .inr ⟨rfl, rfl⟩
    · obtain ⟨t, r, rfl⟩ := hk
      exact .inl ⟨by simp [rnd, roundStep], rfl⟩

theorem tellAll_rnd (sid : Sid) (b : Bool) (as : List Addr) (told : List (Addr × Out)) :
    rnd.Keeps (some (told, as)) (fun y ks => ∃ xs, y = some (told ++ xs, []) ∧ ks = reached xs) (tellAll sid b as) := by
  induction as generalizing told with
  | nil => exact ⟨[], by rw [List.append_nil], rfl⟩
  | cons a as ih =>
    simp only [tellAll, atom, ask_bind]
    intro e
    refine ⟨⟨told, as, rfl⟩, ?_⟩
    have ih := ih (told ++ [(a, e)])
    cases e with
    | ok =>
      refine Mon.Keeps.bind (M := rnd) (Mon.Keeps.mono ih ?_)
      rintro _ _ ⟨xs, rfl, rfl⟩
      exact ⟨(a, .ok) :: xs, by rw [List.append_assoc]; rfl, by simp [reached]⟩
    | failed =>
      refine Mon.Keeps.bind (M := rnd) (Mon.Keeps.mono ih ?_)
      rintro _ _ ⟨xs, rfl, rfl⟩
      exact ⟨(a, .failed) :: xs, by rw [List.append_assoc]; rfl, by simp [reached]⟩
    | lost =>
      refine Mon.Keeps.mono ih ?_
      rintro _ _ ⟨xs, rfl, rfl⟩
      exact ⟨(a, .lost) :: xs, by rw [List.append_assoc]; rfl, by simp [reached]⟩

theorem serve_rnd (p : Pr) (b : Bool) : rnd.Keeps none (fun y _ => y = none) (serve p b) := by
  simp only [serve, onServiceStatusChanged, notifyAll, atom, ask_bind, keeps_ask]
  refine fun sid => ⟨trivial, fun f => ⟨trivial, ?_⟩⟩
  cases f with
  | false => rfl
  | true =>
    refine fun as => ⟨rfl, Mon.Keeps.bind (M := rnd) (Mon.Keeps.mono (tellAll_rnd sid b as []) ?_)⟩
    rintro _ _ ⟨xs, rfl, rfl⟩
    exact fun _ => ⟨⟨xs, rfl, rfl⟩, rfl⟩

/-- `prog` returns the result of a part that ends outside. -/
theorem end_rnd {T : Type} {p : P T} {f : T → Res} (h : rnd.Keeps none (fun y _ => y = none) p) : rnd.Keeps none (fun y _ => y = none) (p >>= fun x => (pure (f x) : P Res)) :=
  Mon.Keeps.bind (M := rnd) (Mon.Keeps.mono h fun _ _ h => h)

theorem prog_rnd (c : Call) : rnd.Keeps none (fun y _ => y = none) (prog c) := by
  cases c with
  | getServiceProvider sid => exact fun _ => ⟨trivial, rfl⟩
  | hasServiceProvider sid => exact fun _ => ⟨trivial, rfl⟩
  | incoming m =>
    have hd : ∀ sid m, rnd.Keeps none (fun y _ => y = none) (dispatch sid m) := by
      intro sid m
      simp only [dispatch, atom, ask_bind, keeps_ask]
      refine fun o => ⟨trivial, ?_⟩
      cases o with
      | none => rfl
      | some p => exact fun _ => ⟨trivial, rfl⟩
    refine end_rnd ?_
    cases m with
    | register a =>
      have hg : ∀ ps, rnd.Keeps none (fun y _ => y = none) (greetAll a ps) := by
        intro ps
        induction ps with
        | nil => rfl
        | cons x ps ih =>
          simp only [greetAll, atom, ask_bind]
          refine fun f => ⟨trivial, ?_⟩
          cases f with
          | true => exact fun _ => ⟨trivial, ih⟩
          | false => exact ih
      simp only [onIncomingMessage, atom, ask_bind, keeps_ask]
      refine fun _ => ⟨trivial, fun ps => ⟨trivial, Mon.Keeps.bind (M := rnd) (Mon.Keeps.mono (hg ps) ?_)⟩⟩
      rintro _ _ rfl
      exact fun _ => ⟨trivial, rfl⟩
    | unregister a o =>
      cases o with
      | none =>
        have hg : ∀ ps, rnd.Keeps none (fun y _ => y = none) (forwardAll a ps) := by
          intro ps
          induction ps with
          | nil => rfl
          | cons x ps ih => exact fun _ => ⟨trivial, ih⟩
        simp only [onIncomingMessage, atom, ask_bind, keeps_ask]
        refine fun _ => ⟨trivial, fun ps => ⟨trivial, Mon.Keeps.bind (M := rnd) (Mon.Keeps.mono (hg ps) ?_)⟩⟩
        rintro _ _ rfl
        exact fun _ => ⟨trivial, rfl⟩
      | some sid => exact hd sid _
    | other sid tag => exact hd sid _
  | deinit =>
    have hs : ∀ ps, rnd.Keeps none (fun y _ => y = none) (stopAll ps) := by
      intro ps
      induction ps with
      | nil => rfl
      | cons x ps ih =>
        refine Mon.Keeps.bind (M := rnd) (Mon.Keeps.mono (serve_rnd x.2 false) ?_)
        rintro _ _ rfl
        exact ih
    have hd : ∀ ps, rnd.Keeps none (fun y _ => y = none) (deinitAll ps) := by
      intro ps
      induction ps with
      | nil => rfl
      | cons x ps ih => exact fun _ => ⟨trivial, ih⟩
    refine end_rnd (f := fun _ => .unit) ?_
    simp only [deinit, atom, ask_bind, keeps_ask]
    refine fun ps => ⟨trivial, Mon.Keeps.bind (M := rnd) (Mon.Keeps.mono (hs ps) ?_)⟩
    rintro _ _ rfl
    exact hd ps
  | startServing p => exact end_rnd (f := fun _ => .unit) (serve_rnd p true)
  | stopServing p => exact end_rnd (f := fun _ => .unit) (serve_rnd p false)
  | availability p => exact fun _ => ⟨trivial, rfl⟩

/-- Where the telling is. -/
abbrev round (l : List Event) : Round := rnd.all (S := sys) l

theorem rnd_take {as : List (Act sys)} {s : St} (hr : run (Calls.init sys) as = some s) {l r : List Event} {n : Nat} {q : Query} {a : Ans q} (h : s.log = l ++ .did n q a :: r) (hn : ¬roundNeutral ⟨q, a⟩)
    (ho : roundOk none ⟨q, a⟩) : addrLockIn l = none := by
  have hk := Run.ok ⟨as, s, hr, h⟩
  cases q <;> first | exact absurd trivial hn | skip
  · exact hk.2
  · obtain ⟨t, h, -⟩ := ho; cases h
  · obtain ⟨t, r, h⟩ := ho; cases h

theorem rnd_sync {l : List Event} (h : Run l) : rnd.Sync (S := sys) addrLockIn l := by
  obtain ⟨as, s, hr, hl⟩ := h
  exact Mon.sync (S := sys) (M := rnd) rnd_locked (Post := fun _ y _ => y = none) prog_rnd (fun as s l r n q a hr h hn ho _ => rnd_take hr h hn ho) hr (l := l) (r := []) (by simp [hl])

theorem round_ok {l r : List Event} {n : Nat} {q : Query} {a : Ans q} (h : Run (l ++ .did n q a :: r)) (hn : ¬roundNeutral ⟨q, a⟩) : roundOk (round l) ⟨q, a⟩ := by
  obtain ⟨as, s, hr, hl⟩ := h
  exact (Mon.all_ok (S := sys) (M := rnd) rnd_locked (Post := fun _ y _ => y = none) prog_rnd (fun as s l r n q a hr h hn ho _ => rnd_take hr h hn ho) hr hl hn).1

theorem round_free {l : List Event} (h : Run l) : addrLockIn l = none ↔ round l = none := by
  have := rnd_sync h
  constructor
  · exact this.out
  · intro hf
    cases hc : addrLockIn l with
    | none => rfl
    | some n => obtain ⟨h1, h2⟩ := this.has n hc; exact absurd (h1 ▸ hf) h2

theorem round_one (l : List Event) (n : Nat) (q : Query) (a : Ans q) : round (l ++ [.did n q a]) = roundStep (round l) ⟨q, a⟩ := Mon.all_one (S := sys) (M := rnd) l n q a
theorem round_skip (l : List Event) (e : Event) (h : ∀ n q a, e ≠ .did n q a) : round (l ++ [e]) = round l := Mon.all_skip (S := sys) (M := rnd) l e h

/-- While the clients are told, the registered clients are those told and those still to be told. -/
theorem round_addrs {l : List Event} (h : Run l) : ∀ told rest, round l = some (told, rest) → addrsIn l = told.map (fun x => x.1) ++ rest := by
  revert h
  refine snoc_induct (motive := fun l => Run l → ∀ told rest, round l = some (told, rest) → addrsIn l = told.map (fun x => x.1) ++ rest) (by intro _ _ _ h; cases h) ?_ l
  intro l e ih h told rest hr
  have ih := ih h.left
  rw [addrsIn_one]
  cases e with
  | did n q a =>
    rw [round_one] at hr
    by_cases hn : roundNeutral ⟨q, a⟩
    · rw [rnd_neutral _ _ hn] at hr
      have hl : addrLockIn l ≠ none := fun hl => by rw [(round_free h.left).1 hl] at hr; cases hr
      have hk := h.ok
      cases q
      case addAddr => exact absurd hk hl
      case dropAddr => exact absurd hk hl
      all_goals first | exact hn.elim | exact ih told rest hr
    · have ho := round_ok h hn
      have hk := h.ok
      cases q <;> first | exact absurd trivial hn | skip
      · cases hr
        simp only [addrStep, List.map_nil, List.nil_append]
        exact hk.1.symm
      · cases hr
      · obtain ⟨t, r, ho⟩ := ho
        rw [ho] at hr
        cases hr
        have := ih t _ ho
        simp only [addrStep]
        rw [this]
        simp
  | _ => rw [round_skip _ _ (by simp)] at hr; exact ih told rest hr

theorem reached_sub (xs : List (Addr × Out)) : (reached xs).Sublist (xs.map fun x => x.1) := List.filter_sublist.map _

/-- No client is registered twice. -/
theorem addrs_nodup {l : List Event} (h : Run l) : (addrsIn l).Nodup := by
  revert h
  refine snoc_induct (motive := fun l => Run l → (addrsIn l).Nodup) (fun _ => List.nodup_nil) ?_ l
  intro l e ih h
  have ih := ih h.left
  rw [addrsIn_one]
  cases e with
  | did n q a =>
    cases q
    case addAddr x =>
      simp only [addrStep]
      split
      · exact ih
      · next hx =>
        rw [List.nodup_append]
        refine ⟨ih, by simp, ?_⟩
        intro y hy z hz
        simp at hz
        subst hz
        rintro rfl
        exact hx hy
    case dropAddr x => exact ih.filter _
    case unlockAddrs ks =>
      obtain ⟨told, h1, rfl⟩ := round_ok h (fun h => h)
      have := round_addrs h.left told [] h1
      rw [List.append_nil] at this
      exact (reached_sub told).nodup (this ▸ ih)
    all_goals exact ih
  | _ => exact ih

/-- A registered client stays one unless it unregisters or cannot be reached. -/
theorem addr_kept {l m : List Event} {a : Addr} (h : Run (l ++ m)) (ha : a ∈ addrsIn l) (hl : addrLockIn l = none) (hd : ∀ n u, .did n (.dropAddr a) u ∉ m) (hr : ∀ n s b, .did n (.tell a s b) .lost ∉ m) :
    a ∈ addrsIn (l ++ m) ∧ ∀ told rest, round (l ++ m) = some (told, rest) → (a, .lost) ∉ told := by
  revert h hd hr
  refine snoc_induct (motive := fun m => Run (l ++ m) → (∀ n u, .did n (.dropAddr a) u ∉ m) → (∀ n s b, .did n (.tell a s b) .lost ∉ m) → a ∈ addrsIn (l ++ m) ∧ ∀ told rest, round (l ++ m) = some (told, rest) → (a, .lost) ∉ told) ?_ ?_ m
  · intro h _ _
    rw [List.append_nil] at h ⊢
    refine ⟨ha, fun told rest hr => ?_⟩
    rw [(round_free h).1 hl] at hr; cases hr
  · intro m e ih h hd hr
    rw [← List.append_assoc] at h ⊢
    obtain ⟨ih1, ih2⟩ := ih h.left (fun n u h => hd n u (by simp [h])) (fun n s b h => hr n s b (by simp [h]))
    rw [addrsIn_one]
    cases e with
    | did n q x =>
      rw [round_one]
      cases q
      case addAddr b =>
        refine ⟨?_, ih2⟩
        simp only [addrStep]
        split
        · exact ih1
        · exact List.mem_append_left _ ih1
      case dropAddr b =>
        refine ⟨?_, ih2⟩
        refine List.mem_filter.2 ⟨ih1, ?_⟩
        simp only [bne_iff_ne]
        rintro rfl
        exact hd n x (by simp)
      case lockAddrs =>
        refine ⟨ih1, ?_⟩
        intro told rest hr
        cases hr
        simp
      case unlockAddrs ks =>
        obtain ⟨told, h1, rfl⟩ := round_ok h (fun h => h)
        have := round_addrs h.left told [] h1
        rw [List.append_nil] at this
        refine ⟨?_, by intro _ _ h; cases h⟩
        show a ∈ reached told
        rw [this] at ih1
        obtain ⟨⟨a', o⟩, hm, rfl⟩ := List.mem_map.1 ih1
        refine List.mem_map.2 ⟨_, List.mem_filter.2 ⟨hm, ?_⟩, rfl⟩
        simp only [bne_iff_ne]
        rintro rfl
        exact ih2 told [] h1 hm
      case tell b s f =>
        refine ⟨ih1, ?_⟩
        intro told rest hr'
        obtain ⟨t, r, ho⟩ := round_ok h (fun h => h)
        rw [ho] at hr'
        cases hr'
        intro hm
        rcases List.mem_append.1 hm with hm | hm
        · exact ih2 t _ ho hm
        · simp at hm
          obtain ⟨rfl, rfl⟩ := hm
          exact hr n s f (by simp)
      all_goals exact ⟨ih1, ih2⟩
    | _ => rw [round_skip _ _ (by simp)]; exact ⟨ih1, ih2⟩

end Maf.Srv
