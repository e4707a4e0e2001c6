import Verif.Lemmas.MsgConnectionRun

/-!
C96: connection handles of processors.

Specification: what a message of type `m` posted to `p` calls is a list of handlers (`called`). A handle refers to one of them or is empty,
and no two handles refer to the same. Handles may be moved about freely; only `disconnect` and `reconnect` through a handle, the end of a group,
`connect` and `disconnect` of the processor, and its end change what is called, each exactly as its name says.
-/

namespace Maf.Conn

inductive Place where
  | var (v : Nat)
  /-- the i-th member of group g -/
  | member (g i : Nat)
deriving DecidableEq

/-- the connection a handle refers to -/
def State.at (s : State) : Place → Option Nat
  | .var v => (s.vars v).join
  | .member g i => ((s.groups g).bind (·[i]?)).join

theorem count_index {l : List (Option Nat)} {x : Option Nat} (h : l.count x ≤ 1) : ∀ {i j : Nat}, l[i]? = some x → l[j]? = some x → i = j := by
  induction l with
  | nil => intro i j hi; cases hi
  | cons a l ih =>
    intro i j hi hj
    rw [List.count_cons] at h
    have pos : ∀ {i : Nat}, l[i]? = some x → 0 < l.count x := fun hi => List.count_pos_iff.mpr (List.mem_of_getElem? hi)
    cases i with
    | zero =>
      cases j with
      | zero => rfl
      | succ j =>
        have h1 : a = x := by simpa using hi
        have h2 := pos (show l[j]? = some x by simpa using hj)
        rw [if_pos (beq_iff_eq.mpr h1)] at h; omega
    | succ i =>
      cases j with
      | zero =>
        have h1 : a = x := by simpa using hj
        have h2 := pos (show l[i]? = some x by simpa using hi)
        rw [if_pos (beq_iff_eq.mpr h1)] at h; omega
      | succ j => exact congrArg (· + 1) (ih (by omega) (by simpa using hi) (by simpa using hj))

theorem at_var {s : State} {v k : Nat} : s.at (.var v) = some k ↔ s.vars v = some (some k) := by
  show (s.vars v).join = some k ↔ _
  cases s.vars v with
  | none => simp
  | some x => simp

theorem at_member {s : State} {g i k : Nat} : s.at (.member g i) = some k ↔ ∃ l, s.groups g = some l ∧ l[i]? = some (some k) := by
  show ((s.groups g).bind (·[i]?)).join = some k ↔ _
  cases s.groups g with
  | none => simp
  | some l =>
    show (l[i]?).join = some k ↔ _
    cases h : l[i]? <;> simp [h]

theorem held_at {s : State} {k : Nat} : s.held k ↔ ∃ a, s.at a = some k := by
  constructor
  · rintro (⟨v, hv⟩ | ⟨g, l, hg, hk⟩)
    · exact ⟨.var v, at_var.mpr hv⟩
    · obtain ⟨i, hi⟩ := List.mem_iff_getElem?.mp hk
      exact ⟨.member g i, at_member.mpr ⟨l, hg, hi⟩⟩
  · rintro ⟨a, ha⟩
    cases a with
    | var v => exact .inl ⟨v, at_var.mp ha⟩
    | member g i =>
      obtain ⟨l, hg, hi⟩ := at_member.mp ha
      exact .inr ⟨g, l, hg, List.mem_of_getElem? hi⟩

/-- **C96.** No two handles refer to the same connection. -/
theorem one_owner {as : List Act} {s : State} (hr : runs State.start as = some s) {a b : Place} {k : Nat} (ha : s.at a = some k) (hb : s.at b = some k) : a = b := by
  have hO := (reach_inv hr).own
  cases a with
  | var v =>
    cases b with
    | var w => rw [hO.vv v w k (at_var.mp ha) (at_var.mp hb)]
    | member g i =>
      obtain ⟨l, hg, hi⟩ := at_member.mp hb
      exact absurd (List.mem_of_getElem? hi) (hO.vg v g l k (at_var.mp ha) hg)
  | member g i =>
    obtain ⟨l, hg, hi⟩ := at_member.mp ha
    cases b with
    | var w => exact absurd (List.mem_of_getElem? hi) (hO.vg w g l k (at_var.mp hb) hg)
    | member g' i' =>
      obtain ⟨l', hg', hi'⟩ := at_member.mp hb
      have e := hO.gg g g' l l' k hg hg' (List.mem_of_getElem? hi) (List.mem_of_getElem? hi')
      subst e
      rw [hg] at hg'; cases hg'
      rw [count_index (hO.one g l (some k |>.getD 0) hg) hi hi']

/-- **C96.** No connection is deleted twice or used after it was deleted; what a handle refers to is there. -/
theorem no_misuse {as : List Act} {s : State} (hr : runs State.start as = some s) : s.ub = false ∧ ∀ a k, s.at a = some k → ∃ o, s.objs k = some o ∧ o.deleted = false :=
  ⟨(reach_inv hr).own.ub, fun a _ h => (reach_inv hr).own.live _ (held_at.mpr ⟨a, h⟩)⟩

/-! ### What the actions do -/

/-- Making, moving, assigning, destroying and asking handles, and posting, changes nothing in what is called. -/
def Act.quiet : Act → Bool
  | .make _ | .moveNew _ _ | .assign _ _ | .destroy _ | .ask _ | .groupNew _ | .groupAdd _ _ | .post _ _ => true
  | _ => false

theorem called_eq {s t : State} (h1 : t.map = s.map) (h2 : t.slots = s.slots) (p m : Nat) : t.called p m = s.called p m := by
  unfold State.called; rw [h1, h2]

/-- **C96.** Handles may be made, moved, destroyed and put into groups without any effect on what is called. -/
theorem moves_change_nothing {as : List Act} {s t : State} (hr : runs State.start as = some s) {a : Act} (hq : a.quiet = true) (hs : step s a = some t) (p m : Nat) : t.called p m = s.called p m := by
  have hI := reach_inv hr
  have hs := step_live hs
  cases a with
  | make v => simp only [live] at hs; split at hs <;> cases hs; rfl
  | moveNew v w =>
    obtain ⟨-, h1, h2, -⟩ := moveNew_own hI.own (show Conn.moveNew s v w = some t from hs)
    exact called_eq h1 h2 p m
  | assign v w =>
    obtain ⟨-, h1, h2, -⟩ := assign_own hI.own (show Conn.assign s v w = some t from hs)
    exact called_eq h1 h2 p m
  | groupAdd g v =>
    obtain ⟨-, h1, h2, -⟩ := groupAdd_own hI.own (show Conn.groupAdd s g v = some t from hs)
    exact called_eq h1 h2 p m
  | destroy v =>
    obtain ⟨x, hv, rfl⟩ := onVar_some (show onVar s v _ = some t from hs)
    cases x with
    | none => rfl
    | some k =>
      obtain ⟨o, ho, hd⟩ := var_live hI hv
      rw [show s.del (some k) = s.setObj k { o with deleted := true } from use_live ho hd _]; rfl
  | ask v =>
    obtain ⟨x, hv, rfl⟩ := onVar_some (show onVar s v _ = some t from hs)
    cases x with
    | none => rfl
    | some k =>
      obtain ⟨o, ho, hd⟩ := var_live hI hv
      rw [show s.askH v (some k) = { s with log := s.log ++ [.asked v (s.linked k o)] } from
        use_live ho hd fun k o => { s with log := s.log ++ [.asked v (s.linked k o)] }]; rfl
  | groupNew g => simp only [live] at hs; split at hs <;> cases hs; rfl
  | post p' m' => simp only [live] at hs; cases hs; rfl
  | _ => cases hq

/-- **C96.** A handle that is moved leaves its source empty, and all other handles as they are; members of groups keep their places. -/
theorem moved {s t : State} {v w : Nat} (hs : step s (.moveNew v w) = some t ∨ (step s (.assign v w) = some t ∧ v ≠ w)) :
    t.at (.var v) = s.at (.var w) ∧ t.at (.var w) = none ∧ ∀ a, a ≠ .var v → a ≠ .var w → t.at a = s.at a := by
  have key : ∀ (r : State) (x y : Option (Option Nat)), v ≠ w → r.vars = upd (upd s.vars w x) v y → r.groups = s.groups → x.join = none → y.join = s.at (.var w) →
      r.at (.var v) = s.at (.var w) ∧ r.at (.var w) = none ∧ ∀ a, a ≠ .var v → a ≠ .var w → r.at a = s.at a := by
    intro r x y hne hv hg hx hy
    refine ⟨?_, ?_, fun a h1 h2 => ?_⟩
    · show (r.vars v).join = _; rw [hv, upd_same]; exact hy
    · show (r.vars w).join = _; rw [hv, upd_ne _ _ (Ne.symm hne), upd_same]; exact hx
    · cases a with
      | var u =>
        show (r.vars u).join = (s.vars u).join
        rw [hv, upd_ne _ _ (fun e => h1 (by rw [e])), upd_ne _ _ (fun e => h2 (by rw [e]))]
      | member g i => show ((r.groups g).bind _).join = ((s.groups g).bind _).join; rw [hg]
  rcases hs with hs | ⟨hs, hne⟩
  · have hs := step_live hs
    simp only [live, Conn.moveNew] at hs
    split at hs
    case h_2 => cases hs
    case h_1 x h1 h2 =>
    cases hs
    refine key _ (some none) (some x) ?_ rfl rfl rfl ?_
    · rintro rfl; rw [h1] at h2; cases h2
    · show _ = (s.vars w).join; rw [h2]
  · have hs := step_live hs
    simp only [live, Conn.assign] at hs
    split at hs
    case h_2 => cases hs
    case h_1 x y h1 h2 =>
    cases hs
    have hl : (s.lose x).vars = s.vars ∧ (s.lose x).groups = s.groups := by cases x <;> exact ⟨rfl, rfl⟩
    refine key _ (some none) (some y) hne ?_ hl.2 rfl ?_
    · show upd (upd (s.lose x).vars v (some y)) w (some none) = _
      rw [hl.1]; funext a; unfold upd
      by_cases e1 : a = v
      · rw [if_pos e1, if_pos e1, if_neg (by rw [e1]; exact hne)]
      · rw [if_neg e1, if_neg e1]
    · show _ = (s.vars w).join; rw [h2]

/-- **C96.** Adding to a group: the handle becomes the last member. -/
theorem added {s t : State} {g v : Nat} {l : List (Option Nat)} (hg : s.groups g = some l) (hs : step s (.groupAdd g v) = some t) :
    t.at (.member g l.length) = s.at (.var v) ∧ t.at (.var v) = none ∧ ∀ a, a ≠ .member g l.length → a ≠ .var v → t.at a = s.at a := by
  have hs := step_live hs
  simp only [live, Conn.groupAdd] at hs
  rw [hg] at hs
  split at hs
  case h_2 => cases hs
  case h_1 l' x h0 hv =>
  cases h0
  cases hs
  refine ⟨?_, ?_, fun a h1 h2 => ?_⟩
  · show ((upd s.groups g (some (l ++ [x])) g).bind (·[l.length]?)).join = (s.vars v).join
    rw [upd_same, hv]
    show ((l ++ [x])[l.length]?).join = _
    simp
  · show (upd s.vars v (some none) v).join = _; rw [upd_same]; rfl
  · cases a with
    | var u =>
      show (upd s.vars v (some none) u).join = (s.vars u).join
      rw [upd_ne _ _ (fun e => h2 (by rw [e]))]
    | member g' i =>
      show ((upd s.groups g (some (l ++ [x])) g').bind (·[i]?)).join = ((s.groups g').bind (·[i]?)).join
      by_cases e : g' = g
      · subst e
        rw [upd_same, hg]
        show ((l ++ [x])[i]?).join = (l[i]?).join
        have : i ≠ l.length := fun e => h1 (by rw [e])
        rcases Nat.lt_or_ge i l.length with h | h
        · rw [List.getElem?_append_left h]
        · rw [List.getElem?_eq_none (by rw [List.length_append, List.length_singleton]; omega), List.getElem?_eq_none h]
      · rw [upd_ne _ _ e]

/-- **C96.** `connect` adds one handler, at the end, and the new handle refers to it. -/
theorem connect_adds {as : List Act} {s t : State} (hr : runs State.start as = some s) {p m v : Nat} (hs : step s (.connect p m v) = some t) :
    t.at (.var v) = some s.next ∧ ∀ q n, t.called q n = if q = p ∧ n = m then s.called q n ++ [s.next] else s.called q n := by
  have hI := reach_inv hr
  have hs := step_live hs
  simp only [live, Conn.connect] at hs
  split at hs
  case h_2 => cases hs
  case h_1 hv =>
  cases hs
  obtain ⟨h1, h2, h3, h4, h5, h6, h7, h8, h9⟩ := hubFor_spec hI.core p m
  refine ⟨?_, fun q n => ?_⟩
  · rw [at_var]; show upd _ v _ v = _; rw [upd_same, h4]
  · rw [join_called h1 h2, h9, h4]

/-- **C96.** `disconnect` through a handle takes away exactly the handler it refers to; through an empty one, nothing. -/
theorem disconnect_exact {as : List Act} {s t : State} (hr : runs State.start as = some s) {v : Nat} (hs : step s (.disconnect v) = some t) (p m : Nat) :
    t.called p m = (s.called p m).filter fun k => s.at (.var v) != some k := by
  have hI := reach_inv hr
  have hs := step_live hs
  obtain ⟨x, hv, rfl⟩ := onVar_some (show onVar s v _ = some t from hs)
  have ha : s.at (.var v) = x := by show (s.vars v).join = x; rw [hv]; rfl
  rw [ha]
  cases x with
  | none => exact (List.filter_eq_self.mpr fun _ _ => rfl).symm
  | some k =>
    obtain ⟨o, ho, hd⟩ := var_live hI hv
    rw [show s.cutH (some k) = s.cut k o from use_live ho hd _, cut_called hI.core ho hd]
    congr 1; funext j
    rw [Bool.eq_iff_iff, bne_iff_ne, bne_iff_ne]
    constructor
    · intro h e; cases e; exact h rfl
    · intro h e; exact h (by rw [e])

/-- **C96.** The same for all members of a group; destroying a group does this, too. -/
theorem group_exact {as : List Act} {s t : State} (hr : runs State.start as = some s) {g : Nat} (hs : step s (.groupDisconnect g) = some t ∨ step s (.groupDestroy g) = some t) (p m : Nat) :
    (t.called p m).Sublist (s.called p m) ∧ ∀ k, k ∈ t.called p m ↔ k ∈ s.called p m ∧ ∀ i, s.at (.member g i) ≠ some k := by
  have hI := reach_inv hr
  have sub : ∀ l, s.groups g = some l → ((l.foldl State.cutH s).called p m).Sublist (s.called p m) := by
    intro l hg
    rw [(cuts hI.core l (group_live hI hg)).2.2.2 p m]; exact List.filter_sublist
  have key : ∀ l, s.groups g = some l → ∀ k, k ∈ (l.foldl State.cutH s).called p m ↔ k ∈ s.called p m ∧ ∀ i, s.at (.member g i) ≠ some k := by
    intro l hg k
    rw [(cuts hI.core l (group_live hI hg)).2.2.2 p m, List.mem_filter]
    refine and_congr_right fun _ => ?_
    rw [Bool.not_eq_true', ← Bool.not_eq_true, List.contains_iff_mem]
    constructor
    · intro h i hi
      obtain ⟨l', hg', hi'⟩ := at_member.mp hi
      rw [hg] at hg'; cases hg'
      exact h (List.mem_of_getElem? hi')
    · intro h hm
      obtain ⟨i, hi⟩ := List.mem_iff_getElem?.mp hm
      exact h i (at_member.mpr ⟨l, hg, hi⟩)
  rcases hs with hs | hs
  · have hs := step_live hs
    obtain ⟨l, hg, rfl⟩ := onGroup_some (show onGroup s g _ = some t from hs)
    exact ⟨sub l hg, key l hg⟩
  · have hs := step_live hs
    obtain ⟨l, hg, rfl⟩ := onGroup_some (show onGroup s g _ = some t from hs)
    obtain ⟨h1, h2, h3, -⟩ := cuts hI.core l (group_live hI hg)
    have hO := own_same hI.own h2 h3
    have hgu : (l.foldl State.cutH s).groups g = some l := by rw [h2.groups]; exact hg
    obtain ⟨-, b, c, -⟩ := dels h1 l (fun k hk => hO.live k (.inr ⟨g, l, hgu, hk⟩)) (fun k => hO.one g l k hgu)
    have e : State.called { l.foldl State.del (l.foldl State.cutH s) with groups := upd s.groups g none } p m = (l.foldl State.cutH s).called p m :=
      called_eq (s := l.foldl State.cutH s) b.map c p m
    rw [e]
    exact ⟨sub l hg, key l hg⟩

/-- **C96.** `disconnect(msgid)` of the processor takes away all handlers for these messages, and no others; its end takes all of its handlers. -/
theorem disconnectMsg_exact {s t : State} {p m : Nat} (hs : step s (.disconnectMsg p m) = some t) (q n : Nat) : t.called q n = if q = p ∧ n = m then [] else s.called q n := by
  have hs := step_live hs
  simp only [live] at hs
  cases hs
  unfold State.called State.disconnectMsg
  dsimp only
  by_cases hq : q = p
  · subst hq
    rw [if_pos rfl]
    by_cases hn : n = m
    · rw [if_pos hn, if_pos ⟨rfl, hn⟩]
    · rw [if_neg hn, if_neg (fun h => hn h.2)]
      unfold State.cleaned
      cases s.map q n with
      | none => rfl
      | some h =>
        dsimp only
        by_cases e : (s.slots h).isEmpty = true
        · rw [if_pos e]; exact (List.isEmpty_iff.mp e).symm
        · rw [if_neg e]
  · rw [if_neg hq, if_neg (fun h => hq h.1)]

theorem endProc_exact {s t : State} {p : Nat} (hs : step s (.endProc p) = some t) (q n : Nat) : t.called q n = if q = p then [] else s.called q n := by
  have hs := step_live hs
  simp only [live] at hs
  cases hs
  unfold State.called
  dsimp only
  by_cases hq : q = p
  · rw [if_pos hq, if_pos hq]
  · rw [if_neg hq, if_neg hq]

/-- **C96.** A posted message calls each handler once. -/
theorem called_once {as : List Act} {s : State} (hr : runs State.start as = some s) (p m : Nat) : (s.called p m).Nodup := by
  unfold State.called
  split
  · exact (reach_inv hr).core.nodup _
  · exact List.nodup_nil

/-! ### Connections through time -/

theorem use_keeps {s : State} (f : Nat → Obj → State) (hf : ∀ k o, s.objs k = some o → SameObjs s (f k o)) (h : Option Nat) : SameObjs s (s.use h f) := by
  unfold State.use
  cases h with
  | none => exact .refl s
  | some k =>
    dsimp only
    cases hk : s.objs k with
    | none => exact fun j => ⟨fun o h => ⟨o, h, rfl, rfl, rfl, rfl⟩, id⟩
    | some o =>
      dsimp only
      split
      · exact fun j => ⟨fun o h => ⟨o, h, rfl, rfl, rfl, rfl⟩, id⟩
      · exact hf k o hk

/-- what belongs to connection `k` for good -/
theorem fixed_step {s t : State} {a : Act} (hI : Inv s) (hs : step s a = some t) {k : Nat} {o : Obj} (hk : s.objs k = some o) :
    ∃ o', t.objs k = some o' ∧ o'.proc = o.proc ∧ o'.msg = o.msg ∧ o'.hub = o.hub := by
  have hs := step_live hs
  have same : ∀ {u : State}, SameObjs s u → ∃ o', u.objs k = some o' ∧ o'.proc = o.proc ∧ o'.msg = o.msg ∧ o'.hub = o.hub := fun h => by
    obtain ⟨o', h1, -, h2⟩ := (h k).1 o hk; exact ⟨o', h1, h2⟩
  have refl : ∀ {u : State}, u.objs = s.objs → ∃ o', u.objs k = some o' ∧ o'.proc = o.proc ∧ o'.msg = o.msg ∧ o'.hub = o.hub := fun h => ⟨o, by rw [h]; exact hk, rfl, rfl, rfl⟩
  cases a with
  | connect p m v =>
    simp only [live, Conn.connect] at hs
    split at hs <;> cases hs
    obtain ⟨-, -, h3, h4, -⟩ := hubFor_spec hI.core p m
    refine ⟨o, ?_, rfl, rfl, rfl⟩
    show upd (s.hubFor p m).1.objs (s.hubFor p m).1.next _ k = _
    have : k ≠ s.next := by have := (hI.core.known k o hk).1; omega
    rw [h3, h4, upd_ne _ _ this]; exact hk
  | make v => simp only [live] at hs; split at hs <;> cases hs; exact refl rfl
  | moveNew v w => exact refl (moveNew_own hI.own (show Conn.moveNew s v w = some t from hs)).2.2.2.2.1
  | assign v w => exact refl (assign_own hI.own (show Conn.assign s v w = some t from hs)).2.2.2.2.1
  | groupAdd g v => exact refl (groupAdd_own hI.own (show Conn.groupAdd s g v = some t from hs)).2.2.2.2.1
  | destroy v =>
    obtain ⟨x, hv, rfl⟩ := onVar_some (show onVar s v _ = some t from hs)
    cases x with
    | none => exact refl rfl
    | some j =>
      obtain ⟨o', ho', hd⟩ := var_live hI hv
      rw [show s.del (some j) = s.setObj j { o' with deleted := true } from use_live ho' hd _]
      show ∃ o2, upd s.objs j (some { o' with deleted := true }) k = some o2 ∧ _
      by_cases e : k = j
      · subst e
        rw [hk] at ho'; cases ho'
        exact ⟨_, upd_same _ _ _, rfl, rfl, rfl⟩
      · exact ⟨o, (upd_ne _ _ e).trans hk, rfl, rfl, rfl⟩
  | disconnect v =>
    obtain ⟨x, hv, rfl⟩ := onVar_some (show onVar s v _ = some t from hs)
    exact same (use_keeps _ (fun _ _ h => cut_same h) x)
  | reconnect v =>
    obtain ⟨x, hv, rfl⟩ := onVar_some (show onVar s v _ = some t from hs)
    exact same (use_keeps _ (fun _ _ h => relink_same h) x)
  | ask v =>
    obtain ⟨x, hv, rfl⟩ := onVar_some (show onVar s v _ = some t from hs)
    unfold State.askH
    cases x with
    | none => exact refl rfl
    | some j => exact same (use_keeps (fun k o => { s with log := s.log ++ [.asked v (s.linked k o)] }) (fun _ _ h j => ⟨fun o h => ⟨o, h, rfl, rfl, rfl, rfl⟩, id⟩) (some j))
  | groupNew g => simp only [live] at hs; split at hs <;> cases hs; exact refl rfl
  | groupDisconnect g =>
    obtain ⟨l, hg, rfl⟩ := onGroup_some (show onGroup s g _ = some t from hs)
    exact same (cuts hI.core l (group_live hI hg)).2.2.1
  | groupDestroy g =>
    obtain ⟨l, hg, rfl⟩ := onGroup_some (show onGroup s g _ = some t from hs)
    obtain ⟨h1, h2, h3, -⟩ := cuts hI.core l (group_live hI hg)
    have hO := own_same hI.own h2 h3
    have hgu : (l.foldl State.cutH s).groups g = some l := by rw [h2.groups]; exact hg
    obtain ⟨-, -, -, d, e⟩ := dels h1 l (fun k hk => hO.live k (.inr ⟨g, l, hgu, hk⟩)) (fun k => hO.one g l k hgu)
    obtain ⟨o1, ho1, h4⟩ := same h3
    by_cases hm : some k ∈ l
    · exact ⟨_, e k o1 hm ho1, h4⟩
    · exact ⟨o1, (d k hm).trans ho1, h4⟩
  | disconnectMsg p m => simp only [live] at hs; cases hs; exact refl rfl
  | endProc p => simp only [live] at hs; cases hs; exact refl rfl
  | post p m => simp only [live] at hs; cases hs; exact refl rfl

theorem fixed_runs {s t : State} {as : List Act} (hI : Inv s) (hr : runs s as = some t) {k : Nat} {o : Obj} (hk : s.objs k = some o) :
    Inv t ∧ ∃ o', t.objs k = some o' ∧ o'.proc = o.proc ∧ o'.msg = o.msg ∧ o'.hub = o.hub := by
  refine runs_induct (P := fun t => Inv t ∧ ∃ o', t.objs k = some o' ∧ o'.proc = o.proc ∧ o'.msg = o.msg ∧ o'.hub = o.hub) ?_ ⟨hI, o, hk, rfl, rfl, rfl⟩ hr
  rintro u v a ⟨hI, o1, h1, h2⟩ hs
  obtain ⟨o2, h3, h4⟩ := fixed_step hI hs h1
  exact ⟨inv_step hI hs, o2, h3, h4.1.trans h2.1, h4.2.1.trans h2.2.1, h4.2.2.trans h2.2.2⟩

theorem runs_append (as bs : List Act) : ∀ s, runs s (as ++ bs) = (runs s as).bind fun t => runs t bs := by
  induction as with
  | nil => intro s; rfl
  | cons a as ih =>
    intro s
    show ((step s a).bind fun u => runs u (as ++ bs)) = ((step s a).bind fun u => runs u as).bind fun u => runs u bs
    cases step s a with
    | none => rfl
    | some u => exact ih u

theorem new_obj {s t : State} (hI : Inv s) {p m v : Nat} (hs : step s (.connect p m v) = some t) : ∃ o, t.objs s.next = some o ∧ o.proc = p ∧ o.msg = m := by
  have hs := step_live hs
  simp only [live, Conn.connect] at hs
  split at hs <;> cases hs
  obtain ⟨-, -, h3, h4, -⟩ := hubFor_spec hI.core p m
  refine ⟨⟨p, m, (s.hubFor p m).2, .ref, false⟩, ?_, rfl, rfl⟩
  show upd (s.hubFor p m).1.objs (s.hubFor p m).1.next _ s.next = _
  rw [h4, upd_same]

/-- **C96.** `connected` tells the truth, through whatever moves the handle has come to its place: it says whether a message now posted calls the handler. -/
theorem connected_truth {as bs : List Act} {s s1 t : State} (hr : runs State.start as = some s) {p m v : Nat} (hc : step s (.connect p m v) = some s1) (hb : runs s1 bs = some t)
    {w : Nat} (hw : t.at (.var w) = some s.next) : step t (.ask w) = some { t with log := t.log ++ [.asked w (decide (s.next ∈ t.called p m))] } := by
  have hI := reach_inv hr
  obtain ⟨o, ho, rfl, rfl⟩ := new_obj hI hc
  obtain ⟨hIt, o', ho', e1, e2, -⟩ := fixed_runs (inv_step hI hc) hb ho
  have hw := at_var.mp hw
  obtain ⟨o2, h2, hd⟩ := var_live hIt hw
  rw [ho'] at h2; cases h2
  unfold step
  rw [if_neg (by rw [hIt.own.ub]; decide)]
  show onVar t w _ = _
  unfold onVar
  rw [hw]
  dsimp only
  rw [show t.askH w (some s.next) = { t with log := t.log ++ [.asked w (t.linked s.next o')] } from
        use_live ho' hd fun k o => { t with log := t.log ++ [.asked w (t.linked k o)] }]
  have : t.linked s.next o' = decide (s.next ∈ t.called o.proc o.msg) := by
    rw [Bool.eq_iff_iff, linked_iff hIt.core ho' hd, e1, e2, decide_eq_true_iff]
  rw [this]

/-- no `disconnect(msgid)` on `p`, and `p` is not destroyed -/
def Act.spares (p : Nat) : Act → Bool
  | .disconnectMsg q _ => q != p
  | .endProc q => q != p
  | _ => true

theorem use_map (s : State) (f : Nat → Obj → State) (hf : ∀ k o, (f k o).map = s.map) (h : Option Nat) : (s.use h f).map = s.map := by
  unfold State.use
  cases h with
  | none => rfl
  | some k =>
    dsimp only
    cases s.objs k with
    | none => rfl
    | some o => dsimp only; split; rfl; exact hf k o

theorem map_step {s t : State} {a : Act} (hI : Inv s) (hs : step s a = some t) {p m h : Nat} (ha : a.spares p = true) (hm : s.map p m = some h) : t.map p m = some h := by
  have hs := step_live hs
  cases a with
  | connect q n v =>
    simp only [live, Conn.connect] at hs
    split at hs <;> cases hs
    show (s.hubFor q n).1.map p m = some h
    unfold State.hubFor
    cases hq : s.map q n with
    | some x => exact hm
    | none =>
      show upd2 s.map q n (some s.hubs) p m = _
      unfold upd2
      rw [if_neg (by rintro ⟨rfl, rfl⟩; rw [hm] at hq; cases hq)]; exact hm
  | make v => simp only [live] at hs; split at hs <;> cases hs; exact hm
  | moveNew v w => rw [(moveNew_own hI.own (show Conn.moveNew s v w = some t from hs)).2.1]; exact hm
  | assign v w => rw [(assign_own hI.own (show Conn.assign s v w = some t from hs)).2.1]; exact hm
  | groupAdd g v => rw [(groupAdd_own hI.own (show Conn.groupAdd s g v = some t from hs)).2.1]; exact hm
  | destroy v =>
    obtain ⟨x, hv, rfl⟩ := onVar_some (show onVar s v _ = some t from hs)
    show (s.del x).map p m = _
    unfold State.del; rw [use_map s (fun k o => s.setObj k { o with deleted := true }) (fun _ _ => rfl) x]; exact hm
  | disconnect v =>
    obtain ⟨x, hv, rfl⟩ := onVar_some (show onVar s v _ = some t from hs)
    show (s.cutH x).map p m = _
    unfold State.cutH; rw [use_map s _ (fun k o => (cut_frame s k o).map) x]; exact hm
  | reconnect v =>
    obtain ⟨x, hv, rfl⟩ := onVar_some (show onVar s v _ = some t from hs)
    show (s.relinkH x).map p m = _
    unfold State.relinkH; rw [use_map s _ (fun k o => (relink_frame s k o).map) x]; exact hm
  | ask v =>
    obtain ⟨x, hv, rfl⟩ := onVar_some (show onVar s v _ = some t from hs)
    show (s.askH v x).map p m = _
    unfold State.askH
    cases x with
    | none => exact hm
    | some j => dsimp only; rw [use_map s (fun k o => { s with log := s.log ++ [.asked v (s.linked k o)] }) (fun _ _ => rfl) (some j)]; exact hm
  | groupNew g => simp only [live] at hs; split at hs <;> cases hs; exact hm
  | groupDisconnect g =>
    obtain ⟨l, hg, rfl⟩ := onGroup_some (show onGroup s g _ = some t from hs)
    rw [(cuts hI.core l (group_live hI hg)).2.1.map]; exact hm
  | groupDestroy g =>
    obtain ⟨l, hg, rfl⟩ := onGroup_some (show onGroup s g _ = some t from hs)
    obtain ⟨h1, h2, h3, -⟩ := cuts hI.core l (group_live hI hg)
    have hO := own_same hI.own h2 h3
    have hgu : (l.foldl State.cutH s).groups g = some l := by rw [h2.groups]; exact hg
    obtain ⟨-, b, -⟩ := dels h1 l (fun k hk => hO.live k (.inr ⟨g, l, hgu, hk⟩)) (fun k => hO.one g l k hgu)
    show (l.foldl State.del (l.foldl State.cutH s)).map p m = _
    rw [b.map, h2.map]; exact hm
  | disconnectMsg q n =>
    simp only [live] at hs; cases hs
    have : p ≠ q := fun e => by
      have : (q != p) = true := ha
      rw [bne_iff_ne] at this; exact this e.symm
    show (if p = q then _ else _) = _
    rw [if_neg this]; exact hm
  | endProc q =>
    simp only [live] at hs; cases hs
    have : p ≠ q := fun e => by
      have : (q != p) = true := ha
      rw [bne_iff_ne] at this; exact this e.symm
    show (if p = q then _ else _) = _
    rw [if_neg this]; exact hm
  | post q n => simp only [live] at hs; cases hs; exact hm

/-- **C96, in part.** `reconnect` makes the handler be called again, last, if it is not called now — as long as nobody has called `disconnect(msgid)` on this
processor in the meantime (missing: see `reconnect_lost`). -/
theorem reconnect_partial {as bs : List Act} {s t : State} (hr : runs State.start as = some s) {p m k : Nat} (hk : k ∈ s.called p m) (hb : runs s bs = some t)
    (hsp : ∀ a ∈ bs, a.spares p = true) {w : Nat} (hw : t.at (.var w) = some k) :
    ∃ u, step t (.reconnect w) = some u ∧ ∀ q n, u.called q n = if q = p ∧ n = m ∧ k ∉ t.called p m then t.called q n ++ [k] else t.called q n := by
  have hI := reach_inv hr
  obtain ⟨h, hm, hks⟩ := mem_called.mp hk
  obtain ⟨o, ho, rfl, -⟩ := hI.core.slot h k hks
  obtain ⟨hp, hm'⟩ := hI.core.home p m k o ho hm
  have hpt : Inv t ∧ t.map p m = some o.hub ∧ ∃ o', t.objs k = some o' ∧ o'.proc = o.proc ∧ o'.msg = o.msg ∧ o'.hub = o.hub := by
    clear hk hks hr hw
    induction bs generalizing s o with
    | nil => cases hb; exact ⟨hI, hm, o, ho, rfl, rfl, rfl⟩
    | cons a bs ih =>
      unfold runs at hb
      cases hs : step s a with
      | none => rw [hs] at hb; cases hb
      | some u =>
        rw [hs] at hb
        have hI' := inv_step hI hs
        obtain ⟨o1, h1, e1, e2, e3⟩ := fixed_step hI hs ho
        have hm1 := map_step hI hs (hsp a (List.mem_cons_self ..)) hm
        obtain ⟨h5, h6, o2, h7, h8, h9, h10⟩ := ih hb (fun b hb => hsp b (List.mem_cons_of_mem _ hb)) hI' o1 h1 (by rw [e3]; exact hm1) (by rw [e1]; exact hp) (by rw [e2]; exact hm')
        exact ⟨h5, by rw [h6, e3], o2, h7, h8.trans e1, h9.trans e2, h10.trans e3⟩
  obtain ⟨hIt, hmt, o', ho', e1, e2, e3⟩ := hpt
  have hw := at_var.mp hw
  obtain ⟨o2, h2, hd⟩ := var_live hIt hw
  rw [ho'] at h2; cases h2
  refine ⟨t.relink k o', ?_, fun q n => ?_⟩
  · unfold step
    rw [if_neg (by rw [hIt.own.ub]; decide)]
    show onVar t w _ = _
    unfold onVar
    rw [hw]
    show some (t.relinkH (some k)) = _
    rw [show t.relinkH (some k) = t.relink k o' from use_live ho' hd _]
  · have halive : t.alive o' = true := alive_iff.mpr (by rw [e1, e2, e3, ← hp, ← hm']; exact hmt)
    have hcalled : t.called p m = t.slots o.hub := by unfold State.called; rw [hmt]
    unfold State.relink
    by_cases hown : o'.ctor = .own
    · have hnm := own_mem hIt.core ho' hd hown o'.hub
      rw [if_pos ⟨hown, halive⟩, if_neg (by rw [List.contains_iff_mem]; exact hnm)]
      have hnc : k ∉ t.called p m := by rw [hcalled, ← e3]; exact hnm
      by_cases e : q = p ∧ n = m
      · rw [if_pos ⟨e.1, e.2, hnc⟩, e.1, e.2, hcalled]
        unfold State.called
        show (match t.map p m with | some y => upd t.slots o'.hub (t.slots o'.hub ++ [k]) y | none => []) = _
        rw [hmt, e3]; exact upd_same _ _ _
      · rw [if_neg (fun h => e ⟨h.1, h.2.1⟩)]
        unfold State.called
        show (match t.map q n with | some y => upd t.slots o'.hub (t.slots o'.hub ++ [k]) y | none => []) = _
        cases hq : t.map q n with
        | none => rfl
        | some y =>
          dsimp only
          refine upd_ne _ _ ?_
          rintro rfl
          rw [e3] at hq
          exact e (hIt.core.inj q n p m _ hq hmt)
    · rw [if_neg (fun h => hown h.1)]
      have hctor : o'.ctor = .ref := by
        have := hIt.core.full k o' ho'
        cases hc : o'.ctor with
        | ref => rfl
        | own => exact absurd hc hown
        | empty => exact absurd hc this
      have : k ∈ t.called p m := by rw [hcalled, ← e3]; exact hIt.core.ref k o' ho' hctor halive
      rw [if_neg (fun h => h.2.2 this)]

/-- connect, disconnect, reconnect -/
example : (runs State.start [.connect 0 5 1, .connect 0 5 2, .disconnect 1, .post 0 5, .moveNew 3 1, .reconnect 3, .post 0 5, .ask 3, .ask 1]).map (·.log) =
    some [.posted 0 5 [1], .posted 0 5 [1, 0], .asked 3 true, .asked 1 false] := by decide +kernel

/-- groups -/
example : (runs State.start [.connect 0 5 1, .connect 0 6 2, .connect 1 5 3, .groupNew 0, .groupAdd 0 1, .groupAdd 0 3, .destroy 1, .destroy 2, .groupDestroy 0, .post 0 5, .post 0 6, .post 1 5]).map (·.log) =
    some [.posted 0 5 [], .posted 0 6 [1], .posted 1 5 []] := by decide +kernel

/-- **C96, refuted.** `disconnect(msgid)` for other messages destroys the signal of a connection that is disconnected just then; `reconnect` fails silently. -/
theorem reconnect_lost : (runs State.start [.connect 0 5 1, .disconnect 1, .disconnectMsg 0 6, .reconnect 1, .ask 1, .post 0 5]).map (·.log) =
    some [.asked 1 false, .posted 0 5 []] := by decide +kernel

/-- Once its signal is gone, a connection is dead for good. -/
theorem dead_for_good {as bs : List Act} {s t : State} (hr : runs State.start as = some s) {k : Nat} {o : Obj} (hk : s.objs k = some o) (hdead : s.alive o = false) (hb : runs s bs = some t) (p m : Nat) :
    k ∉ t.called p m := by
  have hI := reach_inv hr
  -- the signal's number is not given again
  have key : Inv t ∧ o.hub < t.hubs ∧ (∀ q n, t.map q n ≠ some o.hub) ∧ ∃ o', t.objs k = some o' ∧ o'.hub = o.hub := by
    refine runs_induct (P := fun t => Inv t ∧ o.hub < t.hubs ∧ (∀ q n, t.map q n ≠ some o.hub) ∧ ∃ o', t.objs k = some o' ∧ o'.hub = o.hub) ?_ ?_ hb
    · rintro u v a ⟨hI, hlt, hno, o1, h1, e1⟩ hs
      obtain ⟨o2, h2, -, -, e2⟩ := fixed_step hI hs h1
      have hI' := inv_step hI hs
      refine ⟨hI', ?_, ?_, o2, h2, e2.trans e1⟩
      · have := (hI'.core.known k o2 h2).2
        rw [e2, e1] at this; exact this
      · intro q n hq
        have hs' := step_live hs
        cases a with
        | connect p' m' v' =>
          simp only [live, Conn.connect] at hs'
          split at hs' <;> cases hs'
          have hq : (u.hubFor p' m').1.map q n = some o.hub := hq
          unfold State.hubFor at hq
          cases hm : u.map p' m' with
          | some x => rw [hm] at hq; exact hno q n hq
          | none =>
            rw [hm] at hq
            have hq : upd2 u.map p' m' (some u.hubs) q n = some o.hub := hq
            unfold upd2 at hq
            split at hq
            · have := Option.some.inj hq; omega
            · exact hno q n hq
        | make v' => simp only [live] at hs'; split at hs' <;> cases hs'; exact hno q n hq
        | moveNew v' w' => rw [(moveNew_own hI.own (show Conn.moveNew u v' w' = some v from hs')).2.1] at hq; exact hno q n hq
        | assign v' w' => rw [(assign_own hI.own (show Conn.assign u v' w' = some v from hs')).2.1] at hq; exact hno q n hq
        | groupAdd g v' => rw [(groupAdd_own hI.own (show Conn.groupAdd u g v' = some v from hs')).2.1] at hq; exact hno q n hq
        | destroy v' =>
          obtain ⟨x, hv, rfl⟩ := onVar_some (show onVar u v' _ = some v from hs')
          have hq : (u.del x).map q n = _ := hq
          unfold State.del at hq; rw [use_map u (fun k o => u.setObj k { o with deleted := true }) (fun _ _ => rfl) x] at hq; exact hno q n hq
        | disconnect v' =>
          obtain ⟨x, hv, rfl⟩ := onVar_some (show onVar u v' _ = some v from hs')
          have hq : (u.cutH x).map q n = _ := hq
          unfold State.cutH at hq; rw [use_map u _ (fun k o => (cut_frame u k o).map) x] at hq; exact hno q n hq
        | reconnect v' =>
          obtain ⟨x, hv, rfl⟩ := onVar_some (show onVar u v' _ = some v from hs')
          have hq : (u.relinkH x).map q n = _ := hq
          unfold State.relinkH at hq; rw [use_map u _ (fun k o => (relink_frame u k o).map) x] at hq; exact hno q n hq
        | ask v' =>
          obtain ⟨x, hv, rfl⟩ := onVar_some (show onVar u v' _ = some v from hs')
          have hq : (u.askH v' x).map q n = _ := hq
          unfold State.askH at hq
          cases x with
          | none => exact hno q n hq
          | some j => dsimp only at hq; rw [use_map u (fun k o => { u with log := u.log ++ [.asked v' (u.linked k o)] }) (fun _ _ => rfl) (some j)] at hq; exact hno q n hq
        | groupNew g => simp only [live] at hs'; split at hs' <;> cases hs'; exact hno q n hq
        | groupDisconnect g =>
          obtain ⟨l, hg, rfl⟩ := onGroup_some (show onGroup u g _ = some v from hs')
          rw [(cuts hI.core l (group_live hI hg)).2.1.map] at hq; exact hno q n hq
        | groupDestroy g =>
          obtain ⟨l, hg, rfl⟩ := onGroup_some (show onGroup u g _ = some v from hs')
          obtain ⟨h1, h2, h3, -⟩ := cuts hI.core l (group_live hI hg)
          have hO := own_same hI.own h2 h3
          have hgu : (l.foldl State.cutH u).groups g = some l := by rw [h2.groups]; exact hg
          obtain ⟨-, b, -⟩ := dels h1 l (fun k hk => hO.live k (.inr ⟨g, l, hgu, hk⟩)) (fun k => hO.one g l k hgu)
          have hq : (l.foldl State.del (l.foldl State.cutH u)).map q n = _ := hq
          rw [b.map, h2.map] at hq; exact hno q n hq
        | disconnectMsg p' m' =>
          simp only [live] at hs'; cases hs'
          have hq : (if q = p' then (if n = m' then none else u.cleaned q n) else u.map q n) = some o.hub := hq
          split at hq
          · split at hq
            · cases hq
            · unfold State.cleaned at hq
              split at hq
              · next h e =>
                split at hq
                · cases hq
                · cases hq; exact hno q n e
              · cases hq
          · exact hno q n hq
        | endProc p' =>
          simp only [live] at hs'; cases hs'
          have hq : (if q = p' then none else u.map q n) = some o.hub := hq
          split at hq
          · cases hq
          · exact hno q n hq
        | post p' m' => simp only [live] at hs'; cases hs'; exact hno q n hq
    · refine ⟨hI, (hI.core.known k o hk).2, fun q n hq => ?_, o, hk, rfl⟩
      obtain ⟨rfl, rfl⟩ := hI.core.home q n k o hk hq
      rw [alive_iff.mpr hq] at hdead; cases hdead
  obtain ⟨hIt, -, hno, o', ho', e⟩ := key
  intro hc
  obtain ⟨h, h1, h2⟩ := mem_called.mp hc
  obtain ⟨o2, h3, e2, -⟩ := hIt.core.slot h k h2
  rw [ho'] at h3; cases h3
  exact hno p m (by rw [h1, ← e2, e])

/-! ### Leaks -/

/-- **C96, in part.** If no handle that refers to a connection is assigned to, every connection that is not deleted can be reached by a handle (missing: assignment). -/
theorem no_leak_partial {as : List Act} {s : State} (hr : runs State.start as = some s) (hno : ∀ k, .overwritten k ∉ s.log) {k : Nat} {o : Obj} (hk : s.objs k = some o) (hd : o.deleted = false) :
    ∃ a, s.at a = some k := by
  rcases (reach_inv hr).own.kept k o hk hd with h | h
  · exact held_at.mp h
  · exact absurd h (hno k)

/-- **C96, refuted.** Assigning to a handle leaves the connection it referred to connected, without any handle, and never deleted; a handle moved onto itself loses its
connection. -/
theorem assign_leaks : (runs State.start [.connect 0 5 1, .connect 0 6 2, .assign 1 2, .destroy 1, .destroy 2, .post 0 5]).map (fun s => (s.log, (s.objs 0).map (·.deleted), (s.objs 1).map (·.deleted))) =
      some ([.overwritten 0, .posted 0 5 [0]], some false, some true) ∧
    (runs State.start [.connect 0 5 1, .assign 1 1, .disconnect 1, .destroy 1, .post 0 5]).map (fun s => (s.log, (s.objs 0).map (·.deleted))) =
      some ([.overwritten 0, .posted 0 5 [0]], some false) := by decide +kernel

end Maf.Conn
