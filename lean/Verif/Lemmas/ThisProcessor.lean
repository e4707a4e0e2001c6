import Verif.Spec.ThisProcessor
/-
Invariants of loops on one thread.
-/
namespace Maf.Tl

/-- The loop a frame holds open, and whether it is the one that set the pointer. -/
def Frame.holds : Frame → Option (Lid × Pid × Bool)
  | .init n p set | .loop n p _ set _ | .ready n p _ set _ | .calling n p _ set _ | .leaving n p _ set _ | .closing n p set => some (n, p, set)
  | .fn .. | .deinit _ | .dtor .. | .rest .. => none

def act (fs : List Frame) : List (Lid × Pid × Bool) := fs.filterMap Frame.holds

/-- What the log says about the loop of a frame. -/
def FrameOk (log : List Ev) : Frame → Prop
  | .init n p _ => .entered n p .run ∈ log ∧ .initDone n ∉ log ∧ (∀ v, .deinit n v ∉ log) ∧ .left n ∉ log
  | .loop n p k _ _ | .ready n p k _ _ | .calling n p k _ _ | .leaving n p k _ _ =>
    .entered n p k ∈ log ∧ (k = .run → .initDone n ∈ log) ∧ (∀ v, .deinit n v ∉ log) ∧ .left n ∉ log
  | .closing n p _ => .entered n p .run ∈ log ∧ .initDone n ∈ log ∧ (∃ v, .deinit n v ∈ log) ∧ .left n ∉ log
  | .rest n _ => .left n ∈ log ∧ ∀ p, .entered n p .run ∉ log
  | .fn .. | .deinit _ | .dtor .. => True

def Ev.lid : Ev → Lid
  | .entered n _ _ | .initDone n | .initFailed n | .called n _ _ | .dropped n _ _ | .deinit n _ | .left n => n

/-- Only the outermost loop has set the pointer. -/
def Owns (tl : Option Pid) : List (Lid × Pid × Bool) → Prop
  | [] => tl = none
  | [(_, p, set)] => tl = some p ∧ set = true
  | (_, _, set) :: l => set = false ∧ Owns tl l

structure Inv (s : State) : Prop where
  opens : (act s.stk).map (fun e => (e.1, e.2.1)) = openIn s.log
  nodup : ((act s.stk).map Prod.fst).Nodup
  frames : ∀ f ∈ s.stk, FrameOk s.log f
  ids : ∀ e ∈ s.log, e.lid < s.next
  owns : ¬ InitFails s.log → Owns s.tl (act s.stk)
  hist : Hist EvOk s.log

theorem openIn_snoc (l : List Ev) (e : Ev) : openIn (l ++ [e]) = openStep (openIn l) e := by
  simp [openIn, List.foldl_append]

theorem fails_mono {l : List Ev} {e : Ev} (h : ¬ InitFails (l ++ [e])) : ¬ InitFails l := by
  intro ⟨n, hn⟩; exact h ⟨n, by simp [hn]⟩

theorem owns_outer {tl : Option Pid} {a : List (Lid × Pid × Bool)} (h : Owns tl a) : tl = (a.map (fun e => (e.1, e.2.1))).getLast?.map Prod.snd := by
  induction a with
  | nil => simpa [Owns] using h
  | cons x a ih =>
    obtain ⟨n, p, set⟩ := x
    cases a with
    | nil => simp only [Owns] at h; simp [h.1]
    | cons y a => simp only [Owns] at h; have := ih h.2; simpa [List.getLast?_cons_cons] using this

theorem Inv.outer {s : State} (h : Inv s) (hf : ¬ InitFails s.log) : s.tl = outer s.log := by
  have := owns_outer (h.owns hf); rw [h.opens] at this; exact this

theorem outer_some {l : List Ev} (h : openIn l ≠ []) : outer l ≠ none := by
  simp [outer, h]

theorem owns_push {s : State} {a : List (Lid × Pid × Bool)} (h : Owns s.tl a) (n : Lid) (p : Pid) :
    Owns (setTl s p) ((n, p, s.tl.isNone) :: a) := by
  cases a with
  | nil => simp only [Owns] at h; simp [Owns, setTl, h]
  | cons y a =>
    have ht : s.tl ≠ none := by
      rw [owns_outer h]; simp [List.getLast?_eq_some_getLast]
    cases hq : s.tl with
    | none => simp [hq] at ht
    | some q => rw [hq] at h; simp only [setTl, hq]; exact ⟨rfl, h⟩

theorem owns_pop {tl : Option Pid} {a : List (Lid × Pid × Bool)} {n : Lid} {p : Pid} {set : Bool} (h : Owns tl ((n, p, set) :: a)) :
    Owns (if set then none else tl) a := by
  cases a with
  | nil => simp only [Owns] at h; simp [h.2, Owns]
  | cons y a => simp only [Owns] at h; simp [h.1, h.2]

/-- A frame keeps its facts when the log says something about another loop. -/
theorem frame_other {l : List Ev} {f : Frame} {e : Ev} (h : FrameOk l f) (hn : ∀ p set, f.holds = some (e.lid, p, set) → (∃ x v, e = .called n x v ∨ e = .dropped n x v))
    (hr : ∀ m p k exc, e = .entered m p k → f ≠ .rest m exc) : FrameOk (l ++ [e]) f := by
  have hn : ∀ p set, f.holds = some (e.lid, p, set) → (∀ m, e ≠ .initDone m) ∧ (∀ m v, e ≠ .deinit m v) ∧ ∀ m, e ≠ .left m := by
    intro p set he
    obtain ⟨x, v, rfl | rfl⟩ := hn p set he <;> simp
  have hr : ∀ exc, f = .rest e.lid exc → ∀ m p k, e ≠ .entered m p k := by
    intro exc he m p k hk; subst hk; exact hr m p k exc rfl he
  cases e <;> simp only [Ev.lid] at hn hr <;> cases f <;>
    simp only [FrameOk, Frame.holds, List.mem_append, List.mem_singleton, reduceCtorEq, or_false, Option.some.injEq, Prod.mk.injEq, Frame.rest.injEq, Ev.entered.injEq, ne_eq] at * <;> grind

theorem holds_lid {fs : List Frame} {n : Lid} (h : n ∉ (act fs).map Prod.fst) {f : Frame} (hf : f ∈ fs) {p : Pid} {set : Bool} : f.holds ≠ some (n, p, set) := by
  intro he; apply h; simp only [act, List.mem_map, List.mem_filterMap]; exact ⟨_, ⟨f, hf, he⟩, rfl⟩

/-- No event: the stack holds the same loops. -/
theorem Inv.quiet {s t : State} (h : Inv s) (hl : t.log = s.log) (ht : t.tl = s.tl) (hx : t.next = s.next)
    (ha : act t.stk = act s.stk) (hf : ∀ f ∈ t.stk, FrameOk s.log f) : Inv t := by
  refine ⟨?_, ?_, ?_, ?_, ?_, ?_⟩
  · rw [hl, ha]; exact h.opens
  · rw [ha]; exact h.nodup
  · rw [hl]; exact hf
  · rw [hl, hx]; exact h.ids
  · rw [hl, ha, ht]; exact h.owns
  · rw [hl]; exact h.hist

/-- One event that opens and closes nothing. -/
theorem Inv.say {s t : State} (h : Inv s) (e : Ev) (hl : t.log = s.log ++ [e]) (ht : t.tl = s.tl) (hx : t.next = s.next)
    (ha : act t.stk = act s.stk) (hf : ∀ f ∈ t.stk, FrameOk (s.log ++ [e]) f) (he : openStep (openIn s.log) e = openIn s.log) (hi : e.lid < s.next) (hr : EvOk s.log e) : Inv t := by
  refine ⟨?_, ?_, ?_, ?_, ?_, ?_⟩
  · rw [hl, ha, openIn_snoc, he]; exact h.opens
  · rw [ha]; exact h.nodup
  · rw [hl]; exact hf
  · rw [hl, hx]; intro e' h'; simp only [List.mem_append, List.mem_singleton] at h'; rcases h' with h' | rfl
    · exact h.ids _ h'
    · exact hi
  · rw [hl, ha, ht]; intro hn; exact h.owns (fails_mono hn)
  · rw [hl]; exact h.hist.one hr

/-- A loop is left. -/
theorem Inv.pop {s t : State} (h : Inv s) (e : Ev) {n : Lid} {p : Pid} {set : Bool} (hl : t.log = s.log ++ [e]) (hx : t.next = s.next)
    (ha : act s.stk = (n, p, set) :: act t.stk) (hf : ∀ f ∈ t.stk, FrameOk (s.log ++ [e]) f)
    (he : (e = .left n ∧ t.tl = clearTl s set) ∨ e = .initFailed n) (hi : n < s.next) (hr : EvOk s.log e) : Inv t := by
  have ho := h.opens
  rw [ha] at ho
  refine ⟨?_, ?_, ?_, ?_, ?_, ?_⟩
  · rw [hl, openIn_snoc, ← ho]; rcases he with ⟨rfl, -⟩ | rfl <;> simp [openStep]
  · have := h.nodup; rw [ha] at this; simp only [List.map_cons, List.nodup_cons] at this; exact this.2
  · rw [hl]; exact hf
  · rw [hl, hx]; intro e' h'; simp only [List.mem_append, List.mem_singleton] at h'; rcases h' with h' | rfl
    · exact h.ids _ h'
    · rcases he with ⟨rfl, -⟩ | rfl <;> exact hi
  · rw [hl]; intro hn
    rcases he with ⟨rfl, he⟩ | rfl
    · have := h.owns (fails_mono hn)
      rw [ha] at this
      rw [he]; exact owns_pop this
    · exact absurd ⟨n, by simp⟩ hn
  · rw [hl]; exact h.hist.one hr

theorem Inv.uniq {s : State} (h : Inv s) {n : Lid} {p q : Pid} {k k' : Kind} (h1 : .entered n p k ∈ s.log) (h2 : .entered n q k' ∈ s.log) : k = k' := by
  obtain ⟨a, b, e1⟩ := List.append_of_mem h1
  obtain ⟨c, d, e2⟩ := List.append_of_mem h2
  rcases places (e1.symm.trans e2) with ⟨-, he, -⟩ | he | he
  · simp at he; exact he.2
  · obtain ⟨c, rfl, -⟩ := he; exact absurd (by simp) (h.hist.all _ _ _ e2 p k)
  · obtain ⟨c, rfl, -⟩ := he; exact absurd (by simp) (h.hist.all _ _ _ e1 q k')

theorem inv_start : Inv start := by
  refine ⟨rfl, ?_, ?_, ?_, ?_, Hist.nil⟩
  · simp [start, act]
  · simp [start]
  · simp [start]
  · intro _; rfl

/-- The frames below the top when the log says something about the top frame's loop. -/
theorem Inv.below {s : State} (h : Inv s) {g : Frame} {fs : List Frame} (hs : s.stk = g :: fs) {n : Lid} {p : Pid} {set : Bool} (hg : g.holds = some (n, p, set))
    {e : Ev} (he : e.lid = n) (hne : ∀ m p k, e ≠ .entered m p k) : ∀ f ∈ fs, FrameOk (s.log ++ [e]) f := by
  intro f hf
  have hn := h.nodup
  rw [hs] at hn
  have ha : act (g :: fs) = (n, p, set) :: act fs := by simp [act, hg]
  rw [ha] at hn
  simp only [List.map_cons, List.nodup_cons] at hn
  refine frame_other (n := n) (h.frames f (by rw [hs]; simp [hf])) ?_ (fun m p k _ h' => absurd h' (hne m p k))
  intro p' set' h'
  rw [he] at h'
  exact absurd h' (holds_lid hn.1 hf)

theorem Inv.harmless {s : State} (h : Inv s) {e : Ev} {n : Lid} {x : Item} {v : Option Pid} (he : e = .called n x v ∨ e = .dropped n x v) : ∀ f ∈ s.stk, FrameOk (s.log ++ [e]) f := by
  intro f hf
  exact frame_other (n := n) (h.frames f hf) (fun _ _ _ => ⟨x, v, he⟩) (by intro m p k exc h'; rcases he with rfl | rfl <;> simp at h')

theorem Inv.top_open {s : State} (h : Inv s) {g : Frame} {fs : List Frame} (hs : s.stk = g :: fs) {n : Lid} {p : Pid} {set : Bool} (hg : g.holds = some (n, p, set)) :
    (n, p) ∈ openIn s.log := by
  rw [← h.opens, hs]; simp [act, hg]

theorem inv_enter {s t : State} (h : Inv s) {p : Pid} {k : Kind} (hs : step s (.enter p k) = some t) : Inv t := by
  simp only [step] at hs
  split at hs
  · simp at hs
  split at hs
  case isFalse => simp at hs
  case isTrue hc =>
  simp only [Option.some.injEq] at hs
  subst hs
  have hfresh : s.next ∉ (act s.stk).map Prod.fst := by
    intro hm
    simp only [List.mem_map, act, List.mem_filterMap] at hm
    obtain ⟨⟨n, q, b⟩, ⟨f, hf, he⟩, hn⟩ := hm
    simp only at hn; subst hn
    have hk := h.frames f hf
    have hi := h.ids
    cases f <;> simp only [Frame.holds, Option.some.injEq, Prod.mk.injEq, reduceCtorEq] at he <;>
      simp only [FrameOk] at hk <;> (have := hi _ hk.1; simp only [Ev.lid] at this; exact absurd he.1 (Nat.ne_of_lt this))
  have hno : ∀ e ∈ s.log, e.lid ≠ s.next := fun e he => Nat.ne_of_lt (h.ids e he)
  have ha : act ((if k = .run then Frame.init s.next p s.tl.isNone else .loop s.next p k s.tl.isNone none) :: s.stk) = (s.next, p, s.tl.isNone) :: act s.stk := by
    by_cases hk : k = .run <;> simp [hk, act, Frame.holds]
  refine ⟨?_, ?_, ?_, ?_, ?_, ?_⟩
  · simp only [ha, openIn_snoc, openStep, List.map_cons]; rw [h.opens]
  · simp only [ha, List.map_cons, List.nodup_cons]; exact ⟨hfresh, h.nodup⟩
  · intro f hf
    simp only [List.mem_cons] at hf
    rcases hf with rfl | hf
    · by_cases hk : k = .run
      · subst hk
        simp only [if_true, FrameOk, List.mem_append, List.mem_singleton]
        refine ⟨.inr trivial, ?_, ?_, ?_⟩ <;> grind [Ev.lid]
      · simp only [if_neg hk, FrameOk, List.mem_append, List.mem_singleton]
        refine ⟨.inr trivial, fun h => absurd h hk, ?_, ?_⟩ <;> grind [Ev.lid]
    · refine frame_other (n := 0) (h.frames f hf) ?_ ?_
      · intro p' set' h'
        exact absurd h' (holds_lid hfresh hf)
      · intro m p' k' exc h' hr
        simp only [Ev.entered.injEq] at h'
        subst hr
        exact hno _ (h.frames _ hf).1 h'.1.symm
  · intro e he
    simp only [List.mem_append, List.mem_singleton] at he
    rcases he with he | rfl
    · exact Nat.lt_succ_of_lt (h.ids e he)
    · exact Nat.lt_succ_self _
  · intro hn
    simp only [ha]
    exact owns_push (h.owns (fails_mono hn)) _ _
  · refine h.hist.one ?_
    intro q k' hm
    exact hno _ hm rfl

theorem inv_take {s t : State} (h : Inv s) {x : Item} (hs : step s (.take x) = some t) : Inv t := by
  simp only [step] at hs
  split at hs
  · simp at hs
  split at hs
  · rename_i n p k set fs hst
    simp only [Option.some.injEq] at hs; subst hs
    have hk := h.frames _ (by rw [hst]; exact List.mem_cons_self)
    refine h.quiet rfl rfl rfl (by rw [hst]; rfl) ?_
    intro f hf
    simp only [List.mem_cons] at hf
    rcases hf with rfl | hf
    · exact hk
    · exact h.frames f (by rw [hst]; simp [hf])
  · rename_i n p k set y fs hst
    simp only [Option.some.injEq] at hs; subst hs
    have hk := h.frames _ (by rw [hst]; exact List.mem_cons_self)
    have hh := h.harmless (e := .dropped n y s.tl) (.inr rfl)
    have ho := h.top_open hst (p := p) (set := set) rfl
    have hlt : n < s.next := h.ids _ hk.1
    refine h.say (.dropped n y s.tl) rfl rfl rfl (by rw [hst]; rfl) ?_ rfl hlt ?_
    · intro f hf
      simp only [List.mem_cons] at hf
      rcases hf with rfl | rfl | hf
      · trivial
      · exact hh (.loop n p k set (some y)) (by rw [hst]; simp)
      · exact hh f (by rw [hst]; simp [hf])
    · refine ⟨?_, fun _ _ => hk.2.2.2⟩
      intro hn
      have := h.outer hn
      exact ⟨this, fun _ => by rw [this]; exact outer_some (List.ne_nil_of_mem ho)⟩
  · simp at hs

theorem inv_giveUp {s t : State} (h : Inv s) (hs : step s .giveUp = some t) : Inv t := by
  simp only [step] at hs
  split at hs
  · simp at hs
  split at hs
  · rename_i n p k set exc fs hst
    simp only [Option.some.injEq] at hs; subst hs
    have hk := h.frames _ (by rw [hst]; exact List.mem_cons_self)
    refine h.quiet rfl rfl rfl (by rw [hst]; rfl) ?_
    intro f hf
    simp only [List.mem_cons] at hf
    rcases hf with rfl | hf
    · exact hk
    · exact h.frames f (by rw [hst]; simp [hf])
  · simp at hs

theorem inv_ret {s t : State} (h : Inv s) (hs : doRet s = some t) : Inv t := by
  simp only [doRet] at hs
  split at hs
  · rename_i n' x' n p k set x fs hst
    simp only [Option.some.injEq] at hs; subst hs
    have hk : FrameOk s.log (.calling n p k set x) := h.frames _ (by rw [hst]; simp)
    refine h.quiet rfl rfl rfl ?_ ?_
    · rw [hst]; by_cases hk' : k = .once
      · rw [if_pos hk']; rfl
      · rw [if_neg hk']; rfl
    intro f hf
    simp only [List.mem_cons] at hf
    rcases hf with rfl | hf
    · by_cases hk' : k = .once
      · rw [if_pos hk']; exact hk
      · rw [if_neg hk']; exact hk
    · exact h.frames f (by rw [hst]; simp [hf])
  · rename_i n p set fs hst
    simp only [Option.some.injEq] at hs; subst hs
    have hk := h.frames _ (by rw [hst]; exact List.mem_cons_self)
    have hb := h.below hst (p := p) (set := set) rfl (e := .initDone n) rfl (by simp)
    simp only [FrameOk] at hk
    have hlt : n < s.next := h.ids _ hk.1
    refine h.say (.initDone n) rfl rfl rfl (by rw [hst]; rfl) ?_ rfl hlt ⟨hk.2.1, p, hk.1⟩
    intro f hf
    simp only [List.mem_cons] at hf
    rcases hf with rfl | hf
    · simp only [FrameOk, List.mem_append, List.mem_singleton, reduceCtorEq, or_false, hk.1, hk.2.2, not_false_eq_true, implies_true, and_true, true_and, or_true]
    · exact hb f hf
  · rename_i n fs hst
    simp only [Option.some.injEq] at hs; subst hs
    exact h.quiet rfl rfl rfl (by rw [hst]; rfl) (fun f hf => h.frames f (by rw [hst]; exact List.mem_cons_of_mem _ hf))
  · rename_i n x fs hst
    simp only [Option.some.injEq] at hs; subst hs
    exact h.quiet rfl rfl rfl (by rw [hst]; rfl) (fun f hf => h.frames f (by rw [hst]; exact List.mem_cons_of_mem _ hf))
  · simp at hs

theorem inv_throw {s t : State} (h : Inv s) (hs : doThrow s = some t) : Inv t := by
  simp only [doThrow] at hs
  split at hs
  · rename_i n' x' n p k set x fs hst
    simp only [Option.some.injEq] at hs; subst hs
    have hk : FrameOk s.log (.calling n p k set x) := h.frames _ (by rw [hst]; simp)
    refine h.quiet rfl rfl rfl (by rw [hst]; rfl) ?_
    intro f hf
    simp only [List.mem_cons] at hf
    rcases hf with rfl | hf
    · exact hk
    · exact h.frames f (by rw [hst]; simp [hf])
  · rename_i n p set fs hst
    simp only [Option.some.injEq] at hs; subst hs
    have hk := h.frames _ (by rw [hst]; exact List.mem_cons_self)
    have hb := h.below hst (p := p) (set := set) rfl (e := .initFailed n) rfl (by simp)
    simp only [FrameOk] at hk
    have hlt : n < s.next := h.ids _ hk.1
    exact h.pop (.initFailed n) (n := n) (p := p) (set := set) rfl rfl (by rw [hst]; rfl) hb (.inr rfl) hlt ⟨hk.2.1, p, hk.1⟩
  · simp only [Option.some.injEq] at hs; subst hs
    exact h.quiet rfl rfl rfl rfl h.frames
  · simp only [Option.some.injEq] at hs; subst hs
    exact h.quiet rfl rfl rfl rfl h.frames
  · simp at hs

theorem inv_go {s t : State} (h : Inv s) (hs : doGo s = some t) : Inv t := by
  simp only [doGo] at hs
  split at hs
  · rename_i n p k set x fs hst
    simp only [Option.some.injEq] at hs; subst hs
    have hk := h.frames _ (by rw [hst]; exact List.mem_cons_self)
    have hh := h.harmless (e := .called n x s.tl) (.inl rfl)
    have ho := h.top_open hst (p := p) (set := set) rfl
    simp only [FrameOk] at hk
    have hlt : n < s.next := h.ids _ hk.1
    refine h.say (.called n x s.tl) rfl rfl rfl (by rw [hst]; rfl) ?_ rfl hlt ⟨⟨p, k, hk.1, hk.2.1, ho⟩, hk.2.2.1, h.outer⟩
    intro f hf
    simp only [List.mem_cons] at hf
    rcases hf with rfl | rfl | hf
    · trivial
    · exact hh (.ready n p k set x) (by rw [hst]; simp)
    · exact hh f (by rw [hst]; simp [hf])
  · rename_i n p k set exc fs hst
    have hk := h.frames _ (by rw [hst]; exact List.mem_cons_self)
    have ho := h.top_open hst (p := p) (set := set) rfl
    split at hs
    · rename_i x
      simp only [Option.some.injEq] at hs; subst hs
      have hh := h.harmless (e := .dropped n x s.tl) (.inr rfl)
      have hlt : n < s.next := h.ids _ hk.1
      refine h.say (.dropped n x s.tl) rfl rfl rfl (by rw [hst]; rfl) ?_ rfl hlt ?_
      · intro f hf
        simp only [List.mem_cons] at hf
        rcases hf with rfl | rfl | hf
        · trivial
        · exact hh (.leaving n p .run set (some x)) (by rw [hst]; simp)
        · exact hh f (by rw [hst]; simp [hf])
      · refine ⟨?_, fun _ _ => hk.2.2.2⟩
        intro hn
        have := h.outer hn
        exact ⟨this, fun _ => by rw [this]; exact outer_some (List.ne_nil_of_mem ho)⟩
    · simp only [Option.some.injEq] at hs; subst hs
      have hb := h.below hst (p := p) (set := set) rfl (e := .deinit n s.tl) rfl (by simp)
      simp only [FrameOk, forall_const] at hk
      have hlt : n < s.next := h.ids _ hk.1
      refine h.say (.deinit n s.tl) rfl rfl rfl (by rw [hst]; rfl) ?_ rfl hlt ⟨hk.2.1, hk.2.2.1, h.outer⟩
      intro f hf
      simp only [List.mem_cons] at hf
      rcases hf with rfl | rfl | hf
      · trivial
      · refine ⟨by simp [hk.1], by simp [hk.2.1], ⟨s.tl, by simp⟩, by simp [hk.2.2.2]⟩
      · exact hb f hf
    · rename_i hx hy
      simp only [Option.some.injEq] at hs; subst hs
      have hb := h.below hst (p := p) (set := set) rfl (e := .left n) rfl (by simp)
      have hkr : k ≠ .run := by
        intro he; subst he
        cases exc with
        | none => exact hy rfl rfl
        | some x => exact hx x rfl rfl
      have hlt : n < s.next := h.ids _ hk.1
      refine h.pop (.left n) (n := n) (p := p) (set := set) rfl rfl (by rw [hst]; rfl) ?_ (.inl ⟨rfl, rfl⟩) hlt ⟨hk.2.2.2, p, k, hk.1, fun h => absurd h hkr⟩
      intro f hf
      simp only [List.mem_cons] at hf
      rcases hf with rfl | hf
      · refine ⟨by simp, ?_⟩
        intro q hq
        simp only [List.mem_append, List.mem_singleton, reduceCtorEq, or_false] at hq
        exact hkr (h.uniq hk.1 hq)
      · exact hb f hf
  · rename_i n p set fs hst
    simp only [Option.some.injEq] at hs; subst hs
    have hk := h.frames _ (by rw [hst]; exact List.mem_cons_self)
    have hb := h.below hst (p := p) (set := set) rfl (e := .left n) rfl (by simp)
    have hlt : n < s.next := h.ids _ hk.1
    exact h.pop (.left n) (n := n) (p := p) (set := set) rfl rfl (by rw [hst]; rfl) hb (.inl ⟨rfl, rfl⟩) hlt ⟨hk.2.2.2, p, .run, hk.1, fun _ => hk.2.2.1⟩
  · rename_i n x fs hst
    simp only [Option.some.injEq] at hs; subst hs
    have hk := h.frames _ (by rw [hst]; exact List.mem_cons_self)
    have hh := h.harmless (e := .dropped n x s.tl) (.inr rfl)
    simp only [FrameOk] at hk
    have hlt : n < s.next := h.ids _ hk.1
    refine h.say (.dropped n x s.tl) rfl rfl rfl (by rw [hst]; rfl) ?_ rfl hlt ?_
    · intro f hf
      simp only [List.mem_cons] at hf
      rcases hf with rfl | rfl | hf
      · trivial
      · simp [FrameOk, hk.1, hk.2]
      · exact hh f (by rw [hst]; simp [hf])
    · refine ⟨?_, fun p hp => absurd hp (hk.2 p)⟩
      intro hn
      exact ⟨h.outer hn, fun hc => absurd hk.1 hc⟩
  · rename_i n fs hst
    simp only [Option.some.injEq] at hs; subst hs
    exact h.quiet rfl rfl rfl (by rw [hst]; rfl) (fun f hf => h.frames f (by rw [hst]; exact List.mem_cons_of_mem _ hf))
  · simp at hs

theorem step_alive {s t : State} {a : Act} (hs : step s a = some t) : s.dead = false := by
  cases hd : s.dead
  · rfl
  · simp [step, hd] at hs

theorem inv_step {s t : State} {a : Act} (h : Inv s) (hs : step s a = some t) : Inv t := by
  have hd := step_alive hs
  cases a with
  | enter p k => exact inv_enter h hs
  | take x => exact inv_take h hs
  | giveUp => exact inv_giveUp h hs
  | ret => simp only [step, hd] at hs; exact inv_ret h hs
  | throw => simp only [step, hd] at hs; exact inv_throw h hs
  | go => simp only [step, hd] at hs; exact inv_go h hs

theorem run_induct {P : State → Prop} (hstep : ∀ s t a, P s → step s a = some t → P t) {as : List Act} {s t : State} (h : P s) (hr : run s as = some t) : P t := by
  induction as generalizing s with
  | nil => simp only [run, Option.some.injEq] at hr; subst hr; exact h
  | cons a as ih =>
    simp only [run, Option.bind_eq_some_iff] at hr
    obtain ⟨u, hu, hr⟩ := hr
    exact ih (hstep _ _ _ h hu) hr

theorem inv_run {as : List Act} {t : State} (hr : run start as = some t) : Inv t :=
  run_induct (fun _ _ _ => inv_step) inv_start hr

end Maf.Tl
