import Verif.Spec.StatusPost
import Verif.Props.Processor
import Verif.Lemmas.Hist
/-
Lemmas on observers that post the status of a service.
-/
namespace Maf.Proc

/-- The message of the `post` that a thread is in. -/
def posting : List Frame → Option Msg
  | .post1 m :: _ => some m
  | .post2 m _ :: _ => some m
  | .async (.msg m) :: _ => some m
  | .push1 (.msg m) :: _ => some m
  | .push2 (.msg m) :: _ => some m
  | _ => none

theorem posting_user {l : List Frame} (h : atUser l = true) : posting l = none := by
  cases l with
  | nil => rfl
  | cons f r => cases f <;> simp_all [atUser, Frame.isUser, posting]

theorem posting_loop {l : List Frame} (h : atLoop l = true) : posting l = none := by
  cases l with
  | nil => rfl
  | cons f r => cases f <;> simp_all [atLoop, posting]

/-- What a step does, as far as posts are concerned. -/
inductive PostStep (a : Act) (st st' : List Frame) (b : List Ev) : Prop where
  | refused (m : Msg) (ha : a = .callPost a.tid m) (h1 : posting st = none) (h2 : posting st' = none) (hb : b = [.asked a.tid (.msg m), .result a.tid (.msg m) false])
  | called (m : Msg) (ha : a = .callPost a.tid m) (h1 : posting st = none) (h2 : posting st' = some m) (hb : b = [.asked a.tid (.msg m)])
  | goes (m : Msg) (h1 : posting st = some m) (h2 : posting st' = some m) (he : entries b = []) (hn : ∀ u w, .asked u (.msg w) ∉ b)
  | returns (m : Msg) (r : Bool) (h1 : posting st = some m) (h2 : posting st' = none) (he : entries b = [] ∨ entries b = [.msg m]) (hr : .result a.tid (.msg m) r ∈ b) (hn : ∀ u w, .asked u (.msg w) ∉ b)
  | other (h1 : posting st = none) (h2 : posting st' = none) (he : entries b = [] ∨ ∃ n, entries b = [.exec n]) (hn : ∀ u w, .asked u (.msg w) ∉ b)

/-- What `release` adds to a signal's history. -/
noncomputable def relEs (s : State) (t g : Nat) : List (Sig.Ev Msg) := (release_eq s t g).choose_spec.choose_spec.choose

theorem release_log (s : State) (t g : Nat) : (release s t g).log = s.log ++ (relEs s t g).map (Ev.sig t g) :=
  congrArg State.log (release_eq s t g).choose_spec.choose_spec.choose_spec

theorem post_step {s s' : State} {a : Act} (hw : ∀ t, wf (s.stk t) = true) (hs : step s a = some s') :
    ∃ b, s'.log = s.log ++ b ∧ PostStep a (s.stk a.tid) (s'.stk a.tid) b := by
  replace hs := (step_body hs).2
  have top : ∀ {t f rest}, s.stk t = f :: rest → fits f rest = true ∧ wf rest = true := by
    intro t f rest e; have := hw t; rw [e] at this; simpa [wf] using this
  peel
  all_goals try simp only [release_log, release_stk]
  all_goals simp only [Act.tid, upd_same, List.append_assoc]
  all_goals first
    | refine ⟨[], (List.append_nil _).symm, ?_⟩
    | refine ⟨_, rfl, ?_⟩
  all_goals try (have hst := ‹s.stk _ = _›; have htop := top hst; simp only [fits] at htop)
  all_goals try (have hcc := ‹¬ canCall s _ = false›; simp only [canCall_iff, Bool.not_eq_false] at hcc; have hp := posting_user hcc)
  all_goals first
    | (refine .other ?_ ?_ ?_ ?_ <;> first | (simp_all [posting, entries, posting_user, posting_loop]; done) | (simp_all [posting, entries]; exact posting_user htop.1) | (simp_all [posting, entries]; exact posting_loop htop.1); done)
    | (refine .goes _ ?_ ?_ ?_ ?_ <;> first | (rw [hst]; rfl) | (simp_all [posting, entries]; done); done)
    | exact .refused _ rfl hp hp rfl
    | exact .called _ rfl hp rfl rfl
    | (refine .goes _ (by rw [hst]; rfl) rfl (by simp [entries]) (by simp); done)
    | (refine .other (by rw [hst]; rfl) ?_ (by simp [entries]) (by simp); cases ‹List Frame› <;> simp_all [posting]; done)
    | (refine .returns _ false (by rw [hst]; rfl) (posting_user htop.1) (Or.inl ?_) ?_ ?_ <;> first | (simp [hst, entries, posting]; done) | (simp [Act.tid]; done))
    | (cases ‹Work› <;> first
        | (refine .goes _ (by rw [hst]; rfl) rfl (by simp [entries]) (by simp); done)
        | (refine .returns _ false (by rw [hst]; rfl) (posting_user htop.1) (Or.inl ?_) ?_ ?_ <;> first | (simp [hst, entries, posting]; done) | (simp [Act.tid]; done))
        | (refine .returns _ true (by rw [hst]; rfl) (posting_user htop.1) (Or.inl ?_) ?_ ?_ <;> first | (simp [hst, entries, posting]; done) | (simp [Act.tid]; done))
        | (refine .returns _ true (by rw [hst]; rfl) (posting_user htop.1) (Or.inr ?_) ?_ ?_ <;> first | (simp [hst, entries, posting]; done) | (simp [Act.tid]; done))
        | (refine .other (by rw [hst]; rfl) (posting_user htop.1) (by simp [entries]) (by simp); done)
        | (refine .other (by rw [hst]; rfl) rfl (by simp [entries]) (by simp); done)
        | skip)
    | skip

/-- The message whose handlers a thread is about to look up. -/
def looking : List Frame → Option Msg
  | .lookup m :: _ => some m
  | _ => none

theorem looking_user {l : List Frame} (h : atUser l = true) : looking l = none := by
  cases l with
  | nil => rfl
  | cons f r => cases f <;> simp_all [atUser, Frame.isUser, looking]

theorem looking_loop {l : List Frame} (h : atLoop l = true) : looking l = none := by
  cases l with
  | nil => rfl
  | cons f r => cases f <;> simp_all [atLoop, looking]

theorem look_step {s s' : State} {a : Act} (hw : ∀ t, wf (s.stk t) = true) (hs : step s a = some s') :
    ∃ b, s'.log = s.log ++ b ∧ (∀ m, looking (s'.stk a.tid) = some m → .ran a.tid (.msg m) ∈ b) ∧
      ∀ t d m o, .processing t d m o ∈ b → t = a.tid ∧ looking (s.stk a.tid) = some m := by
  replace hs := (step_body hs).2
  have top : ∀ {t f rest}, s.stk t = f :: rest → fits f rest = true ∧ wf rest = true := by
    intro t f rest e; have := hw t; rw [e] at this; simpa [wf] using this
  peel
  all_goals try simp only [release_log, release_stk]
  all_goals simp only [Act.tid, upd_same, List.append_assoc]
  all_goals first
    | refine ⟨[], (List.append_nil _).symm, ?_⟩
    | refine ⟨_, rfl, ?_⟩
  all_goals try (have hst := ‹s.stk _ = _›; have htop := top hst; simp only [fits] at htop)
  all_goals try (have hcc := ‹¬ canCall s _ = false›; simp only [canCall_iff, Bool.not_eq_false] at hcc; have hp := looking_user hcc)
  all_goals refine ⟨?_, ?_⟩
  all_goals try (simp_all [looking, looking_user, looking_loop]; done)
  all_goals try (cases ‹Work› <;> simp_all [looking, looking_user, looking_loop]; done)
  all_goals try (cases ‹List Frame› <;> simp_all [looking]; done)
  all_goals try (intro m hm; rw [looking_user htop.1] at hm; cases hm; done)
  all_goals try (intro m hm; rw [looking_loop htop.1] at hm; cases hm; done)

theorem looked (acts : List Act) (s : State) (h : run init acts = some s) :
    (∀ t m, looking (s.stk t) = some m → .ran t (.msg m) ∈ s.log) ∧ ∀ t d m o, .processing t d m o ∈ s.log → .ran t (.msg m) ∈ s.log := by
  have := run_inv (fun s => Full s ∧ (∀ t m, looking (s.stk t) = some m → .ran t (.msg m) ∈ s.log) ∧ ∀ t d m o, .processing t d m o ∈ s.log → .ran t (.msg m) ∈ s.log)
    ⟨full_init, by simp [init, looking]⟩ ?_ acts s h
  · exact this.2
  · rintro s a s' ⟨hf, h1, h2⟩ hs
    refine ⟨full_step hf hs, ?_⟩
    obtain ⟨b, hb, h3, h4⟩ := look_step hf.base.wf hs
    have ho := (step_other hs).1
    refine ⟨?_, ?_⟩
    · intro t m hm
      rw [hb]
      by_cases ht : t = a.tid
      · subst ht; exact List.mem_append_right _ (h3 m hm)
      · rw [(ho t ht).1] at hm; exact List.mem_append_left _ (h1 t m hm)
    · intro t d m o hm
      rw [hb] at hm ⊢
      rcases List.mem_append.1 hm with hm | hm
      · exact List.mem_append_left _ (h2 t d m o hm)
      · obtain ⟨rfl, hl⟩ := h4 t d m o hm
        exact List.mem_append_left _ (h1 _ _ hl)

end Maf.Proc

namespace Maf.Sso
open Maf.Proc (Tid posting PostStep)
open Maf.Watch (Avail)

/-- The change that is being told, and to whom it is still to be told. -/
def phaseStep (acc : Option (Avail × Avail × List Nat)) : Ev → Option (Avail × Avail × List Nat)
  | .locked x y l => some (x, y, l)
  | .unlocked => none
  | .told .. => acc.map fun (x, y, l) => (x, y, l.tail)
  | _ => acc

def phase (l : List Ev) : Option (Avail × Avail × List Nat) := l.foldl phaseStep none

def Rule (l : List Ev) : Ev → Prop
  | .locked _ _ m => phase l = none ∧ m = listedIn l
  | .unlocked => ∃ x y, phase l = some (x, y, [])
  | .told _ o x y _ => ∃ r, phase l = some (x, y, o :: r)
  | .registered .. => phase l = none
  | .unregistered _ => phase l = none
  | .lost n => .gone ∈ l ∧ ∃ l0 e t, l = l0 ++ [e] ∧ IsNote e n t
  | .proc (.asked t (.msg m)) => m.ty = statusTy → .gone ∉ l ∧ ∃ l0 e, l = l0 ++ [e] ∧ IsNote e m.val t
  | _ => True

@[simp] theorem procOf_append (a b : List Ev) : procOf (a ++ b) = procOf a ++ procOf b := by simp [procOf]
@[simp] theorem procOf_map (b : List Proc.Ev) : procOf (b.map .proc) = b := by induction b <;> simp_all [procOf]
@[simp] theorem notes_append (a b : List Ev) : notes (a ++ b) = notes a ++ notes b := by simp [notes]
@[simp] theorem notes_map (b : List Proc.Ev) : notes (b.map .proc) = [] := by simp [notes, noteNo]
@[simp] theorem changes_append (a b : List Ev) : changes (a ++ b) = changes a ++ changes b := by simp [changes]
@[simp] theorem changes_map (b : List Proc.Ev) : changes (b.map .proc) = [] := by simp [changes, changeNo]
@[simp] theorem queued_append (a b : List Ev) : queued (a ++ b) = queued a ++ queued b := by simp [queued]
@[simp] theorem queued_map (b : List Proc.Ev) : queued (b.map .proc) = (Proc.entries b).filterMap noOf := by simp [queued]
theorem phase_append (a b : List Ev) : phase (a ++ b) = b.foldl phaseStep (phase a) := by simp [phase]
theorem phase_map (acc) (b : List Proc.Ev) : (b.map Ev.proc).foldl phaseStep acc = acc := by induction b <;> simp_all [phaseStep]
theorem listed_append (a b : List Ev) : listedIn (a ++ b) = b.foldl listStep (listedIn a) := by simp [listedIn]
theorem listed_map (acc) (b : List Proc.Ev) : (b.map Ev.proc).foldl listStep acc = acc := by induction b <;> simp_all [listStep]

theorem changes_notes {l : List Ev} {n : Nat} (h : n ∈ changes l) : n ∈ notes l := by
  simp only [changes, notes, List.mem_filterMap] at h ⊢
  obtain ⟨e, he, hn⟩ := h
  exact ⟨e, he, by cases e <;> simp_all [changeNo, noteNo]⟩

/-- What is known about the posts that are under way. -/
structure Posts (s : State) : Prop where
  bound : ∀ t m, posting (s.p.stk t) = some m → m.ty = statusTy → m.val < s.next ∧ m.val ∉ queued s.log
  chg : ∀ t m, posting (s.p.stk t) = some m → m.ty = statusTy → m.val ∈ changes s.log → walks s t = true ∧ ∀ k ∈ changes s.log, k ≤ m.val
  uniq : ∀ t u m m', posting (s.p.stk t) = some m → posting (s.p.stk u) = some m' → m.ty = statusTy → m'.ty = statusTy → m.val = m'.val → t = u
  nodup : (queued s.log).Nodup
  qb : ∀ n ∈ queued s.log, n < s.next
  sorted : ((queued s.log).filter (· ∈ changes s.log)).Pairwise (· < ·)
  ret : ∀ t n, .proc (.asked t (.msg ⟨statusTy, n⟩)) ∈ s.log → posting (s.p.stk t) = some ⟨statusTy, n⟩ ∨ ∃ b, .proc (.result t (.msg ⟨statusTy, n⟩) b) ∈ s.log
  asked : ∀ t m, posting (s.p.stk t) = some m → m.ty = statusTy → .proc (.asked t (.msg m)) ∈ s.log

structure Inv (s : State) : Prop where
  pr : ∃ bs, Proc.run Proc.init bs = some s.p
  pl : procOf s.log = s.p.log
  cnt : notes s.log = List.range s.next
  lst : listedIn s.log = s.listed
  ph : phase s.log = s.walk.map fun w => (w.old, w.new, w.todo)
  al : s.alive = false ↔ .gone ∈ s.log
  rules : Hist Rule s.log
  posts : Posts s
  once : ∀ l1 e l2 n t, s.log = l1 ++ e :: l2 → IsNote e n t → (∃ l3, l2 = .proc (.asked t (.msg ⟨statusTy, n⟩)) :: l3) ∨ ∃ l3, l2 = .lost n :: l3

theorem inv_init : Inv init where
  pr := ⟨[], rfl⟩
  pl := rfl
  cnt := rfl
  lst := rfl
  ph := rfl
  al := by simp [init]
  rules := Hist.nil
  posts := by constructor <;> simp [init, Proc.init, posting, queued, procOf, Proc.entries]
  once := by intro l1 e l2 n t h; simp [init] at h

theorem proc_run_snoc {bs : List Proc.Act} {p p' q : Proc.State} {a : Proc.Act} (h : Proc.run q bs = some p) (hs : Proc.step p a = some p') : Proc.run q (bs ++ [a]) = some p' := by
  rw [Proc.run_append, h]; simp [Proc.run, hs]

theorem Inv.wf {s : State} (h : Inv s) : ∀ t, Proc.wf (s.p.stk t) = true := by
  obtain ⟨bs, hbs⟩ := h.pr
  exact (Proc.full bs _ hbs).base.wf

theorem onProc_eq {s s' : State} {a : Proc.Act} (hw : ∀ t, Proc.wf (s.p.stk t) = true) (h : onProc s a = some s') : ∃ p' b, Proc.step s.p a = some p' ∧ p'.log = s.p.log ++ b ∧
    PostStep a (s.p.stk a.tid) (p'.stk a.tid) b ∧ (∀ u, u ≠ a.tid → p'.stk u = s.p.stk u) ∧ s' = { s with p := p', log := s.log ++ b.map .proc } := by
  simp only [onProc, Option.map_eq_some_iff] at h
  obtain ⟨p', hp, rfl⟩ := h
  obtain ⟨b, hb, hs⟩ := Proc.post_step hw hp
  exact ⟨p', b, hp, hb, hs, fun u hu => ((Proc.step_other hp).1 u hu).1, by simp [hb]⟩

/-- A notification is still followed by its call when the history goes on. -/
theorem once_append {l b : List Ev} (h : ∀ l1 e l2 n t, l = l1 ++ e :: l2 → IsNote e n t → (∃ l3, l2 = .proc (.asked t (.msg ⟨statusTy, n⟩)) :: l3) ∨ ∃ l3, l2 = .lost n :: l3)
    (hb : ∀ e ∈ b, ∀ n t, ¬ IsNote e n t) :
    ∀ l1 e l2 n t, l ++ b = l1 ++ e :: l2 → IsNote e n t → (∃ l3, l2 = .proc (.asked t (.msg ⟨statusTy, n⟩)) :: l3) ∨ ∃ l3, l2 = .lost n :: l3 := by
  intro l1 e l2 n t hl hn
  rcases List.append_eq_append_iff.1 hl with ⟨z, rfl, hz⟩ | ⟨z, rfl, hz⟩
  · exact absurd hn (hb e (by rw [hz]; simp) n t)
  · cases z with
    | nil => simp at hz; exact absurd hn (hb e (by rw [← hz]; simp) n t)
    | cons f z =>
      simp only [List.cons_append, List.cons.injEq] at hz
      obtain ⟨rfl, rfl⟩ := hz
      rcases h l1 e z n t rfl hn with ⟨l3, rfl⟩ | ⟨l3, rfl⟩
      · exact Or.inl ⟨l3 ++ b, rfl⟩
      · exact Or.inr ⟨l3 ++ b, rfl⟩

theorem posts_same {s s' : State} (h : Posts s) (hp : s'.p = s.p) (hn : s'.next = s.next) (hq : queued s'.log = queued s.log) (hc : changes s'.log = changes s.log)
    (hw : ∀ t m, posting (s.p.stk t) = some m → m.ty = statusTy → m.val ∈ changes s.log → walks s t = true → walks s' t = true)
    (hm : ∀ e, e ∈ s'.log → (∃ x, e = .proc x) → e ∈ s.log) (hm' : ∀ e, e ∈ s.log → e ∈ s'.log) : Posts s' where
  bound := by rw [hp, hn, hq]; exact h.bound
  chg := by
    rw [hp, hc]; intro t m h1 h2 h3
    obtain ⟨h4, h5⟩ := h.chg t m h1 h2 h3
    exact ⟨hw t m h1 h2 h3 h4, h5⟩
  uniq := by rw [hp]; exact h.uniq
  nodup := by rw [hq]; exact h.nodup
  qb := by rw [hq, hn]; exact h.qb
  sorted := by rw [hq, hc]; exact h.sorted
  ret := by
    rw [hp]; intro t n ha
    rcases h.ret t n (hm _ ha ⟨_, rfl⟩) with h1 | ⟨b, hb⟩
    · exact Or.inl h1
    · exact Or.inr ⟨b, hm' _ hb⟩
  asked := by rw [hp]; intro t m h1 h2; exact hm' _ (h.asked t m h1 h2)

/-- The queue after a step of the processor. -/
theorem posts_step {s s' : State} {a : Proc.Act} {p' : Proc.State} {b : List Proc.Ev} (h : Posts s) (hown : ∀ m, a = .callPost a.tid m → m.ty ≠ statusTy)
    (hst : PostStep a (s.p.stk a.tid) (p'.stk a.tid) b) (ho : ∀ u, u ≠ a.tid → p'.stk u = s.p.stk u) (he : s' = { s with p := p', log := s.log ++ b.map .proc }) : Posts s' := by
  subst he
  have hwk : ∀ t, walks { s with p := p', log := s.log ++ b.map Ev.proc } t = walks s t := fun _ => rfl
  have same : ∀ t m, posting (p'.stk t) = some m → m.ty = statusTy → posting (s.p.stk t) = some m := by
    intro t m hm hty
    by_cases ht : t = a.tid
    · subst ht
      cases hst with
      | refused _ _ _ h2 => rw [h2] at hm; cases hm
      | called m' ha h1 h2 => rw [h2] at hm; cases hm; exact absurd hty (hown _ ha)
      | goes m' h1 h2 => rw [h2] at hm; cases hm; exact h1
      | returns _ _ _ h2 => rw [h2] at hm; cases hm
      | other _ h2 => rw [h2] at hm; cases hm
    · rw [ho t ht] at hm; exact hm
  have hq : (Proc.entries b).filterMap noOf = [] ∨ ∃ m, m.ty = statusTy ∧ posting (s.p.stk a.tid) = some m ∧ posting (p'.stk a.tid) = none ∧ (Proc.entries b).filterMap noOf = [m.val] := by
    cases hst with
    | refused m _ _ _ hb => left; rw [hb]; simp [Proc.entries]
    | called m _ _ _ hb => left; rw [hb]; simp [Proc.entries]
    | goes _ _ _ he => left; rw [he]; rfl
    | returns m r h1 h2 he =>
      rcases he with he | he
      · left; rw [he]; rfl
      · by_cases hty : m.ty = statusTy
        · right; exact ⟨m, hty, h1, h2, by rw [he]; simp [noOf, hty]⟩
        · left; rw [he]; simp [noOf, hty]
    | other _ _ he =>
      left
      rcases he with he | ⟨n, he⟩ <;> rw [he] <;> rfl
  have base : ∀ n, n ∈ queued (s.log ++ b.map Ev.proc) → n ∈ queued s.log ∨ ∃ m, m.ty = statusTy ∧ posting (s.p.stk a.tid) = some m ∧ posting (p'.stk a.tid) = none ∧ n = m.val := by
    intro n hn
    rw [queued_append, queued_map] at hn
    rcases List.mem_append.1 hn with hn | hn
    · exact Or.inl hn
    · rcases hq with hq | ⟨m, h1, h2, h3, hq⟩
      · rw [hq] at hn; cases hn
      · rw [hq] at hn; simp at hn; exact Or.inr ⟨m, h1, h2, h3, hn⟩
  constructor
  · intro t m hm hty
    have h0 := same t m hm hty
    refine ⟨(h.bound t m h0 hty).1, fun hin => ?_⟩
    rcases base _ hin with hin | ⟨m', hm', h1, h2, hv⟩
    · exact (h.bound t m h0 hty).2 hin
    · have := h.uniq t a.tid m m' h0 h1 hty hm' hv
      subst this
      simp only at hm
      rw [h2] at hm; cases hm
  · intro t m hm hty hc
    simp only [changes_append, changes_map, List.append_nil] at hc ⊢
    exact h.chg t m (same t m hm hty) hty hc
  · intro t u m m' hm hm' hty hty' hv
    exact h.uniq t u m m' (same t m hm hty) (same u m' hm' hty') hty hty' hv
  · rw [queued_append, queued_map]
    rcases hq with hq | ⟨m, h1, h2, h3, hq⟩
    · rw [hq, List.append_nil]; exact h.nodup
    · rw [hq]
      refine List.nodup_append.2 ⟨h.nodup, by simp, ?_⟩
      intro x hx y hy e
      simp at hy
      subst e; subst hy
      exact (h.bound _ _ h2 h1).2 hx
  · intro n hn
    rcases base _ hn with hn | ⟨m', hm', h1, h2, rfl⟩
    · exact h.qb n hn
    · exact (h.bound _ _ h1 hm').1
  · rw [queued_append, queued_map]
    simp only [changes_append, changes_map, List.append_nil]
    rcases hq with hq | ⟨m, h1, h2, h3, hq⟩
    · rw [hq, List.append_nil]; exact h.sorted
    · rw [hq, List.filter_append]
      by_cases hc : m.val ∈ changes s.log
      · refine List.pairwise_append.2 ⟨h.sorted, by simp [hc], ?_⟩
        intro x hx y hy
        simp [hc] at hy
        subst hy
        simp only [List.mem_filter, decide_eq_true_eq] at hx
        have hle := (h.chg _ _ h2 h1 hc).2 x hx.2
        refine Nat.lt_of_le_of_ne hle fun e => ?_
        rw [e] at hx
        exact (h.bound _ _ h2 h1).2 hx.1
      · simp [hc]
        exact h.sorted
  · intro t n ha
    have old : ∀ t n, Ev.proc (.asked t (.msg ⟨statusTy, n⟩)) ∈ s.log → posting (p'.stk t) = some ⟨statusTy, n⟩ ∨ ∃ r, Ev.proc (.result t (.msg ⟨statusTy, n⟩) r) ∈ s.log ++ b.map Ev.proc := by
      intro t n ha
      rcases h.ret t n ha with h1 | ⟨r, hr⟩
      · by_cases ht : t = a.tid
        · subst ht
          cases hst with
          | refused _ _ h1' => rw [h1'] at h1; cases h1
          | called _ _ h1' => rw [h1'] at h1; cases h1
          | goes m' h1' h2 => rw [h1'] at h1; cases h1; exact Or.inl h2
          | returns m' r h1' _ _ hr => rw [h1'] at h1; cases h1; exact Or.inr ⟨r, by simp [hr]⟩
          | other h1' => rw [h1'] at h1; cases h1
        · rw [ho t ht]; exact Or.inl h1
      · exact Or.inr ⟨r, List.mem_append_left _ hr⟩
    rcases List.mem_append.1 ha with ha | ha
    · exact old t n ha
    · simp only [List.mem_map, Ev.proc.injEq, exists_eq_right] at ha
      cases hst with
      | refused m ha' _ _ hb => rw [hb] at ha; simp at ha; obtain ⟨rfl, rfl⟩ := ha; exact absurd rfl (hown _ ha')
      | called m ha' _ _ hb => rw [hb] at ha; simp at ha; obtain ⟨rfl, rfl⟩ := ha; exact absurd rfl (hown _ ha')
      | goes _ _ _ _ hn => exact absurd ha (hn _ _)
      | returns _ _ _ _ _ _ hn => exact absurd ha (hn _ _)
      | other _ _ _ hn => exact absurd ha (hn _ _)
  · intro t m hm hty
    exact List.mem_append_left _ (h.asked t m (same t m hm hty) hty)

theorem hist_proc {l : List Ev} {b : List Proc.Ev} (h : Hist Rule l) (hb : ∀ c u m d, b = c ++ .asked u (.msg m) :: d → Rule (l ++ c.map Ev.proc) (.proc (.asked u (.msg m)))) : Hist Rule (l ++ b.map Ev.proc) := by
  constructor
  intro l1 e l2 hl
  rcases List.append_eq_append_iff.1 hl with ⟨z, rfl, hz⟩ | ⟨z, rfl, hz⟩
  · obtain ⟨c, d, rfl, rfl, hd⟩ := List.map_eq_append_iff.1 hz
    cases d with
    | nil => simp at hd
    | cons x d =>
      simp only [List.map_cons, List.cons.injEq] at hd
      obtain ⟨rfl, rfl⟩ := hd
      cases x with
      | asked u w =>
        cases w with
        | msg m => exact hb c u m d rfl
        | exec n => trivial
      | _ => trivial
  · cases z with
    | nil =>
      simp at hz
      cases b with
      | nil => simp at hz
      | cons x d =>
        simp only [List.map_cons, List.cons.injEq] at hz
        obtain ⟨rfl, rfl⟩ := hz
        simp only [List.append_nil] at h ⊢
        cases x with
        | asked u w =>
          cases w with
          | msg m => simpa using hb [] u m d rfl
          | exec n => trivial
        | _ => trivial
    | cons x z =>
      simp only [List.cons_append, List.cons.injEq] at hz
      obtain ⟨rfl, rfl⟩ := hz
      exact h.all l1 e z rfl

theorem inv_proc {s s' : State} {a : Proc.Act} (h : Inv s) (hown : own a = true) (hs : onProc s a = some s') : Inv s' := by
  obtain ⟨p', b, hp, hb, hst, ho, he⟩ := onProc_eq h.wf hs
  have hown' : ∀ m, a = .callPost a.tid m → m.ty ≠ statusTy := by
    intro m e; rw [e] at hown; simpa [own] using hown
  have hps := posts_step h.posts hown' hst ho he
  subst he
  obtain ⟨bs, hbs⟩ := h.pr
  refine ⟨⟨_, proc_run_snoc hbs hp⟩, by simp [h.pl, hb], by simp [h.cnt], by simp only [listed_append, listed_map, h.lst], by simp only [phase_append, phase_map, h.ph], ?_, ?_, hps, ?_⟩
  · simpa using h.al
  · refine hist_proc h.rules fun c u m d hc hty => ?_
    cases hst with
    | refused m' ha _ _ hb' =>
      rw [hb'] at hc
      cases c with
      | nil => simp at hc; rw [← hc.1.2] at hty; exact absurd hty (hown' _ ha)
      | cons x c => simp at hc; cases c <;> simp at hc
    | called m' ha _ _ hb' =>
      rw [hb'] at hc
      cases c with
      | nil => simp at hc; rw [← hc.1.2] at hty; exact absurd hty (hown' _ ha)
      | cons x c => simp at hc
    | goes _ _ _ _ hn => exact absurd (by rw [hc]; simp) (hn u m)
    | returns _ _ _ _ _ _ hn => exact absurd (by rw [hc]; simp) (hn u m)
    | other _ _ _ hn => exact absurd (by rw [hc]; simp) (hn u m)
  · exact once_append h.once (by intro e he n t; simp at he; obtain ⟨x, -, rfl⟩ := he; exact fun h => h)

theorem callPost_eq {p p' : Proc.State} {t : Tid} {m : Proc.Msg} (h : Proc.step p (.callPost t m) = some p') :
    p' = Proc.emitLog p [.asked t (.msg m), .result t (.msg m) false] ∨ p' = Proc.emitLog (Proc.setStk p t (.post1 m :: p.stk t)) [.asked t (.msg m)] := by
  simp only [Proc.step, Proc.body] at h
  repeat' split at h
  all_goals first | (cases h; done) | (cases h; exact Or.inl rfl) | (cases h; exact Or.inr rfl)

theorem notes_bound {s : State} (h : Inv s) {n : Nat} (hn : n ∈ changes s.log) : n < s.next := by
  have := changes_notes hn
  rw [h.cnt] at this
  simpa using this

theorem posts_note {s s' : State} {e : Ev} {t : Tid} (hI : Inv s) (ho : ∀ u, u ≠ t → s'.p.stk u = s.p.stk u) (hpt : posting (s.p.stk t) = none)
    (hpt' : posting (s'.p.stk t) = none ∨ (posting (s'.p.stk t) = some ⟨statusTy, s.next⟩ ∧ .proc (.asked t (.msg ⟨statusTy, s.next⟩)) ∈ s'.log)) (hnext : s'.next = s.next + 1) (hq : queued s'.log = queued s.log)
    (hc : changes s'.log = changes s.log ++ changes [e])
    (hwk : (changes [e] = [] ∧ ∀ u, walks s' u = walks s u) ∨ (changes [e] = [s.next] ∧ walks s' t = true ∧ walks s t = true))
    (hret : ∀ u n, .proc (.asked u (.msg ⟨statusTy, n⟩)) ∈ s'.log → .proc (.asked u (.msg ⟨statusTy, n⟩)) ∈ s.log ∨
      (u = t ∧ (posting (s'.p.stk t) = some ⟨statusTy, n⟩ ∨ ∃ b, .proc (.result t (.msg ⟨statusTy, n⟩) b) ∈ s'.log)))
    (hm : ∀ e ∈ s.log, e ∈ s'.log) : Posts s' := by
  have h := hI.posts
  have split : ∀ u m, posting (s'.p.stk u) = some m → (u = t ∧ m = ⟨statusTy, s.next⟩) ∨ (u ≠ t ∧ posting (s.p.stk u) = some m) := by
    intro u m hm
    by_cases hu : u = t
    · subst hu
      rcases hpt' with h1 | ⟨h1, -⟩ <;> rw [h1] at hm <;> cases hm
      exact Or.inl ⟨rfl, rfl⟩
    · rw [ho u hu] at hm; exact Or.inr ⟨hu, hm⟩
  have one : ∀ u v, walks s u = true → walks s v = true → u = v := by
    intro u v hu hv
    simp only [walks] at hu hv
    cases hw : s.walk with
    | none => simp [hw] at hu
    | some w => simp [hw] at hu hv; rw [← hu, ← hv]
  constructor
  · intro u m hm hty
    rw [hq, hnext]
    rcases split u m hm with ⟨rfl, rfl⟩ | ⟨hu, h0⟩
    · exact ⟨by simp, fun hin => by have := h.qb _ hin; simp at this⟩
    · exact ⟨by have := (h.bound u m h0 hty).1; omega, (h.bound u m h0 hty).2⟩
  · intro u m hm hty hin
    rw [hc] at hin ⊢
    rcases split u m hm with ⟨rfl, rfl⟩ | ⟨hu, h0⟩
    · rcases hwk with ⟨h1, h2⟩ | ⟨h1, h2, h3⟩
      · rw [h1, List.append_nil] at hin
        have := notes_bound hI hin
        simp at this
      · refine ⟨h2, fun k hk => ?_⟩
        rw [h1] at hk
        rcases List.mem_append.1 hk with hk | hk
        · have := notes_bound hI hk; simp only; omega
        · simp at hk; simp [hk]
    · have hlt := (h.bound u m h0 hty).1
      rcases hwk with ⟨h1, h2⟩ | ⟨h1, h2, h3⟩
      · rw [h1, List.append_nil] at hin ⊢
        rw [h2 u]
        exact h.chg u m h0 hty hin
      · rw [h1] at hin
        rcases List.mem_append.1 hin with hin | hin
        · exact absurd (one u t (h.chg u m h0 hty hin).1 h3) hu
        · simp at hin; omega
  · intro u v m m' hm hm' hty hty' hv
    rcases split u m hm with ⟨rfl, rfl⟩ | ⟨hu, h0⟩ <;> rcases split v m' hm' with ⟨rfl, rfl⟩ | ⟨hu', h0'⟩
    · rfl
    · have := (h.bound v m' h0' hty').1; simp at hv; omega
    · have := (h.bound u m h0 hty).1; simp at hv; omega
    · exact h.uniq u v m m' h0 h0' hty hty' hv
  · rw [hq]; exact h.nodup
  · rw [hq, hnext]; intro n hn; have := h.qb n hn; omega
  · rw [hq, hc]
    have : (queued s.log).filter (· ∈ changes s.log ++ changes [e]) = (queued s.log).filter (· ∈ changes s.log) := by
      refine List.filter_congr fun x hx => ?_
      have := h.qb x hx
      rcases hwk with ⟨h1, h2⟩ | ⟨h1, h2, h3⟩
      · rw [h1, List.append_nil]
      · rw [h1]; simp; omega
    rw [this]; exact h.sorted
  · intro u n ha
    rcases hret u n ha with h1 | ⟨rfl, h1⟩
    · rcases h.ret u n h1 with h2 | ⟨b, hb⟩
      · by_cases hu : u = t
        · subst hu; rw [hpt] at h2; cases h2
        · rw [ho u hu]; exact Or.inl h2
      · exact Or.inr ⟨b, hm _ hb⟩
    · exact h1
  · intro u m hp hty
    rcases split u m hp with ⟨rfl, rfl⟩ | ⟨hu, h0⟩
    · rcases hpt' with h1 | ⟨-, h1⟩
      · rw [h1] at hp; cases hp
      · exact h1
    · exact hm _ (h.asked u m h0 hty)

theorem once_note {l : List Ev} {e f : Ev} {r : List Ev} {n : Nat} {t : Tid}
    (h : ∀ l1 e l2 n t, l = l1 ++ e :: l2 → IsNote e n t → (∃ l3, l2 = .proc (.asked t (.msg ⟨statusTy, n⟩)) :: l3) ∨ ∃ l3, l2 = .lost n :: l3)
    (he : IsNote e n t) (hf : f = .proc (.asked t (.msg ⟨statusTy, n⟩)) ∨ f = .lost n) (hr : ∀ x ∈ r, ∀ n t, ¬ IsNote x n t) :
    ∀ l1 e' l2 n t, l ++ e :: f :: r = l1 ++ e' :: l2 → IsNote e' n t → (∃ l3, l2 = .proc (.asked t (.msg ⟨statusTy, n⟩)) :: l3) ∨ ∃ l3, l2 = .lost n :: l3 := by
  intro l1 e' l2 n' t' hl hn
  have uniq : ∀ {n t n' t'}, IsNote e n t → IsNote e n' t' → n = n' ∧ t = t' := by
    intro n t n' t' h1 h2
    cases e <;> simp_all [IsNote]
  rcases places hl with ⟨rfl, rfl, rfl⟩ | ⟨y, hl1, hy⟩ | ⟨y, hl1, hy⟩
  · obtain ⟨rfl, rfl⟩ := uniq he hn
    rcases hf with rfl | rfl
    · exact Or.inl ⟨_, rfl⟩
    · exact Or.inr ⟨_, rfl⟩
  · cases y with
    | nil => simp at hy; rcases hf with rfl | rfl <;> (rw [← hy.1] at hn; exact absurd hn (fun h => h))
    | cons x y =>
      simp at hy
      exact absurd hn (hr e' (by rw [hy.2]; simp) _ _)
  · subst hl1
    subst hy
    rcases h l1 e' y n' t' rfl hn with ⟨l3, rfl⟩ | ⟨l3, rfl⟩
    · exact Or.inl ⟨_, rfl⟩
    · exact Or.inr ⟨_, rfl⟩

theorem inv_note {s s1 s' : State} {e : Ev} {t : Tid} (h : Inv s) (he : IsNote e s.next t) (hr : Rule s.log e) (hcan : Proc.canCall s.p t = true)
    (h1 : s1.p = s.p ∧ s1.next = s.next ∧ s1.alive = s.alive ∧ s1.log = s.log ++ [e] ∧ s1.listed = s.listed)
    (hph : phase (s.log ++ [e]) = s1.walk.map fun w => (w.old, w.new, w.todo))
    (hwk : (changes [e] = [] ∧ ∀ u, walks s1 u = walks s u) ∨ (changes [e] = [s.next] ∧ walks s1 t = true ∧ walks s t = true))
    (hs : post s1 t = some s') : Inv s' := by
  obtain ⟨hp, hnx, hal, hlog, hlst⟩ := h1
  obtain ⟨bs, hbs⟩ := h.pr
  have hpt : posting (s.p.stk t) = none := Proc.posting_user (by rw [← Proc.canCall_iff]; exact hcan)
  have hne : e ≠ .gone := by rintro rfl; exact he
  have hno : notes [e] = [s.next] := by cases e <;> simp_all [IsNote, notes, noteNo]
  have hls : listStep s.listed e = s.listed := by cases e <;> simp_all [IsNote, listStep]
  have hpo : procOf [e] = [] := by cases e <;> simp_all [IsNote, procOf]
  have hqe : queued [e] = [] := by rw [queued, hpo]; rfl
  have hnp : ∀ x, Ev.proc x ≠ e := by rintro x rfl; exact he
  have hH := h.rules.one hr
  simp only [post, hal] at hs
  split at hs
  · rename_i halive
    have hng : .gone ∉ s.log := fun hin => by rw [h.al.2 hin] at halive; cases halive
    simp only [Option.map_eq_some_iff, onProc, hp, hnx, hlog] at hs
    obtain ⟨s2, ⟨p', hp', rfl⟩, rfl⟩ := hs
    have hrun := proc_run_snoc hbs hp'
    have hrule : Rule (s.log ++ [e]) (.proc (.asked t (.msg ⟨statusTy, s.next⟩))) := fun _ => ⟨by simp [hng, hne.symm], s.log, e, rfl, he⟩
    rcases callPost_eq hp' with rfl | rfl
    · simp only [Proc.emitLog, List.drop_left, List.map_cons, List.map_nil]
      refine ⟨⟨_, hrun⟩, by rw [procOf_append, procOf_append, hpo, h.pl, List.append_nil]; rfl, by rw [notes_append, notes_append, hno, h.cnt, List.range_succ]; simp [notes, noteNo], ?_, ?_, ?_, ?_, ?_, ?_⟩
      · rw [listed_append, listed_append, h.lst]; simp only [List.foldl_cons, List.foldl_nil]; rw [hls]; exact hlst.symm
      · rw [phase_append, hph]; rfl
      · simp only [hal, h.al]; simp [hne.symm]
      · exact Hist.two hH hrule (by trivial)
      · refine posts_note (e := e) (t := t) h (fun _ _ => rfl) hpt (Or.inl hpt) rfl (by rw [queued_append, queued_append, hqe]; simp [queued, procOf, Proc.entries]) (by rw [changes_append, changes_append]; simp [changes, changeNo]) hwk ?_ (by intro x hx; simp [hx])
        intro u n ha
        simp [hnp] at ha
        rcases ha with ha | ⟨rfl, rfl⟩
        · exact Or.inl ha
        · exact Or.inr ⟨rfl, Or.inr ⟨false, by simp⟩⟩
      · have := once_note (r := [.proc (.result t (.msg ⟨statusTy, s.next⟩) false)]) h.once he (Or.inl rfl) (by simp [IsNote])
        simpa using this
    · simp only [Proc.emitLog, Proc.setStk, List.drop_left, List.map_cons, List.map_nil]
      refine ⟨⟨_, hrun⟩, by rw [procOf_append, procOf_append, hpo, h.pl, List.append_nil]; rfl, by rw [notes_append, notes_append, hno, h.cnt, List.range_succ]; simp [notes, noteNo], ?_, ?_, ?_, ?_, ?_, ?_⟩
      · rw [listed_append, listed_append, h.lst]; simp only [List.foldl_cons, List.foldl_nil]; rw [hls]; exact hlst.symm
      · rw [phase_append, hph]; rfl
      · simp only [hal, h.al]; simp [hne.symm]
      · exact Hist.one hH hrule
      · refine posts_note (e := e) (t := t) h (fun u hu => by simp [Proc.upd_other hu]) hpt (Or.inr (by simp [posting])) rfl (by rw [queued_append, queued_append, hqe]; simp [queued, procOf, Proc.entries]) (by rw [changes_append, changes_append]; simp [changes, changeNo]) hwk ?_ (by intro x hx; simp [hx])
        intro u n ha
        simp [hnp] at ha
        rcases ha with ha | ⟨rfl, rfl⟩
        · exact Or.inl ha
        · exact Or.inr ⟨rfl, Or.inl (by simp [posting])⟩
      · have := once_note (r := []) h.once he (Or.inl rfl) (by simp)
        simpa using this
  · rename_i halive
    have hal0 : s.alive = false := by simpa using halive
    have hg : .gone ∈ s.log := h.al.1 hal0
    cases hs
    simp only [State.note, hlog, hnx, hp]
    refine ⟨⟨bs, hbs⟩, by rw [procOf_append, procOf_append, hpo, h.pl]; simp [procOf], by rw [notes_append, notes_append, hno, h.cnt, List.range_succ]; simp [notes, noteNo], ?_, ?_, ?_, ?_, ?_, ?_⟩
    · rw [listed_append, listed_append, h.lst]; simp only [List.foldl_cons, List.foldl_nil]; rw [hls]; exact hlst.symm
    · rw [phase_append, hph]; rfl
    · simp [hal, hal0, hg]
    · exact Hist.one hH ⟨by simp [hg], s.log, e, t, rfl, he⟩
    · refine posts_note (e := e) (t := t) h (fun _ _ => rfl) hpt (Or.inl hpt) rfl (by rw [queued_append, queued_append, hqe]; simp [queued, procOf, Proc.entries]) (by rw [changes_append, changes_append]; simp [changes, changeNo]) hwk ?_ (by intro x hx; simp [hx])
      intro u n ha
      simp [hnp] at ha
      exact Or.inl ha
    · have := once_note (r := []) h.once he (Or.inr rfl) (by simp)
      simpa using this

/-- An event of the requester alone. -/
theorem inv_reg {s s' : State} {e : Ev} (h : Inv s) (h1 : s'.p = s.p ∧ s'.next = s.next ∧ s'.log = s.log ++ [e]) (hr : Rule s.log e) (hn : ∀ n t, ¬ IsNote e n t) (hp : ∀ x, e ≠ .proc x)
    (hl : listStep s.listed e = s'.listed) (hph : phaseStep (phase s.log) e = s'.walk.map fun w => (w.old, w.new, w.todo)) (ha : s'.alive = (s.alive && !decide (e = .gone)))
    (hw : ∀ t m, posting (s.p.stk t) = some m → m.ty = statusTy → m.val ∈ changes s.log → walks s t = true → walks s' t = true) : Inv s' := by
  obtain ⟨h1, h2, h3⟩ := h1
  have hno : notes [e] = [] := by cases e <;> simp_all [IsNote, notes, noteNo]
  have hch : changes [e] = [] := by cases e <;> simp_all [IsNote, changes, changeNo]
  have hpo : procOf [e] = [] := by cases e <;> simp_all [procOf]
  have hq : queued [e] = [] := by rw [queued, hpo]; rfl
  refine ⟨by rw [h1]; exact h.pr, by rw [h3, h1]; simp [hpo, h.pl], by rw [h3, h2]; simp [hno, h.cnt], by rw [h3, listed_append, h.lst]; exact hl, by rw [h3, phase_append]; exact hph, ?_, by rw [h3]; exact h.rules.one hr, ?_, ?_⟩
  · rw [ha, h3]
    have := h.al
    by_cases hg : e = .gone
    · subst hg; simp
    · simp [hg, this, Ne.symm hg]
  · refine posts_same h.posts h1 h2 (by rw [h3]; simp [hq]) (by rw [h3]; simp [hch]) hw ?_ ?_
    · rintro x hx ⟨y, rfl⟩
      rw [h3] at hx
      rcases List.mem_append.1 hx with hx | hx
      · exact hx
      · simp at hx; exact absurd hx.symm (hp y)
    · intro x hx; rw [h3]; simp [hx]
  · rw [h3]
    exact once_append h.once (by simpa using hn)

theorem inv_step {s s' : State} {a : Act} (h : Inv s) (hs : step s a = some s') : Inv s' := by
  simp only [step] at hs
  split at hs
  · cases hs
  cases a <;> simp only at hs
  case register o =>
    split at hs
    · rename_i hw
      cases hs
      exact inv_reg (e := .registered o s.status) h ⟨rfl, rfl, rfl⟩ (by simp [Rule, h.ph, hw]) (by simp [IsNote]) (by simp) rfl (by simp [phaseStep, h.ph, State.note]) (by simp [State.note]) (fun _ _ _ _ _ hx => hx)
    · cases hs
  case greet o t =>
    split at hs
    · rename_i hc
      exact inv_note (e := .greeted s.next o t) (s1 := { s.note (.greeted s.next o t) with greets := s.greets.erase o }) h ⟨rfl, rfl⟩ (by trivial) hc.2.2 ⟨rfl, rfl, rfl, rfl, rfl⟩ (by rw [phase_append, h.ph]; rfl) (Or.inl ⟨rfl, fun _ => rfl⟩) hs
    · cases hs
  case unregister o =>
    split at hs
    · rename_i hw
      cases hs
      exact inv_reg (e := .unregistered o) h ⟨rfl, rfl, rfl⟩ (by simp [Rule, h.ph, hw]) (by simp [IsNote]) (by simp) rfl (by simp [phaseStep, h.ph, State.note]) (by simp [State.note]) (fun _ _ _ _ _ hx => hx)
    · cases hs
  case change x y =>
    cases hs
    unfold change
    split
    · exact h
    · exact inv_reg (e := .changed x y) h ⟨rfl, rfl, rfl⟩ (by trivial) (by simp [IsNote]) (by simp) rfl (by simp [phaseStep, h.ph, State.note]) (by simp [State.note]) (fun _ _ _ _ _ hx => hx)
  case lock i t =>
    unfold lock at hs
    split at hs
    · rename_i x y hw _
      split at hs
      · cases hs
        refine inv_reg (e := .locked x y s.listed) h ⟨rfl, rfl, rfl⟩ ⟨by simp [h.ph, hw], h.lst.symm⟩ (by simp [IsNote]) (by simp) rfl (by simp [phaseStep]) (by simp [State.note]) ?_
        intro u m _ _ _ hu
        simp [walks, hw] at hu
      · cases hs
    · cases hs
  case tell =>
    unfold tell at hs
    split at hs
    · cases hs
    · rename_i w hw
      split at hs
      · rename_i hc
        unfold tellNext at hs
        split at hs
        · rename_i ht
          cases hs
          refine inv_reg (e := .unlocked) h ⟨rfl, rfl, rfl⟩ ⟨w.old, w.new, by simp [h.ph, hw, ht]⟩ (by simp [IsNote]) (by simp) rfl (by simp [phaseStep]) (by simp [State.note]) ?_
          intro u m hm _ _ hu
          simp [walks, hw] at hu
          subst hu
          rw [Proc.posting_user (by rw [← Proc.canCall_iff]; exact hc)] at hm
          cases hm
        · rename_i o rest ht
          exact inv_note (e := .told s.next o w.old w.new w.by_) (s1 := { s.note (.told s.next o w.old w.new w.by_) with walk := some { w with todo := rest } }) h ⟨rfl, rfl⟩ ⟨rest, by simp [h.ph, hw, ht]⟩ hc ⟨rfl, rfl, rfl, rfl, rfl⟩ (by rw [phase_append, h.ph, hw]; simp [phaseStep, ht])
            (Or.inr ⟨rfl, by simp [walks], by simp [walks, hw]⟩) hs
      · cases hs
  case drop =>
    cases hs
    exact inv_reg (e := .gone) h ⟨rfl, rfl, rfl⟩ (by trivial) (by simp [IsNote]) (by simp) rfl (by simp [phaseStep, h.ph, State.note]) (by simp [State.note]) (fun _ _ _ _ _ hx => hx)
  case proc a =>
    split at hs
    · rename_i hc; exact inv_proc h hc.1 hs
    · cases hs

theorem reach {as : List Act} : ∀ {s s' : State}, Inv s → run s as = some s' → Inv s' := by
  induction as with
  | nil => intro s s' h hr; cases hr; exact h
  | cons a as ih =>
    intro s s' h hr
    simp only [run, Option.bind_eq_some_iff] at hr
    obtain ⟨u, hu, hr⟩ := hr
    exact ih (inv_step h hu) hr

theorem reach_inv {as : List Act} {s : State} (hr : run init as = some s) : Inv s := reach inv_init hr

end Maf.Sso
