import Verif.Model.Atomic
import Verif.Lemmas.Hist

namespace Maf.Atom

variable {c : Conf}

def onM (c : Conf) (m : Nat) : Option (Nat × Nat) → Bool
  | none => false
  | some (_, o) => c.mtx o == m

def ofT (c : Conf) (t m : Nat) : Option (Nat × Nat) → Bool
  | none => false
  | some (u, o) => u == t && c.mtx o == m

def nOpen (c : Conf) (t m : Nat) (log : List Ev) : Nat :=
  log.countP fun e => match e with
    | .opened u o => u == t && c.mtx o == m
    | _ => false

def nClosed (c : Conf) (t m : Nat) (log : List Ev) : Nat :=
  log.countP fun e => match e with
    | .closed u o => u == t && c.mtx o == m
    | _ => false

structure Inv (c : Conf) (s : St) : Prop where
  free : ∀ m, s.own m = none → s.sess.countP (onM c m) = 0
  held : ∀ m t d, s.own m = some (t, d) → d = s.sess.countP (onM c m) ∧ 1 ≤ d ∧
    s.sess.countP (ofT c t m) = d
  cnt : ∀ t m, nOpen c t m s.log = nClosed c t m s.log + s.sess.countP (ofT c t m)

def upto (o : Nat) (d : Nat) : List Ev → Nat
  | [] => d
  | .wrote _ o' v :: l => upto o (if o' = o then v else d) l
  | .opened _ _ :: l => upto o d l
  | .closed _ _ :: l => upto o d l
  | .read _ _ _ :: l => upto o d l

theorem upto_append (o d : Nat) (l m : List Ev) : upto o d (l ++ m) = upto o (upto o d l) m := by
  induction l generalizing d with
  | nil => rfl
  | cons e l ih => cases e <;> simp only [List.cons_append, upto, ih]

theorem ofT_onM {t m x} (h : ofT c t m x = true) : onM c m x = true := by
  cases x with
  | none => cases h
  | some x => simp [ofT] at h; simp [onM, h.2]

theorem countP_set {α : Type} (p : α → Bool) : ∀ (l : List α) (k : Nat) (x y : α), l[k]? = some x →
    (l.set k y).countP p + (if p x then 1 else 0) = l.countP p + (if p y then 1 else 0) := by
  intro l
  induction l with
  | nil => intro k x y h; simp at h
  | cons a l ih =>
    intro k x y h
    cases k with
    | zero => simp at h; subst h; simp [List.countP_cons]; omega
    | succ k =>
      have := ih k x y (by simpa using h)
      simp [List.countP_cons]; omega

theorem countP_move {p : Option (Nat × Nat) → Bool} (hp : p none = false) {l : List (Option (Nat × Nat))} {k : Nat} {x} (h : l[k]? = some x) :
    (l.set k none ++ [x]).countP p = l.countP p := by
  have := countP_set p l k x none h
  rw [hp] at this
  rw [List.countP_append]
  simp only [List.countP_cons, List.countP_nil]
  simp only [Bool.false_eq_true, if_false] at this
  omega

theorem runs_snoc (c : Conf) (s : St) (acts : List Act) (a : Act) :
    runs c s (acts ++ [a]) = (runs c s acts).bind fun s' => step c s' a := by
  induction acts generalizing s with
  | nil => simp [runs]
  | cons b acts ih =>
    simp only [List.cons_append, runs]
    cases step c s b with
    | none => rfl
    | some s' => simpa using ih s'

theorem runs_snoc_some {s s' : St} {acts : List Act} {a : Act} (h : runs c s (acts ++ [a]) = some s') :
    ∃ m, runs c s acts = some m ∧ step c m a = some s' := by
  rw [runs_snoc] at h
  cases hm : runs c s acts with
  | none => rw [hm] at h; cases h
  | some m => rw [hm] at h; exact ⟨m, rfl, h⟩

theorem nOpen_snoc (t m : Nat) (l : List Ev) (e : Ev) : nOpen c t m (l ++ [e]) = nOpen c t m l + nOpen c t m [e] := by
  simp [nOpen]
theorem nClosed_snoc (t m : Nat) (l : List Ev) (e : Ev) : nClosed c t m (l ++ [e]) = nClosed c t m l + nClosed c t m [e] := by
  simp [nClosed]

theorem join_some {l : List (Option (Nat × Nat))} {k : Nat} {x} (h : (l[k]?).join = some x) : l[k]? = some (some x) := by
  cases hl : l[k]? with
  | none => rw [hl] at h; cases h
  | some y => rw [hl] at h; exact congrArg some h

/-- What a step can be. -/
inductive Case (c : Conf) (s s' : St) : Act → Prop
  | opn {t o w} (hl : lock c (c.mtx o) t (s.own (c.mtx o)) = some w) (e : s' = doOpen s t o (upd s.own (c.mtx o) (some w))) : Case c s s' (.opn t o)
  | move {k x} (h : s.sess[k]? = some x) (e : s' = doMove s k x) : Case c s s' (.move k)
  | gone {k} (h : s.sess[k]? = some none) (e : s' = s) : Case c s s' (.destroy k)
  | destroy {k t o} (h : s.sess[k]? = some (some (t, o))) (e : s' = doDestroy c s k (some (t, o))) : Case c s s' (.destroy k)
  | read {k t o} (h : s.sess[k]? = some (some (t, o))) (e : s' = doRead s t o) : Case c s s' (.read k)
  | write {k t o v} (h : s.sess[k]? = some (some (t, o))) (e : s' = doWrite s t o v) : Case c s s' (.write k v)

theorem step_case {s s' : St} {a : Act} (h : step c s a = some s') : Case c s s' a := by
  cases a with
  | opn t o =>
    obtain ⟨w, hw, e⟩ := Option.map_eq_some_iff.1 h
    exact .opn hw e.symm
  | move k =>
    obtain ⟨x, hx, e⟩ := Option.map_eq_some_iff.1 h
    exact .move hx e.symm
  | destroy k =>
    obtain ⟨x, hx, e⟩ := Option.map_eq_some_iff.1 h
    cases x with
    | none => exact .gone hx e.symm
    | some x => obtain ⟨t, o⟩ := x; exact .destroy hx e.symm
  | read k =>
    obtain ⟨⟨t, o⟩, hx, e⟩ := Option.map_eq_some_iff.1 h
    exact .read (join_some hx) e.symm
  | write k v =>
    obtain ⟨⟨t, o⟩, hx, e⟩ := Option.map_eq_some_iff.1 h
    exact .write (join_some hx) e.symm

theorem inv_init (d : Nat → Nat) : Inv c (init d) where
  free := fun _ _ => rfl
  held := fun _ _ _ h => by cases h
  cnt := fun _ _ => rfl

theorem ofT_le (t m : Nat) (l : List (Option (Nat × Nat))) : l.countP (ofT c t m) ≤ l.countP (onM c m) :=
  List.countP_mono_left fun _ _ h => ofT_onM h

theorem inv_open {s : St} (hI : Inv c s) {t o : Nat} {w} (hl : lock c (c.mtx o) t (s.own (c.mtx o)) = some w) :
    Inv c (doOpen s t o (upd s.own (c.mtx o) (some w))) := by
  have hon : ∀ m, [some (t, o)].countP (onM c m) = if m = c.mtx o then 1 else 0 := by
    intro m; by_cases h : m = c.mtx o
    · subst h; simp [onM]
    · have : c.mtx o ≠ m := fun e => h e.symm
      simp [onM, h, this]
  have hof : ∀ u m, [some (t, o)].countP (ofT c u m) = if u = t ∧ m = c.mtx o then 1 else 0 := by
    intro u m
    by_cases h : u = t ∧ m = c.mtx o
    · obtain ⟨rfl, rfl⟩ := h; simp [ofT]
    · rw [if_neg h]
      simp only [List.countP_cons, List.countP_nil, ofT]
      by_cases h1 : t = u <;> by_cases h2 : c.mtx o = m <;> simp [h1, h2]
      exact h ⟨h1.symm, h2.symm⟩
  constructor
  · intro m hm
    have hne : m ≠ c.mtx o := by intro e; simp [doOpen, upd, e] at hm
    simp only [doOpen, upd, if_neg hne] at hm ⊢
    rw [List.countP_append, hI.free m hm, hon, if_neg hne]
  · intro m u d hm
    by_cases hme : m = c.mtx o
    · subst hme
      simp only [doOpen, upd, if_true, Option.some.injEq] at hm
      subst hm
      simp only [doOpen]
      rw [List.countP_append, List.countP_append, hon, hof, if_pos rfl]
      cases how : s.own (c.mtx o) with
      | none =>
        rw [how] at hl; simp only [lock, Option.some.injEq, Prod.mk.injEq] at hl
        obtain ⟨rfl, rfl⟩ := hl
        have := hI.free _ how
        have := ofT_le (c := c) t (c.mtx o) s.sess
        rw [if_pos ⟨rfl, rfl⟩]; omega
      | some x =>
        obtain ⟨u', d'⟩ := x
        rw [how] at hl; simp only [lock] at hl
        by_cases hc : t = u' ∧ c.recur (c.mtx o) = true
        · rw [if_pos hc] at hl
          simp only [Option.some.injEq, Prod.mk.injEq] at hl
          obtain ⟨rfl, rfl⟩ := hl
          have := hI.held _ _ _ how
          rw [if_pos ⟨hc.1.symm, rfl⟩]
          omega
        · rw [if_neg hc] at hl; cases hl
    · simp only [doOpen, upd, if_neg hme] at hm ⊢
      have := hI.held _ _ _ hm
      rw [List.countP_append, List.countP_append, hon, hof, if_neg hme, if_neg (fun h => hme h.2)]
      simpa using this
  · intro u m
    simp only [doOpen]
    rw [nOpen_snoc, nClosed_snoc, List.countP_append, hof, hI.cnt]
    have : nOpen c u m [.opened t o] = if u = t ∧ m = c.mtx o then 1 else 0 := by
      rw [← hof]; simp [nOpen, ofT, List.countP_cons]
    have : nClosed c u m [.opened t o] = 0 := by simp [nClosed]
    omega

theorem inv_destroy {s : St} (hI : Inv c s) {k t o : Nat} (h : s.sess[k]? = some (some (t, o))) :
    Inv c (doDestroy c s k (some (t, o))) := by
  have hon : ∀ m, onM c m (some (t, o)) = true ↔ m = c.mtx o := by
    intro m; simp [onM]; exact eq_comm
  have hof : ∀ u m, ofT c u m (some (t, o)) = true ↔ u = t ∧ m = c.mtx o := by
    intro u m; simp [ofT]; exact ⟨fun ⟨a, b⟩ => ⟨a.symm, b.symm⟩, fun ⟨a, b⟩ => ⟨a.symm, b.symm⟩⟩
  have c1 := fun m => countP_set (onM c m) s.sess k _ none h
  have c2 := fun u m => countP_set (ofT c u m) s.sess k _ none h
  simp only [hon, show onM c _ none = false from rfl, Bool.false_eq_true, if_false] at c1
  simp only [hof, show ofT c _ _ none = false from rfl, Bool.false_eq_true, if_false] at c2
  -- the mutex is held by t
  have hthis : ∃ d, s.own (c.mtx o) = some (t, d) := by
    have h1 := c1 (c.mtx o); rw [if_pos rfl] at h1
    have h2 := c2 t (c.mtx o); rw [if_pos ⟨rfl, rfl⟩] at h2
    cases how : s.own (c.mtx o) with
    | none => have := hI.free _ how; omega
    | some x =>
      obtain ⟨u, d⟩ := x
      refine ⟨d, ?_⟩
      by_cases hu : u = t
      · rw [hu]
      · exfalso
        have hh := hI.held _ _ _ how
        have h3 := c2 u (c.mtx o)
        rw [if_neg (fun h => hu h.1)] at h3
        have h4 : (s.sess.set k none).countP (ofT c u (c.mtx o)) ≤ (s.sess.set k none).countP (onM c (c.mtx o)) := ofT_le _ _ _
        omega
  obtain ⟨d, how⟩ := hthis
  have hh := hI.held _ _ _ how
  constructor
  · intro m hm
    by_cases hme : m = c.mtx o
    · subst hme
      simp only [doDestroy, upd, if_true, how, unlock] at hm ⊢
      by_cases hd : d ≤ 1
      · have h1 := c1 (c.mtx o); rw [if_pos rfl] at h1; omega
      · simp [hd] at hm
    · simp only [doDestroy, upd, if_neg hme] at hm ⊢
      have h1 := c1 m; rw [if_neg hme] at h1
      have := hI.free m hm; omega
  · intro m u d' hm
    by_cases hme : m = c.mtx o
    · subst hme
      simp only [doDestroy, upd, if_true, how, unlock] at hm ⊢
      by_cases hd : d ≤ 1
      · simp [hd] at hm
      · simp only [if_neg hd, Option.some.injEq, Prod.mk.injEq] at hm
        obtain ⟨rfl, rfl⟩ := hm
        have h1 := c1 (c.mtx o); rw [if_pos rfl] at h1
        have h2 := c2 t (c.mtx o); rw [if_pos ⟨rfl, rfl⟩] at h2
        omega
    · simp only [doDestroy, upd, if_neg hme] at hm ⊢
      have h1 := c1 m; rw [if_neg hme] at h1
      have h2 := c2 u m; rw [if_neg (fun h => hme h.2)] at h2
      have := hI.held _ _ _ hm; omega
  · intro u m
    simp only [doDestroy]
    rw [nOpen_snoc, nClosed_snoc]
    have h2 := c2 u m
    have e1 : nOpen c u m [.closed t o] = 0 := by simp [nOpen]
    have e2 : nClosed c u m [.closed t o] = if u = t ∧ m = c.mtx o then 1 else 0 := by
      simp only [nClosed, List.countP_cons, List.countP_nil]
      by_cases hx : u = t ∧ m = c.mtx o
      · obtain ⟨rfl, rfl⟩ := hx; simp
      · rw [if_neg hx]
        by_cases h1 : t = u <;> by_cases h2 : c.mtx o = m <;> simp [h1, h2]
        exact hx ⟨h1.symm, h2.symm⟩
    have := hI.cnt u m
    omega

theorem inv_step {s s' : St} {a : Act} (hI : Inv c s) (h : step c s a = some s') : Inv c s' := by
  cases step_case h with
  | opn hl e => subst e; exact inv_open hI hl
  | @move k x hk e =>
    subst e
    exact ⟨fun m hm => by
        have := hI.free m hm
        simp only [doMove]; rw [countP_move rfl hk]; exact this,
      fun m t d hm => by
        have := hI.held m t d hm
        simp only [doMove]; rw [countP_move rfl hk, countP_move rfl hk]; exact this,
      fun t m => by
        have := hI.cnt t m
        simp only [doMove]; rw [countP_move rfl hk]; exact this⟩
  | gone h e => subst e; exact hI
  | destroy hk e => subst e; exact inv_destroy hI hk
  | read h e =>
    subst e
    exact ⟨hI.free, hI.held, fun t m => by
      have := hI.cnt t m
      simp only [doRead]; rw [nOpen_snoc, nClosed_snoc]
      simpa [nOpen, nClosed] using this⟩
  | write h e =>
    subst e
    exact ⟨hI.free, hI.held, fun t m => by
      have := hI.cnt t m
      simp only [doWrite]; rw [nOpen_snoc, nClosed_snoc]
      simpa [nOpen, nClosed] using this⟩

/-- What holds of every event: nobody else is in a session on the same mutex,
and what is read was written last. -/
def Rule (c : Conf) (d : Nat → Nat) (l : List Ev) : Ev → Prop
  | .opened t o => ∀ u, u ≠ t → nOpen c u (c.mtx o) l = nClosed c u (c.mtx o) l
  | .closed t o => (∀ u, u ≠ t → nOpen c u (c.mtx o) l = nClosed c u (c.mtx o) l) ∧ nClosed c t (c.mtx o) l < nOpen c t (c.mtx o) l
  | .read t o v => (∀ u, u ≠ t → nOpen c u (c.mtx o) l = nClosed c u (c.mtx o) l) ∧ nClosed c t (c.mtx o) l < nOpen c t (c.mtx o) l ∧ v = upto o (d o) l
  | .wrote t o _ => (∀ u, u ≠ t → nOpen c u (c.mtx o) l = nClosed c u (c.mtx o) l) ∧ nClosed c t (c.mtx o) l < nOpen c t (c.mtx o) l

/-- A live session: nobody else has one on the same mutex. -/
theorem live {s : St} (hI : Inv c s) {k t o : Nat} (h : s.sess[k]? = some (some (t, o))) :
    (∀ u, u ≠ t → nOpen c u (c.mtx o) s.log = nClosed c u (c.mtx o) s.log) ∧
    nClosed c t (c.mtx o) s.log < nOpen c t (c.mtx o) s.log := by
  have hmem := List.mem_of_getElem? h
  have hpos : 0 < s.sess.countP (ofT c t (c.mtx o)) := List.countP_pos_iff.2 ⟨_, hmem, by simp [ofT]⟩
  have hle := ofT_le (c := c) t (c.mtx o) s.sess
  refine ⟨fun u hu => ?_, by have := hI.cnt t (c.mtx o); omega⟩
  have := hI.cnt u (c.mtx o)
  suffices s.sess.countP (ofT c u (c.mtx o)) = 0 by omega
  cases how : s.own (c.mtx o) with
  | none => have := hI.free _ how; omega
  | some x =>
    obtain ⟨w, d⟩ := x
    have hh := hI.held _ _ _ how
    -- every session on the mutex is of w
    have heq : ∀ x ∈ s.sess, onM c (c.mtx o) x = true → ofT c w (c.mtx o) x = true := by
      intro x hx hon
      cases hb : ofT c w (c.mtx o) x with
      | true => rfl
      | false =>
        exfalso
        have : s.sess.countP (ofT c w (c.mtx o)) < s.sess.countP (onM c (c.mtx o)) := by
          obtain ⟨l1, l2, hs⟩ := List.append_of_mem hx
          rw [hs, List.countP_append, List.countP_append, List.countP_cons, List.countP_cons, hon, hb]
          have h1 := ofT_le (c := c) w (c.mtx o) l1
          have h2 := ofT_le (c := c) w (c.mtx o) l2
          simp; omega
        omega
    have hwt : w = t := by
      have := heq _ hmem (by simp [onM])
      simp [ofT] at this; exact this.symm
    apply Nat.eq_zero_of_not_pos
    intro hp
    obtain ⟨x, hx, hxu⟩ := List.countP_pos_iff.1 hp
    have h2 := heq x hx (ofT_onM hxu)
    cases x with
    | none => cases hxu
    | some x =>
      simp [ofT] at hxu h2
      exact hu (hxu.1.symm.trans (h2.1.trans hwt))

theorem entered {s : St} (hI : Inv c s) {t o : Nat} {w} (hl : lock c (c.mtx o) t (s.own (c.mtx o)) = some w) :
    ∀ u, u ≠ t → nOpen c u (c.mtx o) s.log = nClosed c u (c.mtx o) s.log := by
  intro u hu
  have hx := hI.cnt u (c.mtx o)
  have hle := ofT_le (c := c) u (c.mtx o) s.sess
  cases how : s.own (c.mtx o) with
  | none => have := hI.free _ how; omega
  | some x =>
    obtain ⟨w', d⟩ := x
    rw [how] at hl; simp only [lock] at hl
    by_cases hc : t = w' ∧ c.recur (c.mtx o) = true
    · have hh := hI.held _ _ _ how
      obtain ⟨rfl, -⟩ := hc
      have hpos : 0 < s.sess.countP (ofT c t (c.mtx o)) := by omega
      obtain ⟨x, hx', hxt⟩ := List.countP_pos_iff.1 hpos
      cases x with
      | none => cases hxt
      | some x =>
        obtain ⟨t', o'⟩ := x
        simp only [ofT, Bool.and_eq_true, beq_iff_eq] at hxt
        obtain ⟨rfl, hm⟩ := hxt
        obtain ⟨k, hk⟩ := List.getElem?_of_mem hx'
        have := (live hI hk).1 u hu
        rwa [hm] at this
    · rw [if_neg hc] at hl; cases hl

structure Good (c : Conf) (d : Nat → Nat) (s : St) : Prop where
  inv : Inv c s
  val : ∀ o, s.data o = upto o (d o) s.log
  hist : Hist (Rule c d) s.log

theorem good_init (d : Nat → Nat) : Good c d (init d) := ⟨inv_init d, fun _ => rfl, Hist.nil⟩

theorem good_step {d : Nat → Nat} {s s' : St} {a : Act} (hG : Good c d s) (h : step c s a = some s') : Good c d s' := by
  have hI' := inv_step hG.inv h
  refine ⟨hI', ?_, ?_⟩
  · cases step_case h with
    | opn hl e => subst e; intro o; simp only [doOpen]; rw [upto_append]; exact hG.val o
    | move h e => subst e; exact hG.val
    | gone h e => subst e; exact hG.val
    | destroy h e => subst e; intro o; simp only [doDestroy]; rw [upto_append]; exact hG.val o
    | read h e => subst e; intro o; simp only [doRead]; rw [upto_append]; exact hG.val o
    | @write k t o v h e =>
      subst e; intro o'
      simp only [doWrite, upd]; rw [upto_append]
      by_cases ho : o' = o
      · subst ho; simp [upto]
      · have : o ≠ o' := fun e => ho e.symm
        simp only [if_neg ho, upto, if_neg this]; exact hG.val o'
  · cases step_case h with
    | opn hl e => subst e; exact hG.hist.one (entered hG.inv hl)
    | move h e => subst e; exact hG.hist
    | gone h e => subst e; exact hG.hist
    | destroy hk e => subst e; exact hG.hist.one (live hG.inv hk)
    | read hk e => subst e; exact hG.hist.one ⟨(live hG.inv hk).1, (live hG.inv hk).2, hG.val _⟩
    | write hk e => subst e; exact hG.hist.one (live hG.inv hk)

theorem good_runs {d : Nat → Nat} {acts : List Act} : ∀ {s : St}, runs c (init d) acts = some s → Good c d s := by
  induction acts using snoc_induct with
  | nil => intro s h; cases h; exact good_init d
  | snoc acts a ih =>
    intro s h
    obtain ⟨m, hm, hs⟩ := runs_snoc_some h
    exact good_step (ih hm) hs

theorem closed_le {d : Nat → Nat} (t m : Nat) : ∀ {l : List Ev}, Hist (Rule c d) l → nClosed c t m l ≤ nOpen c t m l := by
  intro l
  induction l using snoc_induct with
  | nil => intro _; exact Nat.le_refl _
  | snoc l e ih =>
    intro h
    have h1 := ih h.left
    have h2 := h.all l e [] rfl
    rw [nOpen_snoc, nClosed_snoc]
    cases e with
    | opened u o =>
      have : nClosed c t m [.opened u o] = 0 := by simp [nClosed]
      omega
    | closed u o =>
      have h3 : nClosed c t m [.closed u o] = if u = t ∧ c.mtx o = m then 1 else 0 := by
        simp [nClosed, List.countP_cons]
      by_cases hx : u = t ∧ c.mtx o = m
      · obtain ⟨rfl, rfl⟩ := hx
        have := h2.2
        rw [if_pos ⟨rfl, rfl⟩] at h3; omega
      · rw [if_neg hx] at h3; omega
    | read u o v =>
      have : nClosed c t m [.read u o v] = 0 := by simp [nClosed]
      omega
    | wrote u o v =>
      have : nClosed c t m [.wrote u o v] = 0 := by simp [nClosed]
      omega

end Maf.Atom
