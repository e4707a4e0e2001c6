import Verif.Lemmas.Atomic

/-!
C90: sessions on a protected object exclude each other.

Small specification, over the log of what happened (`opened`, `closed`, `read`,
`wrote`, each by a thread on an object): `inside c l t m` -- after `l`, thread
`t` is in a session on an object protected by mutex `m`; `latest o d l` -- the
last value written to `o`, or the initial one.
-/

namespace Maf.Atom

/-- Sessions opened and not yet ended by thread `t` under mutex `m`. -/
def depth (c : Conf) (t m : Nat) : List Ev → Int
  | [] => 0
  | .opened u o :: l => (if u = t ∧ c.mtx o = m then 1 else 0) + depth c t m l
  | .closed u o :: l => (if u = t ∧ c.mtx o = m then -1 else 0) + depth c t m l
  | .read _ _ _ :: l => depth c t m l
  | .wrote _ _ _ :: l => depth c t m l

def inside (c : Conf) (l : List Ev) (t m : Nat) : Prop := 0 < depth c t m l

/-- Who did it, and to which object. -/
def Ev.thread : Ev → Nat
  | .opened t _ => t
  | .closed t _ => t
  | .read t _ _ => t
  | .wrote t _ _ => t

def Ev.object : Ev → Nat
  | .opened _ o => o
  | .closed _ o => o
  | .read _ o _ => o
  | .wrote _ o _ => o

def latest (o d : Nat) (l : List Ev) : Nat :=
  l.foldl (fun a e => match e with
    | .wrote _ o' v => if o' = o then v else a
    | _ => a) d

theorem depth_eq (c : Conf) (t m : Nat) (l : List Ev) : depth c t m l = (nOpen c t m l : Int) - nClosed c t m l := by
  induction l with
  | nil => rfl
  | cons e l ih =>
    cases e <;> simp only [depth, nOpen, nClosed, List.countP_cons] at ih ⊢ <;> rw [ih]
    · rename_i u o
      by_cases h : u = t ∧ c.mtx o = m
      · rw [if_pos h]; simp [h.1, h.2]; omega
      · rw [if_neg h]
        by_cases h1 : u = t <;> by_cases h2 : c.mtx o = m <;> simp [h1, h2]
        exact absurd ⟨h1, h2⟩ h
    · rename_i u o
      by_cases h : u = t ∧ c.mtx o = m
      · rw [if_pos h]; simp [h.1, h.2]; omega
      · rw [if_neg h]
        by_cases h1 : u = t <;> by_cases h2 : c.mtx o = m <;> simp [h1, h2]
        exact absurd ⟨h1, h2⟩ h
    · simp
    · simp

theorem upto_latest (o d : Nat) (l : List Ev) : upto o d l = latest o d l := by
  induction l generalizing d with
  | nil => rfl
  | cons e l ih => cases e <;> exact ih _

/-- **C90.** Whenever a thread opens, uses or ends a session on an object, no
other thread is in a session on that object, or on one that shares its mutex;
and using it means being in a session. -/
theorem exclusive {c : Conf} {d : Nat → Nat} {acts : List Act} {s : St} (h : runs c (init d) acts = some s)
    {l r : List Ev} {e : Ev} (hs : s.log = l ++ e :: r) :
    (∀ u, u ≠ e.thread → ¬ inside c l u (c.mtx e.object)) ∧
    ((∀ t o, e ≠ .opened t o) → inside c l e.thread (c.mtx e.object)) := by
  have hr := (good_runs h).hist.all l e r hs
  have conv : ∀ {t o}, (∀ u, u ≠ t → nOpen c u (c.mtx o) l = nClosed c u (c.mtx o) l) → ∀ u, u ≠ t → ¬ inside c l u (c.mtx o) := by
    intro t o hh u hu hin
    have := hh u hu
    unfold inside at hin; rw [depth_eq] at hin; omega
  have conv2 : ∀ {t o}, nClosed c t (c.mtx o) l < nOpen c t (c.mtx o) l → inside c l t (c.mtx o) := by
    intro t o hh; unfold inside; rw [depth_eq]; omega
  cases e with
  | opened t o => exact ⟨conv hr, fun hh => absurd rfl (hh t o)⟩
  | closed t o => exact ⟨conv hr.1, fun _ => conv2 hr.2⟩
  | read t o v => exact ⟨conv hr.1, fun _ => conv2 hr.2.1⟩
  | wrote t o v => exact ⟨conv hr.1, fun _ => conv2 hr.2⟩

/-- **C90.** A read gives the value last written to the object. -/
theorem read_latest {c : Conf} {d : Nat → Nat} {acts : List Act} {s : St} (h : runs c (init d) acts = some s)
    {l r : List Ev} {t o v : Nat} (hs : s.log = l ++ .read t o v :: r) : v = latest o (d o) l := by
  have := ((good_runs h).hist.all l _ r hs).2.2
  rwa [upto_latest] at this

theorem depth_append (c : Conf) (t m : Nat) (a b : List Ev) : depth c t m (a ++ b) = depth c t m a + depth c t m b := by
  induction a with
  | nil => simp [depth]
  | cons e a ih => cases e <;> simp only [List.cons_append, depth, ih] <;> omega

/-- staying inside: as long as the thread does not end a session, it is in it -/
theorem depth_mono {c : Conf} {t m : Nat} {b : List Ev} (hb : ∀ o, c.mtx o = m → Ev.closed t o ∉ b) : 0 ≤ depth c t m b := by
  induction b with
  | nil => exact Int.le_refl 0
  | cons e b ih =>
    have ih := ih fun o ho hm => hb o ho (List.mem_cons_of_mem _ hm)
    cases e with
    | opened u o =>
      simp only [depth]
      by_cases h : u = t ∧ c.mtx o = m
      · rw [if_pos h]; omega
      · rw [if_neg h]; omega
    | closed u o =>
      have : ¬ (u = t ∧ c.mtx o = m) := by
        rintro ⟨rfl, h⟩; exact hb o h (by simp)
      simp only [depth, if_neg this]; omega
    | read u o v => exact ih
    | wrote u o v => exact ih

/-- **C90.** What a thread does in one session is not interrupted: from any
event of its session until it next ends a session under that mutex, everything
that happens under the mutex is done by this thread. -/
theorem uninterrupted {c : Conf} {d : Nat → Nat} {acts : List Act} {s : St} (h : runs c (init d) acts = some s)
    {l mid r : List Ev} {e f : Ev} (hs : s.log = l ++ e :: mid ++ f :: r) (he : ∀ t o, e ≠ .closed t o)
    (hmid : ∀ o, c.mtx o = c.mtx e.object → Ev.closed e.thread o ∉ mid)
    (hf : c.mtx f.object = c.mtx e.object) : f.thread = e.thread := by
  have h1 := exclusive h (l := l) (e := e) (r := mid ++ f :: r) (by rw [hs]; simp)
  have h2 := exclusive h (l := l ++ e :: mid) (e := f) (r := r) hs
  by_cases hu : f.thread = e.thread
  · exact hu
  · exfalso
    apply h2.1 e.thread (fun x => hu x.symm)
    rw [hf]
    unfold inside
    rw [depth_append]
    have hm := depth_mono hmid
    cases e with
    | opened t o =>
      have h0 : 0 ≤ depth c t (c.mtx o) l := by
        -- the sessions ended are among those opened
        have hh : depth c t (c.mtx o) l = (nOpen c t (c.mtx o) l : Int) - nClosed c t (c.mtx o) l := depth_eq _ _ _ _
        have hp : nClosed c t (c.mtx o) l ≤ nOpen c t (c.mtx o) l := by
          have hH := (good_runs h).hist
          rw [hs, List.append_assoc] at hH
          exact closed_le t (c.mtx o) hH.left
        omega
      show 0 < depth c t (c.mtx o) l + ((if t = t ∧ c.mtx o = c.mtx o then 1 else 0) + depth c t (c.mtx o) mid)
      have hm' : 0 ≤ depth c t (c.mtx o) mid := hm
      simp; omega
    | closed t o => exact absurd rfl (he t o)
    | read t o v =>
      have h3 : 0 < depth c t (c.mtx o) l := h1.2 (by simp)
      have hm' : 0 ≤ depth c t (c.mtx o) mid := hm
      show 0 < depth c t (c.mtx o) l + depth c t (c.mtx o) mid
      omega
    | wrote t o v =>
      have h3 : 0 < depth c t (c.mtx o) l := h1.2 (by simp)
      have hm' : 0 ≤ depth c t (c.mtx o) mid := hm
      show 0 < depth c t (c.mtx o) l + depth c t (c.mtx o) mid
      omega

/-- Every write to `o` adds one to what its thread has read from `o` in the same
session -- `obj->n = obj->n + 1` in one session. -/
def Increments (c : Conf) (o : Nat) (log : List Ev) : Prop :=
  ∀ l t w r, log = l ++ .wrote t o w :: r → ∃ a v b, l = a ++ .read t o v :: b ∧ w = v + 1 ∧
    (∀ o', c.mtx o' = c.mtx o → Ev.closed t o' ∉ b) ∧ (∀ x, Ev.wrote t o x ∉ b)

def writes (o : Nat) (log : List Ev) : Nat :=
  log.countP fun e => match e with
    | .wrote _ o' _ => o' == o
    | _ => false

theorem latest_append (o d : Nat) (a b : List Ev) : latest o d (a ++ b) = latest o (latest o d a) b := by
  simp [latest]

theorem latest_quiet {o d : Nat} : ∀ {b : List Ev}, (∀ t x, Ev.wrote t o x ∉ b) → latest o d b = d := by
  intro b
  induction b generalizing d with
  | nil => intro _; rfl
  | cons e b ih =>
    intro h
    have ih := fun d => ih (d := d) fun t x hm => h t x (List.mem_cons_of_mem _ hm)
    cases e with
    | opened t o' => exact ih d
    | closed t o' => exact ih d
    | read t o' v => exact ih d
    | wrote t o' v =>
      have : o' ≠ o := by rintro rfl; exact h t v (by simp)
      show latest o (if o' = o then v else d) b = d
      rw [if_neg this]; exact ih d

/-- **C90.** No update is lost: if everybody increments in sessions, the value
is the number of increments, whatever the schedule. -/
theorem no_lost_update {c : Conf} {d : Nat → Nat} {acts : List Act} {s : St} (h : runs c (init d) acts = some s)
    {o : Nat} (hinc : Increments c o s.log) : s.data o = d o + writes o s.log := by
  rw [(good_runs h).val o, upto_latest]
  have key : ∀ l r, s.log = l ++ r → latest o (d o) l = d o + writes o l := by
    intro l
    induction l using snoc_induct with
    | nil => intro _ _; rfl
    | snoc l e ih =>
      intro r hs
      have hs' : s.log = l ++ e :: r := by rw [hs]; simp
      have ih := ih (e :: r) hs'
      rw [latest_append]
      have hw : writes o (l ++ [e]) = writes o l + writes o [e] := by simp [writes]
      rw [hw]
      cases e with
      | opened t o' => exact ih
      | closed t o' => exact ih
      | read t o' v => exact ih
      | wrote t o' w =>
        by_cases ho : o' = o
        · subst ho
          obtain ⟨a, v, b, hl, hv, hc, hq⟩ := hinc l t w r hs'
          have hsa : s.log = a ++ .read t o' v :: (b ++ .wrote t o' w :: r) := by rw [hs', hl]; simp
          have hv' := read_latest h hsa
          have hb : ∀ u x, Ev.wrote u o' x ∉ b := by
            intro u x hm
            obtain ⟨b1, b2, rfl⟩ := List.append_of_mem hm
            have := uninterrupted h (l := a) (mid := b1) (e := .read t o' v) (f := .wrote u o' x) (r := b2 ++ .wrote t o' w :: r)
              (by rw [hsa]; simp) (by simp) (fun o'' ho'' hmm => hc o'' ho'' (List.mem_append_left _ hmm)) rfl
            have hut : u = t := this
            subst hut; exact hq x hm
          have hlat : latest o' (d o') l = v := by
            rw [hl, latest_append]
            show latest o' (latest o' (d o') a) b = v
            rw [latest_quiet hb]; exact hv'.symm
          have h1 : latest o' (latest o' (d o') l) [.wrote t o' w] = w := by simp [latest]
          have h2 : writes o' [.wrote t o' w] = 1 := by simp [writes]
          rw [h1, h2, hv]; omega
        · have h1 : latest o (latest o (d o) l) [.wrote t o' w] = latest o (d o) l := by simp [latest, ho]
          have h2 : writes o [.wrote t o' w] = 0 := by simp [writes, ho]
          rw [h1, h2, ih]; rfl
  exact key s.log [] (by simp)

/-- **C90.** A session can be opened exactly if no thread is in a session under
the same mutex -- except, for a recursive mutex, this thread itself. -/
theorem open_iff {c : Conf} {d : Nat → Nat} {acts : List Act} {s : St} (h : runs c (init d) acts = some s) (t o : Nat) :
    (∃ s', step c s (.opn t o) = some s') ↔
      ∀ u, inside c s.log u (c.mtx o) → u = t ∧ c.recur (c.mtx o) = true := by
  have hI := (good_runs h).inv
  have hin : ∀ u, inside c s.log u (c.mtx o) ↔ 0 < s.sess.countP (ofT c u (c.mtx o)) := by
    intro u; unfold inside; rw [depth_eq]; have := hI.cnt u (c.mtx o); omega
  constructor
  · rintro ⟨s', hs⟩ u hu
    cases step_case hs with
    | opn hl e =>
      have h1 := entered hI hl u
      by_cases hut : u = t
      · subst hut
        refine ⟨rfl, ?_⟩
        cases how : s.own (c.mtx o) with
        | none =>
          have := hI.free _ how
          have := ofT_le (c := c) u (c.mtx o) s.sess
          have := (hin u).1 hu; omega
        | some x =>
          obtain ⟨w, n⟩ := x
          rw [how] at hl; simp only [lock] at hl
          by_cases hc : u = w ∧ c.recur (c.mtx o) = true
          · exact hc.2
          · rw [if_neg hc] at hl; cases hl
      · have := h1 hut
        unfold inside at hu; rw [depth_eq] at hu; omega
  · intro hall
    have : ∃ w, lock c (c.mtx o) t (s.own (c.mtx o)) = some w := by
      cases how : s.own (c.mtx o) with
      | none => exact ⟨_, rfl⟩
      | some x =>
        obtain ⟨w, n⟩ := x
        have hh := hI.held _ _ _ how
        have := hall w ((hin w).2 (by omega))
        exact ⟨(w, n + 1), by simp only [lock]; rw [if_pos ⟨this.1.symm, this.2⟩]⟩
    obtain ⟨w, hw⟩ := this
    exact ⟨_, by simp only [step, hw]; rfl⟩

/-- Thread `t` is held up: what it wants to open is not free. -/
def HeldUp (c : Conf) (s : St) (t : Nat) (want : Nat → Option Nat) : Prop :=
  ∃ o, want t = some o ∧ step c s (.opn t o) = none

/-- **C90.** No deadlock if sessions are nested in one order of the mutexes: of
the threads that are in a session, one is not held up -- as long as nobody
wants a mutex that is not above all those it already has. -/
theorem no_deadlock {c : Conf} {d : Nat → Nat} {acts : List Act} {s : St} (h : runs c (init d) acts = some s)
    (want : Nat → Option Nat) (hord : ∀ t o m, want t = some o → inside c s.log t m → m < c.mtx o)
    {t₀ m₀ : Nat} (hin : inside c s.log t₀ m₀) : ∃ t m, inside c s.log t m ∧ ¬ HeldUp c s t want := by
  have hI := (good_runs h).inv
  have hcnt : ∀ u m, inside c s.log u m ↔ 0 < s.sess.countP (ofT c u m) := by
    intro u m; unfold inside; rw [depth_eq]; have := hI.cnt u m; omega
  -- all mutexes in use are below a bound
  have hbound : ∃ B, ∀ u m, inside c s.log u m → m < B := by
    have : ∀ l : List (Option (Nat × Nat)), ∃ B, ∀ u m, 0 < l.countP (ofT c u m) → m < B := by
      intro l
      induction l with
      | nil => exact ⟨0, fun u m hh => by simp at hh⟩
      | cons x l ih =>
        obtain ⟨B, hB⟩ := ih
        refine ⟨B + (match x with | none => 0 | some (_, o) => c.mtx o + 1), fun u m hh => ?_⟩
        rw [List.countP_cons] at hh
        by_cases hl : 0 < l.countP (ofT c u m)
        · have := hB u m hl; omega
        · cases x with
          | none => rw [if_neg (by simp [ofT])] at hh; omega
          | some x =>
            obtain ⟨v, o⟩ := x
            by_cases ho : ofT c u m (some (v, o)) = true
            · simp [ofT] at ho; simp only; omega
            · rw [if_neg ho] at hh; omega
    obtain ⟨B, hB⟩ := this s.sess
    exact ⟨B, fun u m hh => hB u m ((hcnt u m).1 hh)⟩
  obtain ⟨B, hB⟩ := hbound
  have key : ∀ n t m, inside c s.log t m → B - m ≤ n → ∃ t m, inside c s.log t m ∧ ¬ HeldUp c s t want := by
    intro n
    induction n with
    | zero => intro t m hin hn; have := hB t m hin; omega
    | succ n ih =>
      intro t m hin hn
      by_cases hh : HeldUp c s t want
      · obtain ⟨o, hw, hs⟩ := hh
        have hlt := hord t o m hw hin
        -- somebody has the mutex
        have : ∃ u, inside c s.log u (c.mtx o) := by
          by_cases hex : ∃ u, inside c s.log u (c.mtx o)
          · exact hex
          · exfalso
            obtain ⟨s', hs'⟩ := (open_iff h t o).2 (fun u hu => absurd ⟨u, hu⟩ hex)
            rw [hs] at hs'; cases hs'
        obtain ⟨u, hu⟩ := this
        exact ih u (c.mtx o) hu (by have := hB t m hin; omega)
      · exact ⟨t, m, hin, hh⟩
  exact key _ t₀ m₀ hin (Nat.le_refl _)

/-! ### Two threads, one counter -/

def exC : Conf := ⟨fun o => o / 2, fun m => m == 1⟩

/-- thread 1 and thread 2 increment object 4 (recursive mutex 2 is not: 2 ≠ 1);
a session is moved on the way -/
def exActs : List Act := [.opn 1 4, .read 0, .move 0, .destroy 0, .write 1 8, .destroy 1, .opn 2 4, .read 2, .write 2 9, .destroy 2]

def exLog : List Ev := [.opened 1 4, .read 1 4 7, .wrote 1 4 8, .closed 1 4, .opened 2 4, .read 2 4 8, .wrote 2 4 9, .closed 2 4]

example : (runs exC (init fun _ => 7) exActs).map (fun s => (s.log, s.data 4)) = some (exLog, 9) := rfl

theorem exInc : Increments exC 4 exLog := by
  intro l t w r h
  have : (l = [.opened 1 4, .read 1 4 7] ∧ t = 1 ∧ w = 8) ∨
      (l = [.opened 1 4, .read 1 4 7, .wrote 1 4 8, .closed 1 4, .opened 2 4, .read 2 4 8] ∧ t = 2 ∧ w = 9) := by
    rcases l with _ | ⟨a, _ | ⟨b, _ | ⟨x, _ | ⟨y, _ | ⟨z, _ | ⟨p, _ | ⟨q, _ | ⟨u, l⟩⟩⟩⟩⟩⟩⟩⟩ <;> simp [exLog] at h <;> first
      | (obtain ⟨rfl, rfl, rfl, rfl, rfl, rfl, ⟨rfl, rfl⟩, -⟩ := h; simp; done)
      | (obtain ⟨rfl, rfl, ⟨rfl, rfl⟩, -⟩ := h; simp; done)
  rcases this with ⟨rfl, rfl, rfl⟩ | ⟨rfl, rfl, rfl⟩
  · exact ⟨[.opened 1 4], 7, [], rfl, rfl, by simp, by simp⟩
  · exact ⟨[.opened 1 4, .read 1 4 7, .wrote 1 4 8, .closed 1 4, .opened 2 4], 8, [], rfl, rfl, by simp, by simp⟩

/-- a moved-from session gives nothing back: the other thread still waits -/
example : runs exC (init fun _ => 7) [.opn 1 4, .move 0, .destroy 0, .opn 2 4] = none := rfl
/-- objects 4 and 5 share a mutex -/
example : runs exC (init fun _ => 7) [.opn 1 4, .opn 2 5] = none := rfl
/-- two sessions in one expression, `obj->f(*obj)`: the thread waits for itself,
unless the mutex is recursive -/
example : runs exC (init fun _ => 7) [.opn 1 4, .opn 1 4] = none := rfl
example : (runs exC (init fun _ => 7) [.opn 1 2, .opn 1 3, .destroy 1, .destroy 0, .opn 2 2]).isSome = true := rfl
/-- two threads nested crosswise wait for each other: the order is needed -/
example : (runs exC (init fun _ => 7) [.opn 1 4, .opn 2 6]).map
    (fun s => (step exC s (.opn 1 6)).isNone && (step exC s (.opn 2 4)).isNone) = some true := rfl
/-- the hypotheses of `no_deadlock` can be met with a thread held up -/
example : ∃ s, runs exC (init fun _ => 7) [.opn 1 4, .opn 2 6] = some s ∧ inside exC s.log 1 2 ∧
    step exC s (.opn 1 6) = none := ⟨_, rfl, by show (0 : Int) < 1; decide, rfl⟩

end Maf.Atom
