import Verif.Model.SyncTimer
import Verif.Lemmas.Hist
/-
What holds in every run of the synchronous timer.
-/
namespace Maf.SyncT

/-! ### Specification, in terms of what was observed -/

/-- The timer is running: the last of what starts and ends it is a start. -/
def runningIn (l : List Ev) : Bool := l.foldl (fun b e => match e with | .entered _ => true | .stopped _ => false | .returned _ _ => false | _ => b) false

/-- The mode: what was last set; at first, what the constructor was given. -/
def cyclicIn (c0 : Bool) (l : List Ev) : Bool := l.foldl (fun b e => match e with | .cyclicSet b' => b' | _ => b) c0

/-- `start` number `f` is in its callback. -/
def inCb (f : Nat) (l : List Ev) : Bool := l.foldl (fun b e => match e with | .fired g _ _ => if g = f then true else b | .calledBack g => if g = f then false else b | _ => b) false

/-- Which `start` an event belongs to. -/
def Ev.about : Ev → Option Nat
  | .begun f _ _ _ | .entered f | .fired f _ _ | .calledBack f | .returned f _ => some f
  | _ => none

/-- Whenever the callback was called for `f`, it has returned, and at that moment the timer was cyclic. -/
def Again (c0 : Bool) (f : Nat) (l : List Ev) : Prop :=
  ∀ l1 t b l2, l = l1 ++ .fired f t b :: l2 → ∃ a r, l2 = a ++ .calledBack f :: r ∧ (∀ e ∈ a, e.about ≠ some f) ∧ cyclicIn c0 (l1 ++ .fired f t b :: a) = true

/-! ### Rules -/

def EvOk (c0 : Bool) (l : List Ev) : Ev → Prop
  | .begun f _ _ _ => ∀ e ∈ l, e.about ≠ some f
  | .entered f => (∃ th d t, .begun f th d t ∈ l) ∧ .entered f ∉ l
  | .fired f t cb => runningIn l = true ∧ .entered f ∈ l ∧ (∀ th d t0, .begun f th d t0 ∈ l → t0 + d ≤ t ∧ ∀ t' b, .fired f t' b ∈ l → t' + d ≤ t) ∧ Again c0 f l ∧
      (cb = false → ∃ l1 t' r, l = l1 ++ .fired f t' true :: r ∧ cyclicIn c0 l1 = false) ∧ (∀ u, .returned f u ∉ l)
  | .calledBack f => inCb f l = true
  | .returned f _ => (∀ u, .returned f u ∉ l) ∧ .entered f ∈ l ∧ inCb f l = false ∧
      (runningIn l = false ∨ ∃ l', l = l' ++ [.calledBack f] ∧ cyclicIn c0 l' = false)
  | .stopped th => ∀ f, inCb f l = true → ∃ d t, .begun f th d t ∈ l
  | _ => True

/-- Before the timer is started. -/
def Pc.early : Pc → Bool
  | .check | .stopping | .enter => true
  | _ => false

/-- Waiting for the end of the interval. -/
def Pc.waits : Pc → Bool
  | .asleep | .woken | .expired => true
  | _ => false

/-- What is so about one `start`. -/
structure FrOk (c0 : Bool) (fr : Frame) (f : Nat) (log : List Ev) (now : Nat) : Prop where
  begun : ∃ t, .begun f fr.thr fr.d t ∈ log
  only : ∀ th d t, .begun f th d t ∈ log → th = fr.thr ∧ d = fr.d
  live : fr.pc ≠ .none
  pre : fr.pc.early = true ↔ .entered f ∉ log
  quiet : .entered f ∉ log → ∀ t b, .fired f t b ∉ log
  wait : fr.pc.waits = true → (∀ t b, .fired f t b ∈ log → t + fr.d ≤ fr.deadline) ∧ ∀ th d t, .begun f th d t ∈ log → t + d ≤ fr.deadline
  exp : fr.pc = .expired → fr.deadline ≤ now
  again : fr.pc.waits = true → Again c0 f log
  incb : inCb f log = true ↔ fr.pc = .calling
  mid : fr.pc = .calling → ∃ l1 t b l2, log = l1 ++ .fired f t b :: l2 ∧ (∀ e ∈ l2, e.about ≠ some f) ∧ Again c0 f l1
  cb : fr.cb = false → ∃ l1 t r, log = l1 ++ .fired f t true :: r ∧ cyclicIn c0 l1 = false
  back : fr.pc = .gone ↔ ∃ t, .returned f t ∈ log
  time : ∀ th d t, .begun f th d t ∈ log → t ≤ now
  ftime : ∀ t b, .fired f t b ∈ log → t ≤ now

structure Inv (c0 : Bool) (s : State) : Prop where
  run : s.running = runningIn s.log
  cyc : s.cyclic = cyclicIn c0 s.log
  hist : Hist (EvOk c0) s.log
  old : ∀ f, f < s.next → FrOk c0 (s.frame f) f s.log s.now
  fresh : ∀ f, s.next ≤ f → (s.frame f).pc = .none ∧ ∀ e ∈ s.log, e.about ≠ some f
  thr : ∀ t, ∀ f ∈ s.stack t, (s.frame f).thr = t
  alive : ∀ t, ∀ f ∈ s.stack t, (s.frame f).pc ≠ .gone ∧ f < s.next
  inside : ∀ f, f < s.next → (s.frame f).pc ≠ .gone → f ∈ s.stack (s.frame f).thr
  base : ∀ t a f r, s.stack t = a ++ f :: r → (s.frame f).nested = false → r = []
  under : ∀ t f r, s.stack t = f :: r → ∀ g ∈ r, (s.frame g).pc = .calling
  nodup : ∀ t, (s.stack t).Nodup
  own : ∀ f, f < s.next → (s.frame f).pc = .calling → s.owner = some (s.frame f).thr

/-! ### Events of others -/

theorem Again_other {c0 : Bool} {f : Nat} {l : List Ev} {e : Ev} (h : Again c0 f l) (he : ∀ t b, e ≠ .fired f t b) : Again c0 f (l ++ [e]) := by
  intro l1 t b l2 hl
  rcases List.append_eq_append_iff.1 hl with ⟨a, ha, hb⟩ | ⟨a, ha, hb⟩
  · cases a with
    | nil => simp at hb; exact absurd hb.1 (he t b)
    | cons x a => simp at hb
  · cases a with
    | nil => simp at hb; exact absurd hb.1.symm (he t b)
    | cons x a =>
      simp at hb; obtain ⟨rfl, rfl⟩ := hb
      obtain ⟨a', r, ha', hc⟩ := h l1 t b a ha
      exact ⟨a', r ++ [e], by rw [ha']; simp, hc⟩

theorem Again_back {c0 : Bool} {f t : Nat} {b : Bool} {l1 l2 : List Ev} (h : Again c0 f l1) (hl : ∀ e ∈ l2, e.about ≠ some f) (hc : cyclicIn c0 (l1 ++ .fired f t b :: l2) = true) :
    Again c0 f (l1 ++ .fired f t b :: l2 ++ [.calledBack f]) := by
  intro l1' t' b' l2' he
  rw [List.append_assoc, List.cons_append] at he
  rcases places he with ⟨rfl, he', rfl⟩ | ⟨c, rfl, he'⟩ | ⟨c, rfl, rfl⟩
  · cases he'; exact ⟨l2, [], rfl, hl, hc⟩
  · have : Ev.fired f t' b' ∈ l2 ++ [.calledBack f] := by rw [he']; simp
    simp at this; exact absurd rfl (hl _ this)
  · obtain ⟨a, r, rfl, hx⟩ := h l1' t' b' c rfl
    exact ⟨a, r ++ .fired f t b :: l2 ++ [.calledBack f], by simp, hx⟩

theorem inCb_other {f : Nat} {l : List Ev} {e : Ev} (he : e.about ≠ some f) : inCb f (l ++ [e]) = inCb f l := by
  cases e <;> simp [inCb, Ev.about] at he ⊢ <;> simp [he]

theorem FrOk.other {c0 : Bool} {fr : Frame} {f : Nat} {log : List Ev} {now now' : Nat} {e : Ev} (h : FrOk c0 fr f log now) (hn : now ≤ now') (he : e.about ≠ some f) :
    FrOk c0 fr f (log ++ [e]) now' := by
  have hb : ∀ th d t, .begun f th d t ∈ log ++ [e] → .begun f th d t ∈ log := by
    intro th d t hm; simp at hm; rcases hm with hm | rfl
    · exact hm
    · exact absurd rfl he
  have hf : ∀ t b, .fired f t b ∈ log ++ [e] → .fired f t b ∈ log := by
    intro t b hm; simp at hm; rcases hm with hm | rfl
    · exact hm
    · exact absurd rfl he
  have hr : ∀ t, .returned f t ∈ log ++ [e] → .returned f t ∈ log := by
    intro t hm; simp at hm; rcases hm with hm | rfl
    · exact hm
    · exact absurd rfl he
  have hen : .entered f ∈ log ++ [e] ↔ .entered f ∈ log := by
    simp; rintro rfl; exact absurd rfl he
  refine ⟨?_, fun th d t hm => h.only th d t (hb _ _ _ hm), h.live, ?_, ?_, fun hw => ⟨fun t b hm => (h.wait hw).1 t b (hf _ _ hm), fun th d t hm => (h.wait hw).2 th d t (hb _ _ _ hm)⟩,
    fun hx => Nat.le_trans (h.exp hx) hn, fun hw => Again_other (h.again hw) (by rintro t b rfl; exact absurd rfl he), ?_, ?_, ?_, ?_,
    fun th d t hm => Nat.le_trans (h.time th d t (hb _ _ _ hm)) hn, fun t b hm => Nat.le_trans (h.ftime t b (hf _ _ hm)) hn⟩
  · obtain ⟨t, ht⟩ := h.begun; exact ⟨t, List.mem_append_left _ ht⟩
  · rw [hen]; exact h.pre
  · rw [hen]; exact fun hx t b hm => h.quiet hx t b (hf _ _ hm)
  · rw [inCb_other he]; exact h.incb
  · intro hx; obtain ⟨l1, t, b, l2, h1, h2, h3⟩ := h.mid hx
    refine ⟨l1, t, b, l2 ++ [e], by rw [h1]; simp, ?_, h3⟩
    intro e' hm; simp at hm; rcases hm with hm | rfl
    · exact h2 e' hm
    · exact he
  · intro hc; obtain ⟨l1, t, r, h1, h2⟩ := h.cb hc; exact ⟨l1, t, r ++ [e], by rw [h1]; simp, h2⟩
  · rw [h.back]; exact ⟨fun ⟨t, ht⟩ => ⟨t, List.mem_append_left _ ht⟩, fun ⟨t, ht⟩ => ⟨t, hr t ht⟩⟩

theorem FrOk.later {c0 : Bool} {fr : Frame} {f : Nat} {log : List Ev} {now now' : Nat} (h : FrOk c0 fr f log now) (hn : now ≤ now') : FrOk c0 fr f log now' :=
  ⟨h.begun, h.only, h.live, h.pre, h.quiet, h.wait, fun hx => Nat.le_trans (h.exp hx) hn, h.again, h.incb, h.mid, h.cb, h.back,
    fun th d t hm => Nat.le_trans (h.time th d t hm) hn, fun t b hm => Nat.le_trans (h.ftime t b hm) hn⟩

theorem FrOk.lt {c0 : Bool} {s : State} (h : Inv c0 s) {f : Nat} (hf : (s.frame f).pc ≠ .none) : f < s.next :=
  Nat.lt_of_not_le fun hc => hf (h.fresh f hc).1

theorem top_mem {s : State} {t f : Nat} (h : s.top t = some f) : f ∈ s.stack t := by
  unfold State.top at h
  cases hs : s.stack t with
  | nil => rw [hs] at h; cases h
  | cons x r => rw [hs] at h; cases h; simp

theorem top_cons {s : State} {t f : Nat} (h : s.top t = some f) : ∃ r, s.stack t = f :: r := by
  unfold State.top at h
  cases hs : s.stack t with
  | nil => rw [hs] at h; cases h
  | cons x r => rw [hs] at h; cases h; exact ⟨r, rfl⟩

/-! ### A frame changes, nothing else -/

theorem inv_pc {c0 : Bool} {s : State} (h : Inv c0 s) {f : Nat} {p : Pc} (h1 : (s.frame f).pc = .asleep ∧ (p = .woken ∨ p = .expired ∧ (s.frame f).deadline ≤ s.now) ∨
      (s.frame f).pc = .woken ∧ p = .asleep ∨ (s.frame f).pc.early = true ∧ (p = .stopping ∨ p = .enter)) : Inv c0 (s.setPc f p) := by
  have hn : (s.frame f).pc ≠ .none := by rintro hc; simp [hc, Pc.early] at h1
  have hg : (s.frame f).pc ≠ .gone := by rintro hc; simp [hc, Pc.early] at h1
  have hc : (s.frame f).pc ≠ .calling := by rintro hc; simp [hc, Pc.early] at h1
  have hpg : p ≠ .gone := by rintro hc; simp [hc] at h1
  have hpc : p ≠ .calling := by rintro hc; simp [hc] at h1
  have hpn : p ≠ .none := by rintro hc; simp [hc] at h1
  have hlt := FrOk.lt h hn
  have hwait : p.waits = (s.frame f).pc.waits := by
    rcases h1 with ⟨a, b | b⟩ | ⟨a, b⟩ | ⟨a, b⟩
    · rw [a, b]; rfl
    · rw [a, b.1]; rfl
    · rw [a, b]; rfl
    · cases hx : (s.frame f).pc <;> rw [hx] at a <;> simp [Pc.early] at a <;> rcases b with rfl | rfl <;> rfl
  have hearly : p.early = (s.frame f).pc.early := by
    rcases h1 with ⟨a, b | b⟩ | ⟨a, b⟩ | ⟨a, b⟩
    · rw [a, b]; rfl
    · rw [a, b.1]; rfl
    · rw [a, b]; rfl
    · rw [a]; rcases b with rfl | rfl <;> rfl
  have hexp : p = .expired → (s.frame f).deadline ≤ s.now := by
    rintro rfl; simp at h1; exact h1.2
  have hfr (g : Nat) : (s.setPc f p).frame g = if g = f then { s.frame f with pc := p } else s.frame g := rfl
  have hne {g : Nat} (hg : g ≠ f) : (s.setPc f p).frame g = s.frame g := by rw [hfr, if_neg hg]
  have hfe : (s.setPc f p).frame f = { s.frame f with pc := p } := by rw [hfr, if_pos rfl]
  refine ⟨h.run, h.cyc, h.hist, ?_, ?_, ?_, ?_, ?_, ?_, ?_, h.nodup, ?_⟩
  · intro g hg'
    by_cases hgf : g = f
    · subst hgf; rw [hfe]
      have := h.old g hlt
      refine ⟨this.begun, this.only, hpn, ?_, this.quiet, ?_, hexp, ?_, ?_, ?_, this.cb, ?_, this.time, this.ftime⟩
      · show p.early = true ↔ _; rw [hearly]; exact this.pre
      · show p.waits = true → _; rw [hwait]; exact this.wait
      · show p.waits = true → _; rw [hwait]; exact this.again
      · exact ⟨fun h => absurd (this.incb.1 h) hc, fun h => absurd h hpc⟩
      · exact fun h => absurd h hpc
      · exact ⟨fun h => absurd h hpg, fun h => absurd (this.back.2 h) hg⟩
    · rw [hne hgf]; exact h.old g hg'
  · intro g hg'
    have : g ≠ f := by rintro rfl; exact Nat.lt_irrefl _ (Nat.lt_of_lt_of_le hlt hg')
    rw [hne this]; exact h.fresh g hg'
  · intro t g hm
    by_cases hgf : g = f
    · subst hgf; rw [hfe]; exact h.thr t g hm
    · rw [hne hgf]; exact h.thr t g hm
  · intro t g hm
    by_cases hgf : g = f
    · subst hgf; rw [hfe]; exact ⟨hpg, hlt⟩
    · rw [hne hgf]; exact h.alive t g hm
  · intro g hm hx
    by_cases hgf : g = f
    · subst hgf; rw [hfe]; exact h.inside g hm hg
    · rw [hne hgf] at hx ⊢; exact h.inside g hm hx
  · intro t a g r hs hx
    by_cases hgf : g = f
    · subst hgf; rw [hfe] at hx; exact h.base t a g r hs hx
    · rw [hne hgf] at hx; exact h.base t a g r hs hx
  · intro t g r hs g' hm
    have := h.under t g r hs g' hm
    by_cases hgf : g' = f
    · subst hgf; exact absurd this hc
    · rw [hne hgf]; exact this
  · intro g hm hx
    by_cases hgf : g = f
    · subst hgf; rw [hfe] at hx; exact absurd hx hpc
    · rw [hne hgf] at hx ⊢; exact h.own g hm hx

/-! ### Something of no `start` is logged -/

theorem inv_note {c0 : Bool} {s : State} (h : Inv c0 s) {e : Ev} {r c : Bool} {now : Nat} (he : e.about = none) (hn : s.now ≤ now) (hr : r = runningIn (s.log ++ [e])) (hc : c = cyclicIn c0 (s.log ++ [e]))
    (hk : EvOk c0 s.log e) : Inv c0 { s with running := r, cyclic := c, log := s.log ++ [e], now := now } := by
  refine ⟨hr, hc, h.hist.one hk, fun f hf => (h.old f hf).other hn (by rw [he]; exact fun h => by cases h), fun f hf => ⟨(h.fresh f hf).1, ?_⟩,
    h.thr, h.alive, h.inside, h.base, h.under, h.nodup, h.own⟩
  intro e' hm; simp at hm; rcases hm with hm | rfl
  · exact (h.fresh f hf).2 e' hm
  · rw [he]; exact fun h => by cases h

theorem inv_tick {c0 : Bool} {s : State} (h : Inv c0 s) : Inv c0 { s with now := s.now + 1 } :=
  ⟨h.run, h.cyc, h.hist, fun f hf => (h.old f hf).later (Nat.le_succ _), h.fresh, h.thr, h.alive, h.inside, h.base, h.under, h.nodup, h.own⟩

/-- Nobody is in a callback when another thread can take the mutex. -/
theorem calling_mine {c0 : Bool} {s : State} (h : Inv c0 s) {t : Nat} (hm : s.mutex t = true) {f : Nat} (hf : f < s.next) (hc : (s.frame f).pc = .calling) : (s.frame f).thr = t := by
  have := h.own f hf hc
  simp [State.mutex, this] at hm; exact hm

theorem stop_ok {c0 : Bool} {s : State} (h : Inv c0 s) {t : Nat} (hm : s.mutex t = true) : EvOk c0 s.log (.stopped t) := by
  intro f hf
  by_cases hlt : f < s.next
  · have := h.old f hlt
    have hc := this.incb.1 hf
    obtain ⟨u, hu⟩ := this.begun
    rw [calling_mine h hm hlt hc] at hu
    exact ⟨_, u, hu⟩
  · have hno := (h.fresh f (Nat.not_lt.1 hlt)).2
    exfalso
    have : ∀ l : List Ev, (∀ e ∈ l, e.about ≠ some f) → inCb f l = false := by
      refine snoc_induct ?_ ?_
      · intro _; rfl
      · intro l e ih hl
        rw [inCb_other (hl e (by simp))]; exact ih fun e' hm => hl e' (by simp [hm])
    rw [this _ hno] at hf; cases hf

/-! ### A `start` goes on -/

theorem FrOk.others {c0 : Bool} {fr : Frame} {f : Nat} {log es : List Ev} {now : Nat} (h : FrOk c0 fr f log now) (he : ∀ e ∈ es, e.about ≠ some f) : FrOk c0 fr f (log ++ es) now := by
  induction es generalizing log with
  | nil => simpa using h
  | cons e es ih =>
    have := ih (h.other (Nat.le_refl _) (he e (by simp))) fun e' hm => he e' (by simp [hm])
    simpa using this

/-- The top `start` of thread `t` changes and logs something. -/
theorem inv_frame {c0 : Bool} {s : State} (h : Inv c0 s) {t f : Nat} {fr : Frame} {es : List Ev} {r : Bool} {o : Option Nat} (htop : s.top t = some f)
    (h1 : fr.thr = (s.frame f).thr) (h2 : fr.nested = (s.frame f).nested) (h3 : fr.pc ≠ .gone)
    (hes : ∀ e ∈ es, e.about = some f) (hh : Hist (EvOk c0) (s.log ++ es)) (hr : r = runningIn (s.log ++ es)) (hc : s.cyclic = cyclicIn c0 (s.log ++ es)) (hfr : FrOk c0 fr f (s.log ++ es) s.now)
    (ho : fr.pc = .calling → o = some t) (ho' : ∀ g, g < s.next → g ≠ f → (s.frame g).pc = .calling → o = some (s.frame g).thr) :
    Inv c0 { s with running := r, frame := upd s.frame f fr, owner := o, log := s.log ++ es } := by
  have hmem := top_mem htop
  have hlt := (h.alive t f hmem).2
  have hthr := h.thr t f hmem
  have hne {g : Nat} (hg : g ≠ f) : upd s.frame f fr g = s.frame g := by simp [upd, hg]
  have hfe : upd s.frame f fr f = fr := by simp [upd]
  refine ⟨hr, hc, hh, ?_, ?_, ?_, ?_, ?_, ?_, ?_, h.nodup, ?_⟩
  · intro g hg
    by_cases hgf : g = f
    · subst hgf; simp only [hfe]; exact hfr
    · simp only [hne hgf]; exact (h.old g hg).others fun e he => by rw [hes e he]; exact fun hx => hgf (by cases hx; rfl)
  · intro g hg
    have hgf : g ≠ f := by rintro rfl; exact Nat.lt_irrefl _ (Nat.lt_of_lt_of_le hlt hg)
    simp only [hne hgf]
    refine ⟨(h.fresh g hg).1, ?_⟩
    intro e hm; simp at hm; rcases hm with hm | hm
    · exact (h.fresh g hg).2 e hm
    · rw [hes e hm]; exact fun hx => hgf (by cases hx; rfl)
  · intro t' g hm
    by_cases hgf : g = f
    · subst hgf; simp only [hfe]; rw [h1]; exact h.thr t' g hm
    · simp only [hne hgf]; exact h.thr t' g hm
  · intro t' g hm
    by_cases hgf : g = f
    · subst hgf; simp only [hfe]; exact ⟨h3, hlt⟩
    · simp only [hne hgf]; exact h.alive t' g hm
  · intro g hm hx
    by_cases hgf : g = f
    · subst hgf; simp only [hfe]; rw [h1, hthr]; exact hmem
    · simp only [hne hgf] at hx ⊢; exact h.inside g hm hx
  · intro t' a g rr hs hx
    by_cases hgf : g = f
    · subst hgf; simp only [hfe] at hx; rw [h2] at hx; exact h.base t' a g rr hs hx
    · simp only [hne hgf] at hx; exact h.base t' a g rr hs hx
  · intro t' g rr hs g' hm
    have hu := h.under t' g rr hs g' hm
    by_cases hgf : g' = f
    · subst hgf
      have ht' : t' = t := by rw [← hthr]; exact (h.thr t' g' (by rw [hs]; simp [hm])).symm
      subst ht'
      obtain ⟨r', hr'⟩ := top_cons htop
      rw [hr'] at hs; cases hs
      have := h.nodup t'; rw [hr'] at this
      exact absurd hm (List.nodup_cons.1 this).1
    · simp only [hne hgf]; exact hu
  · intro g hm hx
    by_cases hgf : g = f
    · subst hgf; simp only [hfe] at hx ⊢; rw [h1, hthr]; exact ho hx
    · simp only [hne hgf] at hx ⊢; exact ho' g hm hgf hx

/-- Who else is in a callback while `f` of `t` holds the mutex: only `t` itself, in an outer `start`. -/
theorem release_ok {c0 : Bool} {s : State} (h : Inv c0 s) {t f : Nat} (htop : s.top t = some f) (hm : s.mutex t = true) {g : Nat} (hg : g < s.next) (hgf : g ≠ f) (hc : (s.frame g).pc = .calling) :
    s.release t f = some (s.frame g).thr := by
  have ht := calling_mine h hm hg hc
  have hin := h.inside g hg (by rw [hc]; exact fun h => by cases h)
  rw [ht] at hin
  obtain ⟨r, hr⟩ := top_cons htop
  unfold State.release
  cases hn : (s.frame f).nested with
  | true => rw [ht]; rfl
  | false =>
    have := h.base t [] f r hr hn
    subst this
    rw [hr] at hin; simp at hin; exact absurd hin hgf

/-- The top `start` of thread `t` returns. -/
theorem inv_leave {c0 : Bool} {s : State} (h : Inv c0 s) {t f : Nat} {es : List Ev} (htop : s.top t = some f) (hm : s.mutex t = true)
    (hes : ∀ e ∈ es, e.about = some f) (hh : Hist (EvOk c0) (s.log ++ es)) (hr : runningIn (s.log ++ es) = false) (hc : s.cyclic = cyclicIn c0 (s.log ++ es))
    (hfr : FrOk c0 { s.frame f with pc := .gone } f (s.log ++ es) s.now) :
    Inv c0 { s with running := false, frame := upd s.frame f { s.frame f with pc := .gone }, stack := upd s.stack t (s.stack t).tail, owner := s.release t f, log := s.log ++ es } := by
  have hmem := top_mem htop
  have hlt := (h.alive t f hmem).2
  have hthr := h.thr t f hmem
  obtain ⟨rest, hrest⟩ := top_cons htop
  have hnd := h.nodup t
  rw [hrest] at hnd
  have hnf := (List.nodup_cons.1 hnd).1
  have hne {g : Nat} (hg : g ≠ f) : upd s.frame f { s.frame f with pc := .gone } g = s.frame g := by simp [upd, hg]
  have hfe : upd s.frame f { s.frame f with pc := .gone } f = { s.frame f with pc := .gone } := by simp [upd]
  have hst (t' : Nat) : upd s.stack t (s.stack t).tail t' = if t' = t then rest else s.stack t' := by simp [upd, hrest]
  have hsub (t' g : Nat) (hg : g ∈ upd s.stack t (s.stack t).tail t') : g ∈ s.stack t' ∧ g ≠ f := by
    rw [hst] at hg; split at hg
    · rename_i ht; subst ht; exact ⟨by rw [hrest]; simp [hg], by rintro rfl; exact hnf hg⟩
    · rename_i ht; refine ⟨hg, ?_⟩; rintro rfl; exact ht (by rw [← hthr]; exact (h.thr t' g hg).symm)
  refine ⟨hr.symm, hc, hh, ?_, ?_, ?_, ?_, ?_, ?_, ?_, ?_, ?_⟩
  · intro g hg
    by_cases hgf : g = f
    · subst hgf; simp only [hfe]; exact hfr
    · simp only [hne hgf]; exact (h.old g hg).others fun e he => by rw [hes e he]; exact fun hx => hgf (by cases hx; rfl)
  · intro g hg
    have hgf : g ≠ f := by rintro rfl; exact Nat.lt_irrefl _ (Nat.lt_of_lt_of_le hlt hg)
    simp only [hne hgf]
    refine ⟨(h.fresh g hg).1, ?_⟩
    intro e hm; simp at hm; rcases hm with hm | hm
    · exact (h.fresh g hg).2 e hm
    · rw [hes e hm]; exact fun hx => hgf (by cases hx; rfl)
  · intro t' g hg
    obtain ⟨a, b⟩ := hsub t' g hg
    simp only [hne b]; exact h.thr t' g a
  · intro t' g hg
    obtain ⟨a, b⟩ := hsub t' g hg
    simp only [hne b]; exact h.alive t' g a
  · intro g hg hx
    have hgf : g ≠ f := by rintro rfl; simp only [hfe] at hx; exact absurd rfl hx
    simp only [hne hgf] at hx ⊢
    have := h.inside g hg hx
    rw [hst]; split
    · rename_i ht; rw [ht, hrest] at this; simp at this; rcases this with hx | hx
      · exact absurd hx hgf
      · exact hx
    · exact this
  · intro t' a g r' hs hx
    have hs' : upd s.stack t (s.stack t).tail t' = a ++ g :: r' := hs
    have hb := hsub t' g (by rw [hs']; simp)
    simp only [hne hb.2] at hx
    rw [hst] at hs'; split at hs'
    · rename_i ht; subst ht; exact h.base t' (f :: a) g r' (by rw [hrest, hs']; rfl) hx
    · exact h.base t' a g r' hs' hx
  · intro t' g r' hs g' hg'
    have hs' : upd s.stack t (s.stack t).tail t' = g :: r' := hs
    have hb := hsub t' g' (by rw [hs']; simp [hg'])
    simp only [hne hb.2]
    rw [hst] at hs'; split at hs'
    · rename_i ht; subst ht; exact h.under t' f (g :: r') (by rw [hrest, hs']) g' (by simp [hg'])
    · exact h.under t' g r' hs' g' hg'
  · intro t'
    show (upd s.stack t (s.stack t).tail t').Nodup
    rw [hst]; split
    · exact (List.nodup_cons.1 hnd).2
    · exact h.nodup t'
  · intro g hg hx
    have hgf : g ≠ f := by rintro rfl; simp only [hfe] at hx; cases hx
    simp only [hne hgf] at hx ⊢
    exact release_ok h htop hm hg hgf hx

/-- A `start` begins. -/
theorem inv_begin {c0 : Bool} {s : State} (h : Inv c0 s) {t d : Nat} {exec : Bool} (hfree : s.free t = true) :
    Inv c0 { s with
      frame := upd s.frame s.next ⟨t, d, exec, !(s.stack t).isEmpty, true, .check, 0⟩, stack := upd s.stack t (s.next :: s.stack t)
      next := s.next + 1, log := s.log ++ [.begun s.next t d s.now] } := by
  have hold {t' g : Nat} (hg : g ∈ s.stack t') : g ≠ s.next := by
    rintro rfl; exact Nat.lt_irrefl _ (h.alive t' _ hg).2
  have hst (t' : Nat) : upd s.stack t (s.next :: s.stack t) t' = if t' = t then s.next :: s.stack t else s.stack t' := by simp [upd]
  have hne {g : Nat} {fr : Frame} (hg : g ≠ s.next) : upd s.frame s.next fr g = s.frame g := by simp [upd, hg]
  have hfe {fr : Frame} : upd s.frame s.next fr s.next = fr := by simp [upd]
  have hno := (h.fresh s.next (Nat.le_refl _)).2
  have hcb : inCb s.next (s.log ++ [.begun s.next t d s.now]) = false := by
    have : ∀ l : List Ev, (∀ e ∈ l, e.about ≠ some s.next) → inCb s.next l = false := by
      refine snoc_induct ?_ ?_
      · intro _; rfl
      · intro l e ih hl
        rw [inCb_other (hl e (by simp))]; exact ih fun e' hm => hl e' (by simp [hm])
    have h1 := this _ hno
    simp only [inCb, List.foldl_append] at h1 ⊢; rw [h1]; rfl
  refine ⟨?_, ?_, h.hist.one hno, ?_, ?_, ?_, ?_, ?_, ?_, ?_, ?_, ?_⟩
  · rw [h.run]; simp [runningIn]
  · rw [h.cyc]; simp [cyclicIn]
  · intro g hg
    by_cases hgf : g = s.next
    · subst hgf; simp only [hfe]
      refine ⟨⟨s.now, by simp⟩, ?_, by simp, ?_, ?_, ?_, ?_, ?_, ?_, ?_, ?_, ?_, ?_, ?_⟩
      · intro th d' t' hm; simp at hm; rcases hm with hm | hm
        · exact absurd rfl (hno _ hm)
        · exact ⟨hm.1, hm.2.1⟩
      · simp only [Pc.early, true_iff]; intro hm; simp at hm; exact absurd rfl (hno _ hm)
      · intro _ t' b hm; simp at hm; exact absurd rfl (hno _ hm)
      · intro hx; cases hx
      · intro hx; cases hx
      · intro hx; cases hx
      · rw [hcb]; simp
      · intro hx; cases hx
      · intro hx; cases hx
      · constructor
        · intro hx; cases hx
        · rintro ⟨u, hm⟩; simp at hm; exact absurd rfl (hno _ hm)
      · intro th d' t' hm; simp at hm; rcases hm with hm | hm
        · exact absurd rfl (hno _ hm)
        · exact Nat.le_of_eq hm.2.2
      · intro t' b hm; simp at hm; exact absurd rfl (hno _ hm)
    · simp only [hne hgf]
      exact (h.old g (Nat.lt_of_le_of_ne (Nat.le_of_lt_succ hg) hgf)).other (Nat.le_refl _) fun hx => hgf (by cases hx; rfl)
  · intro g hg
    have hgf : g ≠ s.next := by rintro rfl; exact Nat.lt_irrefl _ hg
    simp only [hne hgf]
    refine ⟨(h.fresh g (Nat.le_of_succ_le hg)).1, ?_⟩
    intro e hm; simp at hm; rcases hm with hm | rfl
    · exact (h.fresh g (Nat.le_of_succ_le hg)).2 e hm
    · exact fun hx => hgf (by cases hx; rfl)
  · intro t' g hg
    have hg' : g ∈ upd s.stack t (s.next :: s.stack t) t' := hg
    rw [hst] at hg'; split at hg'
    · rename_i ht; subst ht; simp at hg'
      rcases hg' with rfl | hg'
      · simp only [hfe]
      · simp only [hne (hold hg')]; exact h.thr _ g hg'
    · simp only [hne (hold hg')]; exact h.thr _ g hg'
  · intro t' g hg
    have hg' : g ∈ upd s.stack t (s.next :: s.stack t) t' := hg
    have key : g ∈ s.stack t' → (upd s.frame s.next ⟨t, d, exec, !(s.stack t).isEmpty, true, .check, 0⟩ g).pc ≠ .gone ∧ g < s.next + 1 := by
      intro hx; rw [hne (hold hx)]; exact ⟨(h.alive _ g hx).1, Nat.lt_succ_of_lt (h.alive _ g hx).2⟩
    rw [hst] at hg'; split at hg'
    · rename_i ht; subst ht; simp at hg'
      rcases hg' with rfl | hg'
      · simp only [hfe]; exact ⟨by simp, Nat.lt_succ_self _⟩
      · exact key hg'
    · exact key hg'
  · intro g hg hx
    show g ∈ upd s.stack t (s.next :: s.stack t) _
    by_cases hgf : g = s.next
    · subst hgf; simp only [hfe, hst]; simp
    · simp only [hne hgf] at hx ⊢
      have := h.inside g (Nat.lt_of_le_of_ne (Nat.le_of_lt_succ hg) hgf) hx
      rw [hst]; split
      · rename_i ht; rw [ht] at this; simp [this]
      · exact this
  · intro t' a g r hs hx
    have hs' : upd s.stack t (s.next :: s.stack t) t' = a ++ g :: r := hs
    rw [hst] at hs'; split at hs'
    · rename_i ht; subst ht
      cases a with
      | nil =>
        simp at hs'; obtain ⟨rfl, rfl⟩ := hs'
        simp only [hfe] at hx; simpa using hx
      | cons y a =>
        simp at hs'
        have hgf : g ≠ s.next := hold (t' := t') (by rw [hs'.2]; simp)
        simp only [hne hgf] at hx
        exact h.base t' a g r hs'.2 hx
    · have hgf : g ≠ s.next := hold (t' := t') (by rw [hs']; simp)
      simp only [hne hgf] at hx
      exact h.base t' a g r hs' hx
  · intro t' g r hs g' hg'
    have hs' : upd s.stack t (s.next :: s.stack t) t' = g :: r := hs
    rw [hst] at hs'; split at hs'
    · rename_i ht; subst ht
      simp at hs'; obtain ⟨rfl, rfl⟩ := hs'
      simp only [hne (hold hg')]
      cases hsk : s.stack t' with
      | nil => rw [hsk] at hg'; cases hg'
      | cons x xs =>
        rw [hsk] at hg'; simp at hg'
        rcases hg' with rfl | hg'
        · simp [State.free, State.top, hsk] at hfree; exact hfree
        · exact h.under t' x xs hsk g' hg'
    · simp only [hne (hold (t' := t') (g := g') (by rw [hs']; simp [hg']))]
      exact h.under t' g r hs' g' hg'
  · intro t'
    show (upd s.stack t (s.next :: s.stack t) t').Nodup
    rw [hst]; split
    · exact List.nodup_cons.2 ⟨fun hx => absurd rfl (hold hx), h.nodup t⟩
    · exact h.nodup t'
  · intro g hg hx
    have hgf : g ≠ s.next := by rintro rfl; simp only [hfe] at hx; cases hx
    simp only [hne hgf] at hx ⊢
    exact h.own g (Nat.lt_of_le_of_ne (Nat.le_of_lt_succ hg) hgf) hx

theorem runs_snoc (l : List Ev) (e : Ev) : runningIn (l ++ [e]) = (match e with | .entered _ => true | .stopped _ => false | .returned _ _ => false | _ => runningIn l) := by
  cases e <;> simp [runningIn]
theorem cyc_snoc (c0 : Bool) (l : List Ev) (e : Ev) : cyclicIn c0 (l ++ [e]) = (match e with | .cyclicSet b => b | _ => cyclicIn c0 l) := by
  cases e <;> simp [cyclicIn]
theorem inCb_fired (f t : Nat) (b : Bool) (l : List Ev) : inCb f (l ++ [.fired f t b]) = true := by simp [inCb]
theorem inCb_back (f : Nat) (l : List Ev) : inCb f (l ++ [.calledBack f]) = false := by simp [inCb]
theorem inCb_entered (f g : Nat) (l : List Ev) : inCb f (l ++ [.entered g]) = inCb f l := by simp [inCb]
theorem inCb_returned (f g t : Nat) (l : List Ev) : inCb f (l ++ [.returned g t]) = inCb f l := by simp [inCb]

theorem waits_early {p : Pc} (h : p.waits = true) : p.early = false := by cases p <;> first | rfl | cases h
theorem pc_none_of {p : Pc} (h : p.waits = true) : p ≠ .none ∧ p ≠ .gone ∧ p ≠ .calling := by cases p <;> first | (cases h; done) | exact ⟨by simp, by simp, by simp⟩

/-- line 40, 43: the timer runs. -/
theorem inv_enter {c0 : Bool} {s : State} (h : Inv c0 s) {t f : Nat} (htop : s.top t = some f) (hm : s.mutex t = true) (hp : (s.frame f).pc = .enter) :
    Inv c0 (({ s with running := true }.note (.entered f)).sleep t f) := by
  have hlt := (h.alive t f (top_mem htop)).2
  have ho := h.old f hlt
  have hen : Ev.entered f ∉ s.log := ho.pre.1 (by rw [hp]; rfl)
  refine inv_frame h (fr := { s.frame f with pc := .asleep, deadline := s.now + (s.frame f).d }) (es := [.entered f]) (r := true) (o := s.release t f) htop rfl rfl (fun h => by cases h) (by simp [Ev.about]) (h.hist.one ⟨?_, hen⟩) (by rw [runs_snoc]) (by rw [cyc_snoc]; exact h.cyc) ?_ (fun h => by cases h) (fun g hg hgf hc => release_ok h htop hm hg hgf hc)
  · obtain ⟨u, hu⟩ := ho.begun; exact ⟨_, _, u, hu⟩
  · have hfired : ∀ t b, .fired f t b ∉ s.log ++ [.entered f] := by
      intro t b hx; simp at hx; exact ho.quiet hen t b hx
    have hb : ∀ th d t, .begun f th d t ∈ s.log ++ [.entered f] → .begun f th d t ∈ s.log := by intro th d t hx; simpa using hx
    refine ⟨?_, fun th d t hx => ho.only th d t (hb _ _ _ hx), (fun h => by cases h), ?_, ?_, ?_, (fun h => by cases h), ?_, ?_, (fun h => by cases h), ?_, ?_, fun th d t hx => ho.time th d t (hb _ _ _ hx), fun t b hx => absurd hx (hfired t b)⟩
    · obtain ⟨u, hu⟩ := ho.begun; exact ⟨u, List.mem_append_left _ hu⟩
    · simp [Pc.early]
    · intro hx; simp at hx
    · intro _
      refine ⟨fun t b hx => absurd hx (hfired t b), fun th d u hx => ?_⟩
      have := ho.only th d u (hb _ _ _ hx)
      rw [this.2]; exact Nat.add_le_add_right (ho.time th d u (hb _ _ _ hx)) _
    · intro _ l1 u b l2 hl
      exact absurd (by rw [hl]; simp) (hfired u b)
    · rw [inCb_entered, ho.incb, hp]; simp
    · intro hx; obtain ⟨l1, u, r, hl, -⟩ := ho.cb hx
      exact absurd (by rw [hl]; simp) (ho.quiet hen u true)
    · constructor
      · intro hx; cases hx
      · rintro ⟨u, hx⟩; simp at hx
        have := ho.back.2 ⟨u, hx⟩; rw [hp] at this; cases this

/-- lines 45-49: the callback is called. -/
theorem inv_fire {c0 : Bool} {s : State} (h : Inv c0 s) {t f : Nat} (htop : s.top t = some f) (hm : s.mutex t = true) (hp : (s.frame f).pc = .expired) (hrun : s.running = true) :
    Inv c0 (s.fire t f) := by
  have hlt := (h.alive t f (top_mem htop)).2
  have ho := h.old f hlt
  have hthr := h.thr t f (top_mem htop)
  have hw : (s.frame f).pc.waits = true := by rw [hp]; rfl
  have hen : Ev.entered f ∈ s.log := Classical.byContradiction fun hx => by
    have := ho.pre.2 hx; rw [waits_early hw] at this; cases this
  have hexp := ho.exp hp
  have hnb : ∀ u, .returned f u ∉ s.log := fun u hx => by
    have := ho.back.2 ⟨u, hx⟩; rw [hp] at this; cases this
  have hb : ∀ {u : Nat} {cb : Bool} th d t, .begun f th d t ∈ s.log ++ [.fired f u cb] → .begun f th d t ∈ s.log := by intro u cb th d t hx; simpa using hx
  refine inv_frame h (fr := { s.frame f with pc := .calling, cb := (s.frame f).cb && (!(s.frame f).exec || s.cyclic) }) (es := [.fired f s.now (s.frame f).cb]) (r := s.running) (o := some t) htop rfl rfl (fun h => by cases h) (by simp [Ev.about]) (h.hist.one ⟨h.run ▸ hrun, hen, ?_, ho.again hw, ho.cb, hnb⟩) (by rw [runs_snoc]; exact h.run) (by rw [cyc_snoc]; exact h.cyc) ?_ (fun _ => rfl) ?_
  · intro th d t0 hx
    have := ho.only th d t0 hx
    refine ⟨Nat.le_trans ((ho.wait hw).2 th d t0 hx) hexp, fun t' b hf => ?_⟩
    rw [this.2]; exact Nat.le_trans ((ho.wait hw).1 t' b hf) hexp
  · refine ⟨?_, fun th d t hx => ho.only th d t (hb _ _ _ hx), (fun h => by cases h), ?_, ?_, (fun h => by cases h), (fun h => by cases h), (fun h => by cases h), ?_, ?_, ?_, ?_, fun th d t hx => ho.time th d t (hb _ _ _ hx), ?_⟩
    · obtain ⟨u, hu⟩ := ho.begun; exact ⟨u, List.mem_append_left _ hu⟩
    · simp [Pc.early, hen]
    · intro hx; exact absurd (List.mem_append_left _ hen) hx
    · rw [inCb_fired]; simp
    · intro _; exact ⟨s.log, s.now, (s.frame f).cb, [], rfl, by simp, ho.again hw⟩
    · intro hx
      cases hcb : (s.frame f).cb with
      | false => obtain ⟨l1, u, r, hl, hc⟩ := ho.cb hcb; exact ⟨l1, u, r ++ [.fired f s.now false], by simp [hl], hc⟩
      | true =>
        simp [hcb] at hx
        refine ⟨s.log, s.now, [], rfl, ?_⟩
        rw [← h.cyc]; exact hx.2
    · constructor
      · intro hx; cases hx
      · rintro ⟨u, hx⟩; simp at hx; exact absurd hx (hnb u)
    · intro u b hx; simp at hx; rcases hx with hx | hx
      · exact ho.ftime u b hx
      · exact Nat.le_of_eq hx.1
  · intro g hg hgf hc
    rw [calling_mine h hm hg hc]

theorem mine {c0 : Bool} {s : State} (h : Inv c0 s) {t f : Nat} (htop : s.top t = some f) (hp : (s.frame f).pc = .calling) : s.mutex t = true := by
  have hlt := (h.alive t f (top_mem htop)).2
  have := h.own f hlt hp
  rw [h.thr t f (top_mem htop)] at this
  simp [State.mutex, this]

/-- line 61: another round. -/
theorem inv_round {c0 : Bool} {s : State} (h : Inv c0 s) {t f : Nat} (htop : s.top t = some f) (hp : (s.frame f).pc = .calling) (hcyc : s.cyclic = true) :
    Inv c0 ((s.note (.calledBack f)).sleep t f) := by
  have hlt := (h.alive t f (top_mem htop)).2
  have ho := h.old f hlt
  have hm := mine h htop hp
  have hen : Ev.entered f ∈ s.log := Classical.byContradiction fun hx => by
    have := ho.pre.2 hx; rw [hp] at this; cases this
  have hb : ∀ th d t, .begun f th d t ∈ s.log ++ [.calledBack f] → .begun f th d t ∈ s.log := by intro th d t hx; simpa using hx
  have hf : ∀ t b, .fired f t b ∈ s.log ++ [.calledBack f] → .fired f t b ∈ s.log := by intro t b hx; simpa using hx
  refine inv_frame h (fr := { s.frame f with pc := .asleep, deadline := s.now + (s.frame f).d }) (es := [.calledBack f]) (r := s.running) (o := s.release t f) htop rfl rfl (fun h => by cases h) (by simp [Ev.about]) (h.hist.one (ho.incb.2 hp)) (by rw [runs_snoc]; exact h.run) (by rw [cyc_snoc]; exact h.cyc) ?_ (fun h => by cases h) (fun g hg hgf hc => release_ok h htop hm hg hgf hc)
  refine ⟨?_, fun th d t hx => ho.only th d t (hb _ _ _ hx), (fun h => by cases h), ?_, ?_, ?_, (fun h => by cases h), ?_, ?_, (fun h => by cases h), ?_, ?_, fun th d t hx => ho.time th d t (hb _ _ _ hx), fun t b hx => ho.ftime t b (hf _ _ hx)⟩
  · obtain ⟨u, hu⟩ := ho.begun; exact ⟨u, List.mem_append_left _ hu⟩
  · simp [Pc.early, hen]
  · intro hx; exact absurd (List.mem_append_left _ hen) hx
  · intro _
    refine ⟨fun t b hx => Nat.add_le_add_right (ho.ftime t b (hf _ _ hx)) _, fun th d u hx => ?_⟩
    have := ho.only th d u (hb _ _ _ hx)
    rw [this.2]; exact Nat.add_le_add_right (ho.time th d u (hb _ _ _ hx)) _
  · intro _
    obtain ⟨l1, u, b, l2, hl, h1, h2⟩ := ho.mid hp
    have hc : cyclicIn c0 s.log = true := by rw [← h.cyc]; exact hcyc
    rw [hl] at hc ⊢
    exact Again_back h2 h1 hc
  · rw [inCb_back]; simp
  · intro hx; obtain ⟨l1, u, r, hl, hc⟩ := ho.cb hx; exact ⟨l1, u, r ++ [.calledBack f], by simp [hl], hc⟩
  · constructor
    · intro hx; cases hx
    · rintro ⟨u, hx⟩; simp at hx
      have := ho.back.2 ⟨u, hx⟩; rw [hp] at this; cases this

theorem FrOk.gone {c0 : Bool} {fr : Frame} {f : Nat} {log es : List Ev} {now t : Nat} (ho : FrOk c0 fr f log now) (hen : Ev.entered f ∈ log) (hes : es = [.returned f t] ∨ es = [.calledBack f, .returned f t])
    (hcb : inCb f (log ++ es) = false) : FrOk c0 { fr with pc := .gone } f (log ++ es) now := by
  have hb : ∀ th d t, .begun f th d t ∈ log ++ es → .begun f th d t ∈ log := by intro th d t hx; rcases hes with rfl | rfl <;> simpa using hx
  have hf : ∀ t b, .fired f t b ∈ log ++ es → .fired f t b ∈ log := by intro t b hx; rcases hes with rfl | rfl <;> simpa using hx
  refine ⟨?_, fun th d t hx => ho.only th d t (hb _ _ _ hx), (fun h => by cases h), ?_, ?_, (fun h => by cases h), (fun h => by cases h), (fun h => by cases h), ?_, (fun h => by cases h), ?_, ?_, fun th d t hx => ho.time th d t (hb _ _ _ hx), fun t b hx => ho.ftime t b (hf _ _ hx)⟩
  · obtain ⟨u, hu⟩ := ho.begun; exact ⟨u, List.mem_append_left _ hu⟩
  · simp [Pc.early, hen]
  · intro hx; exact absurd (List.mem_append_left _ hen) hx
  · rw [hcb]; simp
  · intro hx; obtain ⟨l1, u, r, hl, hc⟩ := ho.cb hx; exact ⟨l1, u, r ++ es, by simp [hl], hc⟩
  · refine ⟨fun _ => ⟨t, ?_⟩, fun _ => rfl⟩
    rcases hes with rfl | rfl <;> simp

/-- The wait finds the timer stopped. -/
theorem inv_stopped {c0 : Bool} {s : State} (h : Inv c0 s) {t f : Nat} (htop : s.top t = some f) (hm : s.mutex t = true) (hw : (s.frame f).pc.waits = true) (hrun : s.running = false) :
    Inv c0 (s.leave t f) := by
  have hlt := (h.alive t f (top_mem htop)).2
  have ho := h.old f hlt
  have hen : Ev.entered f ∈ s.log := Classical.byContradiction fun hx => by
    have := ho.pre.2 hx; rw [waits_early hw] at this; cases this
  have hnc : inCb f s.log = false := by
    cases hx : inCb f s.log with
    | false => rfl
    | true => exact absurd (ho.incb.1 hx) (pc_none_of hw).2.2
  have hnb : ∀ u, .returned f u ∉ s.log := fun u hx => (pc_none_of hw).2.1 (ho.back.2 ⟨u, hx⟩)
  refine inv_leave h (es := [.returned f s.now]) htop hm (by simp [Ev.about]) (h.hist.one ⟨hnb, hen, hnc, .inl (h.run ▸ hrun)⟩) (by rw [runs_snoc]) (by rw [cyc_snoc]; exact h.cyc) ?_
  exact ho.gone hen (.inl rfl) (by rw [inCb_returned]; exact hnc)

/-- The callback has returned, and there is no other round. -/
theorem inv_end {c0 : Bool} {s : State} (h : Inv c0 s) {t f : Nat} (htop : s.top t = some f) (hp : (s.frame f).pc = .calling) (hno : s.running = false ∨ s.cyclic = false) :
    Inv c0 ((s.note (.calledBack f)).leave t f) := by
  have hlt := (h.alive t f (top_mem htop)).2
  have ho := h.old f hlt
  have hm := mine h htop hp
  have hen : Ev.entered f ∈ s.log := Classical.byContradiction fun hx => by
    have := ho.pre.2 hx; rw [hp] at this; cases this
  have hnb : ∀ u, .returned f u ∉ s.log := fun u hx => by have := ho.back.2 ⟨u, hx⟩; rw [hp] at this; cases this
  have hlog : (s.note (.calledBack f)).leave t f = { s with running := false, frame := upd s.frame f { s.frame f with pc := .gone }, stack := upd s.stack t (s.stack t).tail, owner := s.release t f, log := s.log ++ [.calledBack f, .returned f s.now] } := by
    simp [State.leave, State.note, State.release]; rfl
  rw [hlog]
  have hsp : s.log ++ [.calledBack f, .returned f s.now] = s.log ++ [.calledBack f] ++ [.returned f s.now] := by simp
  refine inv_leave h (es := [.calledBack f, .returned f s.now]) htop hm (by simp [Ev.about]) (h.hist.two (ho.incb.2 hp) ⟨by simpa using hnb, by simpa using hen, inCb_back _ _, ?_⟩) (by rw [hsp, runs_snoc]) (by rw [hsp, cyc_snoc, cyc_snoc]; exact h.cyc) ?_
  · rcases hno with hno | hno
    · left; rw [runs_snoc]; rw [← h.run]; exact hno
    · right; exact ⟨s.log, rfl, by rw [← h.cyc]; exact hno⟩
  · exact ho.gone hen (.inr rfl) (by rw [hsp, inCb_returned, inCb_back])

theorem inv_notify {c0 : Bool} {s s' : State} (h : Inv c0 s) {w : Option Nat} (hs : s.notify w = some s') : Inv c0 s' := by
  cases w with
  | none => simp only [State.notify] at hs; split at hs <;> cases hs; exact h
  | some f =>
    simp only [State.notify] at hs; split at hs
    · rename_i hp; cases hs; exact inv_pc h (.inl ⟨hp, .inl rfl⟩)
    · cases hs

theorem inv_stopNow {c0 : Bool} {s s' : State} (h : Inv c0 s) {t : Nat} {w : Option Nat} (hm : s.mutex t = true) (hs : s.stopNow t w = some s') : Inv c0 s' := by
  have hk := stop_ok h hm
  have h1 : Inv c0 ({ s with running := false }.note (.stopped t)) :=
    inv_note h (e := .stopped t) (now := s.now) rfl (Nat.le_refl _) (by rw [runs_snoc]) (by rw [cyc_snoc]; exact h.cyc) hk
  unfold State.stopNow at hs
  split at hs
  · exact inv_notify h1 hs
  · rename_i hr; cases hs
    have hr' : s.running = false := by simpa using hr
    rw [show s.note (.stopped t) = { s with running := false }.note (.stopped t) by simp [State.note, ← hr']]
    exact h1

theorem inv_step {c0 : Bool} {s s' : State} (h : Inv c0 s) {a : Act} (hs : step s a = some s') : Inv c0 s' := by
  cases a with
  | start t d exec =>
    simp only [step] at hs; split at hs
    · rename_i hf; cases hs; exact inv_begin h hf
    · cases hs
  | go t w =>
    simp only [step, Option.bind_eq_some_iff] at hs
    obtain ⟨f, htop, hs⟩ := hs
    unfold stepGo at hs
    split at hs
    · rename_i hp; cases hs
      refine inv_pc h (.inr (.inr ⟨by rw [hp]; rfl, ?_⟩))
      split
      · exact .inl rfl
      · exact .inr rfl
    · rename_i hp; split at hs
      · rename_i hm
        exact inv_stopNow (inv_pc h (.inr (.inr ⟨by rw [hp]; rfl, .inr rfl⟩))) hm hs
      · cases hs
    · rename_i hp; split at hs
      · rename_i hm; cases hs; exact inv_enter h htop hm hp
      · cases hs
    · rename_i hp; split at hs
      · rename_i hm; split at hs
        · cases hs; exact inv_pc h (.inr (.inl ⟨hp, rfl⟩))
        · rename_i hr; cases hs; exact inv_stopped h htop hm (by rw [hp]; rfl) (by simpa using hr)
      · cases hs
    · rename_i hp; split at hs
      · rename_i hm; split at hs
        · rename_i hr; cases hs; exact inv_fire h htop hm hp hr
        · rename_i hr; cases hs; exact inv_stopped h htop hm (by rw [hp]; rfl) (by simpa using hr)
      · cases hs
    · cases hs
  | ret t =>
    simp only [step, Option.bind_eq_some_iff] at hs
    obtain ⟨f, htop, hs⟩ := hs
    unfold stepRet at hs
    split at hs
    · rename_i hp; split at hs
      · rename_i hx; cases hs; simp at hx; exact inv_round h htop hp hx.2
      · rename_i hx; cases hs
        refine inv_end h htop hp ?_
        cases hr : s.running with
        | false => exact .inl rfl
        | true => right; simpa [hr] using hx
    · cases hs
  | spurious f =>
    simp only [step] at hs; split at hs
    · rename_i hp; cases hs; exact inv_pc h (.inl ⟨hp, .inl rfl⟩)
    · cases hs
  | expire f =>
    simp only [step] at hs; split at hs
    · rename_i hp; cases hs; exact inv_pc h (.inl ⟨hp.1, .inr ⟨rfl, hp.2⟩⟩)
    · cases hs
  | stop t w =>
    simp only [step] at hs; split at hs
    · rename_i hx; simp at hx; exact inv_stopNow h hx.2 hs
    · cases hs
  | restart t w =>
    simp only [step] at hs; split at hs
    · exact inv_notify (inv_note h (e := .restarted) (now := s.now) rfl (Nat.le_refl _) (by rw [runs_snoc]; exact h.run) (by rw [cyc_snoc]; exact h.cyc) trivial) hs
    · cases hs
  | setCyclic t b =>
    simp only [step] at hs; split at hs
    · cases hs; exact inv_note h (e := .cyclicSet b) (now := s.now) rfl (Nat.le_refl _) (by rw [runs_snoc]; exact h.run) (by rw [cyc_snoc]) trivial
    · cases hs
  | tick => cases hs; exact inv_tick h

theorem inv_init (c0 : Bool) : Inv c0 (init c0) := by
  refine ⟨rfl, rfl, Hist.nil, ?_, ?_, ?_, ?_, ?_, ?_, ?_, ?_, ?_⟩ <;> simp [init]

theorem inv_run {c0 : Bool} {s s' : State} (h : Inv c0 s) {as : List Act} (hr : run s as = some s') : Inv c0 s' := by
  induction as generalizing s with
  | nil => cases hr; exact h
  | cons a as ih =>
    simp only [run, Option.bind_eq_some_iff] at hr
    obtain ⟨s1, h1, h2⟩ := hr
    exact ih (inv_step h h1) h2

end Maf.SyncT
