import Verif.Model.Waitable
import Verif.Lemmas.Hist
/-
Invariants of `Model/Waitable`: where each task is.
-/
namespace Maf.Wait

@[simp] theorem upd_self {β : Type} {f : Nat → β} {i : Nat} {v : β} : upd f i v i = v := by simp [upd]

theorem upd_other {β : Type} {f : Nat → β} {i j : Nat} {v : β} (h : j ≠ i) : upd f i v j = f j := by simp [upd, h]

/-! ### Places -/

/-- task, runs, signal not yet returned -/
abbrev Tag := Nat × Bool × Bool

def Frame.tag : Frame → Option Tag
  | .taken k => some (k, false, false)
  | .code k => some (k, true, false)
  | .inline k => some (k, true, true)
  | .check k | .push1 k | .push2 k => some (k, false, true)
  | _ => none

abbrev tags (l : List Frame) : List Tag := l.filterMap Frame.tag

inductive Loc where
  | fresh
  | at (t : Nat) (run pend : Bool)
  | queued (p : Nat)
  | over
deriving DecidableEq

structure Place (tg : Nat → List Tag) (q : Nat → List Nat) (loc : Nat → Loc) : Prop where
  stk : ∀ t k b c, (k, b, c) ∈ tg t ↔ loc k = .at t b c
  stkN : ∀ t, ((tg t).map (·.1)).Nodup
  que : ∀ p k, k ∈ q p ↔ loc k = .queued p
  qN : ∀ p, (q p).Nodup

variable {tg : Nat → List Tag} {q : Nat → List Nat} {loc : Nat → Loc}

theorem Place.not_in (h : Place tg q loc) {k : Nat} (t : Nat) (hk : ∀ b c, loc k ≠ .at t b c) : k ∉ (tg t).map (·.1) := by
  intro hm
  obtain ⟨⟨k', b, c⟩, h1, h2⟩ := List.mem_map.1 hm
  simp only at h2; subst h2
  exact hk b c ((h.stk t _ b c).1 h1)

theorem Place.push (h : Place tg q loc) {t k : Nat} (b c : Bool) (hk : loc k = .fresh) : Place (upd tg t ((k, b, c) :: tg t)) q (upd loc k (.at t b c)) := by
  refine ⟨fun u k' b' c' => ?_, fun u => ?_, fun p k' => ?_, h.qN⟩
  · have := h.stk u k' b' c'
    by_cases hu : u = t <;> by_cases hk' : k' = k
    · subst hu; subst hk'
      simp only [upd_self, List.mem_cons, Prod.mk.injEq, true_and, this, hk, reduceCtorEq, or_false, Loc.at.injEq]
      constructor <;> (rintro ⟨rfl, rfl⟩; exact ⟨rfl, rfl⟩)
    · subst hu; simp [upd_other hk', hk', this]
    · subst hk'; simp [upd_other hu, this, hk, Ne.symm hu]
    · simp [upd_other hu, upd_other hk', this]
  · by_cases hu : u = t
    · subst hu
      simp only [upd_self, List.map_cons, List.nodup_cons]
      exact ⟨h.not_in u (by simp [hk]), h.stkN u⟩
    · rw [upd_other hu]; exact h.stkN u
  · by_cases hk' : k' = k
    · subst hk'; simp [h.que, hk]
    · simp [upd_other hk', h.que]

theorem Place.top (h : Place tg q loc) {t k : Nat} {b c : Bool} {l : List Tag} (b' c' : Bool) (ht : tg t = (k, b, c) :: l) : Place (upd tg t ((k, b', c') :: l)) q (upd loc k (.at t b' c')) := by
  have hk : loc k = .at t b c := (h.stk t k b c).1 (by rw [ht]; exact List.mem_cons_self ..)
  have hn := h.stkN t
  rw [ht] at hn
  simp only [List.map_cons, List.nodup_cons] at hn
  refine ⟨fun u k' b2 c2 => ?_, fun u => ?_, fun p k' => ?_, h.qN⟩
  · have := h.stk u k' b2 c2
    by_cases hu : u = t <;> by_cases hk' : k' = k
    · subst hu; subst hk'
      have : (k', b2, c2) ∉ l := fun hm => hn.1 (List.mem_map.2 ⟨_, hm, rfl⟩)
      simp only [upd_self, List.mem_cons, Prod.mk.injEq, true_and, this, or_false, Loc.at.injEq]
      constructor <;> (rintro ⟨rfl, rfl⟩; exact ⟨rfl, rfl⟩)
    · subst hu; rw [ht] at this; simp [hk'] at this; simp [upd_other hk', hk', this]
    · subst hk'; rw [hk] at this; simp [upd_other hu, this, Ne.symm hu]
    · simp [upd_other hu, upd_other hk', this]
  · by_cases hu : u = t
    · subst hu; simpa using hn
    · rw [upd_other hu]; exact h.stkN u
  · by_cases hk' : k' = k
    · subst hk'; simp [h.que, hk]
    · simp [upd_other hk', h.que]

theorem Place.pop (h : Place tg q loc) {t k : Nat} {b c : Bool} {l : List Tag} (ht : tg t = (k, b, c) :: l) : Place (upd tg t l) q (upd loc k .over) := by
  have hk : loc k = .at t b c := (h.stk t k b c).1 (by rw [ht]; exact List.mem_cons_self ..)
  have hn := h.stkN t
  rw [ht] at hn
  simp only [List.map_cons, List.nodup_cons] at hn
  refine ⟨fun u k' b2 c2 => ?_, fun u => ?_, fun p k' => ?_, h.qN⟩
  · have := h.stk u k' b2 c2
    by_cases hu : u = t <;> by_cases hk' : k' = k
    · subst hu; subst hk'
      have : (k', b2, c2) ∉ l := fun hm => hn.1 (List.mem_map.2 ⟨_, hm, rfl⟩)
      simp [this]
    · subst hu; rw [ht] at this; simp [hk'] at this; simp [upd_other hk', this]
    · subst hk'; rw [hk] at this; simp [upd_other hu, this, Ne.symm hu]
    · simp [upd_other hu, upd_other hk', this]
  · by_cases hu : u = t
    · subst hu; simpa using hn.2
    · rw [upd_other hu]; exact h.stkN u
  · by_cases hk' : k' = k
    · subst hk'; simp [h.que, hk]
    · simp [upd_other hk', h.que]

theorem Place.insert (h : Place tg q loc) {t k : Nat} {b c : Bool} {l : List Tag} (p : Nat) (ht : tg t = (k, b, c) :: l) :
    Place (upd tg t l) (upd q p (q p ++ [k])) (upd loc k (.queued p)) := by
  have hk : loc k = .at t b c := (h.stk t k b c).1 (by rw [ht]; exact List.mem_cons_self ..)
  have hn := h.stkN t
  rw [ht] at hn
  simp only [List.map_cons, List.nodup_cons] at hn
  refine ⟨fun u k' b2 c2 => ?_, fun u => ?_, fun p' k' => ?_, fun p' => ?_⟩
  · have := h.stk u k' b2 c2
    by_cases hu : u = t <;> by_cases hk' : k' = k
    · subst hu; subst hk'
      have : (k', b2, c2) ∉ l := fun hm => hn.1 (List.mem_map.2 ⟨_, hm, rfl⟩)
      simp [this]
    · subst hu; rw [ht] at this; simp [hk'] at this; simp [upd_other hk', this]
    · subst hk'; rw [hk] at this; simp [upd_other hu, this, Ne.symm hu]
    · simp [upd_other hu, upd_other hk', this]
  · by_cases hu : u = t
    · subst hu; simpa using hn.2
    · rw [upd_other hu]; exact h.stkN u
  · have := h.que p' k'
    by_cases hp : p' = p <;> by_cases hk' : k' = k
    · subst hp; subst hk'; simp
    · subst hp; simp [upd_other hk', hk', this]
    · subst hk'; rw [hk] at this; simp [upd_other hp, this, Ne.symm hp]
    · simp [upd_other hp, upd_other hk', this]
  · by_cases hp : p' = p
    · subst hp
      simp only [upd_self]
      refine List.nodup_append.2 ⟨h.qN _, by simp, ?_⟩
      intro a ha b hb
      simp only [List.mem_singleton] at hb; subst hb
      rintro rfl
      rw [h.que, hk] at ha; cases ha
    · rw [upd_other hp]; exact h.qN _

theorem Place.take (h : Place tg q loc) {t k p : Nat} {r : List Nat} (hq : q p = k :: r) : Place (upd tg t ((k, false, false) :: tg t)) (upd q p r) (upd loc k (.at t false false)) := by
  have hk : loc k = .queued p := (h.que p k).1 (by rw [hq]; exact List.mem_cons_self ..)
  have hn := h.qN p
  rw [hq] at hn
  simp only [List.nodup_cons] at hn
  refine ⟨fun u k' b' c' => ?_, fun u => ?_, fun p' k' => ?_, fun p' => ?_⟩
  · have := h.stk u k' b' c'
    by_cases hu : u = t <;> by_cases hk' : k' = k
    · subst hu; subst hk'
      simp only [upd_self, List.mem_cons, Prod.mk.injEq, true_and, this, hk, reduceCtorEq, or_false, Loc.at.injEq]
      constructor <;> (rintro ⟨rfl, rfl⟩; exact ⟨rfl, rfl⟩)
    · subst hu; simp [upd_other hk', hk', this]
    · subst hk'; simp [upd_other hu, this, hk, Ne.symm hu]
    · simp [upd_other hu, upd_other hk', this]
  · by_cases hu : u = t
    · subst hu
      simp only [upd_self, List.map_cons, List.nodup_cons]
      exact ⟨h.not_in u (by simp [hk]), h.stkN u⟩
    · rw [upd_other hu]; exact h.stkN u
  · have := h.que p' k'
    by_cases hp : p' = p <;> by_cases hk' : k' = k
    · subst hp; subst hk'; simp [hn.1]
    · subst hp; rw [hq] at this; simp [hk'] at this; simp [upd_other hk', this]
    · subst hk'; rw [hk] at this; simp [upd_other hp, this, Ne.symm hp]
    · simp [upd_other hp, upd_other hk', this]
  · by_cases hp : p' = p
    · subst hp; simpa using hn.2
    · rw [upd_other hp]; exact h.qN _

theorem Place.clear (h : Place tg q loc) (p : Nat) : Place tg (upd q p []) (fun k => if loc k = .queued p then .over else loc k) := by
  refine ⟨fun u k' b' c' => ?_, h.stkN, fun p' k' => ?_, fun p' => ?_⟩
  · rw [h.stk]
    split
    · rename_i hk; rw [hk]; simp
    · rfl
  · have := h.que p' k'
    by_cases hp : p' = p
    · subst hp
      simp only [upd_self]
      split
      · simp
      · rename_i hk; simp [hk]
    · rw [upd_other hp, this]
      split
      · rename_i hk; rw [hk]; simp [Ne.symm hp]
      · rfl
  · by_cases hp : p' = p
    · subst hp; simp
    · rw [upd_other hp]; exact h.qN _

theorem tags_upd {stk : Nat → List Frame} {t : Nat} {l : List Frame} : (fun u => tags (upd stk t l u)) = upd (fun u => tags (stk u)) t (tags l) := by
  funext u
  by_cases hu : u = t
  · subst hu; simp
  · simp [upd_other hu]

theorem tags_same {stk : Nat → List Frame} {t : Nat} {l : List Frame} (h : tags l = tags (stk t)) : (fun u => tags (upd stk t l u)) = fun u => tags (stk u) := by
  funext u
  by_cases hu : u = t
  · subst hu; simp [h]
  · simp [upd_other hu]

/-! ### The steps -/

inductive Move (s : State) : State → Prop where
  /-- only the log changes -/
  | note (t p : Nat) (es : List Ev) : s.closed p = true → (es = [.refused t p] ∨ es = [.refused t p, .noValue t p] ∨ es = [.stopped t p]) → Move s { s with log := s.log ++ es }
  | inline (t p : Nat) (below : List Frame) : canCall s t = true → s.closed p = false → s.inst t = some p → (below = s.stk t ∨ below = .value s.next :: s.stk t) →
      Move s { s with stk := upd s.stk t (.inline s.next :: below), proc := upd s.proc s.next p, next := s.next + 1, log := s.log ++ [.made t s.next p, .ran t s.next p] }
  | execute (t p : Nat) (below : List Frame) : canCall s t = true → s.closed p = false → s.inst t ≠ some p → (below = s.stk t ∨ below = .value s.next :: s.stk t) →
      Move s { s with stk := upd s.stk t (.check s.next :: below), proc := upd s.proc s.next p, next := s.next + 1, log := s.log ++ [.made t s.next p] }
  | get (t k : Nat) : canCall s t = true → s.out k = true → Move s { s with stk := upd s.stk t (.get k :: s.stk t) }
  | run (t p : Nat) (timed : Bool) : canCall s t = true →
      Move s { s with stk := upd s.stk t (.loop p timed (s.inst t).isNone :: s.stk t), inst := if (s.inst t).isNone then upd s.inst t (some p) else s.inst }
  | stop (t p : Nat) : canCall s t = true → s.closed p = false → Move s { s with stk := upd s.stk t (.stop1 p :: s.stk t) }
  | reuse (t p : Nat) : canCall s t = true → Move s { s with closed := upd s.closed p false, log := s.log ++ [.reopened t p] }
  | finish (t k : Nat) (rest : List Frame) (r : Sig) (e : Ev) : s.stk t = .code k :: rest → ((∃ v, r = .done v ∧ e = .returned t k v) ∨ (r = .threw ∧ e = .threw t k)) →
      Move s { s with stk := upd s.stk t rest, sig := upd s.sig k r, log := s.log ++ [e] }
  | finishIn (t k : Nat) (rest : List Frame) (r : Sig) (e : Ev) : s.stk t = .inline k :: rest → ((∃ v, r = .done v ∧ e = .returned t k v) ∨ (r = .threw ∧ e = .threw t k)) →
      Move s { s with stk := upd s.stk t rest, out := upd s.out k true, sig := upd s.sig k r, log := s.log ++ [e] }
  | leave (t p : Nat) (timed set : Bool) (rest : List Frame) : s.stk t = .loop p timed set :: rest → Move s { s with stk := upd s.stk t rest, inst := if set then upd s.inst t none else s.inst }
  | drop (t k : Nat) (f : Frame) (rest : List Frame) : s.stk t = f :: rest → (f = .check k ∨ f = .push1 k) → s.closed (s.proc k) = true →
      Move s { s with stk := upd s.stk t rest, out := upd s.out k true, sig := upd s.sig k (s.sig k).drop }
  | pass (t k : Nat) (f g : Frame) (rest : List Frame) : s.stk t = f :: rest → ((f = .check k ∧ g = .push1 k) ∨ (f = .push1 k ∧ g = .push2 k)) → s.closed (s.proc k) = false → Move s { s with stk := upd s.stk t (g :: rest) }
  | insert (t k : Nat) (rest : List Frame) : s.stk t = .push2 k :: rest → Move s { s with stk := upd s.stk t rest, out := upd s.out k true, q := upd s.q (s.proc k) (s.q (s.proc k) ++ [k]) }
  | take (t p k : Nat) (timed set : Bool) (rest : List Frame) (q' : List Nat) : s.stk t = .loop p timed set :: rest → s.closed p = false → s.q p = k :: q' →
      Move s { s with stk := upd s.stk t (.taken k :: .loop p timed set :: rest), q := upd s.q p q' }
  | invoke (t k : Nat) (rest : List Frame) : s.stk t = .taken k :: rest → Move s { s with stk := upd s.stk t (.code k :: rest), log := s.log ++ [.ran t k (s.proc k)] }
  | got (t k : Nat) (rest : List Frame) : s.stk t = .get k :: rest → s.sig k ≠ .pending → Move s { s with stk := upd s.stk t rest, log := s.log ++ [.got t k (s.sig k)] }
  | value (t k : Nat) (rest : List Frame) : s.stk t = .value k :: rest → s.sig k ≠ .pending → Move s { s with stk := upd s.stk t rest, log := s.log ++ [.value t k (s.sig k).val] }
  | close (t p : Nat) (rest : List Frame) : s.stk t = .stop1 p :: rest → Move s { s with stk := upd s.stk t (.stop2 p :: rest), closed := upd s.closed p true, log := s.log ++ [.closed t p] }
  | clear (t p : Nat) (rest : List Frame) : s.stk t = .stop2 p :: rest →
      Move s { s with stk := upd s.stk t rest, q := upd s.q p [], sig := fun k => if k ∈ s.q p then (s.sig k).drop else s.sig k, log := s.log ++ [.stopped t p] }

theorem lib_move {s s' : State} {t : Nat} (h : lib s t = some s') : Move s s' := by
  unfold lib at h
  split at h
  · rename_i k rest heq
    split at h
    · rename_i hc; cases h; exact .drop t k _ rest heq (.inl rfl) hc
    · rename_i hc; cases h; exact .pass t k _ _ rest heq (.inl ⟨rfl, rfl⟩) (by simpa using hc)
  · rename_i k rest heq
    split at h
    · rename_i hc; cases h; exact .drop t k _ rest heq (.inr rfl) hc
    · rename_i hc; cases h; exact .pass t k _ _ rest heq (.inr ⟨rfl, rfl⟩) (by simpa using hc)
  · rename_i k rest heq; cases h; exact .insert t k rest heq
  · rename_i p timed set rest heq
    split at h
    · cases h; exact .leave t p timed set rest heq
    · rename_i hc
      split at h
      · cases h
      · rename_i k q' hq; cases h; exact .take t p k timed set rest q' heq (by simpa using hc) hq
  · rename_i k rest heq; cases h; exact .invoke t k rest heq
  · rename_i k rest heq
    split at h
    · cases h
    · rename_i hs; cases h; exact .got t k rest heq hs
  · rename_i k rest heq
    split at h
    · cases h
    · rename_i hs; cases h; exact .value t k rest heq hs
  · rename_i p rest heq; cases h; exact .close t p rest heq
  · rename_i p rest heq; cases h; exact .clear t p rest heq
  · cases h

theorem finish_move {s s' : State} {t : Nat} {r : Sig} {e : Nat → Ev} (he : ∀ k, (∃ v, r = .done v ∧ e k = .returned t k v) ∨ (r = .threw ∧ e k = .threw t k)) (h : finish s t r e = some s') : Move s s' := by
  unfold finish at h
  split at h
  · rename_i k rest heq; cases h; exact .finish t k rest r _ heq (he k)
  · rename_i k rest heq; cases h; exact .finishIn t k rest r _ heq (he k)
  · cases h

theorem execute_move {s : State} {t p : Nat} {below : List Frame} (hc : canCall s t = true) (hp : s.closed p = false) (hb : below = s.stk t ∨ below = .value s.next :: s.stk t) : Move s (execute s t p below) := by
  unfold execute
  split
  · rename_i hi; exact .inline t p below hc hp hi hb
  · rename_i hi; exact .execute t p below hc hp hi hb

theorem step_move {s s' : State} {a : Act} (h : step s a = some s') : Move s s' := by
  cases a with
  | callExecute t p =>
    simp only [step] at h
    split at h
    · rename_i hc; cases h
      unfold callExecute
      split
      · rename_i hp; exact .note t p _ hp (.inl rfl)
      · rename_i hp; exact execute_move hc (by simpa using hp) (.inl rfl)
    · cases h
  | callValue t p =>
    simp only [step] at h
    split at h
    · rename_i hc; cases h
      unfold callValue
      split
      · rename_i hp; exact .note t p _ hp (.inr (.inl rfl))
      · rename_i hp; exact execute_move hc (by simpa using hp) (.inr rfl)
    · cases h
  | callGet t k =>
    simp only [step] at h
    split at h
    · rename_i hc; cases h
      rw [Bool.and_eq_true] at hc
      exact .get t k hc.1 hc.2
    · cases h
  | callRun t p timed =>
    simp only [step] at h
    split at h
    · rename_i hc; cases h; exact .run t p timed hc
    · cases h
  | callStop t p =>
    simp only [step] at h
    split at h
    · rename_i hc
      split at h
      · rename_i hp; cases h; exact .note t p _ hp (.inr (.inr rfl))
      · rename_i hp; cases h; exact .stop t p hc (by simpa using hp)
    · cases h
  | reuse t p =>
    simp only [step] at h
    split at h
    · rename_i hc; cases h; exact .reuse t p hc
    · cases h
  | ret t v => exact finish_move (fun k => .inl ⟨v, rfl, rfl⟩) h
  | throw t => exact finish_move (fun k => .inr ⟨rfl, rfl⟩) h
  | timeout t =>
    simp only [step] at h
    split at h
    · rename_i p set rest heq; cases h; exact .leave t p true set rest heq
    · cases h
  | lib t => exact lib_move h

/-! ### Invariants -/

structure Inv (s : State) (loc : Nat → Loc) : Prop where
  place : Place (fun t => tags (s.stk t)) s.q loc
  qp : ∀ p k, k ∈ s.q p → s.proc k = p
  fresh : ∀ k, loc k = .fresh ↔ s.next ≤ k
  sig : ∀ k, s.sig k = .pending ↔ loc k ≠ .over
  out : ∀ k, s.out k = true ↔ loc k ≠ .fresh ∧ ∀ t b, loc k ≠ .at t b true
  made : ∀ t k p, .made t k p ∈ s.log → k < s.next ∧ s.proc k = p
  known : ∀ k, k < s.next → ∃ t, .made t k (s.proc k) ∈ s.log
  ran : ∀ t k p, .ran t k p ∈ s.log → s.proc k = p ∧ ((∃ c, loc k = .at t true c) ∨ (loc k = .over ∧ s.sig k ≠ .broken))
  run : ∀ t k c, loc k = .at t true c → .ran t k (s.proc k) ∈ s.log
  done : ∀ k v, s.sig k = .done v → ∃ t, .returned t k v ∈ s.log
  threw : ∀ k, s.sig k = .threw → ∃ t, .threw t k ∈ s.log

theorem inv_init : Inv State.init (fun _ => .fresh) := by
  refine ⟨⟨?_, ?_, ?_, ?_⟩, ?_, ?_, ?_, ?_, ?_, ?_, ?_, ?_, ?_, ?_⟩ <;> simp [State.init]

/-- Steps that move no task, make none and change no signal. -/
theorem Inv.same {s s' : State} {loc : Nat → Loc} (h : Inv s loc) (hs : (fun t => tags (s'.stk t)) = fun t => tags (s.stk t)) (hq : s'.q = s.q) (hp : s'.proc = s.proc) (hn : s'.next = s.next)
    (hg : s'.sig = s.sig) (ho : s'.out = s.out) (es : List Ev) (hl : s'.log = s.log ++ es) (he : ∀ e ∈ es, (∀ t k p, e ≠ .made t k p) ∧ ∀ t k p, e ≠ .ran t k p) : Inv s' loc := by
  refine ⟨by rw [hs, hq]; exact h.place, by rw [hq, hp]; exact h.qp, by rw [hn]; exact h.fresh, by rw [hg]; exact h.sig, by rw [ho]; exact h.out, ?_, ?_, ?_, ?_, ?_, ?_⟩
  · intro t k p hm
    rw [hl, List.mem_append] at hm
    rw [hn, hp]
    rcases hm with hm | hm
    · exact h.made t k p hm
    · exact absurd rfl ((he _ hm).1 t k p)
  · intro k hk
    rw [hn] at hk
    obtain ⟨t, ht⟩ := h.known k hk
    exact ⟨t, by rw [hl, hp]; exact List.mem_append_left _ ht⟩
  · intro t k p hm
    rw [hl, List.mem_append] at hm
    rw [hg, hp]
    rcases hm with hm | hm
    · exact h.ran t k p hm
    · exact absurd rfl ((he _ hm).2 t k p)
  · intro t k c hk
    rw [hl, hp]; exact List.mem_append_left _ (h.run t k c hk)
  · intro k v hk
    rw [hg] at hk
    obtain ⟨t, ht⟩ := h.done k v hk
    exact ⟨t, by rw [hl]; exact List.mem_append_left _ ht⟩
  · intro k hk
    rw [hg] at hk
    obtain ⟨t, ht⟩ := h.threw k hk
    exact ⟨t, by rw [hl]; exact List.mem_append_left _ ht⟩

theorem Inv.nil {s s' : State} {loc : Nat → Loc} (h : Inv s loc) (hs : (fun t => tags (s'.stk t)) = fun t => tags (s.stk t)) (hq : s'.q = s.q) (hp : s'.proc = s.proc) (hn : s'.next = s.next)
    (hg : s'.sig = s.sig) (ho : s'.out = s.out) (hl : s'.log = s.log) : Inv s' loc :=
  h.same hs hq hp hn hg ho [] (by simp [hl]) (by simp)

theorem Inv.task {s : State} {loc : Nat → Loc} (h : Inv s loc) {t : Nat} {f : Frame} {rest : List Frame} {k : Nat} {b c : Bool} (hs : s.stk t = f :: rest) (hf : f.tag = some (k, b, c)) :
    loc k = .at t b c ∧ tags (s.stk t) = (k, b, c) :: tags rest := by
  have : tags (s.stk t) = (k, b, c) :: tags rest := by rw [hs]; simp [tags, hf]
  exact ⟨(h.place.stk t k b c).1 (by simp only [this]; exact List.mem_cons_self ..), this⟩

theorem drop_pending {r : Sig} : r.drop ≠ .pending := by cases r <;> simp [Sig.drop]

theorem Inv.new {s : State} {loc : Nat → Loc} (h : Inv s loc) (t p : Nat) (f : Frame) (b : Bool) (below : List Frame) (hb : below = s.stk t ∨ below = .value s.next :: s.stk t)
    (hf : f.tag = some (s.next, b, true)) (es : List Ev) (hes : es = .made t s.next p :: if b then [.ran t s.next p] else []) :
    Inv { s with stk := upd s.stk t (f :: below), proc := upd s.proc s.next p, next := s.next + 1, log := s.log ++ es } (upd loc s.next (.at t b true)) := by
  have hfr : loc s.next = .fresh := (h.fresh _).2 (Nat.le_refl _)
  have ht : tags (f :: below) = (s.next, b, true) :: tags (s.stk t) := by
    rw [tags, List.filterMap_cons_some hf]
    rcases hb with rfl | rfl <;> rfl
  have hne : ∀ {k}, k < s.next → k ≠ s.next := fun h => Nat.ne_of_lt h
  have hlt : ∀ {k}, loc k ≠ .fresh → k < s.next := fun {k} hk => Nat.lt_of_not_le fun hle => hk ((h.fresh k).2 hle)
  refine ⟨?_, ?_, ?_, ?_, ?_, ?_, ?_, ?_, ?_, ?_, ?_⟩
  · show Place (fun u => tags (upd s.stk t (f :: below) u)) s.q _
    rw [tags_upd, ht]; exact h.place.push b true hfr
  · intro p' k hk
    have : k ≠ s.next := hne (hlt (by rw [(h.place.que p' k).1 hk]; simp))
    simp only [upd_other this]; exact h.qp p' k hk
  · intro k
    by_cases hk : k = s.next
    · subst hk; simp
    · simp only [upd_other hk, h.fresh]; omega
  · intro k
    by_cases hk : k = s.next
    · subst hk; simp [h.sig, hfr]
    · simp only [upd_other hk, h.sig]
  · intro k
    by_cases hk : k = s.next
    · subst hk; simp [h.out, hfr]
    · simp only [upd_other hk, h.out]
  · intro t' k p' hm
    simp only [List.mem_append] at hm
    rcases hm with hm | hm
    · obtain ⟨h1, h2⟩ := h.made _ _ _ hm
      exact ⟨Nat.lt_succ_of_lt h1, by simp only [upd_other (hne h1)]; exact h2⟩
    · rw [hes] at hm
      rcases List.mem_cons.1 hm with hm | hm
      · cases hm; simp
      · cases b <;> simp at hm
  · intro k hk
    by_cases hk' : k = s.next
    · subst hk'; exact ⟨t, by simp [hes]⟩
    · obtain ⟨t', ht'⟩ := h.known k (by simp only at hk; omega)
      exact ⟨t', by simp only [upd_other hk']; exact List.mem_append_left _ ht'⟩
  · intro t' k p' hm
    simp only [List.mem_append] at hm
    rcases hm with hm | hm
    · obtain ⟨h1, h2⟩ := h.ran _ _ _ hm
      have : k ≠ s.next := by
        rintro rfl
        rw [hfr] at h2; simp at h2
      simp only [upd_other this]; exact ⟨h1, h2⟩
    · rw [hes] at hm
      rcases List.mem_cons.1 hm with hm | hm
      · cases hm
      · cases b <;> simp at hm
        obtain ⟨rfl, rfl, rfl⟩ := hm
        simp
  · intro t' k c hk
    by_cases hk' : k = s.next
    · subst hk'
      simp only [upd_self, Loc.at.injEq] at hk
      obtain ⟨rfl, rfl, -⟩ := hk
      simp [hes]
    · simp only [upd_other hk'] at hk ⊢
      exact List.mem_append_left _ (h.run t' k c hk)
  · intro k v hk
    obtain ⟨t', ht'⟩ := h.done k v hk
    exact ⟨t', List.mem_append_left _ ht'⟩
  · intro k hk
    obtain ⟨t', ht'⟩ := h.threw k hk
    exact ⟨t', List.mem_append_left _ ht'⟩

/-- A task is over: its function has ended, or it was destroyed before it ran. -/
theorem Inv.end_ {s : State} {loc : Nat → Loc} (h : Inv s loc) {t k : Nat} {f : Frame} {rest : List Frame} {b c : Bool} (hs : s.stk t = f :: rest) (hf : f.tag = some (k, b, c)) (out' : Nat → Bool)
    (ho : out' = if c then upd s.out k true else s.out) (r : Sig) (es : List Ev) (hr : (b = false ∧ r = .broken ∧ es = []) ∨ (b = true ∧ ∃ e, es = [e] ∧ ((∃ v, r = .done v ∧ e = .returned t k v) ∨ (r = .threw ∧ e = .threw t k)))) :
    Inv { s with stk := upd s.stk t rest, out := out', sig := upd s.sig k r, log := s.log ++ es } (upd loc k .over) := by
  obtain ⟨hl, ht⟩ := h.task hs hf
  have hes : ∀ e ∈ es, (∀ t k p, e ≠ .made t k p) ∧ ∀ t k p, e ≠ .ran t k p := by
    rcases hr with ⟨-, -, rfl⟩ | ⟨-, e, rfl, ⟨v, -, rfl⟩ | ⟨-, rfl⟩⟩ <;> simp
  have hrp : r ≠ .pending := by
    rcases hr with ⟨-, rfl, -⟩ | ⟨-, e, -, ⟨v, rfl, -⟩ | ⟨rfl, -⟩⟩ <;> simp
  refine ⟨?_, h.qp, ?_, ?_, ?_, ?_, ?_, ?_, ?_, ?_, ?_⟩
  · show Place (fun u => tags (upd s.stk t rest u)) s.q _
    rw [tags_upd]; exact h.place.pop ht
  · intro k'
    by_cases hk : k' = k
    · subst hk
      have := h.fresh k'
      simp only [upd_self, reduceCtorEq, false_iff]
      rw [hl] at this; simpa using this
    · simp only [upd_other hk, h.fresh]
  · intro k'
    by_cases hk : k' = k
    · subst hk; simp [hrp]
    · simp only [upd_other hk, h.sig]
  · intro k'
    subst ho
    by_cases hk : k' = k
    · subst hk
      have := h.out k'
      rw [hl] at this
      cases c
      · simpa using this
      · simp
    · simp only [upd_other hk]
      rw [← h.out k']
      cases c
      · simp
      · simp [upd_other hk]
  · intro t' k' p' hm
    simp only [List.mem_append] at hm
    rcases hm with hm | hm
    · exact h.made _ _ _ hm
    · exact absurd rfl ((hes _ hm).1 t' k' p')
  · intro k' hk
    obtain ⟨t', ht'⟩ := h.known k' hk
    exact ⟨t', List.mem_append_left _ ht'⟩
  · intro t' k' p' hm
    simp only [List.mem_append] at hm
    rcases hm with hm | hm
    · obtain ⟨h1, h2⟩ := h.ran _ _ _ hm
      refine ⟨h1, ?_⟩
      by_cases hk : k' = k
      · subst hk
        refine .inr ⟨by simp, ?_⟩
        rw [hl] at h2
        rcases h2 with ⟨c', h2⟩ | ⟨h2, -⟩
        · cases h2
          rcases hr with ⟨hr, -⟩ | ⟨-, e, -, ⟨v, rfl, -⟩ | ⟨rfl, -⟩⟩
          · cases hr
          · simp
          · simp
        · cases h2
      · simp only [upd_other hk]; exact h2
    · exact absurd rfl ((hes _ hm).2 t' k' p')
  · intro t' k' c' hk
    by_cases hk' : k' = k
    · subst hk'; simp at hk
    · simp only [upd_other hk'] at hk
      exact List.mem_append_left _ (h.run t' k' c' hk)
  · intro k' v hv
    by_cases hk : k' = k
    · subst hk
      simp only [upd_self] at hv
      rcases hr with ⟨-, rfl, -⟩ | ⟨-, e, rfl, ⟨v', rfl, rfl⟩ | ⟨rfl, -⟩⟩
      · cases hv
      · cases hv; exact ⟨t, by simp⟩
      · cases hv
    · simp only [upd_other hk] at hv
      obtain ⟨t', ht'⟩ := h.done k' v hv
      exact ⟨t', List.mem_append_left _ ht'⟩
  · intro k' hv
    by_cases hk : k' = k
    · subst hk
      simp only [upd_self] at hv
      rcases hr with ⟨-, rfl, -⟩ | ⟨-, e, rfl, ⟨v', rfl, rfl⟩ | ⟨rfl, rfl⟩⟩
      · cases hv
      · cases hv
      · exact ⟨t, by simp⟩
    · simp only [upd_other hk] at hv
      obtain ⟨t', ht'⟩ := h.threw k' hv
      exact ⟨t', List.mem_append_left _ ht'⟩

theorem Inv.pending {s : State} {loc : Nat → Loc} (h : Inv s loc) {t k : Nat} {f : Frame} {rest : List Frame} {b c : Bool} (hs : s.stk t = f :: rest) (hf : f.tag = some (k, b, c)) : s.sig k = .pending :=
  (h.sig k).2 (by rw [(h.task hs hf).1]; simp)

theorem inv_move {s s' : State} {loc : Nat → Loc} (h : Inv s loc) (hm : Move s s') : ∃ loc', Inv s' loc' := by
  cases hm with
  | note t p es hp he => exact ⟨loc, h.same rfl rfl rfl rfl rfl rfl es rfl (by rcases he with rfl | rfl | rfl <;> simp)⟩
  | inline t p below hc hp hi hb => exact ⟨_, h.new t p _ true below hb rfl _ rfl⟩
  | execute t p below hc hp hi hb => exact ⟨_, h.new t p _ false below hb rfl _ rfl⟩
  | get t k => exact ⟨loc, h.nil (tags_same rfl) rfl rfl rfl rfl rfl rfl⟩
  | run t p timed => exact ⟨loc, h.nil (tags_same rfl) rfl rfl rfl rfl rfl rfl⟩
  | stop t p => exact ⟨loc, h.nil (tags_same rfl) rfl rfl rfl rfl rfl rfl⟩
  | reuse t p => exact ⟨loc, h.same rfl rfl rfl rfl rfl rfl _ rfl (by simp)⟩
  | finish t k rest r e hs hr => exact ⟨_, h.end_ hs rfl _ rfl r [e] (.inr ⟨rfl, e, rfl, hr⟩)⟩
  | finishIn t k rest r e hs hr => exact ⟨_, h.end_ hs rfl _ rfl r [e] (.inr ⟨rfl, e, rfl, hr⟩)⟩
  | leave t p timed set rest hs => exact ⟨loc, h.nil (tags_same (by rw [hs]; rfl)) rfl rfl rfl rfl rfl rfl⟩
  | drop t k f rest hs hf hc =>
    have ht : f.tag = some (k, false, true) := by rcases hf with rfl | rfl <;> rfl
    have hp := h.pending hs ht
    have := h.end_ hs ht _ rfl .broken [] (.inl ⟨rfl, rfl, rfl⟩)
    rw [hp]
    exact ⟨_, by simpa [Sig.drop] using this⟩
  | pass t k f g rest hs hf hc =>
    refine ⟨loc, h.nil (tags_same ?_) rfl rfl rfl rfl rfl rfl⟩
    rw [hs]; rcases hf with ⟨rfl, rfl⟩ | ⟨rfl, rfl⟩ <;> rfl
  | insert t k rest hs =>
    obtain ⟨hl, ht⟩ := h.task hs (k := k) rfl
    refine ⟨upd loc k (.queued (s.proc k)), ?_, ?_, ?_, ?_, ?_, h.made, h.known, ?_, ?_, h.done, h.threw⟩
    · show Place (fun u => tags (upd s.stk t rest u)) _ _
      rw [tags_upd]; exact h.place.insert _ ht
    · intro p k' hk
      by_cases hp : p = s.proc k
      · subst hp
        simp only [upd_self, List.mem_append, List.mem_singleton] at hk
        rcases hk with hk | rfl
        · exact h.qp _ _ hk
        · rfl
      · simp only [upd_other hp] at hk; exact h.qp _ _ hk
    · intro k'
      by_cases hk : k' = k
      · subst hk
        have := h.fresh k'
        rw [hl] at this; simpa using this
      · simp only [upd_other hk, h.fresh]
    · intro k'
      by_cases hk : k' = k
      · subst hk; simp [h.sig, hl]
      · simp only [upd_other hk, h.sig]
    · intro k'
      by_cases hk : k' = k
      · subst hk; simp
      · simp only [upd_other hk, h.out]
    · intro t' k' p' hr
      obtain ⟨h1, h2⟩ := h.ran _ _ _ hr
      refine ⟨h1, ?_⟩
      by_cases hk : k' = k
      · subst hk; rw [hl] at h2; simp at h2
      · simp only [upd_other hk]; exact h2
    · intro t' k' c' hk
      by_cases hk' : k' = k
      · subst hk'; simp at hk
      · simp only [upd_other hk'] at hk; exact h.run t' k' c' hk
  | take t p k timed set rest q' hs hc hq =>
    have hl : loc k = .queued p := (h.place.que p k).1 (by rw [hq]; exact List.mem_cons_self ..)
    refine ⟨upd loc k (.at t false false), ?_, ?_, ?_, ?_, ?_, h.made, h.known, ?_, ?_, h.done, h.threw⟩
    · show Place (fun u => tags (upd s.stk t (.taken k :: .loop p timed set :: rest) u)) _ _
      rw [tags_upd]
      have : tags (.taken k :: .loop p timed set :: rest) = (k, false, false) :: tags (s.stk t) := by rw [hs]; rfl
      rw [this]; exact h.place.take hq
    · intro p' k' hk
      by_cases hp : p' = p
      · subst hp
        simp only [upd_self] at hk
        exact h.qp _ _ (by rw [hq]; exact List.mem_cons_of_mem _ hk)
      · simp only [upd_other hp] at hk; exact h.qp _ _ hk
    · intro k'
      by_cases hk : k' = k
      · subst hk
        have := h.fresh k'
        rw [hl] at this; simpa using this
      · simp only [upd_other hk, h.fresh]
    · intro k'
      by_cases hk : k' = k
      · subst hk; simp [h.sig, hl]
      · simp only [upd_other hk, h.sig]
    · intro k'
      by_cases hk : k' = k
      · subst hk; simp [h.out, hl]
      · simp only [upd_other hk, h.out]
    · intro t' k' p' hr
      obtain ⟨h1, h2⟩ := h.ran _ _ _ hr
      refine ⟨h1, ?_⟩
      by_cases hk : k' = k
      · subst hk; rw [hl] at h2; simp at h2
      · simp only [upd_other hk]; exact h2
    · intro t' k' c' hk
      by_cases hk' : k' = k
      · subst hk'; simp at hk
      · simp only [upd_other hk'] at hk; exact h.run t' k' c' hk
  | invoke t k rest hs =>
    obtain ⟨hl, ht⟩ := h.task hs (k := k) rfl
    refine ⟨upd loc k (.at t true false), ?_, h.qp, ?_, ?_, ?_, ?_, ?_, ?_, ?_, ?_, ?_⟩
    · show Place (fun u => tags (upd s.stk t (.code k :: rest) u)) _ _
      rw [tags_upd]; exact h.place.top true false ht
    · intro k'
      by_cases hk : k' = k
      · subst hk
        have := h.fresh k'
        rw [hl] at this; simpa using this
      · simp only [upd_other hk, h.fresh]
    · intro k'
      by_cases hk : k' = k
      · subst hk; simp [h.sig, hl]
      · simp only [upd_other hk, h.sig]
    · intro k'
      by_cases hk : k' = k
      · subst hk; simp [h.out, hl]
      · simp only [upd_other hk, h.out]
    · intro t' k' p' hm
      simp only [List.mem_append, List.mem_singleton, reduceCtorEq, or_false] at hm
      exact h.made _ _ _ hm
    · intro k' hk
      obtain ⟨t', ht'⟩ := h.known k' hk
      exact ⟨t', List.mem_append_left _ ht'⟩
    · intro t' k' p' hr
      simp only [List.mem_append, List.mem_singleton, Ev.ran.injEq] at hr
      rcases hr with hr | ⟨rfl, rfl, rfl⟩
      · obtain ⟨h1, h2⟩ := h.ran _ _ _ hr
        refine ⟨h1, ?_⟩
        by_cases hk : k' = k
        · subst hk; rw [hl] at h2; simp at h2
        · simp only [upd_other hk]; exact h2
      · exact ⟨rfl, .inl ⟨false, by simp⟩⟩
    · intro t' k' c' hk
      by_cases hk' : k' = k
      · subst hk'
        simp only [upd_self, Loc.at.injEq] at hk
        rw [← hk.1]; simp
      · simp only [upd_other hk'] at hk
        exact List.mem_append_left _ (h.run t' k' c' hk)
    · intro k' v hk
      obtain ⟨t', ht'⟩ := h.done k' v hk
      exact ⟨t', List.mem_append_left _ ht'⟩
    · intro k' hk
      obtain ⟨t', ht'⟩ := h.threw k' hk
      exact ⟨t', List.mem_append_left _ ht'⟩
  | got t k rest hs hp => exact ⟨loc, h.same (tags_same (by rw [hs]; rfl)) rfl rfl rfl rfl rfl _ rfl (by simp)⟩
  | value t k rest hs hp => exact ⟨loc, h.same (tags_same (by rw [hs]; rfl)) rfl rfl rfl rfl rfl _ rfl (by simp)⟩
  | close t p rest hs => exact ⟨loc, h.same (tags_same (by rw [hs]; rfl)) rfl rfl rfl rfl rfl _ rfl (by simp)⟩
  | clear t p rest hs =>
    have hq : ∀ k, k ∈ s.q p ↔ loc k = .queued p := h.place.que p
    refine ⟨fun k => if loc k = .queued p then .over else loc k, ?_, ?_, ?_, ?_, ?_, ?_, ?_, ?_, ?_, ?_, ?_⟩
    · show Place (fun u => tags (upd s.stk t rest u)) _ _
      rw [tags_same (by rw [hs]; rfl)]; exact h.place.clear p
    · intro p' k' hk
      by_cases hp : p' = p
      · subst hp; simp at hk
      · simp only [upd_other hp] at hk; exact h.qp _ _ hk
    · intro k
      have := h.fresh k
      simp only
      split
      · rename_i hk; rw [hk] at this; simpa using this
      · exact this
    · intro k
      simp only [hq]
      split
      · simp [drop_pending]
      · exact h.sig k
    · intro k
      have := h.out k
      simp only
      split
      · rename_i hk; rw [hk] at this; simpa using this
      · exact this
    · intro t' k' p' hm
      simp only [List.mem_append, List.mem_singleton, reduceCtorEq, or_false] at hm
      exact h.made _ _ _ hm
    · intro k' hk
      obtain ⟨t', ht'⟩ := h.known k' hk
      exact ⟨t', List.mem_append_left _ ht'⟩
    · intro t' k' p' hr
      simp only [List.mem_append, List.mem_singleton, reduceCtorEq, or_false] at hr
      obtain ⟨h1, h2⟩ := h.ran _ _ _ hr
      refine ⟨h1, ?_⟩
      have : loc k' ≠ .queued p := fun hk => by rw [hk] at h2; simp at h2
      simp only [hq, if_neg this]; exact h2
    · intro t' k' c' hk
      split at hk
      · cases hk
      · exact List.mem_append_left _ (h.run t' k' c' hk)
    · intro k' v hk
      simp only [hq] at hk
      split at hk
      · rename_i hl
        have := (h.sig k').2 (by rw [hl]; simp)
        rw [this] at hk; simp [Sig.drop] at hk
      · obtain ⟨t', ht'⟩ := h.done k' v hk
        exact ⟨t', List.mem_append_left _ ht'⟩
    · intro k' hk
      simp only [hq] at hk
      split at hk
      · rename_i hl
        have := (h.sig k').2 (by rw [hl]; simp)
        rw [this] at hk; simp [Sig.drop] at hk
      · obtain ⟨t', ht'⟩ := h.threw k' hk
        exact ⟨t', List.mem_append_left _ ht'⟩

/-! ### The template's frames -/

/-- Directly above the frame of the template that is not waiting yet there is the call it has made. -/
def Vals (out : Nat → Bool) : List Frame → Prop
  | [] => True
  | f :: rest => (∀ k, rest.head? = some (.value k) → out k = true ∨ ∃ b, f.tag = some (k, b, true)) ∧ Vals out rest

def VInv (s : State) : Prop := ∀ t, Vals s.out (s.stk t) ∧ ∀ k, (s.stk t).head? = some (.value k) → s.out k = true

theorem Vals.mono {o o' : Nat → Bool} (h : ∀ k, o k = true → o' k = true) : ∀ {l : List Frame}, Vals o l → Vals o' l
  | [], _ => trivial
  | _ :: _, hv => ⟨fun k hk => (hv.1 k hk).imp (h k) fun x => x, Vals.mono h hv.2⟩

theorem head_user {s : State} {t : Nat} (h : canCall s t = true) (k : Nat) : (s.stk t).head? ≠ some (.value k) := by
  unfold canCall at h
  split at h
  · rename_i he; rw [he]; simp
  · rename_i f rest he; rw [he]
    rintro hk
    simp only [List.head?_cons, Option.some.injEq] at hk
    subst hk; cases h

/-- A frame is put on top of user code, or of a loop. -/
theorem VInv.push {s s' : State} (h : VInv s) {t : Nat} {f : Frame} (hh : ∀ k, (s.stk t).head? ≠ some (.value k)) (hf : ∀ k, f ≠ .value k) (hs : s'.stk = upd s.stk t (f :: s.stk t)) (ho : s'.out = s.out) : VInv s' := by
  intro u
  rw [hs, ho]
  by_cases hu : u = t
  · subst hu
    simp only [upd_self]
    exact ⟨⟨fun k hk => absurd hk (hh k), (h u).1⟩, fun k hk => by simp at hk; exact absurd hk (hf k)⟩
  · rw [upd_other hu]; exact h u

/-- The top frame goes away, and returns what it had to. -/
theorem VInv.pop {s s' : State} (h : VInv s) {t : Nat} {f : Frame} {rest : List Frame} (ht : s.stk t = f :: rest) (hs : s'.stk = upd s.stk t rest) (hm : ∀ k, s.out k = true → s'.out k = true)
    (ho : ∀ k b, f.tag = some (k, b, true) → s'.out k = true) : VInv s' := by
  intro u
  rw [hs]
  by_cases hu : u = t
  · subst hu
    simp only [upd_self]
    have hv := h u
    rw [ht] at hv
    refine ⟨hv.1.2.mono hm, fun k hk => ?_⟩
    rcases hv.1.1 k hk with h' | ⟨b, h'⟩
    · exact hm k h'
    · exact ho k b h'
  · rw [upd_other hu]; exact ⟨(h u).1.mono hm, fun k hk => hm k ((h u).2 k hk)⟩

/-- The top frame changes. -/
theorem VInv.top {s s' : State} (h : VInv s) {t : Nat} {f g : Frame} {rest : List Frame} (ht : s.stk t = f :: rest) (hg : ∀ k, g ≠ .value k) (hs : s'.stk = upd s.stk t (g :: rest)) (ho : s'.out = s.out)
    (hfg : ∀ k b, f.tag = some (k, b, true) → ∃ b', g.tag = some (k, b', true)) : VInv s' := by
  intro u
  rw [hs, ho]
  by_cases hu : u = t
  · subst hu
    simp only [upd_self]
    have hv := h u
    rw [ht] at hv
    exact ⟨⟨fun k hk => (hv.1.1 k hk).imp (fun x => x) fun ⟨b, hb⟩ => hfg k b hb, hv.1.2⟩, fun k hk => by simp at hk; exact absurd hk (hg k)⟩
  · rw [upd_other hu]; exact h u

theorem VInv.new {s s' : State} (h : VInv s) {t : Nat} {f : Frame} {below : List Frame} (hc : canCall s t = true) (hb : below = s.stk t ∨ below = .value s.next :: s.stk t)
    (hf : ∃ b, f.tag = some (s.next, b, true)) (hs : s'.stk = upd s.stk t (f :: below)) (ho : s'.out = s.out) : VInv s' := by
  have hnv : ∀ k, f ≠ .value k := by rintro k rfl; obtain ⟨b, hb⟩ := hf; cases hb
  rcases hb with rfl | rfl
  · exact h.push (head_user hc) hnv hs ho
  · intro u
    rw [hs, ho]
    by_cases hu : u = t
    · subst hu
      simp only [upd_self]
      refine ⟨⟨fun k hk => ?_, fun k hk => absurd hk (head_user hc k), (h u).1⟩, fun k hk => by simp at hk; exact absurd hk (hnv k)⟩
      simp only [List.head?_cons, Option.some.injEq, Frame.value.injEq] at hk
      subst hk; exact .inr hf
    · rw [upd_other hu]; exact h u

theorem vinv_init : VInv State.init := fun _ => ⟨trivial, by simp [State.init]⟩

theorem vinv_move {s s' : State} (h : VInv s) (hm : Move s s') : VInv s' := by
  have hmono : ∀ k k', s.out k' = true → upd s.out k true k' = true := by
    intro k k' hk
    by_cases he : k' = k
    · subst he; simp
    · rw [upd_other he]; exact hk
  cases hm with
  | note t p es hp he => exact h
  | inline t p below hc hp hi hb => exact h.new hc hb ⟨true, rfl⟩ rfl rfl
  | execute t p below hc hp hi hb => exact h.new hc hb ⟨false, rfl⟩ rfl rfl
  | get t k hc => exact h.push (head_user hc) (by simp) rfl rfl
  | run t p timed hc => exact h.push (head_user hc) (by simp) rfl rfl
  | stop t p hc => exact h.push (head_user hc) (by simp) rfl rfl
  | reuse t p => exact h
  | finish t k rest r e hs hr => exact h.pop hs rfl (fun _ => id) (by simp [Frame.tag])
  | finishIn t k rest r e hs hr =>
    refine h.pop hs rfl (hmono k) fun k' b hk => ?_
    simp only [Frame.tag, Option.some.injEq, Prod.mk.injEq] at hk
    rw [← hk.1]; simp
  | leave t p timed set rest hs => exact h.pop hs rfl (fun _ => id) (by simp [Frame.tag])
  | drop t k f rest hs hf hc =>
    refine h.pop hs rfl (hmono k) fun k' b hk => ?_
    have : k = k' := by rcases hf with rfl | rfl <;> (simp only [Frame.tag, Option.some.injEq, Prod.mk.injEq] at hk; exact hk.1)
    rw [← this]; simp
  | pass t k f g rest hs hf hc =>
    refine h.top hs (by rcases hf with ⟨-, rfl⟩ | ⟨-, rfl⟩ <;> simp) rfl rfl fun k' b hk => ?_
    rcases hf with ⟨rfl, rfl⟩ | ⟨rfl, rfl⟩ <;> exact ⟨b, hk⟩
  | insert t k rest hs =>
    refine h.pop hs rfl (hmono k) fun k' b hk => ?_
    simp only [Frame.tag, Option.some.injEq, Prod.mk.injEq] at hk
    rw [← hk.1]; simp
  | take t p k timed set rest q' hs hc hq => exact h.push (f := .taken k) (by rw [hs]; simp) (by simp) (by rw [hs]) rfl
  | invoke t k rest hs => exact h.top hs (by simp) rfl rfl (by simp [Frame.tag])
  | got t k rest hs hp => exact h.pop hs rfl (fun _ => id) (by simp [Frame.tag])
  | value t k rest hs hp => exact h.pop hs rfl (fun _ => id) (by simp [Frame.tag])
  | close t p rest hs => exact h.top hs (by simp) rfl rfl (by simp [Frame.tag])
  | clear t p rest hs => exact h.pop hs rfl (fun _ => id) (by simp [Frame.tag])

/-! ### Functions run above a loop of their processor -/

def Frame.runs : Frame → Option Nat
  | .taken k | .code k | .inline k => some k
  | _ => none

def Above (proc : Nat → Nat) : List Frame → Prop
  | [] => True
  | f :: rest => (∀ k, f.runs = some k → ∃ a b, .loop (proc k) a b ∈ rest) ∧ Above proc rest

structure LInv (s : State) : Prop where
  above : ∀ t, Above s.proc (s.stk t)
  inst : ∀ t p, s.inst t = some p → ∃ a, .loop p a true ∈ s.stk t

theorem linv_init : LInv State.init := ⟨fun _ => trivial, by simp [State.init]⟩

theorem Above.proc {pr : Nat → Nat} {n p : Nat} : ∀ {l : List Frame}, Above pr l → (∀ b c, (n, b, c) ∉ tags l) → Above (upd pr n p) l
  | [], _, _ => trivial
  | f :: rest, h, hn => by
    refine ⟨fun k hk => ?_, Above.proc h.2 fun b c hm => hn b c ?_⟩
    · have : k ≠ n := by
        rintro rfl
        cases f <;> simp [Frame.runs] at hk <;> subst hk
        · exact hn false false (by simp [tags, List.filterMap_cons, Frame.tag])
        · exact hn true false (by simp [tags, List.filterMap_cons, Frame.tag])
        · exact hn true true (by simp [tags, List.filterMap_cons, Frame.tag])
      rw [upd_other this]; exact h.1 k hk
    · simp only [tags, List.filterMap_cons]
      split
      · exact hm
      · exact List.mem_cons_of_mem _ hm

theorem LInv.push {s s' : State} (h : LInv s) {t : Nat} {f : Frame} (hs : s'.stk = upd s.stk t (f :: s.stk t)) (hp : s'.proc = s.proc) (hi : s'.inst = s.inst)
    (hf : ∀ k, f.runs = some k → ∃ a b, .loop (s.proc k) a b ∈ s.stk t) : LInv s' := by
  refine ⟨fun u => ?_, fun u p hu => ?_⟩
  · rw [hs, hp]
    by_cases hut : u = t
    · subst hut; rw [upd_self]; exact ⟨hf, h.above u⟩
    · rw [upd_other hut]; exact h.above u
  · rw [hi] at hu
    obtain ⟨a, ha⟩ := h.inst u p hu
    refine ⟨a, ?_⟩
    rw [hs]
    by_cases hut : u = t
    · subst hut; rw [upd_self]; exact List.mem_cons_of_mem _ ha
    · rw [upd_other hut]; exact ha

theorem LInv.pop {s s' : State} (h : LInv s) {t : Nat} {f : Frame} {rest : List Frame} (ht : s.stk t = f :: rest) (hs : s'.stk = upd s.stk t rest) (hp : s'.proc = s.proc) (hi : s'.inst = s.inst)
    (hf : ∀ p a, f ≠ .loop p a true) : LInv s' := by
  refine ⟨fun u => ?_, fun u p hu => ?_⟩
  · rw [hs, hp]
    by_cases hut : u = t
    · subst hut
      have := h.above u
      rw [ht] at this
      rw [upd_self]; exact this.2
    · rw [upd_other hut]; exact h.above u
  · rw [hi] at hu
    obtain ⟨a, ha⟩ := h.inst u p hu
    refine ⟨a, ?_⟩
    rw [hs]
    by_cases hut : u = t
    · subst hut; rw [upd_self]
      rw [ht] at ha
      rcases List.mem_cons.1 ha with ha | ha
      · exact absurd ha.symm (hf p a)
      · exact ha
    · rw [upd_other hut]; exact ha

theorem LInv.top {s s' : State} (h : LInv s) {t : Nat} {f g : Frame} {rest : List Frame} (ht : s.stk t = f :: rest) (hs : s'.stk = upd s.stk t (g :: rest)) (hp : s'.proc = s.proc) (hi : s'.inst = s.inst)
    (hf : ∀ p a, f ≠ .loop p a true) (hg : g.runs = f.runs ∨ g.runs = none) : LInv s' := by
  have hab := h.above t
  rw [ht] at hab
  refine ⟨fun u => ?_, fun u p hu => ?_⟩
  · rw [hs, hp]
    by_cases hut : u = t
    · subst hut
      rw [upd_self]
      refine ⟨fun k hk => ?_, hab.2⟩
      rcases hg with hg | hg
      · exact hab.1 k (by rw [← hg]; exact hk)
      · rw [hg] at hk; cases hk
    · rw [upd_other hut]; exact h.above u
  · rw [hi] at hu
    obtain ⟨a, ha⟩ := h.inst u p hu
    refine ⟨a, ?_⟩
    rw [hs]
    by_cases hut : u = t
    · subst hut; rw [upd_self]
      rw [ht] at ha
      rcases List.mem_cons.1 ha with ha | ha
      · exact absurd ha.symm (hf p a)
      · exact List.mem_cons_of_mem _ ha
    · rw [upd_other hut]; exact ha

theorem LInv.new {s s' : State} (h : LInv s) {loc : Nat → Loc} (hi : Inv s loc) {t p : Nat} {f : Frame} {below : List Frame} (hb : below = s.stk t ∨ below = .value s.next :: s.stk t)
    (hs : s'.stk = upd s.stk t (f :: below)) (hp : s'.proc = upd s.proc s.next p) (hin : s'.inst = s.inst) (hf : ∀ k, f.runs = some k → k = s.next ∧ s.inst t = some p) : LInv s' := by
  have hfr : loc s.next = .fresh := (hi.fresh _).2 (Nat.le_refl _)
  have habs : ∀ u, Above s'.proc (s.stk u) := fun u => by
    rw [hp]
    refine (h.above u).proc fun b c hm => ?_
    rw [(hi.place.stk u _ b c).1 hm] at hfr; cases hfr
  have hsub : ∀ g ∈ s.stk t, g ∈ below := by rcases hb with rfl | rfl <;> simp +contextual
  refine ⟨fun u => ?_, fun u p' hu => ?_⟩
  · rw [hs]
    by_cases hut : u = t
    · subst hut
      rw [upd_self]
      refine ⟨fun k hk => ?_, ?_⟩
      · obtain ⟨rfl, hk2⟩ := hf k hk
        obtain ⟨a, ha⟩ := h.inst u p hk2
        rw [hp, upd_self]
        exact ⟨a, true, hsub _ ha⟩
      · rcases hb with rfl | rfl
        · exact habs u
        · exact ⟨by simp [Frame.runs], habs u⟩
    · rw [upd_other hut]; exact habs u
  · rw [hin] at hu
    obtain ⟨a, ha⟩ := h.inst u p' hu
    refine ⟨a, ?_⟩
    rw [hs]
    by_cases hut : u = t
    · subst hut; rw [upd_self]; exact List.mem_cons_of_mem _ (hsub _ ha)
    · rw [upd_other hut]; exact ha

theorem linv_move {s s' : State} {loc : Nat → Loc} (hi : Inv s loc) (h : LInv s) (hm : Move s s') : LInv s' := by
  cases hm with
  | note t p es hp he => exact ⟨h.above, h.inst⟩
  | inline t p below hc hp hin hb => exact h.new hi hb rfl rfl rfl fun k hk => ⟨by simpa [Frame.runs, eq_comm] using hk, hin⟩
  | execute t p below hc hp hin hb => exact h.new hi hb rfl rfl rfl (by simp [Frame.runs])
  | get t k hc => exact h.push rfl rfl rfl (by simp [Frame.runs])
  | run t p timed hc =>
    have hab : ∀ u, Above s.proc (upd s.stk t (.loop p timed (s.inst t).isNone :: s.stk t) u) := fun u => by
      by_cases hut : u = t
      · subst hut; rw [upd_self]; exact ⟨by simp [Frame.runs], h.above u⟩
      · rw [upd_other hut]; exact h.above u
    refine ⟨hab, fun u p' hu => ?_⟩
    simp only at hu ⊢
    by_cases hut : u = t
    · subst hut
      rw [upd_self]
      cases hn : s.inst u with
      | none =>
        simp only [hn, Option.isNone_none, if_true, upd_self, Option.some.injEq] at hu
        subst hu
        exact ⟨timed, by simp⟩
      | some p2 =>
        simp only [hn, Option.isNone_some, Bool.false_eq_true, if_false, Option.some.injEq] at hu
        subst hu
        obtain ⟨a, ha⟩ := h.inst u p2 hn
        exact ⟨a, List.mem_cons_of_mem _ ha⟩
    · rw [upd_other hut]
      refine h.inst u p' ?_
      split at hu
      · rwa [upd_other hut] at hu
      · exact hu
  | stop t p hc => exact h.push rfl rfl rfl (by simp [Frame.runs])
  | reuse t p => exact ⟨h.above, h.inst⟩
  | finish t k rest r e hs hr => exact h.pop hs rfl rfl rfl (by simp)
  | finishIn t k rest r e hs hr => exact h.pop hs rfl rfl rfl (by simp)
  | leave t p timed set rest hs =>
    cases set
    · exact h.pop hs rfl rfl rfl (by simp)
    · refine ⟨fun u => ?_, fun u p' hu => ?_⟩
      · by_cases hut : u = t
        · subst hut
          have := h.above u
          rw [hs] at this
          simp only [upd_self]; exact this.2
        · simp only [upd_other hut]; exact h.above u
      · by_cases hut : u = t
        · subst hut; simp at hu
        · simp only [if_true, upd_other hut] at hu ⊢; exact h.inst u p' hu
  | drop t k f rest hs hf hc => exact h.pop hs rfl rfl rfl (by rcases hf with rfl | rfl <;> simp)
  | pass t k f g rest hs hf hc => exact h.top hs rfl rfl rfl (by rcases hf with ⟨rfl, -⟩ | ⟨rfl, -⟩ <;> simp) (.inr (by rcases hf with ⟨-, rfl⟩ | ⟨-, rfl⟩ <;> rfl))
  | insert t k rest hs => exact h.pop hs rfl rfl rfl (by simp)
  | take t p k timed set rest q' hs hc hq =>
    refine h.push (t := t) (f := .taken k) (by rw [hs]) rfl rfl fun k' hk => ?_
    simp only [Frame.runs, Option.some.injEq] at hk
    subst hk
    have : s.proc k = p := hi.qp p k (by rw [hq]; exact List.mem_cons_self ..)
    rw [this, hs]
    exact ⟨timed, set, List.mem_cons_self ..⟩
  | invoke t k rest hs => exact h.top hs rfl rfl rfl (by simp) (.inl rfl)
  | got t k rest hs hp => exact h.pop hs rfl rfl rfl (by simp)
  | value t k rest hs hp => exact h.pop hs rfl rfl rfl (by simp)
  | close t p rest hs => exact h.top hs rfl rfl rfl (by simp) (.inr rfl)
  | clear t p rest hs => exact h.pop hs rfl rfl rfl (by simp)

/-! ### Signals keep what they have -/

/-- What was put into a signal and what was taken out of it is what it has. -/
def Holds (sig : Nat → Sig) (e : Ev) : Prop :=
  (∀ t k r, e = .got t k r → sig k = r ∧ r ≠ .pending) ∧ (∀ t k v, e = .value t k v → (sig k).val = v ∧ sig k ≠ .pending) ∧
  (∀ t k v, e = .returned t k v → sig k = .done v) ∧ (∀ t k, e = .threw t k → sig k = .threw)

def GInv (s : State) : Prop := ∀ e ∈ s.log, Holds s.sig e

theorem GInv.got {s : State} (h : GInv s) {t k r} (hm : .got t k r ∈ s.log) : s.sig k = r ∧ r ≠ .pending := (h _ hm).1 t k r rfl
theorem GInv.value {s : State} (h : GInv s) {t k v} (hm : .value t k v ∈ s.log) : (s.sig k).val = v ∧ s.sig k ≠ .pending := (h _ hm).2.1 t k v rfl
theorem GInv.returned {s : State} (h : GInv s) {t k v} (hm : .returned t k v ∈ s.log) : s.sig k = .done v := (h _ hm).2.2.1 t k v rfl
theorem GInv.threw {s : State} (h : GInv s) {t k} (hm : .threw t k ∈ s.log) : s.sig k = .threw := (h _ hm).2.2.2 t k rfl

theorem sig_stays {s s' : State} {loc : Nat → Loc} (h : Inv s loc) (hm : Move s s') {k : Nat} (hk : s.sig k ≠ .pending) : s'.sig k = s.sig k := by
  have ho : loc k = .over := by
    have := h.sig k
    cases hl : loc k <;> simp [hl] at this <;> first | exact absurd this hk | rfl
  have hne : ∀ {t k' f rest b c}, s.stk t = f :: rest → f.tag = some (k', b, c) → k ≠ k' := by
    rintro t k' f rest b c hs hf rfl
    rw [(h.task hs hf).1] at ho; cases ho
  cases hm
  case finish t k' rest r e hs hr => exact upd_other (hne hs rfl)
  case finishIn t k' rest r e hs hr => exact upd_other (hne hs rfl)
  case drop t k' f rest hs hf hc =>
    rcases hf with rfl | rfl
    · exact upd_other (hne hs rfl)
    · exact upd_other (hne hs rfl)
  case clear t p rest hs =>
    have : k ∉ s.q p := fun hq => by rw [(h.place.que p k).1 hq] at ho; cases ho
    simp only [if_neg this]
  all_goals rfl

theorem ginv_init : GInv State.init := by intro e he; cases he

theorem Holds.stays {s s' : State} {e : Ev} (h : Holds s.sig e) (hs : ∀ k, s.sig k ≠ .pending → s'.sig k = s.sig k) : Holds s'.sig e := by
  refine ⟨fun t k r he => ?_, fun t k v he => ?_, fun t k v he => ?_, fun t k he => ?_⟩
  · obtain ⟨h1, h2⟩ := h.1 t k r he
    exact ⟨by rw [hs k (by rw [h1]; exact h2), h1], h2⟩
  · obtain ⟨h1, h2⟩ := h.2.1 t k v he
    rw [hs k h2]; exact ⟨h1, h2⟩
  · have h1 := h.2.2.1 t k v he
    rw [hs k (by simp [h1]), h1]
  · have h1 := h.2.2.2 t k he
    rw [hs k (by simp [h1]), h1]

theorem ginv_move {s s' : State} {loc : Nat → Loc} (hi : Inv s loc) (h : GInv s) (hm : Move s s') : GInv s' := by
  have key : ∀ es, s'.log = s.log ++ es → (∀ e ∈ es, Holds s'.sig e) → GInv s' := by
    intro es hl h1 e he
    rw [hl, List.mem_append] at he
    rcases he with he | he
    · exact (h e he).stays fun k hk => sig_stays hi hm hk
    · exact h1 e he
  cases hm
  case note t p es hp he => exact key es rfl (by rcases he with rfl | rfl | rfl <;> simp [Holds])
  case finish t k rest r e hs hr => exact key _ rfl (by rcases hr with ⟨v, rfl, rfl⟩ | ⟨rfl, rfl⟩ <;> simp [Holds])
  case finishIn t k rest r e hs hr => exact key _ rfl (by rcases hr with ⟨v, rfl, rfl⟩ | ⟨rfl, rfl⟩ <;> simp [Holds])
  case got t k rest hs hp => exact key _ rfl (by simpa [Holds] using hp)
  case value t k rest hs hp => exact key _ rfl (by simpa [Holds] using hp)
  all_goals first
    | exact key [] (List.append_nil _).symm (by simp)
    | exact key _ rfl (by simp [Holds])

end Maf.Wait
