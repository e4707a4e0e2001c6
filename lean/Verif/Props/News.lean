import Verif.Lemmas.News
/-
C87: statuses and signals from end to end.
-/
namespace Maf.News

/-! ### Specification -/

/-- Reached from the beginning by steps that all satisfy `P`. -/
inductive Reach (P : State → Act → Prop) : State → Prop where
  | init : Reach P State.init
  | step {s s' a} : Reach P s → P s a → step s a = some s' → Reach P s'

/-- Every history. -/
abbrev Reachable : State → Prop := Reach fun _ _ => True

/-- No callback of an operation is registered while its client delivers a value of this operation (from another callback, by another thread). -/
def Calm (s : State) (a : Act) : Prop := ∀ c op y, a = .register c op → (s.clients c).storing ≠ some (op, y)

/-- Nothing is on its way from or to client `c`, and it delivers nothing. -/
def Quiet (s : State) (c : Nat) : Prop := (s.clients c).up = [] ∧ (s.clients c).down = [] ∧ (s.clients c).storing = none

/-- Any further steps. -/
inductive Later : State → State → Prop where
  | refl (s) : Later s s
  | step {s s1 s2 a} : Later s s1 → News.step s1 a = some s2 → Later s s2

/-! ### The invariants hold -/

structure Inv (s : State) : Prop where
  base : Base s
  vals : Vals s
  ord : Ord s
  regs : Regs s
  asks : Asks s
  agree : Agree s
  curr : Curr s

theorem inv_init : Inv State.init := ⟨base_init, vals_init, ord_init, regs_init, asks_init, agree_init, curr_init⟩

theorem inv_move {s s' : State} (h : Inv s) (hm : Move s s') : Inv s' :=
  ⟨base_move h.base hm, vals_move h.base h.vals hm, ord_move h.base h.vals h.ord hm, regs_move h.regs hm, asks_move h.base h.asks hm, agree_move h.agree hm, curr_move h.base h.agree h.curr hm⟩

theorem Reach.inv {P : State → Act → Prop} {s : State} (h : Reach P s) : Inv s := by
  induction h with
  | init => exact inv_init
  | step _ _ hs ih => exact inv_move ih (step_move hs)

theorem Reach.toldInv {s : State} (h : Reach Calm s) : Told s := by
  induction h with
  | init => exact told_init
  | @step s s' a hr hc hs ih =>
    exact told_move hr.inv.base hr.inv.regs hr.inv.curr ih (step_move hs) fun c op hn y => hc c op y (adds hr.inv.regs hs hn)

/-! ### What callbacks are called with -/

/-- What is true whenever a callback is called. -/
def Rule (l : List Ev) (e : Ev) : Prop :=
  (∀ c op k x, e = .told c op k x → .made op x ∈ l ∧ .registered c op k ∈ l ∧ .unregistered c op k ∉ l ∧ ∀ x', .told c op k x' ∈ l → Le op x' x) ∧
  (∀ c op id x, e = .answer c op id x → (∃ t, .asked c op id t ∈ l) ∧ ∀ x', .answer c op id x' ∉ l)

theorem hist_map {l : List Ev} {f : Nat → Ev} : ∀ (ks : List Nat), ks.Nodup → Hist Rule l →
    (∀ k ∈ ks, ∀ ks' : List Nat, k ∉ ks' → (∀ k' ∈ ks', k' ∈ ks) → Rule (l ++ ks'.map f) (f k)) → Hist Rule (l ++ ks.map f) := by
  suffices H : ∀ (ks ks0 : List Nat), (ks0 ++ ks).Nodup → Hist Rule (l ++ ks0.map f) →
      (∀ k ∈ ks0 ++ ks, ∀ ks' : List Nat, k ∉ ks' → (∀ k' ∈ ks', k' ∈ ks0 ++ ks) → Rule (l ++ ks'.map f) (f k)) → Hist Rule (l ++ (ks0 ++ ks).map f) by
    intro ks hn h hr
    exact H ks [] hn (by simpa using h) hr
  intro ks
  induction ks with
  | nil => intro ks0 _ h _; simpa using h
  | cons k ks ih =>
    intro ks0 hn h hr
    have he : ks0 ++ k :: ks = (ks0 ++ [k]) ++ ks := by simp
    rw [he]
    refine ih (ks0 ++ [k]) (by rw [← he]; exact hn) ?_ (by rw [← he]; exact hr)
    have hk : k ∉ ks0 := fun h0 => by
      rw [List.nodup_append] at hn
      exact hn.2.2 k h0 k (List.mem_cons_self ..) rfl
    have := h.one (hr k (by simp) ks0 hk (fun k' h' => by simp [h']))
    simpa using this

theorem cb_nodup {cl : Client} {op : Op} (h : (cl.regs.map (·.2)).Nodup) : (callbacks cl op).Nodup :=
  h.sublist (List.Sublist.map _ List.filter_sublist)

theorem rule_reach {P : State → Act → Prop} {s : State} (h : Reach P s) : Hist Rule s.log := by
  induction h with
  | init => exact Hist.nil
  | @step s s' a hr _ hs ih =>
    have hi := hr.inv
    have hm := step_move hs
    cases hm with
    | regMore c op hc =>
      have h1 : Hist Rule (s.log ++ [.registered c op (s.clients c).next]) := ih.one ⟨fun _ _ _ _ h => (by cases h), fun _ _ _ _ h => (by cases h)⟩
      have he : greet (s.clients c) c op (s.clients c).next = [] ∨ ∃ x, (s.clients c).cache op = some x ∧ greet (s.clients c) c op (s.clients c).next = [.told c op (s.clients c).next x] := by
        cases op with
        | signal n => exact .inl rfl
        | status n =>
          cases hp : (s.clients c).cache (.status n) with
          | none => exact .inl (by simp [greet, hp])
          | some x => exact .inr ⟨x, rfl, by simp [greet, hp]⟩
      rcases he with he | ⟨x, hx, he⟩
      · simpa [he] using h1
      · have hlog : ∀ x', .told c op (s.clients c).next x' ∉ s.log := fun x' h' => Nat.lt_irrefl _ (hi.regs.logLt _ _ _ (hi.regs.told _ _ _ _ h'))
        have hrule : Rule (s.log ++ [.registered c op (s.clients c).next]) (.told c op (s.clients c).next x) := by
          refine ⟨fun c' op' k' x' h' => ?_, fun _ _ _ _ h => (by cases h)⟩
          cases h'
          refine ⟨by simpa using hi.vals.cache _ _ _ hx, by simp, fun h' => ?_, fun x' h' => ?_⟩
          · simp at h'; exact Nat.lt_irrefl _ (hi.regs.gone _ _ _ h').1
          · simp at h'; exact absurd h' (hlog x')
        have := h1.one hrule
        simpa [he] using this
    | news c op x rest hst hd =>
      refine hist_map _ (cb_nodup (hi.regs.nodup c)) ih fun k hk ks' hn hsub => ⟨fun c' op' k' x' h' => ?_, fun _ _ _ _ h => (by cases h)⟩
      cases h'
      have hx : .news op x ∈ (s.clients c).down := by rw [hd]; exact List.mem_cons_self ..
      have hreg := mem_callbacks.1 hk
      refine ⟨List.mem_append_left _ (hi.vals.news _ _ _ hx), List.mem_append_left _ (hi.regs.log _ _ _ hreg), fun h' => ?_, fun x' h' => ?_⟩
      · rcases List.mem_append.1 h' with h' | h'
        · exact (hi.regs.gone _ _ _ h').2 hreg
        · simp at h'
      · rcases List.mem_append.1 h' with h' | h'
        · exact hi.ord.had c op x' x (.told k h') hx
        · obtain ⟨k', hk', he⟩ := List.mem_map.1 h'
          cases he; exact absurd hk' hn
    | got c op id x rest hst hd ha =>
      refine ih.one ⟨fun _ _ _ _ h => (by cases h), fun c' op' id' x' h' => ?_⟩
      cases h'
      exact ⟨hi.asks.src _ _ _ ha, fun x' h' => (hi.asks.ans _ _ _ _ h').1 ha⟩
    | unregLast c op k _ =>
      exact ih.free fun l e he => by have := unregEv_only he; subst this; exact ⟨fun _ _ _ _ h => (by cases h), fun _ _ _ _ h => (by cases h)⟩
    | unregSome c op k _ =>
      exact ih.free fun l e he => by have := unregEv_only he; subst this; exact ⟨fun _ _ _ _ h => (by cases h), fun _ _ _ _ h => (by cases h)⟩
    | unregAll c op =>
      exact ih.free fun l e he => by obtain ⟨_, _, rfl⟩ := List.mem_map.1 he; exact ⟨fun _ _ _ _ h => (by cases h), fun _ _ _ _ h => (by cases h)⟩
    | srvReg => exact ih
    | srvUnreg => exact ih
    | srvGet => exact ih
    | late => exact ih
    | store => exact ih
    | _ => exact ih.one ⟨fun _ _ _ _ h => (by cases h), fun _ _ _ _ h => (by cases h)⟩

/-- A callback is called only with values that were set or signals that were broadcast before, only after it was registered, and not after
it was unregistered. -/
theorem told_why {s : State} (h : Reachable s) {l r : List Ev} {c : Nat} {op : Op} {k : Nat} {x : Val} (hl : s.log = l ++ .told c op k x :: r) :
    .made op x ∈ l ∧ .registered c op k ∈ l ∧ .unregistered c op k ∉ l :=
  let ⟨h1, h2, h3, _⟩ := ((rule_reach h).all l _ r hl).1 c op k x rfl
  ⟨h1, h2, h3⟩

/-- A callback is told values in the order they were set, signals in the order they were broadcast and each of them once. -/
theorem told_in_order {s : State} (h : Reachable s) {l r : List Ev} {c : Nat} {op : Op} {k : Nat} {x x' : Val} (hl : s.log = l ++ .told c op k x :: r) (hx : .told c op k x' ∈ l) :
    x'.ver ≤ x.ver ∧ ∀ n, op = .signal n → x'.ver < x.ver :=
  (((rule_reach h).all l _ r hl).1 c op k x rfl).2.2.2 x' hx

def madeVer : Ev → Option Nat
  | .made _ x => some x.ver
  | _ => none

/-- The numbers of values count the successful calls of `setStatus` and `broadcastSignal`. -/
theorem numbered {s : State} (h : Reachable s) : s.log.filterMap madeVer = List.range s.clock := by
  induction h with
  | init => rfl
  | @step s s' a hr _ hs ih =>
    have other : ∀ es : List Ev, (∀ op x, .made op x ∉ es) → es.filterMap madeVer = [] := by
      intro es he
      apply List.filterMap_eq_nil_iff.2
      intro e h
      cases e with
      | made op x => exact absurd h (he op x)
      | _ => rfl
    have hm := step_move hs
    cases hm with
    | set n v _ => simp [List.filterMap_append, ih, madeVer, List.range_succ]
    | signal n v => simp [List.filterMap_append, ih, madeVer, List.range_succ]
    | srvReg => exact ih
    | srvUnreg => exact ih
    | srvGet => exact ih
    | late => exact ih
    | store => exact ih
    | unregLast c op k _ => simp only [List.filterMap_append, ih]; rw [other _ (fun _ _ h => by have := unregEv_only h; cases this)]; simp
    | unregSome c op k _ => simp only [List.filterMap_append, ih]; rw [other _ (fun _ _ h => by have := unregEv_only h; cases this)]; simp
    | regMore c op _ => simp only [List.filterMap_append, ih]; rw [other _ (fun _ _ h => by simp [mem_greet] at h)]; simp
    | unregAll c op => simp only [List.filterMap_append, ih]; rw [other _ (fun _ _ h => by simp at h)]; simp
    | news c op x rest _ _ => simp only [List.filterMap_append, ih]; rw [other _ (fun _ _ h => by simp at h)]; simp
    | _ => simp [List.filterMap_append, ih, madeVer]

/-- `getStatus` of the service gives the value set last, unless the property was removed. -/
theorem status_last {s : State} (h : Reachable s) {op : Op} {x : Val} (hp : s.props op = some x) : .made op x ∈ s.log ∧ ∀ x', .made op x' ∈ s.log → x'.ver ≤ x.ver :=
  ⟨h.inv.base.props _ _ hp, fun x' h' => h.inv.base.max _ _ _ hp h'⟩

theorem status_there {s : State} (h : Reachable s) {n : Nat} {x : Val} (hx : .made (.status n) x ∈ s.log) (hr : .removed (.status n) ∉ s.log) : ∃ y, s.props (.status n) = some y := by
  cases hp : s.props (.status n) with
  | some y => exact ⟨y, rfl⟩
  | none => exact absurd (h.inv.base.gone _ _ hx hp) hr

/-! ### Nothing is missed -/

/-- What client `c` was sent is on its way until its callbacks are called. -/
def Due (s : State) (c : Nat) (op : Op) (k : Nat) (x : Val) : Prop := (op, k) ∈ (s.clients c).regs → .news op x ∈ (s.clients c).down ∨ .told c op k x ∈ s.log

theorem due_move {s s' : State} (hi : Inv s) (hm : Move s s') {c : Nat} {op : Op} {k : Nat} {x : Val} (hk : k < (s.clients c).next) (hd : Due s c op k x) : Due s' c op k x := by
  intro hr
  rcases regs_step hm hr with hr0 | ⟨he, -⟩
  · rcases hd hr0 with h | h
    · rcases down_step hi.base hm c with he | ⟨m, he, -⟩ | ⟨m, -, he⟩
      · exact .inl (by rw [he]; exact h)
      · exact .inl (by rw [he]; exact List.mem_append_left _ h)
      · rw [he] at h
        rcases List.mem_cons.1 h with h | h
        · subst h
          refine .inr ?_
          have hne : ∀ {m : Down} {l : List Down}, l ≠ m :: l := fun {m l} h => by have := congrArg List.length h; simp at this
          cases hm
          case news c' op' x' rest hst hd' =>
            by_cases hc : c = c'
            · subst hc
              simp only [upd_self] at he
              rw [hd'] at he; cases he
              exact List.mem_append_right _ (List.mem_map.2 ⟨k, mem_callbacks.2 hr0, rfl⟩)
            · simp only [upd_other hc] at he; exact absurd he hne
          case got c' op' id' x' rest hst hd' ha =>
            by_cases hc : c = c'
            · subst hc
              simp only [upd_self] at he
              rw [hd'] at he; cases he
            · simp only [upd_other hc] at he; exact absurd he hne
          case late c' op' id' x' rest hst hd' ha =>
            by_cases hc : c = c'
            · subst hc
              simp only [upd_self] at he
              rw [hd'] at he; cases he
            · simp only [upd_other hc] at he; exact absurd he hne
          all_goals simp only [upd, broadcast] at he
          all_goals first
            | exact absurd he hne
            | (split at he
               · rename_i hc
                 try rw [hc] at he
                 first
                 | exact absurd he hne
                 | (have := congrArg List.length he; simp at this; omega)
               · exact absurd he hne)
        · exact .inl h
    · exact .inr (move_sub hm h)
  · omega

/-- Every value set and every signal broadcast while the server has client `c` registered is told to each callback the client has at this
moment, unless this is unregistered before. -/
theorem none_missed {s s1 s2 : State} (h : Reachable s) {a : Act} {c : Nat} {op : Op} {k : Nat} {x : Val} (hs : step s a = some s1) (hn : .made op x ∉ s.log) (hx : .made op x ∈ s1.log)
    (hreg : (c, op) ∈ s.regs) (hk : (op, k) ∈ (s.clients c).regs) (hl : Later s1 s2) (hk2 : (op, k) ∈ (s2.clients c).regs) (hq : (s2.clients c).down = []) : .told c op k x ∈ s2.log := by
  have h1 : Reachable s1 := .step h trivial hs
  have hd : Due s1 c op k x := by
    intro _
    refine .inl ?_
    have hm := step_move hs
    cases hm
    case set n v _ =>
      simp only [List.mem_append, List.mem_singleton] at hx
      rcases hx with hx | hx
      · exact absurd hx hn
      · cases hx; simp [broadcast, hreg]
    case signal n v =>
      simp only [List.mem_append, List.mem_singleton] at hx
      rcases hx with hx | hx
      · exact absurd hx hn
      · cases hx; simp [broadcast, hreg]
    all_goals exfalso
    all_goals first
      | exact hn hx
      | (rcases List.mem_append.1 hx with hx | hx
         · exact hn hx
         · first
           | (simp at hx; done)
           | (simp [mem_greet] at hx; done)
           | (have := unregEv_only hx; cases this))
  have key : ∀ {s3 : State}, Later s1 s3 → Reachable s3 ∧ k < (s3.clients c).next ∧ Due s3 c op k x := by
    intro s3 hl
    induction hl with
    | refl => exact ⟨h1, Nat.lt_of_lt_of_le (h.inv.regs.lt _ _ _ hk) (next_step (step_move hs) c), hd⟩
    | step _ hs' ih =>
      obtain ⟨i1, i2, i3⟩ := ih
      exact ⟨.step i1 trivial hs', Nat.lt_of_lt_of_le i2 (next_step (step_move hs') c), due_move i1.inv (step_move hs') i2 i3⟩
  rcases (key hl).2.2 hk2 with h' | h'
  · rw [hq] at h'; cases h'
  · exact h'

/-! ### The current value -/

theorem quiet_registered {s : State} (hi : Inv s) {c : Nat} {op : Op} {k : Nat} (hq : Quiet s c) (hk : (op, k) ∈ (s.clients c).regs) : (c, op) ∈ s.regs := by
  have := hi.agree c op
  rw [hq.1] at this
  simp only [after, List.foldl_nil] at this
  have hne : callbacks (s.clients c) op ≠ [] := fun h => by have := mem_callbacks.2 hk; rw [h] at this; cases this
  rw [List.isEmpty_eq_false_iff.2 hne] at this
  simpa using this

/-- Client and server agree when nothing is on its way: the server has a client registered exactly if it has a callback. -/
theorem registered_iff {s : State} (h : Reachable s) {c : Nat} (hq : (s.clients c).up = []) (op : Op) : (c, op) ∈ s.regs ↔ ∃ k, (op, k) ∈ (s.clients c).regs := by
  have := h.inv.agree c op
  rw [hq] at this
  simp only [after, List.foldl_nil] at this
  constructor
  · intro hr
    simp only [hr, decide_true, Bool.true_eq, Bool.not_eq_true', List.isEmpty_eq_false_iff] at this
    obtain ⟨k, hk⟩ := List.exists_mem_of_ne_nil _ this
    exact ⟨k, mem_callbacks.1 hk⟩
  · rintro ⟨k, hk⟩
    have hne : callbacks (s.clients c) op ≠ [] := fun h => by have := mem_callbacks.2 hk; rw [h] at this; cases this
    rw [List.isEmpty_eq_false_iff.2 hne] at this
    simpa using this

/-- When nothing is on its way, `getStatus` of a client that has a callback for a status gives the current value at once. -/
theorem get_current {s : State} (h : Reachable s) {c n k : Nat} {x : Val} (hq : Quiet s c) (hk : (.status n, k) ∈ (s.clients c).regs) (hp : s.props (.status n) = some x) :
    ∃ s', step s (.getStatus c n) = some s' ∧ s'.log = s.log ++ [.cached c (.status n) (some x)] := by
  have hne : callbacks (s.clients c) (.status n) ≠ [] := fun h => by have := mem_callbacks.2 hk; rw [h] at this; cases this
  have hc := h.inv.curr c (.status n) x (quiet_registered h.inv hq hk) (by rw [hq.1]; exact ⟨by simp, by simp⟩) hp
  have hx : (s.clients c).cache (.status n) = some x := by
    rcases hc with hc | ⟨-, hc | ⟨-, hc⟩⟩
    · rw [hq.2.1] at hc; cases hc
    · rw [hq.2.2] at hc; cases hc
    · exact hc
  exact ⟨_, rfl, by simp only [getStatus, if_neg hne, hx]⟩

/-- The full property: when nothing is on its way, each callback was last called with the current value. False for callbacks registered
while a value is delivered (`late_second`), which is what is missing here. -/
theorem up_to_date_partial {s : State} (h : Reach Calm s) {c : Nat} {op : Op} {k : Nat} {x : Val} (hq : Quiet s c) (hk : (op, k) ∈ (s.clients c).regs) (hp : s.props op = some x) :
    lastTold s.log c op k = some x := by
  refine h.toldInv c op x k (quiet_registered h.inv hq hk) (by rw [hq.1]; exact ⟨by simp, by simp⟩) hp hk ?_
  rw [hq.2.1]; rfl

/-! ### Questions -/

/-- When nothing is on its way, each question of a client has been answered. -/
theorem get_answered {s : State} (h : Reachable s) {c : Nat} {op : Op} {id t : Nat} (hq : Quiet s c) (ha : .asked c op id t ∈ s.log) : ∃ x, .answer c op id x ∈ s.log := by
  rcases h.inv.asks.state _ _ _ _ ha with h' | h'
  · rcases h.inv.asks.way _ _ _ h' with h' | ⟨x, h'⟩
    · rw [hq.1] at h'; cases h'
    · rw [hq.2.1] at h'; cases h'
  · exact h'

/-- It is answered once, after it was asked. -/
theorem answered_once {s : State} (h : Reachable s) {l r : List Ev} {c : Nat} {op : Op} {id : Nat} {x : Option Val} (hl : s.log = l ++ .answer c op id x :: r) :
    (∃ t, .asked c op id t ∈ l) ∧ ∀ x', .answer c op id x' ∉ l := ((rule_reach h).all l _ r hl).2 c op id x rfl

/-- With a value that was set, and that is not older than any set before the question; with nothing only if the property was removed or
nothing had been set. (`t` values had been made when the question was asked.) -/
theorem get_fresh {s : State} (h : Reachable s) {c : Nat} {op : Op} {id t : Nat} {y : Option Val} (ha : .answer c op id y ∈ s.log) (hq : .asked c op id t ∈ s.log) :
    (∀ z, y = some z → .made op z ∈ s.log) ∧ ∀ x, .made op x ∈ s.log → x.ver < t → (∃ z, y = some z ∧ x.ver ≤ z.ver) ∨ (y = none ∧ .removed op ∈ s.log) :=
  ⟨fun z hz => by subst hz; exact h.inv.vals.answer _ _ _ _ ha, fun x hx ht => h.inv.asks.freshA c op id t y x ha hq hx ht⟩

/-- The number in a question is the number of values made so far. -/
theorem asked_when {s s' : State} {c n : Nat} (h : step s (.getStatus c n) = some s') : (∀ k, (.status n, k) ∉ (s.clients c).regs) → s'.log = s.log ++ [.asked c (.status n) (s.clients c).next s.clock] := by
  intro hk
  have hc : callbacks (s.clients c) (.status n) = [] := List.eq_nil_iff_forall_not_mem.2 fun k h => hk k (mem_callbacks.1 h)
  simp only [step, getStatus, if_pos hc, Option.some.injEq] at h
  subst h; rfl

/-- What a client gives from its store was set. -/
theorem cached_made {s : State} (h : Reachable s) {c : Nat} {op : Op} {x : Val} (ha : .cached c op (some x) ∈ s.log) : .made op x ∈ s.log := h.inv.vals.cached _ _ _ ha

/-! ### What does not hold -/

def runs (s : State) : List Act → Option State
  | [] => some s
  | a :: as => (step s a).bind fun s' => runs s' as

theorem runs_reach : ∀ (as : List Act) {s s' : State}, Reachable s → runs s as = some s' → Reachable s'
  | [], _, _, h, hr => by cases hr; exact h
  | a :: as, s, s', h, hr => by
    simp only [runs] at hr
    obtain ⟨s1, h1, h2⟩ := Option.bind_eq_some_iff.1 hr
    exact runs_reach as (.step h trivial h1) h2

theorem runs_wit {α : Type} {as : List Act} {f : State → α} {v : α} (h : (runs State.init as).map f = some v) : ∃ s, Reachable s ∧ f s = v := by
  obtain ⟨s, h1, h2⟩ := Option.map_eq_some_iff.1 h
  exact ⟨s, runs_reach as .init h1, h2⟩

/-- client 0 and property 1 -/
def view (s : State) : List Up × List Down × Option (Op × Val) × List (Op × Nat) × Option Val × List Ev :=
  ((s.clients 0).up, (s.clients 0).down, (s.clients 0).storing, (s.clients 0).regs, s.props (.status 1), s.log)

/-- A callback that is registered while another one is called with the first value is never called, although it stays registered, the
property has a value and nothing is on its way. -/
theorem late_second : ∃ s, Reachable s ∧ Quiet s 0 ∧ (.status 1, 1) ∈ (s.clients 0).regs ∧ s.props (.status 1) = some ⟨0, 10⟩ ∧ .registered 0 (.status 1) 1 ∈ s.log ∧
    lastTold s.log 0 (.status 1) 0 = some ⟨0, 10⟩ ∧ lastTold s.log 0 (.status 1) 1 = none := by
  have hv : (runs State.init [.setStatus 1 10, .register 0 (.status 1), .serverGets 0, .clientGets 0, .register 0 (.status 1), .store 0]).map view =
      some ([], [], none, [(.status 1, 0), (.status 1, 1)], some ⟨0, 10⟩, [.made (.status 1) ⟨0, 10⟩, .registered 0 (.status 1) 0, .told 0 (.status 1) 0 ⟨0, 10⟩, .registered 0 (.status 1) 1]) := by rfl
  obtain ⟨s, hr, h⟩ := runs_wit hv
  simp only [view, Prod.mk.injEq] at h
  obtain ⟨h1, h2, h3, h4, h5, h6⟩ := h
  exact ⟨s, hr, ⟨h1, h2, h3⟩, by rw [h4]; decide, h5, by rw [h6]; decide, by rw [h6]; decide, by rw [h6]; decide⟩

/-- A callback may miss a value between two it is told: those told before its own registration has arrived are remains of an older one. -/
theorem skipped : ∃ s, Reachable s ∧ Quiet s 0 ∧ s.log = [.registered 0 (.status 1) 0, .unregistered 0 (.status 1) 0, .registered 0 (.status 1) 1, .made (.status 1) ⟨0, 10⟩, .made (.status 1) ⟨1, 11⟩,
    .made (.status 1) ⟨2, 12⟩, .told 0 (.status 1) 1 ⟨0, 10⟩, .told 0 (.status 1) 1 ⟨2, 12⟩] := by
  have hv : (runs State.init [.register 0 (.status 1), .serverGets 0, .unregister 0 (.status 1) 0, .register 0 (.status 1), .setStatus 1 10, .serverGets 0, .setStatus 1 11, .setStatus 1 12, .serverGets 0,
      .clientGets 0, .store 0, .clientGets 0, .store 0]).map view =
      some ([], [], none, [(.status 1, 1)], some ⟨2, 12⟩, [.registered 0 (.status 1) 0, .unregistered 0 (.status 1) 0, .registered 0 (.status 1) 1, .made (.status 1) ⟨0, 10⟩, .made (.status 1) ⟨1, 11⟩,
        .made (.status 1) ⟨2, 12⟩, .told 0 (.status 1) 1 ⟨0, 10⟩, .told 0 (.status 1) 1 ⟨2, 12⟩]) := by rfl
  obtain ⟨s, hr, h⟩ := runs_wit hv
  simp only [view, Prod.mk.injEq] at h
  obtain ⟨h1, h2, h3, -, -, h6⟩ := h
  exact ⟨s, hr, ⟨h1, h2, h3⟩, h6⟩

/-- `getStatus` of a client that has just registered gives nothing, although the property has a value; without the registration it would
have got it. -/
theorem get_nothing : ∃ s, Reachable s ∧ s.log = [.made (.status 1) ⟨0, 10⟩, .registered 0 (.status 1) 0, .cached 0 (.status 1) none] := by
  have hv : (runs State.init [.setStatus 1 10, .register 0 (.status 1), .getStatus 0 1]).map (·.log) =
      some [.made (.status 1) ⟨0, 10⟩, .registered 0 (.status 1) 0, .cached 0 (.status 1) none] := by rfl
  exact runs_wit hv

/-! ### Examples -/

def logOf (as : List Act) : Option (List Ev) := (runs State.init as).map (·.log)

/-- Two clients, a status and a signal; one of them asks instead of registering. -/
example : logOf [.register 0 (.status 1), .register 0 (.signal 2), .serverGets 0, .serverGets 0, .setStatus 1 10, .setStatus 1 10, .signal 2 5, .signal 2 5, .getStatus 1 1, .serverGets 1, .clientGets 1,
    .clientGets 0, .store 0, .register 0 (.status 1), .clientGets 0, .clientGets 0, .setStatus 1 11, .clientGets 0, .store 0, .getStatus 0 1] =
    some [.registered 0 (.status 1) 0, .registered 0 (.signal 2) 1, .made (.status 1) ⟨0, 10⟩, .unchanged (.status 1) 10, .made (.signal 2) ⟨1, 5⟩, .made (.signal 2) ⟨2, 5⟩, .asked 1 (.status 1) 0 3,
      .answer 1 (.status 1) 0 (some ⟨0, 10⟩), .told 0 (.status 1) 0 ⟨0, 10⟩, .registered 0 (.status 1) 2, .told 0 (.status 1) 2 ⟨0, 10⟩, .told 0 (.signal 2) 1 ⟨1, 5⟩, .told 0 (.signal 2) 1 ⟨2, 5⟩,
      .made (.status 1) ⟨3, 11⟩, .told 0 (.status 1) 0 ⟨3, 11⟩, .told 0 (.status 1) 2 ⟨3, 11⟩, .cached 0 (.status 1) (some ⟨3, 11⟩)] := by rfl

/-- The hypotheses of `up_to_date_partial` on a history with two callbacks. -/
example : ∃ s, Reach Calm s ∧ Quiet s 0 ∧ (.status 1, 1) ∈ (s.clients 0).regs ∧ s.props (.status 1) = some ⟨0, 10⟩ ∧ lastTold s.log 0 (.status 1) 1 = some ⟨0, 10⟩ := by
  have other : ∀ {s : State} {a : Act}, (∀ c op, a ≠ .register c op) → Calm s a := fun h c op y he => absurd he (h c op)
  have r1 : Reach Calm _ := .step .init (other (by simp)) (a := .setStatus 1 10) rfl
  have r2 : Reach Calm _ := .step r1 (fun c op y h => by cases h; simp [State.init, setStatus, same, broadcast]) (a := .register 0 (.status 1)) rfl
  have r3 : Reach Calm _ := .step r2 (other (by simp)) (a := .serverGets 0) rfl
  have r4 : Reach Calm _ := .step r3 (other (by simp)) (a := .clientGets 0) rfl
  have r5 : Reach Calm _ := .step r4 (other (by simp)) (a := .store 0) rfl
  have r6 : Reach Calm _ := .step r5 (fun c op y h => by cases h; simp [News.store, upd]) (a := .register 0 (.status 1)) rfl
  exact ⟨_, r6, ⟨rfl, rfl, rfl⟩, by decide +kernel, rfl, by decide +kernel⟩

end Maf.News
