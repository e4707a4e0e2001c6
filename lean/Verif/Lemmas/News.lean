import Verif.Model.News
import Verif.Lemmas.Hist
/-
Statuses and signals from end to end: what a step changes, invariants.
-/
namespace Maf.News

/-! ### What a step is -/

inductive Move (s : State) : State → Prop where
  | unchanged (n v : Nat) : same s (.status n) v = true → Move s { s with log := s.log ++ [.unchanged (.status n) v] }
  | set (n v : Nat) : same s (.status n) v = false →
      Move s
        { s with
          clients := broadcast s (.status n) ⟨s.clock, v⟩, props := put s.props (.status n) (some ⟨s.clock, v⟩), clock := s.clock + 1,
          log := s.log ++ [.made (.status n) ⟨s.clock, v⟩] }
  | removed (n : Nat) : Move s { s with props := put s.props (.status n) none, log := s.log ++ [.removed (.status n)] }
  | signal (n v : Nat) :
      Move s
        { s with
          clients := broadcast s (.signal n) ⟨s.clock, v⟩, clock := s.clock + 1, log := s.log ++ [.made (.signal n) ⟨s.clock, v⟩] }
  | regFirst (c : Nat) (op : Op) : callbacks (s.clients c) op = [] →
      Move s
        { s with
          clients := upd s.clients c
            { s.clients c with
              next := (s.clients c).next + 1, regs := (s.clients c).regs ++ [(op, (s.clients c).next)],
              up := (s.clients c).up ++ [.reg op] },
          log := s.log ++ [.registered c op (s.clients c).next] }
  | regMore (c : Nat) (op : Op) : callbacks (s.clients c) op ≠ [] →
      Move s
        { s with
          clients := upd s.clients c
            { s.clients c with next := (s.clients c).next + 1, regs := (s.clients c).regs ++ [(op, (s.clients c).next)] },
          log := s.log ++ .registered c op (s.clients c).next :: greet (s.clients c) c op (s.clients c).next }
  | unregLast (c : Nat) (op : Op) (k : Nat) : callbacks { s.clients c with regs := (s.clients c).regs.erase (op, k) } op = [] →
      Move s
        { s with
          clients := upd s.clients c
            { s.clients c with
              regs := (s.clients c).regs.erase (op, k), cache := put (s.clients c).cache op none,
              up := (s.clients c).up ++ [.unreg op] },
          log := s.log ++ unregEv (s.clients c) c op k }
  | unregSome (c : Nat) (op : Op) (k : Nat) : callbacks { s.clients c with regs := (s.clients c).regs.erase (op, k) } op ≠ [] →
      Move s
        { s with
          clients := upd s.clients c { s.clients c with regs := (s.clients c).regs.erase (op, k) },
          log := s.log ++ unregEv (s.clients c) c op k }
  | unregAll (c : Nat) (op : Op) :
      Move s
        { s with
          clients := upd s.clients c
            { s.clients c with
              regs := (s.clients c).regs.filter (fun r => r.1 != op), cache := put (s.clients c).cache op none,
              up := (s.clients c).up ++ [.unreg op] },
          log := s.log ++ (callbacks (s.clients c) op).map fun k => .unregistered c op k }
  | asked (c n : Nat) : callbacks (s.clients c) (.status n) = [] →
      Move s
        { s with
          clients := upd s.clients c
            { s.clients c with
              next := (s.clients c).next + 1, asks := (s.clients c).asks ++ [(.status n, (s.clients c).next)],
              up := (s.clients c).up ++ [.get (.status n) (s.clients c).next] },
          log := s.log ++ [.asked c (.status n) (s.clients c).next s.clock] }
  | cached (c n : Nat) : callbacks (s.clients c) (.status n) ≠ [] →
      Move s { s with log := s.log ++ [.cached c (.status n) ((s.clients c).cache (.status n))] }
  | srvReg (c : Nat) (op : Op) (rest : List Up) : (s.clients c).up = .reg op :: rest →
      Move s
        { s with
          clients := upd s.clients c { s.clients c with up := rest, down := (s.clients c).down ++ latest s op },
          regs := if (c, op) ∈ s.regs then s.regs else (c, op) :: s.regs }
  | srvUnreg (c : Nat) (op : Op) (rest : List Up) : (s.clients c).up = .unreg op :: rest →
      Move s
        { s with
          clients := upd s.clients c { s.clients c with up := rest }, regs := s.regs.filter fun r => r != (c, op) }
  | srvGet (c : Nat) (op : Op) (id : Nat) (rest : List Up) : (s.clients c).up = .get op id :: rest →
      Move s
        { s with
          clients := upd s.clients c { s.clients c with up := rest, down := (s.clients c).down ++ [.got op id (s.props op)] } }
  | news (c : Nat) (op : Op) (x : Val) (rest : List Down) : (s.clients c).storing = none → (s.clients c).down = .news op x :: rest →
      Move s
        { s with
          clients := upd s.clients c { s.clients c with down := rest, storing := toStore (s.clients c) op x },
          log := s.log ++ (callbacks (s.clients c) op).map fun k => .told c op k x }
  | got (c : Nat) (op : Op) (id : Nat) (x : Option Val) (rest : List Down) : (s.clients c).storing = none →
      (s.clients c).down = .got op id x :: rest → (op, id) ∈ (s.clients c).asks →
      Move s
        { s with
          clients := upd s.clients c { s.clients c with down := rest, asks := (s.clients c).asks.erase (op, id) },
          log := s.log ++ [.answer c op id x] }
  | late (c : Nat) (op : Op) (id : Nat) (x : Option Val) (rest : List Down) : (s.clients c).storing = none →
      (s.clients c).down = .got op id x :: rest → (op, id) ∉ (s.clients c).asks →
      Move s { s with clients := upd s.clients c { s.clients c with down := rest } }
  | store (c : Nat) (op : Op) (x : Val) : (s.clients c).storing = some (op, x) →
      Move s
        { s with
          clients := upd s.clients c { s.clients c with cache := put (s.clients c).cache op (some x), storing := none } }

theorem step_move {s s' : State} {a : Act} (h : step s a = some s') : Move s s' := by
  cases a with
  | setStatus n v =>
    simp only [step, setStatus, Option.some.injEq] at h
    split at h <;> subst h
    · exact .unchanged n v (by assumption)
    · rename_i hn; exact .set n v (by simpa using hn)
  | removeProperty n => simp only [step, removeProperty, Option.some.injEq] at h; subst h; exact .removed n
  | signal n v => simp only [step, News.signal, Option.some.injEq] at h; subst h; exact .signal n v
  | register c op =>
    simp only [step, register, Option.some.injEq] at h
    split at h <;> subst h
    · exact .regFirst c op (by assumption)
    · exact .regMore c op (by assumption)
  | unregister c op k =>
    simp only [step, unregister, Option.some.injEq] at h
    split at h <;> subst h
    · exact .unregLast c op k (by assumption)
    · exact .unregSome c op k (by assumption)
  | unregisterAll c op => simp only [step, unregisterAll, Option.some.injEq] at h; subst h; exact .unregAll c op
  | getStatus c n =>
    simp only [step, getStatus, Option.some.injEq] at h
    split at h <;> subst h
    · exact .asked c n (by assumption)
    · exact .cached c n (by assumption)
  | serverGets c =>
    simp only [step] at h
    split at h
    · cases h
    · rename_i m rest hu
      simp only [serverGets, Option.some.injEq] at h
      cases m with
      | reg op => subst h; exact .srvReg c op rest hu
      | unreg op => subst h; exact .srvUnreg c op rest hu
      | get op id => subst h; exact .srvGet c op id rest hu
  | clientGets c =>
    simp only [step] at h
    split at h
    · rename_i m rest hst hd
      simp only [clientGets, Option.some.injEq] at h
      cases m with
      | news op x => subst h; exact .news c op x rest hst hd
      | got op id x =>
        simp only at h
        split at h <;> subst h
        · exact .got c op id x rest hst hd (by assumption)
        · exact .late c op id x rest hst hd (by assumption)
    · cases h
  | store c =>
    simp only [step] at h
    split at h
    · cases h
    · rename_i op x hst
      simp only [News.store, Option.some.injEq] at h
      subst h
      exact .store c op x hst

theorem mem_callbacks {cl : Client} {op : Op} {k : Nat} : k ∈ callbacks cl op ↔ (op, k) ∈ cl.regs := by
  simp only [callbacks, List.mem_map, List.mem_filter, beq_iff_eq]
  constructor
  · rintro ⟨⟨o, k'⟩, ⟨h1, rfl⟩, rfl⟩; exact h1
  · intro h; exact ⟨(op, k), ⟨h, rfl⟩, rfl⟩

theorem mem_unregEv {cl : Client} {c c' : Nat} {op op' : Op} {k k' : Nat} : Ev.unregistered c' op' k' ∈ unregEv cl c op k ↔ c' = c ∧ op' = op ∧ k' = k ∧ (op, k) ∈ cl.regs := by
  unfold unregEv; split
  · rename_i h; simp [h]
  · rename_i h; simp [h]

theorem unregEv_only {cl : Client} {c : Nat} {op : Op} {k : Nat} {e : Ev} (h : e ∈ unregEv cl c op k) : e = .unregistered c op k := by
  unfold unregEv at h; split at h
  · simpa using h
  · cases h

theorem mem_greet {cl : Client} {c : Nat} {op : Op} {k : Nat} {e : Ev} : e ∈ greet cl c op k ↔ ∃ n x, op = .status n ∧ cl.cache op = some x ∧ e = .told c op k x := by
  cases op with
  | signal n => simp [greet]
  | status n =>
    simp only [greet, Option.mem_toList, Option.map_eq_some_iff]
    constructor
    · rintro ⟨x, h1, rfl⟩; exact ⟨n, x, rfl, h1, rfl⟩
    · rintro ⟨_, x, -, h1, rfl⟩; exact ⟨x, h1, rfl⟩

theorem mem_latest {s : State} {op : Op} {m : Down} : m ∈ latest s op ↔ ∃ n x, op = .status n ∧ s.props op = some x ∧ m = .news op x := by
  cases op with
  | signal n => simp [latest]
  | status n =>
    simp only [latest, Option.mem_toList, Option.map_eq_some_iff]
    constructor
    · rintro ⟨x, h1, rfl⟩; exact ⟨n, x, rfl, h1, rfl⟩
    · rintro ⟨_, x, -, h1, rfl⟩; exact ⟨x, h1, rfl⟩

theorem latest_eq {s : State} {op : Op} : latest s op = [] ∨ ∃ n x, op = .status n ∧ s.props op = some x ∧ latest s op = [.news op x] := by
  cases op with
  | signal n => exact .inl rfl
  | status n =>
    cases hp : s.props (.status n) with
    | none => exact .inl (by simp [latest, hp])
    | some x => exact .inr ⟨n, x, rfl, rfl, by simp [latest, hp]⟩

theorem upd_self {f : Nat → Client} {c : Nat} {v : Client} : upd f c v c = v := by simp [upd]
theorem upd_other {f : Nat → Client} {c k : Nat} {v : Client} (h : k ≠ c) : upd f c v k = f k := by simp [upd, h]

theorem move_log {s s' : State} (hm : Move s s') : ∃ es, s'.log = s.log ++ es := by
  cases hm <;> first | exact ⟨_, rfl⟩ | exact ⟨[], by simp⟩

theorem move_sub {s s' : State} (hm : Move s s') {e : Ev} (h : e ∈ s.log) : e ∈ s'.log := by
  obtain ⟨es, he⟩ := move_log hm; rw [he]; exact List.mem_append_left _ h

/-! ### What is new after a step -/

/-- The only new `made`. -/
theorem made_step {s s' : State} (hm : Move s s') {op : Op} {x : Val} (h : .made op x ∈ s'.log) : .made op x ∈ s.log ∨ (x.ver = s.clock ∧ s'.clock = s.clock + 1 ∧ ∀ op' x', .made op' x' ∈ s'.log → .made op' x' ∈ s.log ∨ (op' = op ∧ x' = x)) := by
  cases hm <;> simp only [List.mem_append, List.mem_cons, List.mem_map, List.not_mem_nil, or_false, mem_greet] at h ⊢ <;>
    first
    | exact .inl h
    | (rcases h with h | h
       · exact .inl h
       · first
         | (cases h; done)
         | (cases h
            refine .inr ⟨rfl, trivial, ?_⟩
            rintro op' x' (h | h)
            · exact .inl h
            · cases h; exact .inr ⟨rfl, rfl⟩)
         | (have := unregEv_only h; cases this)
         | (obtain ⟨_, _, h⟩ := h; cases h; done)
         | (rcases h with h | ⟨_, _, _, _, h⟩ <;> cases h))

theorem clock_step {s s' : State} (hm : Move s s') : s.clock ≤ s'.clock := by
  cases hm <;> simp

theorem told_step {s s' : State} (hm : Move s s') {c : Nat} {op : Op} {k : Nat} {x : Val} (h : .told c op k x ∈ s'.log) :
    .told c op k x ∈ s.log ∨ ((s.clients c).down = .news op x :: (s'.clients c).down ∧ (op, k) ∈ (s.clients c).regs) ∨
      ((∃ n, op = .status n) ∧ (s.clients c).cache op = some x ∧ k = (s.clients c).next) := by
  cases hm <;> simp only [List.mem_append, List.mem_cons, List.mem_map, List.not_mem_nil, or_false, mem_greet] at h ⊢ <;>
    first
    | exact .inl h
    | (rcases h with h | h
       · exact .inl h
       · first
         | (cases h; done)
         | (have := unregEv_only h; cases this)
         | (obtain ⟨_, _, h⟩ := h; cases h; done)
         | (obtain ⟨_, hk, h⟩ := h; cases h; exact .inr (.inl ⟨by simp only [upd_self]; assumption, mem_callbacks.1 hk⟩))
         | (rcases h with h | ⟨n, y, h1, h2, h⟩ <;> cases h; exact .inr (.inr ⟨⟨n, h1⟩, h2, rfl⟩)))

theorem cache_step {s s' : State} (hm : Move s s') {c : Nat} {op : Op} {x : Val} (h : (s'.clients c).cache op = some x) :
    (s.clients c).cache op = some x ∨ (s.clients c).storing = some (op, x) := by
  cases hm <;> simp only [upd, broadcast] at h <;> first
    | exact .inl h
    | (split at h
       · rename_i hk; first | exact .inl h | (subst hk; first | exact .inl h | skip)
         all_goals (
           simp only [put] at h; split at h
           · rename_i ho; subst ho; first | (cases h; done) | (cases h; exact .inr (by assumption))
           · exact .inl h)
       · exact .inl h)

theorem storing_step {s s' : State} (hm : Move s s') {c : Nat} {op : Op} {x : Val} (h : (s'.clients c).storing = some (op, x)) :
    (s.clients c).storing = some (op, x) ∨ ((s.clients c).down = .news op x :: (s'.clients c).down ∧ (∃ n, op = .status n) ∧ callbacks (s.clients c) op ≠ []) := by
  cases hm
  case news c' op' x' rest hst hd =>
    by_cases hk : c = c'
    · subst hk
      simp only [upd_self] at h ⊢
      unfold toStore at h
      split at h
      · cases h
      · rename_i n
        split at h
        · cases h
        · rename_i hn
          cases h
          exact .inr ⟨hd, ⟨n, rfl⟩, hn⟩
    · simp only [upd_other hk] at h; exact .inl h
  all_goals simp only [upd, broadcast] at h
  all_goals first
    | exact .inl h
    | (split at h
       · rename_i hk; first | exact .inl h | (subst hk; first | exact .inl h | (cases h; done))
       · exact .inl h)


/-! ### Values -/

structure Base (s : State) : Prop where
  lt : ∀ (op : Op) (x : Val), .made op x ∈ s.log → x.ver < s.clock
  uniq : ∀ (op op' : Op) (x x' : Val), .made op x ∈ s.log → .made op' x' ∈ s.log → x.ver = x'.ver → op = op' ∧ x = x'
  props : ∀ (op : Op) (x : Val), s.props op = some x → .made op x ∈ s.log
  max : ∀ (op : Op) (x x' : Val), s.props op = some x → .made op x' ∈ s.log → x'.ver ≤ x.ver
  gone : ∀ (n : Nat) (x : Val), .made (.status n) x ∈ s.log → s.props (.status n) = none → .removed (.status n) ∈ s.log
  only : ∀ n, s.props (.signal n) = none

theorem base_init : Base State.init := ⟨by simp [State.init], by simp [State.init], by simp [State.init], by simp [State.init], by simp [State.init], by simp [State.init]⟩

theorem base_move {s s' : State} (hb : Base s) (hm : Move s s') : Base s' := by
  have hu : ∀ (op op' : Op) (x x' : Val), .made op x ∈ s'.log → .made op' x' ∈ s'.log → x.ver = x'.ver → op = op' ∧ x = x' := by
    intro op op' x x' h1 h2 he
    rcases made_step hm h1 with h1' | ⟨e1, -, all⟩
    · rcases made_step hm h2 with h2' | ⟨e2, -, -⟩
      · exact hb.uniq _ _ _ _ h1' h2' he
      · have := hb.lt _ _ h1'; omega
    · rcases all _ _ h2 with h2' | ⟨rfl, rfl⟩
      · have := hb.lt _ _ h2'; omega
      · exact ⟨rfl, rfl⟩
  have hl : ∀ (op : Op) (x : Val), .made op x ∈ s'.log → x.ver < s'.clock := by
    intro op x h
    rcases made_step hm h with h | ⟨e, e', -⟩
    · exact Nat.lt_of_lt_of_le (hb.lt _ _ h) (clock_step hm)
    · omega
  refine ⟨hl, hu, ?_, ?_, ?_, ?_⟩
  · intro op x h
    cases hm
    case set n v _ =>
      simp only [put] at h
      split at h
      · rename_i ho; cases h; subst ho; simp
      · exact List.mem_append_left _ (hb.props _ _ h)
    case removed n =>
      simp only [put] at h
      split at h
      · cases h
      · exact List.mem_append_left _ (hb.props _ _ h)
    all_goals first | exact hb.props _ _ h | exact List.mem_append_left _ (hb.props _ _ h)
  · intro op x x' h h'
    have hms := made_step hm h'
    cases hm
    case set n v _ =>
      simp only [put] at h
      split at h
      · cases h; have := hl _ _ h'; simp only at this ⊢; omega
      · rename_i ho
        simp only [List.mem_append, List.mem_cons, List.not_mem_nil, or_false] at h'
        rcases h' with h' | h'
        · exact hb.max _ _ _ h h'
        · cases h'; exact absurd rfl ho
    case removed n =>
      simp only [put] at h
      split at h
      · cases h
      · simp at h'; exact hb.max _ _ _ h h'
    case signal n v =>
      simp only [List.mem_append, List.mem_cons, List.not_mem_nil, or_false] at h'
      rcases h' with h' | h'
      · exact hb.max _ _ _ h h'
      · cases h'
        simp only [hb.only] at h
        cases h
    all_goals
      rcases hms with hms | ⟨-, hc, -⟩
      · exact hb.max _ _ _ h hms
      · simp at hc
  · intro n x h hp
    cases hm
    case set n' v _ =>
      simp only [put] at hp
      split at hp
      · cases hp
      · rename_i ho
        simp only [List.mem_append, List.mem_cons, List.not_mem_nil, or_false] at h
        rcases h with h | h
        · exact List.mem_append_left _ (hb.gone _ _ h hp)
        · cases h; exact absurd rfl ho
    case removed n' =>
      simp only [put] at hp
      split at hp
      · rename_i ho; cases ho; simp
      · simp at h; exact List.mem_append_left _ (hb.gone _ _ h hp)
    case signal n' v =>
      simp at h; exact List.mem_append_left _ (hb.gone _ _ h hp)
    all_goals first
      | exact hb.gone _ _ h hp
      | (rcases List.mem_append.1 h with h | h
         · exact List.mem_append_left _ (hb.gone _ _ h hp)
         · first
           | (simp at h; done)
           | (simp [mem_greet] at h; done)
           | (have := unregEv_only h; cases this))
  · intro n
    cases hm
    case set => simp [put, hb.only]
    case removed => simp [put, hb.only]
    all_goals exact hb.only n


/-- A message is new: a value that is at least as new as all before it, or the answer to a question. -/
inductive Fresh (s s' : State) (c : Nat) : Down → Prop where
  | news (op : Op) (x : Val) : .made op x ∈ s'.log → (∀ x', .made op x' ∈ s.log → x'.ver ≤ x.ver ∧ ∀ n, op = .signal n → x'.ver < x.ver) → Fresh s s' c (.news op x)
  | got (op : Op) (id : Nat) : (s.clients c).up = .get op id :: (s'.clients c).up → Fresh s s' c (.got op id (s.props op))

theorem down_step {s s' : State} (hb : Base s) (hm : Move s s') (c : Nat) :
    (s'.clients c).down = (s.clients c).down ∨ (∃ m, (s'.clients c).down = (s.clients c).down ++ [m] ∧ Fresh s s' c m) ∨
      ∃ m, (s.clients c).storing = none ∧ (s.clients c).down = m :: (s'.clients c).down := by
  cases hm
  case set n v _ =>
    simp only [broadcast]
    split
    · refine .inr (.inl ⟨_, rfl, .news _ _ (by simp) (fun x' h' => ⟨Nat.le_of_lt (hb.lt _ _ h'), by simp⟩)⟩)
    · exact .inl rfl
  case signal n v =>
    simp only [broadcast]
    split
    · refine .inr (.inl ⟨_, rfl, .news _ _ (by simp) (fun x' h' => ⟨Nat.le_of_lt (hb.lt _ _ h'), fun _ _ => hb.lt _ _ h'⟩)⟩)
    · exact .inl rfl
  case srvReg c' op rest hu =>
    by_cases hk : c = c'
    · subst hk
      simp only [upd_self]
      rcases latest_eq (s := s) (op := op) with h | ⟨n, x, rfl, h1, h⟩
      · exact .inl (by simp [h])
      · exact .inr (.inl ⟨_, by rw [h], .news _ _ (hb.props _ _ h1) (fun x' h' => ⟨hb.max _ _ _ h1 h', by simp⟩)⟩)
    · exact .inl (by simp only [upd_other hk])
  case srvGet c' op id rest hu =>
    by_cases hk : c = c'
    · subst hk
      simp only [upd_self]
      exact .inr (.inl ⟨_, rfl, .got op id (by simpa only [upd_self] using hu)⟩)
    · exact .inl (by simp only [upd_other hk])
  case news c' op x rest hst hd =>
    by_cases hk : c = c'
    · subst hk
      simp only [upd_self]
      exact .inr (.inr ⟨_, hst, hd⟩)
    · exact .inl (by simp only [upd_other hk])
  case got c' op id x rest hst hd ha =>
    by_cases hk : c = c'
    · subst hk
      simp only [upd_self]
      exact .inr (.inr ⟨_, hst, hd⟩)
    · exact .inl (by simp only [upd_other hk])
  case late c' op id x rest hst hd ha =>
    by_cases hk : c = c'
    · subst hk
      simp only [upd_self]
      exact .inr (.inr ⟨_, hst, hd⟩)
    · exact .inl (by simp only [upd_other hk])
  all_goals first
    | exact .inl rfl
    | (refine .inl ?_
       simp only [upd]
       split
       · rename_i hk; rw [hk]
       · rfl)

theorem answer_step {s s' : State} (hm : Move s s') {c : Nat} {op : Op} {id : Nat} {x : Option Val} (h : .answer c op id x ∈ s'.log) :
    .answer c op id x ∈ s.log ∨ ((s.clients c).down = .got op id x :: (s'.clients c).down ∧ (op, id) ∈ (s.clients c).asks ∧ s'.log = s.log ++ [.answer c op id x]) := by
  cases hm
  case got c' op' id' x' rest hst hd ha =>
    simp only [List.mem_append, List.mem_cons, List.not_mem_nil, or_false] at h
    rcases h with h | h
    · exact .inl h
    · cases h
      exact .inr ⟨by simpa only [upd_self] using hd, ha, rfl⟩
  all_goals first
    | exact .inl h
    | (rcases List.mem_append.1 h with h | h
       · exact .inl h
       · first
         | (simp at h; done)
         | (simp [mem_greet] at h; done)
         | (have := unregEv_only h; cases this))

theorem cached_step {s s' : State} (hm : Move s s') {c : Nat} {op : Op} {x : Option Val} (h : .cached c op x ∈ s'.log) :
    .cached c op x ∈ s.log ∨ (s.clients c).cache op = x := by
  cases hm
  case cached c' n' ha =>
    simp only [List.mem_append, List.mem_cons, List.not_mem_nil, or_false] at h
    rcases h with h | h
    · exact .inl h
    · cases h; exact .inr rfl
  all_goals first
    | exact .inl h
    | (rcases List.mem_append.1 h with h | h
       · exact .inl h
       · first
         | (simp at h; done)
         | (simp [mem_greet] at h; done)
         | (have := unregEv_only h; cases this))

/-- All values anywhere were made. -/
structure Vals (s : State) : Prop where
  news : ∀ (c : Nat) (op : Op) (x : Val), .news op x ∈ (s.clients c).down → .made op x ∈ s.log
  got : ∀ (c : Nat) (op : Op) (id : Nat) (x : Val), .got op id (some x) ∈ (s.clients c).down → .made op x ∈ s.log
  storing : ∀ (c : Nat) (op : Op) (x : Val), (s.clients c).storing = some (op, x) → .made op x ∈ s.log
  cache : ∀ (c : Nat) (op : Op) (x : Val), (s.clients c).cache op = some x → .made op x ∈ s.log
  told : ∀ (c : Nat) (op : Op) (k : Nat) (x : Val), .told c op k x ∈ s.log → .made op x ∈ s.log
  answer : ∀ (c : Nat) (op : Op) (id : Nat) (x : Val), .answer c op id (some x) ∈ s.log → .made op x ∈ s.log
  cached : ∀ (c : Nat) (op : Op) (x : Val), .cached c op (some x) ∈ s.log → .made op x ∈ s.log

theorem vals_init : Vals State.init := by constructor <;> simp [State.init]

theorem vals_move {s s' : State} (hb : Base s) (hv : Vals s) (hm : Move s s') : Vals s' := by
  have sub : ∀ {e : Ev}, e ∈ s.log → e ∈ s'.log := move_sub hm
  refine ⟨fun c op x h => ?_, fun c op id x h => ?_, fun c op x h => ?_, fun c op x h => ?_, fun c op k x h => ?_, fun c op id x h => ?_, fun c op x h => ?_⟩
  · rcases down_step hb hm c with he | ⟨m, he, hf⟩ | ⟨m, -, he⟩
    · rw [he] at h; exact sub (hv.news _ _ _ h)
    · rw [he] at h
      rcases List.mem_append.1 h with h | h
      · exact sub (hv.news _ _ _ h)
      · simp only [List.mem_singleton] at h
        subst h
        cases hf with
        | news _ _ h1 _ => exact h1
    · exact sub (hv.news c _ _ (by rw [he]; exact List.mem_cons_of_mem _ h))
  · rcases down_step hb hm c with he | ⟨m, he, hf⟩ | ⟨m, -, he⟩
    · rw [he] at h; exact sub (hv.got _ _ _ _ h)
    · rw [he] at h
      rcases List.mem_append.1 h with h | h
      · exact sub (hv.got _ _ _ _ h)
      · simp only [List.mem_singleton] at h
        generalize hp : some x = y at h
        subst h
        cases hf with
        | got _ _ _ => exact sub (hb.props _ _ hp.symm)
    · exact sub (hv.got c _ _ _ (by rw [he]; exact List.mem_cons_of_mem _ h))
  · rcases storing_step hm h with h | ⟨h, -⟩
    · exact sub (hv.storing _ _ _ h)
    · exact sub (hv.news c _ _ (by rw [h]; exact List.mem_cons_self ..))
  · rcases cache_step hm h with h | h
    · exact sub (hv.cache _ _ _ h)
    · exact sub (hv.storing _ _ _ h)
  · rcases told_step hm h with h | ⟨h, -⟩ | ⟨-, h, -⟩
    · exact sub (hv.told _ _ _ _ h)
    · exact sub (hv.news c _ _ (by rw [h]; exact List.mem_cons_self ..))
    · exact sub (hv.cache _ _ _ h)
  · rcases answer_step hm h with h | ⟨h, -⟩
    · exact sub (hv.answer _ _ _ _ h)
    · exact sub (hv.got c _ _ _ (by rw [h]; exact List.mem_cons_self ..))
  · rcases cached_step hm h with h | h
    · exact sub (hv.cached _ _ _ h)
    · exact sub (hv.cache _ _ _ h)

/-! ### Order -/

/-- `x` before `x'`: not newer; older if it is a signal. -/
def Le (op : Op) (x x' : Val) : Prop := x.ver ≤ x'.ver ∧ ∀ n, op = .signal n → x.ver < x'.ver

def Before (m m' : Down) : Prop := ∀ op x x', m = .news op x → m' = .news op x' → Le op x x'

/-- What the client has had of this operation. -/
inductive Had (s : State) (c : Nat) (op : Op) (x : Val) : Prop where
  | told (k : Nat) : .told c op k x ∈ s.log → Had s c op x
  | storing : (s.clients c).storing = some (op, x) → Had s c op x
  | cache : (s.clients c).cache op = some x → Had s c op x

theorem Had.made {s : State} (hv : Vals s) {c : Nat} {op : Op} {x : Val} (h : Had s c op x) : .made op x ∈ s.log := by
  cases h with
  | told k h => exact hv.told _ _ _ _ h
  | storing h => exact hv.storing _ _ _ h
  | cache h => exact hv.cache _ _ _ h

theorem had_step {s s' : State} (hm : Move s s') {c : Nat} {op : Op} {x : Val} (h : Had s' c op x) :
    Had s c op x ∨ (s.clients c).down = .news op x :: (s'.clients c).down := by
  cases h with
  | told k h =>
    rcases told_step hm h with h | ⟨h, -⟩ | ⟨-, h, -⟩
    · exact .inl (.told k h)
    · exact .inr h
    · exact .inl (.cache h)
  | storing h =>
    rcases storing_step hm h with h | ⟨h, -⟩
    · exact .inl (.storing h)
    · exact .inr h
  | cache h =>
    rcases cache_step hm h with h | h
    · exact .inl (.cache h)
    · exact .inl (.storing h)

structure Ord (s : State) : Prop where
  sorted : ∀ c, (s.clients c).down.Pairwise Before
  had : ∀ (c : Nat) (op : Op) (x x' : Val), Had s c op x → .news op x' ∈ (s.clients c).down → Le op x x'

theorem ord_init : Ord State.init := ⟨by simp [State.init], by simp [State.init]⟩

theorem ord_move {s s' : State} (hb : Base s) (hv : Vals s) (ho : Ord s) (hm : Move s s') : Ord s' := by
  constructor
  · intro c
    rcases down_step hb hm c with he | ⟨m, he, hf⟩ | ⟨m, -, he⟩
    · rw [he]; exact ho.sorted c
    · rw [he, List.pairwise_append]
      refine ⟨ho.sorted c, List.pairwise_singleton .., fun m1 h1 m2 h2 => ?_⟩
      simp only [List.mem_singleton] at h2
      subst h2
      intro op x x' e1 e2
      subst e1 e2
      cases hf with
      | news _ _ _ h => exact h _ (hv.news _ _ _ h1)
    · have := ho.sorted c
      rw [he] at this
      exact this.of_cons
  · intro c op x x' h hx'
    rcases had_step hm h with h | h
    · rcases down_step hb hm c with he | ⟨m, he, hf⟩ | ⟨m, -, he⟩
      · rw [he] at hx'; exact ho.had c _ _ _ h hx'
      · rw [he] at hx'
        rcases List.mem_append.1 hx' with hx' | hx'
        · exact ho.had c _ _ _ h hx'
        · simp only [List.mem_singleton] at hx'
          subst hx'
          cases hf with
          | news _ _ _ hle => exact hle _ (h.made hv)
      · exact ho.had c _ _ _ h (by rw [he]; exact List.mem_cons_of_mem _ hx')
    · have := ho.sorted c
      rw [h] at this
      exact (List.pairwise_cons.1 this).1 _ hx' op x x' rfl rfl


/-! ### Registrations -/

theorem next_step {s s' : State} (hm : Move s s') (c : Nat) : (s.clients c).next ≤ (s'.clients c).next := by
  cases hm <;> simp only [upd, broadcast] <;> first
    | exact Nat.le_refl _
    | (split
       · rename_i hk; first | exact Nat.le_refl _ | (rw [hk]; first | exact Nat.le_refl _ | exact Nat.le_succ _)
       · exact Nat.le_refl _)

theorem regs_step {s s' : State} (hm : Move s s') {c : Nat} {op : Op} {k : Nat} (h : (op, k) ∈ (s'.clients c).regs) :
    (op, k) ∈ (s.clients c).regs ∨ (k = (s.clients c).next ∧ (s'.clients c).next = k + 1 ∧ .registered c op k ∈ s'.log) := by
  cases hm
  case regFirst c' op' hc =>
    by_cases hk : c = c'
    · subst hk
      simp only [upd_self, List.mem_append, List.mem_singleton] at h
      rcases h with h | h
      · exact .inl h
      · cases h; exact .inr ⟨rfl, by simp only [upd_self], by simp⟩
    · simp only [upd_other hk] at h; exact .inl h
  case regMore c' op' hc =>
    by_cases hk : c = c'
    · subst hk
      simp only [upd_self, List.mem_append, List.mem_singleton] at h
      rcases h with h | h
      · exact .inl h
      · cases h; exact .inr ⟨rfl, by simp only [upd_self], by simp⟩
    · simp only [upd_other hk] at h; exact .inl h
  all_goals simp only [upd, broadcast] at h
  all_goals first
    | exact .inl h
    | (split at h
       · rename_i hk; first
         | exact .inl h
         | (subst hk; first
           | exact .inl h
           | exact .inl (List.mem_of_mem_erase h)
           | exact .inl (List.mem_filter.1 h).1)
       · exact .inl h)

theorem regs_keep {s s' : State} (hm : Move s s') {c : Nat} {op : Op} {k : Nat} (h : (op, k) ∈ (s.clients c).regs) :
    (op, k) ∈ (s'.clients c).regs ∨ .unregistered c op k ∈ s'.log := by
  cases hm
  case unregLast c' op' k' hc =>
    by_cases hk : c = c'
    · subst hk
      simp only [upd_self]
      by_cases he : (op, k) = (op', k')
      · cases he; exact .inr (List.mem_append_right _ (mem_unregEv.2 ⟨rfl, rfl, rfl, h⟩))
      · exact .inl ((List.mem_erase_of_ne he).2 h)
    · exact .inl (by simpa only [upd_other hk] using h)
  case unregSome c' op' k' hc =>
    by_cases hk : c = c'
    · subst hk
      simp only [upd_self]
      by_cases he : (op, k) = (op', k')
      · cases he; exact .inr (List.mem_append_right _ (mem_unregEv.2 ⟨rfl, rfl, rfl, h⟩))
      · exact .inl ((List.mem_erase_of_ne he).2 h)
    · exact .inl (by simpa only [upd_other hk] using h)
  case unregAll c' op' =>
    by_cases hk : c = c'
    · subst hk
      simp only [upd_self]
      by_cases he : op = op'
      · subst he; exact .inr (List.mem_append_right _ (List.mem_map.2 ⟨k, mem_callbacks.2 h, rfl⟩))
      · exact .inl (List.mem_filter.2 ⟨h, by simpa using he⟩)
    · exact .inl (by simpa only [upd_other hk] using h)
  all_goals simp only [upd, broadcast]
  all_goals first
    | exact .inl h
    | (refine .inl ?_
       split
       · rename_i hk; first
         | exact h
         | (rw [← hk]; first
           | exact h
           | exact List.mem_append_left _ h)
       · exact h)

theorem registered_step {s s' : State} (hm : Move s s') {c : Nat} {op : Op} {k : Nat} (h : .registered c op k ∈ s'.log) :
    .registered c op k ∈ s.log ∨ (k = (s.clients c).next ∧ (s'.clients c).next = k + 1 ∧ (op, k) ∈ (s'.clients c).regs) := by
  cases hm
  case regFirst c' op' hc =>
    simp only [List.mem_append, List.mem_cons, List.not_mem_nil, or_false] at h
    rcases h with h | h
    · exact .inl h
    · cases h; exact .inr ⟨rfl, by simp only [upd_self], by simp [upd_self]⟩
  case regMore c' op' hc =>
    simp only [List.mem_append, List.mem_cons, mem_greet] at h
    rcases h with h | h | ⟨_, _, _, _, h⟩
    · exact .inl h
    · cases h; exact .inr ⟨rfl, by simp only [upd_self], by simp [upd_self]⟩
    · cases h
  all_goals first
    | exact .inl h
    | (rcases List.mem_append.1 h with h | h
       · exact .inl h
       · first
         | (simp at h; done)
         | (have := unregEv_only h; cases this))

theorem nodup_regs_step {s s' : State} (hm : Move s s') {c : Nat} (hl : ∀ op k, (op, k) ∈ (s.clients c).regs → k < (s.clients c).next)
    (h : ((s.clients c).regs.map (·.2)).Nodup) : ((s'.clients c).regs.map (·.2)).Nodup := by
  have add : ∀ op : Op, (((s.clients c).regs ++ [(op, (s.clients c).next)]).map (·.2)).Nodup := by
    intro op
    rw [List.map_append, List.nodup_append]
    refine ⟨h, by simp, fun a ha b hb' => ?_⟩
    simp only [List.map_cons, List.map_nil, List.mem_singleton] at hb'
    obtain ⟨⟨o, k⟩, h1, rfl⟩ := List.mem_map.1 ha
    have := hl _ _ h1
    simp only; omega
  cases hm <;> simp only [upd, broadcast] <;> first
    | exact h
    | (split
       · rename_i hk; first
         | exact h
         | (subst hk; first
           | exact h
           | exact add _
           | exact h.sublist (List.Sublist.map _ List.erase_sublist)
           | exact h.sublist (List.Sublist.map _ List.filter_sublist))
       · exact h)

theorem unregistered_step {s s' : State} (hm : Move s s') {c : Nat} {op : Op} {k : Nat} (hn : ((s.clients c).regs.map (·.2)).Nodup) (h : .unregistered c op k ∈ s'.log) :
    .unregistered c op k ∈ s.log ∨ ((op, k) ∈ (s.clients c).regs ∧ (op, k) ∉ (s'.clients c).regs) := by
  have hn' : (s.clients c).regs.Nodup := by
    rw [List.nodup_iff_pairwise_ne] at hn ⊢
    exact (List.pairwise_map.1 hn).imp fun h1 h2 => h1 (by rw [h2])
  cases hm
  case unregLast c' op' k' hc =>
    rcases List.mem_append.1 h with h | h
    · exact .inl h
    · obtain ⟨rfl, rfl, rfl, hr⟩ := mem_unregEv.1 h
      exact .inr ⟨hr, by simp [upd_self, hn'.mem_erase_iff]⟩
  case unregSome c' op' k' hc =>
    rcases List.mem_append.1 h with h | h
    · exact .inl h
    · obtain ⟨rfl, rfl, rfl, hr⟩ := mem_unregEv.1 h
      exact .inr ⟨hr, by simp [upd_self, hn'.mem_erase_iff]⟩
  case unregAll c' op' =>
    rcases List.mem_append.1 h with h | h
    · exact .inl h
    · obtain ⟨k', hk', he⟩ := List.mem_map.1 h
      cases he
      exact .inr ⟨mem_callbacks.1 hk', by simp [upd_self]⟩
  all_goals first
    | exact .inl h
    | (rcases List.mem_append.1 h with h | h
       · exact .inl h
       · first
         | (simp at h; done)
         | (simp [mem_greet] at h; done))

structure Regs (s : State) : Prop where
  lt : ∀ (c : Nat) (op : Op) (k : Nat), (op, k) ∈ (s.clients c).regs → k < (s.clients c).next
  nodup : ∀ c, ((s.clients c).regs.map (·.2)).Nodup
  logLt : ∀ (c : Nat) (op : Op) (k : Nat), .registered c op k ∈ s.log → k < (s.clients c).next
  log : ∀ (c : Nat) (op : Op) (k : Nat), (op, k) ∈ (s.clients c).regs → .registered c op k ∈ s.log
  told : ∀ (c : Nat) (op : Op) (k : Nat) (x : Val), .told c op k x ∈ s.log → .registered c op k ∈ s.log
  gone : ∀ (c : Nat) (op : Op) (k : Nat), .unregistered c op k ∈ s.log → k < (s.clients c).next ∧ (op, k) ∉ (s.clients c).regs
  live : ∀ (c : Nat) (op : Op) (k : Nat), .registered c op k ∈ s.log → (op, k) ∈ (s.clients c).regs ∨ .unregistered c op k ∈ s.log

theorem regs_init : Regs State.init := by constructor <;> simp [State.init]

theorem regs_move {s s' : State} (hr : Regs s) (hm : Move s s') : Regs s' := by
  have hn := fun c => next_step hm c
  refine ⟨fun c op k h => ?_, fun c => nodup_regs_step hm (hr.lt c) (hr.nodup c), fun c op k h => ?_, fun c op k h => ?_, fun c op k x h => ?_, fun c op k h => ?_, fun c op k h => ?_⟩
  · rcases regs_step hm h with h | ⟨-, h, -⟩
    · exact Nat.lt_of_lt_of_le (hr.lt _ _ _ h) (hn c)
    · omega
  · rcases registered_step hm h with h | ⟨-, h, -⟩
    · exact Nat.lt_of_lt_of_le (hr.logLt _ _ _ h) (hn c)
    · omega
  · rcases regs_step hm h with h | ⟨-, -, h⟩
    · exact move_sub hm (hr.log _ _ _ h)
    · exact h
  · rcases told_step hm h with h | ⟨-, h⟩ | ⟨h1, h2, h3⟩
    · exact move_sub hm (hr.told _ _ _ _ h)
    · exact move_sub hm (hr.log _ _ _ h)
    · by_cases ho : .told c op k x ∈ s.log
      · exact move_sub hm (hr.told _ _ _ _ ho)
      · cases hm
        case regMore c' op' hc =>
          simp only [List.mem_append, List.mem_cons, mem_greet] at h
          rcases h with h | h | ⟨n, y, e1, e2, h⟩
          · exact absurd h ho
          · cases h
          · cases h; simp
        case news c' op' x' rest hst hd =>
          rcases List.mem_append.1 h with h | h
          · exact absurd h ho
          · obtain ⟨k', hk', he⟩ := List.mem_map.1 h
            cases he
            exact List.mem_append_left _ (hr.log _ _ _ (mem_callbacks.1 hk'))
        all_goals first
          | exact absurd h ho
          | (rcases List.mem_append.1 h with h | h
             · exact absurd h ho
             · first
               | (simp at h; done)
               | (have := unregEv_only h; cases this))
  · rcases unregistered_step hm (hr.nodup c) h with h | ⟨h, h'⟩
    · refine ⟨Nat.lt_of_lt_of_le (hr.gone _ _ _ h).1 (hn c), fun hi => ?_⟩
      rcases regs_step hm hi with hi | ⟨hi, -, -⟩
      · exact (hr.gone _ _ _ h).2 hi
      · have := (hr.gone _ _ _ h).1; omega
    · exact ⟨Nat.lt_of_lt_of_le (hr.lt _ _ _ h) (hn c), h'⟩
  · rcases registered_step hm h with h | ⟨-, -, h⟩
    · rcases hr.live _ _ _ h with h | h
      · exact regs_keep hm h
      · exact .inr (move_sub hm h)
    · exact .inl h


/-! ### Questions -/

theorem asks_step {s s' : State} (hm : Move s s') {c : Nat} {op : Op} {id : Nat} (h : (op, id) ∈ (s'.clients c).asks) :
    (op, id) ∈ (s.clients c).asks ∨
      (id = (s.clients c).next ∧ (s'.clients c).next = id + 1 ∧ (∃ t, .asked c op id t ∈ s'.log) ∧ .get op id ∈ (s'.clients c).up) := by
  cases hm
  case asked c' n hc =>
    by_cases hk : c = c'
    · subst hk
      simp only [upd_self, List.mem_append, List.mem_singleton] at h
      rcases h with h | h
      · exact .inl h
      · cases h; exact .inr ⟨rfl, by simp only [upd_self], ⟨s.clock, by simp⟩, by simp [upd_self]⟩
    · simp only [upd_other hk] at h; exact .inl h
  all_goals simp only [upd, broadcast] at h
  all_goals first
    | exact .inl h
    | (split at h
       · rename_i hk; first
         | exact .inl h
         | (subst hk; first
           | exact .inl h
           | exact .inl (List.mem_of_mem_erase h))
       · exact .inl h)

theorem asked_step {s s' : State} (hm : Move s s') {c : Nat} {op : Op} {id t : Nat} (h : .asked c op id t ∈ s'.log) :
    .asked c op id t ∈ s.log ∨
      (id = (s.clients c).next ∧ (s'.clients c).next = id + 1 ∧ t = s.clock ∧ (op, id) ∈ (s'.clients c).asks ∧ ∃ n, op = .status n) := by
  cases hm
  case asked c' n hc =>
    simp only [List.mem_append, List.mem_cons, List.not_mem_nil, or_false] at h
    rcases h with h | h
    · exact .inl h
    · cases h; exact .inr ⟨rfl, by simp only [upd_self], rfl, by simp [upd_self], n, rfl⟩
  all_goals first
    | exact .inl h
    | (rcases List.mem_append.1 h with h | h
       · exact .inl h
       · first
         | (simp at h; done)
         | (simp [mem_greet] at h; done)
         | (have := unregEv_only h; cases this))

theorem up_step {s s' : State} (hm : Move s s') (c : Nat) :
    (s'.clients c).up = (s.clients c).up ∨
      (∃ m, (s'.clients c).up = (s.clients c).up ++ [m] ∧ ∀ op id, m = .get op id → id < (s'.clients c).next) ∨
      ∃ m, (s.clients c).up = m :: (s'.clients c).up ∧ ∀ op id, m = .get op id → (s'.clients c).down = (s.clients c).down ++ [.got op id (s.props op)] := by
  cases hm
  case regFirst c' op' hc =>
    by_cases hk : c = c'
    · subst hk
      simp only [upd_self]
      exact .inr (.inl ⟨_, rfl, by simp⟩)
    · exact .inl (by simp only [upd_other hk])
  case unregLast c' op' k' hc =>
    by_cases hk : c = c'
    · subst hk
      simp only [upd_self]
      exact .inr (.inl ⟨_, rfl, by simp⟩)
    · exact .inl (by simp only [upd_other hk])
  case unregAll c' op' =>
    by_cases hk : c = c'
    · subst hk
      simp only [upd_self]
      exact .inr (.inl ⟨_, rfl, by simp⟩)
    · exact .inl (by simp only [upd_other hk])
  case asked c' n hc =>
    by_cases hk : c = c'
    · subst hk
      simp only [upd_self]
      exact .inr (.inl ⟨_, rfl, fun op id h => by cases h; omega⟩)
    · exact .inl (by simp only [upd_other hk])
  case srvReg c' op' rest hu =>
    by_cases hk : c = c'
    · subst hk
      simp only [upd_self]
      exact .inr (.inr ⟨_, hu, by simp⟩)
    · exact .inl (by simp only [upd_other hk])
  case srvUnreg c' op' rest hu =>
    by_cases hk : c = c'
    · subst hk
      simp only [upd_self]
      exact .inr (.inr ⟨_, hu, by simp⟩)
    · exact .inl (by simp only [upd_other hk])
  case srvGet c' op' id' rest hu =>
    by_cases hk : c = c'
    · subst hk
      simp only [upd_self]
      exact .inr (.inr ⟨_, hu, fun op id h => by cases h; rfl⟩)
    · exact .inl (by simp only [upd_other hk])
  all_goals refine .inl ?_
  all_goals simp only [upd, broadcast]
  all_goals first
    | rfl
    | (split
       · rename_i hk; first | rfl | rw [hk]
       · rfl)

theorem nodup_asks_step {s s' : State} (hm : Move s s') {c : Nat} (hl : ∀ op id, (op, id) ∈ (s.clients c).asks → id < (s.clients c).next)
    (h : ((s.clients c).asks.map (·.2)).Nodup) : ((s'.clients c).asks.map (·.2)).Nodup := by
  have add : ∀ op : Op, (((s.clients c).asks ++ [(op, (s.clients c).next)]).map (·.2)).Nodup := by
    intro op
    rw [List.map_append, List.nodup_append]
    refine ⟨h, by simp, fun a ha b hb' => ?_⟩
    simp only [List.map_cons, List.map_nil, List.mem_singleton] at hb'
    obtain ⟨⟨o, k⟩, h1, rfl⟩ := List.mem_map.1 ha
    have := hl _ _ h1
    simp only; omega
  cases hm <;> simp only [upd, broadcast] <;> first
    | exact h
    | (split
       · rename_i hk; first
         | exact h
         | (subst hk; first
           | exact h
           | exact add _
           | exact h.sublist (List.Sublist.map _ List.erase_sublist))
       · exact h)

theorem nodup_of_map {l : List (Op × Nat)} (h : (l.map (·.2)).Nodup) : l.Nodup := by
  rw [List.nodup_iff_pairwise_ne] at h ⊢
  exact (List.pairwise_map.1 h).imp fun h1 h2 => h1 (by rw [h2])

/-- A question that disappears is answered. -/
theorem asks_keep {s s' : State} (hm : Move s s') {c : Nat} {op : Op} {id : Nat} (h : (op, id) ∈ (s.clients c).asks) :
    (op, id) ∈ (s'.clients c).asks ∨ ∃ x, .answer c op id x ∈ s'.log := by
  cases hm
  case got c' op' id' x' rest hst hd ha =>
    by_cases hk : c = c'
    · subst hk
      simp only [upd_self]
      by_cases he : (op, id) = (op', id')
      · cases he; exact .inr ⟨x', by simp⟩
      · exact .inl ((List.mem_erase_of_ne he).2 h)
    · exact .inl (by simpa only [upd_other hk] using h)
  all_goals simp only [upd, broadcast]
  all_goals first
    | exact .inl h
    | (refine .inl ?_
       split
       · rename_i hk; first
         | exact h
         | (rw [← hk]; first
           | exact h
           | exact List.mem_append_left _ h)
       · exact h)

/-- What a question with answer `y` says about a value made before it was asked. -/
def Good (s : State) (op : Op) (y : Option Val) (x : Val) : Prop := (∃ z, y = some z ∧ x.ver ≤ z.ver) ∨ (y = none ∧ .removed op ∈ s.log)

structure Asks (s : State) : Prop where
  lt : ∀ (c : Nat) (op : Op) (id : Nat), (op, id) ∈ (s.clients c).asks → id < (s.clients c).next
  upLt : ∀ (c : Nat) (op : Op) (id : Nat), .get op id ∈ (s.clients c).up → id < (s.clients c).next
  downLt : ∀ (c : Nat) (op : Op) (id : Nat) (x : Option Val), .got op id x ∈ (s.clients c).down → id < (s.clients c).next
  logLt : ∀ (c : Nat) (op : Op) (id t : Nat), .asked c op id t ∈ s.log → id < (s.clients c).next ∧ t ≤ s.clock ∧ ∃ n, op = .status n
  nodup : ∀ c, ((s.clients c).asks.map (·.2)).Nodup
  src : ∀ (c : Nat) (op : Op) (id : Nat), (op, id) ∈ (s.clients c).asks → ∃ t, .asked c op id t ∈ s.log
  state : ∀ (c : Nat) (op : Op) (id t : Nat), .asked c op id t ∈ s.log → (op, id) ∈ (s.clients c).asks ∨ ∃ x, .answer c op id x ∈ s.log
  ans : ∀ (c : Nat) (op : Op) (id : Nat) (x : Option Val), .answer c op id x ∈ s.log → (op, id) ∉ (s.clients c).asks ∧ id < (s.clients c).next
  way : ∀ (c : Nat) (op : Op) (id : Nat), (op, id) ∈ (s.clients c).asks → .get op id ∈ (s.clients c).up ∨ ∃ x, .got op id x ∈ (s.clients c).down
  fresh : ∀ (c : Nat) (op : Op) (id t : Nat) (y : Option Val) (x : Val), .got op id y ∈ (s.clients c).down → .asked c op id t ∈ s.log → .made op x ∈ s.log → x.ver < t → Good s op y x
  freshA : ∀ (c : Nat) (op : Op) (id t : Nat) (y : Option Val) (x : Val), .answer c op id y ∈ s.log → .asked c op id t ∈ s.log → .made op x ∈ s.log → x.ver < t → Good s op y x

theorem asks_init : Asks State.init := by constructor <;> simp [State.init]

theorem Good.mono {s s' : State} (hm : Move s s') {op : Op} {y : Option Val} {x : Val} (h : Good s op y x) : Good s' op y x :=
  h.imp (fun h => h) (fun h => ⟨h.1, move_sub hm h.2⟩)

theorem asks_move {s s' : State} (hb : Base s) (ha : Asks s) (hm : Move s s') : Asks s' := by
  have hn := fun c => next_step hm c
  have lift : ∀ {c id : Nat}, id < (s.clients c).next → id < (s'.clients c).next := fun {c _} h => Nat.lt_of_lt_of_le h (hn c)
  have old : ∀ {c : Nat} {op : Op} {id t : Nat}, .asked c op id t ∈ s'.log → id < (s.clients c).next → .asked c op id t ∈ s.log := by
    intro c op id t h hlt
    rcases asked_step hm h with h | ⟨h, -⟩
    · exact h
    · omega
  have oldMade : ∀ {op : Op} {x : Val} {t : Nat}, .made op x ∈ s'.log → x.ver < t → t ≤ s.clock → .made op x ∈ s.log := by
    intro op x t h h1 h2
    rcases made_step hm h with h | ⟨h, -⟩
    · exact h
    · omega
  have key : ∀ {c : Nat} {op : Op} {id t : Nat} {y : Option Val} {x : Val}, .got op id y ∈ (s.clients c).down → .asked c op id t ∈ s'.log → .made op x ∈ s'.log → x.ver < t → Good s' op y x := by
    intro c op id t y x h1 h2 h3 h4
    have h2' := old h2 (ha.downLt _ _ _ _ h1)
    exact (ha.fresh c op id t y x h1 h2' (oldMade h3 h4 (ha.logLt _ _ _ _ h2').2.1) h4).mono hm
  refine ⟨fun c op id h => ?_, fun c op id h => ?_, fun c op id x h => ?_, fun c op id t h => ?_, fun c => nodup_asks_step hm (ha.lt c) (ha.nodup c), fun c op id h => ?_, fun c op id t h => ?_, fun c op id x h => ?_, fun c op id h => ?_, fun c op id t y x h h2 h3 h4 => ?_, fun c op id t y x h h2 h3 h4 => ?_⟩
  · rcases asks_step hm h with h | ⟨-, h, -⟩
    · exact lift (ha.lt _ _ _ h)
    · omega
  · rcases up_step hm c with he | ⟨m, he, hl⟩ | ⟨m, he, -⟩
    · rw [he] at h; exact lift (ha.upLt _ _ _ h)
    · rw [he] at h
      rcases List.mem_append.1 h with h | h
      · exact lift (ha.upLt _ _ _ h)
      · exact hl op id (List.mem_singleton.1 h).symm
    · exact lift (ha.upLt c op id (by rw [he]; exact List.mem_cons_of_mem _ h))
  · rcases down_step hb hm c with he | ⟨m, he, hf⟩ | ⟨m, -, he⟩
    · rw [he] at h; exact lift (ha.downLt _ _ _ _ h)
    · rw [he] at h
      rcases List.mem_append.1 h with h | h
      · exact lift (ha.downLt _ _ _ _ h)
      · have := List.mem_singleton.1 h
        subst this
        cases hf with
        | got _ _ hu => exact lift (ha.upLt c op id (by rw [hu]; exact List.mem_cons_self ..))
    · exact lift (ha.downLt c op id x (by rw [he]; exact List.mem_cons_of_mem _ h))
  · rcases asked_step hm h with h | ⟨-, h1, h2, -, h3⟩
    · obtain ⟨h1, h2, h3⟩ := ha.logLt _ _ _ _ h
      exact ⟨lift h1, Nat.le_trans h2 (clock_step hm), h3⟩
    · exact ⟨by omega, by rw [h2]; exact clock_step hm, h3⟩
  · rcases asks_step hm h with h | ⟨-, -, h, -⟩
    · obtain ⟨t, ht⟩ := ha.src _ _ _ h; exact ⟨t, move_sub hm ht⟩
    · exact h
  · rcases asked_step hm h with h | ⟨-, -, -, h, -⟩
    · rcases ha.state _ _ _ _ h with h | ⟨x, h⟩
      · exact asks_keep hm h
      · exact .inr ⟨x, move_sub hm h⟩
    · exact .inl h
  · by_cases ho : .answer c op id x ∈ s.log
    · obtain ⟨h1, h2⟩ := ha.ans _ _ _ _ ho
      refine ⟨fun hi => ?_, lift h2⟩
      rcases asks_step hm hi with hi | ⟨hi, -⟩
      · exact h1 hi
      · omega
    · cases hm
      case got c' op' id' x' rest hst hd hk =>
        simp only [List.mem_append, List.mem_cons, List.not_mem_nil, or_false] at h
        rcases h with h | h
        · exact absurd h ho
        · cases h
          refine ⟨?_, lift (ha.lt _ _ _ hk)⟩
          simp only [upd_self]
          rw [(nodup_of_map (ha.nodup c)).mem_erase_iff]
          simp
      all_goals first
        | exact absurd h ho
        | (rcases List.mem_append.1 h with h | h
           · exact absurd h ho
           · first
             | (simp at h; done)
             | (simp [mem_greet] at h; done)
             | (have := unregEv_only h; cases this))
  · rcases asks_step hm h with h0 | ⟨-, -, -, h⟩
    · rcases ha.way _ _ _ h0 with h1 | ⟨x, h1⟩
      · rcases up_step hm c with he | ⟨m, he, hl⟩ | ⟨m, he, hg⟩
        · exact .inl (by rw [he]; exact h1)
        · exact .inl (by rw [he]; exact List.mem_append_left _ h1)
        · rw [he] at h1
          rcases List.mem_cons.1 h1 with h1 | h1
          · exact .inr ⟨s.props op, by rw [hg op id h1.symm]; simp⟩
          · exact .inl h1
      · refine .inr ?_
        rcases down_step hb hm c with he | ⟨m, he, hf⟩ | ⟨m, -, he⟩
        · exact ⟨x, by rw [he]; exact h1⟩
        · exact ⟨x, by rw [he]; exact List.mem_append_left _ h1⟩
        · rw [he] at h1
          rcases List.mem_cons.1 h1 with h1 | h1
          · exfalso
            subst h1
            have hne : ∀ {m : Down} {l : List Down}, l ≠ m :: l := fun {m l} h => by have := congrArg List.length h; simp at this
            cases hm
            case got c' op' id' x' rest hst hd hk =>
              by_cases hc : c = c'
              · subst hc
                simp only [upd_self] at h he
                rw [hd] at he; cases he
                rw [(nodup_of_map (ha.nodup c)).mem_erase_iff] at h
                exact h.1 rfl
              · simp only [upd_other hc] at he; exact hne he
            case late c' op' id' x' rest hst hd hk =>
              by_cases hc : c = c'
              · subst hc
                simp only [upd_self] at h he
                rw [hd] at he; cases he
                exact hk h
              · simp only [upd_other hc] at he; exact hne he
            case news c' op' x' rest hst hd =>
              by_cases hc : c = c'
              · subst hc
                simp only [upd_self] at h he
                rw [hd] at he; cases he
              · simp only [upd_other hc] at he; exact hne he
            all_goals simp only [upd, broadcast] at he
            all_goals first
              | exact hne he
              | (split at he
                 · rename_i hc
                   try rw [hc] at he
                   first
                   | exact hne he
                   | (have := congrArg List.length he; simp at this; omega)
                 · exact hne he)
          · exact ⟨x, h1⟩
    · exact .inl h
  · rcases down_step hb hm c with he | ⟨m, he, hf⟩ | ⟨m, -, he⟩
    · rw [he] at h; exact key h h2 h3 h4
    · rw [he] at h
      rcases List.mem_append.1 h with h | h
      · exact key h h2 h3 h4
      · have := List.mem_singleton.1 h
        subst this
        cases hf with
        | got _ _ hu =>
          have h2' := old h2 (ha.upLt c op id (by rw [hu]; exact List.mem_cons_self ..))
          obtain ⟨-, ht, n, rfl⟩ := ha.logLt _ _ _ _ h2'
          have h3' := oldMade h3 h4 ht
          cases hp : s.props (.status n) with
          | none => exact .inr ⟨rfl, move_sub hm (hb.gone _ _ h3' hp)⟩
          | some z => exact .inl ⟨z, rfl, hb.max _ _ _ hp h3'⟩
    · exact key (c := c) (by rw [he]; exact List.mem_cons_of_mem _ h) h2 h3 h4
  · rcases answer_step hm h with h | ⟨h, -⟩
    · have h2' := old h2 (ha.ans _ _ _ _ h).2
      exact (ha.freshA c op id t y x h h2' (oldMade h3 h4 (ha.logLt _ _ _ _ h2').2.1) h4).mono hm
    · exact key (c := c) (by rw [h]; exact List.mem_cons_self ..) h2 h3 h4


/-! ### The current value -/

def talk (op : Op) (b : Bool) : Up → Bool
  | .reg o => if o = op then true else b
  | .unreg o => if o = op then false else b
  | .get _ _ => b

/-- Whether the client will be registered when these messages have arrived. -/
def after (op : Op) (b : Bool) (u : List Up) : Bool := u.foldl (talk op) b

/-- No registration or unregistration for the operation is on its way. -/
def Settled (op : Op) (u : List Up) : Prop := Up.reg op ∉ u ∧ Up.unreg op ∉ u

theorem after_settled {op : Op} {b : Bool} : ∀ {u : List Up}, Settled op u → after op b u = b
  | [], _ => rfl
  | m :: u, h => by
    have hu : Settled op u := ⟨fun h' => h.1 (List.mem_cons_of_mem _ h'), fun h' => h.2 (List.mem_cons_of_mem _ h')⟩
    have : talk op b m = b := by
      cases m with
      | reg o => simp only [talk]; split
                 · rename_i ho; subst ho; exact absurd (List.mem_cons_self ..) h.1
                 · rfl
      | unreg o => simp only [talk]; split
                   · rename_i ho; subst ho; exact absurd (List.mem_cons_self ..) h.2
                   · rfl
      | get => rfl
    simp only [after, List.foldl_cons, this]
    exact after_settled hu

/-- Client and server agree, as soon as all messages have arrived, on whether the client is registered. -/
def Agree (s : State) : Prop := ∀ (c : Nat) (op : Op), after op (decide ((c, op) ∈ s.regs)) (s.clients c).up = !(callbacks (s.clients c) op).isEmpty

theorem agree_init : Agree State.init := by intro c op; simp [State.init, after, callbacks]

/-- callbacks of an operation in a table -/
def cb (l : List (Op × Nat)) (op : Op) : List Nat := (l.filter fun r => r.1 == op).map (·.2)

theorem callbacks_cb {cl : Client} {op : Op} : callbacks cl op = cb cl.regs op := rfl

theorem cb_snoc {l : List (Op × Nat)} {op op' : Op} {k : Nat} : cb (l ++ [(op', k)]) op = cb l op ++ if op' = op then [k] else [] := by
  simp only [cb, List.filter_append, List.map_append]
  congr 1
  by_cases h : op' = op <;> simp [h]

theorem cb_erase {l : List (Op × Nat)} {op op' : Op} {k : Nat} (h : op' ≠ op) : cb (l.erase (op', k)) op = cb l op := by
  have : (l.erase (op', k)).filter (fun r => r.1 == op) = l.filter (fun r => r.1 == op) := by
    induction l with
    | nil => rfl
    | cons r l ih =>
      rw [List.erase_cons]
      split
      · rename_i he
        have : r = (op', k) := by simpa using he
        subst this
        rw [List.filter_cons_of_neg (by simpa using h)]
      · by_cases hr : r.1 = op <;> simp [hr, ih]
  simp only [cb, this]

theorem cb_filter {l : List (Op × Nat)} {op op' : Op} : cb (l.filter fun r => r.1 != op') op = if op' = op then [] else cb l op := by
  simp only [cb, List.filter_filter]
  split
  · rename_i h; subst h
    have : (l.filter fun r => r.1 == op' && r.1 != op') = [] := by
      apply List.filter_eq_nil_iff.2; intro r _; simp
    rw [this]; rfl
  · rename_i h
    congr 1
    apply List.filter_congr
    intro r _
    by_cases hr : r.1 = op
    · simp [hr, Ne.symm h]
    · simp [hr]

theorem after_snoc {op : Op} {b : Bool} {u : List Up} {m : Up} : after op b (u ++ [m]) = talk op (after op b u) m := by simp [after]
theorem after_cons {op : Op} {b : Bool} {u : List Up} {m : Up} : after op b (m :: u) = after op (talk op b m) u := by simp [after]

theorem agree_move {s s' : State} (hg : Agree s) (hm : Move s s') : Agree s' := by
  intro c op
  have h := hg c op
  simp only [callbacks_cb] at h ⊢
  cases hm
  case set n v _ => simp only [broadcast]; split <;> exact h
  case signal n v => simp only [broadcast]; split <;> exact h
  case regFirst c' op' hc =>
    by_cases hk : c = c'
    · subst hk
      simp only [upd_self, after_snoc, h]
      rw [cb_snoc]
      simp only [talk]
      split <;> simp
    · simpa only [upd_other hk] using h
  case regMore c' op' hc =>
    by_cases hk : c = c'
    · subst hk
      simp only [upd_self, h]
      rw [cb_snoc]
      by_cases ho : op' = op
      · subst ho; simp only [callbacks_cb] at hc; rw [List.isEmpty_eq_false_iff.2 hc, if_pos rfl, List.isEmpty_eq_false_iff.2 (List.append_ne_nil_of_right_ne_nil _ (by simp))]
      · simp [ho]
    · simpa only [upd_other hk] using h
  case unregLast c' op' k' hc =>
    by_cases hk : c = c'
    · subst hk
      simp only [upd_self, after_snoc, h, talk]
      by_cases ho : op' = op
      · subst ho
        simp only [callbacks_cb] at hc
        rw [if_pos rfl, hc]; simp
      · rw [if_neg ho, cb_erase ho]
    · simpa only [upd_other hk] using h
  case unregSome c' op' k' hc =>
    by_cases hk : c = c'
    · subst hk
      simp only [upd_self, h]
      by_cases ho : op' = op
      · subst ho
        have h1 : cb (s.clients c).regs op' ≠ [] := by
          intro h0
          apply hc
          apply List.eq_nil_iff_forall_not_mem.2
          intro k hk
          have := List.mem_of_mem_erase (mem_callbacks.1 hk)
          have : k ∈ cb (s.clients c).regs op' := mem_callbacks.2 this
          rw [h0] at this; cases this
        simp only [callbacks_cb] at hc
        rw [List.isEmpty_eq_false_iff.2 h1, List.isEmpty_eq_false_iff.2 hc]
      · rw [cb_erase ho]
    · simpa only [upd_other hk] using h
  case unregAll c' op' =>
    by_cases hk : c = c'
    · subst hk
      simp only [upd_self, after_snoc, h, talk]
      rw [cb_filter]
      by_cases ho : op' = op
      · subst ho; simp
      · simp [ho]
    · simpa only [upd_other hk] using h
  case asked c' n hc =>
    by_cases hk : c = c'
    · subst hk
      simp only [upd_self, after_snoc, talk]
      exact h
    · simpa only [upd_other hk] using h
  case srvReg c' op' rest hu =>
    by_cases hk : c = c'
    · subst hk
      simp only [upd_self]
      rw [hu, after_cons] at h
      rw [← h]
      congr 1
      simp only [talk]
      by_cases ho : op' = op
      · subst ho; rw [if_pos rfl]; split
        · rename_i h; simp [h]
        · simp
      · rw [if_neg ho]
        split
        · rfl
        · have : ¬ op = op' := fun h => ho h.symm
          simp [this]
    · simp only [upd_other hk]
      rw [← h]; congr 1
      split
      · rfl
      · simp [hk]
  case srvUnreg c' op' rest hu =>
    by_cases hk : c = c'
    · subst hk
      simp only [upd_self]
      rw [hu, after_cons] at h
      rw [← h]
      congr 1
      simp only [talk]
      by_cases ho : op' = op
      · subst ho; simp
      · have : ¬ op = op' := fun h => ho h.symm
        simp [ho, this]
    · simp only [upd_other hk]
      rw [← h]; congr 1
      simp [hk]
  case srvGet c' op' id rest hu =>
    by_cases hk : c = c'
    · subst hk
      simp only [upd_self]
      rw [hu, after_cons] at h
      exact h
    · simpa only [upd_other hk] using h
  all_goals first
    | exact h
    | (simp only [upd]
       split
       · rename_i hk; subst hk; exact h
       · exact h)

def newsOf (op : Op) : Down → Option Val
  | .news o x => if o = op then some x else none
  | .got _ _ _ => none

/-- The last value of the operation on its way to the client. -/
def lastNews (d : List Down) (op : Op) : Option Val := (d.filterMap (newsOf op)).getLast?

theorem lastNews_snoc {d : List Down} {m : Down} {op : Op} : lastNews (d ++ [m]) op = (newsOf op m).or (lastNews d op) := by
  unfold lastNews
  rw [List.filterMap_append]
  cases h : newsOf op m <;> simp [h]

theorem lastNews_cons {d : List Down} {m : Down} {op : Op} : lastNews (m :: d) op = (lastNews d op).or (newsOf op m) := by
  unfold lastNews
  cases h : newsOf op m with
  | none => rw [List.filterMap_cons_none h]; cases (List.filterMap (newsOf op) d).getLast? <;> rfl
  | some x =>
    rw [List.filterMap_cons_some h, List.getLast?_cons]
    cases (List.filterMap (newsOf op) d).getLast? <;> rfl

/-- The last value of the operation that is on its way, being stored or stored is `x`. -/
def Cur (cl : Client) (op : Op) (x : Val) : Prop :=
  lastNews cl.down op = some x ∨ (lastNews cl.down op = none ∧ (cl.storing = some (op, x) ∨ ((∀ y, cl.storing ≠ some (op, y)) ∧ cl.cache op = some x)))

/-- A registered client has the current value, or it is on its way. -/
def Curr (s : State) : Prop := ∀ (c : Nat) (op : Op) (x : Val), (c, op) ∈ s.regs → Settled op (s.clients c).up → s.props op = some x → Cur (s.clients c) op x

theorem curr_init : Curr State.init := by intro c op x h; simp [State.init] at h

theorem settled_snoc {op : Op} {u : List Up} {m : Up} (h : Settled op (u ++ [m])) : Settled op u ∧ m ≠ .reg op ∧ m ≠ .unreg op := by
  simp only [Settled, List.mem_append, List.mem_singleton, not_or] at h ⊢
  exact ⟨⟨h.1.1, h.2.1⟩, fun he => h.1.2 he.symm, fun he => h.2.2 he.symm⟩

theorem settled_cons {op : Op} {u : List Up} {m : Up} (h : Settled op u) (h1 : m ≠ .reg op) (h2 : m ≠ .unreg op) : Settled op (m :: u) := by
  simp only [Settled, List.mem_cons, not_or]
  exact ⟨⟨fun h => h1 h.symm, h.1⟩, fun h => h2 h.symm, h.2⟩

theorem cur_append {cl : Client} {op : Op} {x : Val} {m : Down} (hn : newsOf op m = none) (h : Cur cl op x) : Cur { cl with down := cl.down ++ [m] } op x := by
  simpa only [Cur, lastNews_snoc, hn, Option.none_or] using h

theorem curr_move {s s' : State} (hb : Base s) (hg : Agree s) (hc : Curr s) (hm : Move s s') : Curr s' := by
  intro c op x hr hs hp
  cases hm
  case set n v _ =>
    simp only at hr
    simp only [put] at hp
    simp only [broadcast] at hs ⊢
    split at hp
    · rename_i ho; cases hp; subst ho
      rw [if_pos hr]
      exact .inl (by simp [lastNews_snoc, newsOf])
    · rename_i ho
      split
      · rename_i hr'
        rw [if_pos hr'] at hs
        have : newsOf op (.news (.status n) ⟨s.clock, v⟩) = none := by simp [newsOf, Ne.symm ho]
        exact cur_append this (hc c op x hr hs hp)
      · rename_i hr'
        rw [if_neg hr'] at hs
        exact hc c op x hr hs hp
  case removed n =>
    simp only [put] at hp
    split at hp
    · cases hp
    · exact hc c op x hr hs hp
  case signal n v =>
    simp only at hr hp
    simp only [broadcast] at hs ⊢
    have ho : op ≠ .signal n := by rintro rfl; rw [hb.only] at hp; cases hp
    split
    · rename_i hr'
      rw [if_pos hr'] at hs
      have : newsOf op (.news (.signal n) ⟨s.clock, v⟩) = none := by simp [newsOf, Ne.symm ho]
      exact cur_append this (hc c op x hr hs hp)
    · rename_i hr'
      rw [if_neg hr'] at hs
      exact hc c op x hr hs hp
  case regFirst c' op' hcb =>
    by_cases hk : c = c'
    · subst hk; simp only [upd_self] at hs ⊢
      exact hc c op x hr (settled_snoc hs).1 hp
    · simp only [upd_other hk] at hs ⊢; exact hc c op x hr hs hp
  case regMore c' op' hcb =>
    by_cases hk : c = c'
    · subst hk; simp only [upd_self] at hs ⊢
      exact hc c op x hr hs hp
    · simp only [upd_other hk] at hs ⊢; exact hc c op x hr hs hp
  case unregLast c' op' k' hcb =>
    by_cases hk : c = c'
    · subst hk; simp only [upd_self] at hs ⊢
      have ⟨h1, _, h2⟩ := settled_snoc hs
      have ho : op ≠ op' := fun h => h2 (by rw [h])
      have := hc c op x hr h1 hp
      simpa only [Cur, put, if_neg ho] using this
    · simp only [upd_other hk] at hs ⊢; exact hc c op x hr hs hp
  case unregSome c' op' k' hcb =>
    by_cases hk : c = c'
    · subst hk; simp only [upd_self] at hs ⊢
      exact hc c op x hr hs hp
    · simp only [upd_other hk] at hs ⊢; exact hc c op x hr hs hp
  case unregAll c' op' =>
    by_cases hk : c = c'
    · subst hk; simp only [upd_self] at hs ⊢
      have ⟨h1, _, h2⟩ := settled_snoc hs
      have ho : op ≠ op' := fun h => h2 (by rw [h])
      have := hc c op x hr h1 hp
      simpa only [Cur, put, if_neg ho] using this
    · simp only [upd_other hk] at hs ⊢; exact hc c op x hr hs hp
  case asked c' n hcb =>
    by_cases hk : c = c'
    · subst hk; simp only [upd_self] at hs ⊢
      exact hc c op x hr (settled_snoc hs).1 hp
    · simp only [upd_other hk] at hs ⊢; exact hc c op x hr hs hp
  case srvReg c' op' rest hu =>
    by_cases hk : c = c'
    · subst hk; simp only [upd_self] at hs ⊢
      by_cases ho : op' = op
      · subst ho
        rcases latest_eq (s := s) (op := op') with h | ⟨n, y, rfl, h1, h⟩
        · exfalso
          cases op' with
          | signal n => simp only [hb.only] at hp; cases hp
          | status n => simp only [latest] at h; simp only at hp; rw [hp] at h; cases h
        · simp only at hp
          rw [hp] at h1; cases h1
          rw [h]
          exact .inl (by simp [lastNews_snoc, newsOf])
      · have hr' : (c, op) ∈ s.regs := by
          simp only at hr; split at hr
          · exact hr
          · rcases List.mem_cons.1 hr with h | h
            · cases h; exact absurd rfl ho
            · exact h
        have := hc c op x hr' (by rw [hu]; exact settled_cons hs (by simpa using ho) (by simp)) hp
        rcases latest_eq (s := s) (op := op') with h | ⟨n, y, rfl, h1, h⟩
        · rw [h, List.append_nil]; exact this
        · rw [h]; exact cur_append (by simp [newsOf, ho]) this
    · simp only [upd_other hk] at hs ⊢
      refine hc c op x ?_ hs hp
      simp only at hr; split at hr
      · exact hr
      · rcases List.mem_cons.1 hr with h | h
        · cases h; exact absurd rfl hk
        · exact h
  case srvUnreg c' op' rest hu =>
    have ⟨hr1, hr2⟩ := List.mem_filter.1 hr
    by_cases hk : c = c'
    · subst hk; simp only [upd_self] at hs ⊢
      have ho : op ≠ op' := by rintro rfl; simp at hr2
      exact hc c op x hr1 (by rw [hu]; exact settled_cons hs (by simp) (by simpa using Ne.symm ho)) hp
    · simp only [upd_other hk] at hs ⊢; exact hc c op x hr1 hs hp
  case srvGet c' op' id rest hu =>
    by_cases hk : c = c'
    · subst hk; simp only [upd_self] at hs ⊢
      exact cur_append (by rfl) (hc c op x hr (by rw [hu]; exact settled_cons hs (by simp) (by simp)) hp)
    · simp only [upd_other hk] at hs ⊢; exact hc c op x hr hs hp
  case news c' op' y rest hst hd =>
    by_cases hk : c = c'
    · subst hk; simp only [upd_self] at hs ⊢
      have h := hc c op x hr hs hp
      have hcb : callbacks (s.clients c) op ≠ [] := by
        have := hg c op
        rw [after_settled hs] at this
        simpa [show (c, op) ∈ s.regs from hr] using this
      simp only [Cur, hd, lastNews_cons] at h
      by_cases ho : op' = op
      · subst ho
        rw [show newsOf op' (.news op' y) = some y by simp [newsOf]] at h
        rcases h with h | ⟨h, -⟩
        · cases hl : lastNews rest op' with
          | some z => rw [hl] at h; simp at h; subst h; exact .inl hl
          | none =>
            rw [hl] at h; simp at h; subst h
            refine .inr ⟨hl, .inl ?_⟩
            cases op' with
            | signal n => simp only [hb.only] at hp; cases hp
            | status n => simp [toStore, hcb]
        · cases hl : lastNews rest op' <;> rw [hl] at h <;> cases h
      · simp only [newsOf, if_neg ho, Option.or_none] at h
        rcases h with h | ⟨h, h' | ⟨-, h'⟩⟩
        · exact .inl h
        · rw [hst] at h'; cases h'
        · refine .inr ⟨h, .inr ⟨fun z => ?_, h'⟩⟩
          cases op' with
          | signal n => simp [toStore]
          | status n =>
            simp only [toStore]; split
            · simp
            · intro he; cases he; exact ho rfl
    · simp only [upd_other hk] at hs ⊢; exact hc c op x hr hs hp
  case got c' op' id y rest hst hd ha =>
    by_cases hk : c = c'
    · subst hk; simp only [upd_self] at hs ⊢
      have h := hc c op x hr hs hp
      simpa only [Cur, hd, lastNews_cons, newsOf, Option.or_none] using h
    · simp only [upd_other hk] at hs ⊢; exact hc c op x hr hs hp
  case late c' op' id y rest hst hd ha =>
    by_cases hk : c = c'
    · subst hk; simp only [upd_self] at hs ⊢
      have h := hc c op x hr hs hp
      simpa only [Cur, hd, lastNews_cons, newsOf, Option.or_none] using h
    · simp only [upd_other hk] at hs ⊢; exact hc c op x hr hs hp
  case store c' op' y hst =>
    by_cases hk : c = c'
    · subst hk; simp only [upd_self] at hs ⊢
      have h := hc c op x hr hs hp
      rcases h with h | ⟨h, h' | ⟨h1, h'⟩⟩
      · exact .inl h
      · rw [hst] at h'; cases h'
        exact .inr ⟨h, .inr ⟨by simp, by simp [put]⟩⟩
      · refine .inr ⟨h, .inr ⟨by simp, ?_⟩⟩
        have ho : op ≠ op' := by rintro rfl; exact h1 y hst
        simpa only [put, if_neg ho] using h'
    · simp only [upd_other hk] at hs ⊢; exact hc c op x hr hs hp
  all_goals exact hc c op x hr hs hp


/-! ### What a callback was told last -/

def toldTo (c : Nat) (op : Op) (k : Nat) : Ev → Option Val
  | .told c' op' k' x => if c' = c ∧ op' = op ∧ k' = k then some x else none
  | _ => none

/-- What callback `k` of client `c` was called with last. -/
def lastTold (log : List Ev) (c : Nat) (op : Op) (k : Nat) : Option Val := (log.filterMap (toldTo c op k)).getLast?

theorem lastTold_append {l es : List Ev} {c : Nat} {op : Op} {k : Nat} : lastTold (l ++ es) c op k = (lastTold es c op k).or (lastTold l c op k) := by
  unfold lastTold
  rw [List.filterMap_append, List.getLast?_append]

theorem lastTold_none {es : List Ev} {c : Nat} {op : Op} {k : Nat} (h : ∀ x, .told c op k x ∉ es) : lastTold es c op k = none := by
  have : es.filterMap (toldTo c op k) = [] := by
    apply List.filterMap_eq_nil_iff.2
    intro e he
    cases e <;> simp only [toldTo]
    rename_i c' op' k' x
    split
    · rename_i hc; obtain ⟨rfl, rfl, rfl⟩ := hc; exact absurd he (h x)
    · rfl
  unfold lastTold; rw [this]; rfl

theorem lastTold_some {es : List Ev} {c : Nat} {op : Op} {k : Nat} {x : Val} (h1 : .told c op k x ∈ es) (h2 : ∀ y, .told c op k y ∈ es → y = x) : lastTold es c op k = some x := by
  unfold lastTold
  have hm : x ∈ es.filterMap (toldTo c op k) := List.mem_filterMap.2 ⟨_, h1, by simp [toldTo]⟩
  have ha : ∀ y ∈ es.filterMap (toldTo c op k), y = x := by
    intro y hy
    obtain ⟨e, he, ht⟩ := List.mem_filterMap.1 hy
    cases e <;> simp only [toldTo] at ht
    case told c' op' k' z =>
      split at ht
      · rename_i hc; obtain ⟨rfl, rfl, rfl⟩ := hc; cases ht; exact h2 _ he
      · cases ht
    all_goals cases ht
  cases hl : (es.filterMap (toldTo c op k)).getLast? with
  | none => rw [List.getLast?_eq_none_iff] at hl; rw [hl] at hm; cases hm
  | some y => rw [ha y (List.mem_of_getLast? hl)]

/-- All callbacks of a registered client were told the current value last, unless it is on its way. -/
def Told (s : State) : Prop := ∀ (c : Nat) (op : Op) (x : Val) (k : Nat), (c, op) ∈ s.regs → Settled op (s.clients c).up → s.props op = some x →
  (op, k) ∈ (s.clients c).regs → lastNews (s.clients c).down op = none → lastTold s.log c op k = some x

theorem told_init : Told State.init := by intro c op x k h; simp [State.init] at h

theorem keepTold {s : State} {es : List Ev} {c : Nat} {op : Op} {k : Nat} {x : Val} (h : lastTold s.log c op k = some x) (hn : ∀ x, .told c op k x ∉ es) : lastTold (s.log ++ es) c op k = some x := by
  rw [lastTold_append, lastTold_none hn]; exact h

theorem broadcast_up {s : State} {op : Op} {x : Val} {c : Nat} : (broadcast s op x c).up = (s.clients c).up := by unfold broadcast; split <;> rfl
theorem broadcast_regs {s : State} {op : Op} {x : Val} {c : Nat} : (broadcast s op x c).regs = (s.clients c).regs := by unfold broadcast; split <;> rfl
theorem broadcast_other {s : State} {op op' : Op} {x : Val} {c : Nat} (h : op' ≠ op) : lastNews (broadcast s op x c).down op' = lastNews (s.clients c).down op' := by
  unfold broadcast; split
  · simp [lastNews_snoc, newsOf, Ne.symm h]
  · rfl
theorem broadcast_self {s : State} {op : Op} {x : Val} {c : Nat} (h : (c, op) ∈ s.regs) : lastNews (broadcast s op x c).down op = some x := by
  unfold broadcast; rw [if_pos h]; simp [lastNews_snoc, newsOf]

theorem told_move {s s' : State} (hb : Base s) (hr : Regs s) (hc : Curr s) (ht : Told s) (hm : Move s s')
    (calm : ∀ c op, (op, (s.clients c).next) ∈ (s'.clients c).regs → ∀ y, (s.clients c).storing ≠ some (op, y)) : Told s' := by
  intro c op x k hr' hs hp hk hl
  cases hm
  case set n v _ =>
    simp only [broadcast_up, broadcast_regs] at hs hk hr'
    simp only [put] at hp
    split at hp
    · rename_i ho; subst ho; rw [broadcast_self hr'] at hl; cases hl
    · rename_i ho
      rw [broadcast_other ho] at hl
      exact keepTold (ht c op x k hr' hs hp hk hl) (by simp)
  case removed n =>
    simp only [put] at hp
    split at hp
    · cases hp
    · exact keepTold (ht c op x k hr' hs hp hk hl) (by simp)
  case signal n v =>
    simp only at hr' hp
    simp only [broadcast_up, broadcast_regs] at hs hk
    have ho : op ≠ .signal n := by rintro rfl; rw [hb.only] at hp; cases hp
    rw [broadcast_other ho] at hl
    exact keepTold (ht c op x k hr' hs hp hk hl) (by simp)
  case regFirst c' op' hcb =>
    by_cases hc' : c = c'
    · subst hc'; simp only [upd_self] at hs hk hl
      obtain ⟨h1, h2, -⟩ := settled_snoc hs
      rcases List.mem_append.1 hk with hk | hk
      · exact keepTold (ht c op x k hr' h1 hp hk hl) (by simp)
      · simp only [List.mem_singleton] at hk; cases hk; exact absurd rfl h2
    · simp only [upd_other hc'] at hs hk hl
      exact keepTold (ht c op x k hr' hs hp hk hl) (by simp)
  case regMore c' op' hcb =>
    by_cases hc' : c = c'
    · subst hc'; simp only [upd_self] at hs hk hl
      rcases List.mem_append.1 hk with hk1 | hk
      · refine keepTold (ht c op x k hr' hs hp hk1 hl) (fun y hy => ?_)
        simp only [List.mem_cons, mem_greet] at hy
        rcases hy with hy | ⟨_, _, _, _, hy⟩
        · cases hy
        · cases hy; exact absurd (hr.lt _ _ _ hk1) (Nat.lt_irrefl _)
      · simp only [List.mem_singleton] at hk; cases hk
        have hcalm := calm c op (by simp [upd_self])
        rcases hc c op x hr' hs hp with h | ⟨-, h | ⟨-, h⟩⟩
        · rw [hl] at h; cases h
        · exact absurd h (hcalm x)
        · rw [lastTold_append, lastTold_some (x := x)]
          · rfl
          · refine List.mem_cons_of_mem _ (mem_greet.2 ?_)
            cases op with
            | signal n => simp only [hb.only] at hp; cases hp
            | status n => exact ⟨n, x, rfl, h, rfl⟩
          · intro y hy
            simp only [List.mem_cons, mem_greet] at hy
            rcases hy with hy | ⟨_, z, _, h', hy⟩
            · cases hy
            · cases hy; rw [h] at h'; cases h'; rfl
    · simp only [upd_other hc'] at hs hk hl
      refine keepTold (ht c op x k hr' hs hp hk hl) (fun y hy => ?_)
      simp only [List.mem_cons, mem_greet] at hy
      rcases hy with hy | ⟨_, _, _, _, hy⟩
      · cases hy
      · cases hy; exact hc' rfl
  case unregLast c' op' k' hcb =>
    by_cases hc' : c = c'
    · subst hc'; simp only [upd_self] at hs hk hl
      exact keepTold (ht c op x k hr' (settled_snoc hs).1 hp (List.mem_of_mem_erase hk) hl) (fun y hy => by have := unregEv_only hy; cases this)
    · simp only [upd_other hc'] at hs hk hl
      exact keepTold (ht c op x k hr' hs hp hk hl) (fun y hy => by have := unregEv_only hy; cases this)
  case unregSome c' op' k' hcb =>
    by_cases hc' : c = c'
    · subst hc'; simp only [upd_self] at hs hk hl
      exact keepTold (ht c op x k hr' hs hp (List.mem_of_mem_erase hk) hl) (fun y hy => by have := unregEv_only hy; cases this)
    · simp only [upd_other hc'] at hs hk hl
      exact keepTold (ht c op x k hr' hs hp hk hl) (fun y hy => by have := unregEv_only hy; cases this)
  case unregAll c' op' =>
    by_cases hc' : c = c'
    · subst hc'; simp only [upd_self] at hs hk hl
      exact keepTold (ht c op x k hr' (settled_snoc hs).1 hp (List.mem_filter.1 hk).1 hl) (by simp)
    · simp only [upd_other hc'] at hs hk hl
      exact keepTold (ht c op x k hr' hs hp hk hl) (by simp)
  case asked c' n hcb =>
    by_cases hc' : c = c'
    · subst hc'; simp only [upd_self] at hs hk hl
      exact keepTold (ht c op x k hr' (settled_snoc hs).1 hp hk hl) (by simp)
    · simp only [upd_other hc'] at hs hk hl
      exact keepTold (ht c op x k hr' hs hp hk hl) (by simp)
  case srvReg c' op' rest hu =>
    by_cases hc' : c = c'
    · subst hc'; simp only [upd_self] at hs hk hl
      by_cases ho : op' = op
      · subst ho
        exfalso
        cases op' with
        | signal n => simp only [hb.only] at hp; cases hp
        | status n => simp only [latest, show s.props (.status n) = some x from hp, Option.map_some, Option.toList_some, lastNews_snoc, newsOf] at hl; simp at hl
      · have hr'' : (c, op) ∈ s.regs := by
          simp only at hr'; split at hr'
          · exact hr'
          · rcases List.mem_cons.1 hr' with h | h
            · cases h; exact absurd rfl ho
            · exact h
        refine ht c op x k hr'' (by rw [hu]; exact settled_cons hs (by simpa using ho) (by simp)) hp hk ?_
        rcases latest_eq (s := s) (op := op') with h | ⟨n, y, rfl, h1, h⟩
        · rw [h, List.append_nil] at hl; exact hl
        · rw [h, lastNews_snoc, show newsOf op (.news (.status n) y) = none by simp [newsOf, ho]] at hl; exact hl
    · simp only [upd_other hc'] at hs hk hl
      refine ht c op x k ?_ hs hp hk hl
      simp only at hr'; split at hr'
      · exact hr'
      · rcases List.mem_cons.1 hr' with h | h
        · cases h; exact absurd rfl hc'
        · exact h
  case srvUnreg c' op' rest hu =>
    have ⟨hr1, hr2⟩ := List.mem_filter.1 hr'
    by_cases hc' : c = c'
    · subst hc'; simp only [upd_self] at hs hk hl
      have ho : op ≠ op' := by rintro rfl; simp at hr2
      exact ht c op x k hr1 (by rw [hu]; exact settled_cons hs (by simp) (by simpa using Ne.symm ho)) hp hk hl
    · simp only [upd_other hc'] at hs hk hl
      exact ht c op x k hr1 hs hp hk hl
  case srvGet c' op' id rest hu =>
    by_cases hc' : c = c'
    · subst hc'; simp only [upd_self] at hs hk hl
      rw [lastNews_snoc] at hl
      exact ht c op x k hr' (by rw [hu]; exact settled_cons hs (by simp) (by simp)) hp hk hl
    · simp only [upd_other hc'] at hs hk hl
      exact ht c op x k hr' hs hp hk hl
  case news c' op' y rest hst hd =>
    by_cases hc' : c = c'
    · subst hc'; simp only [upd_self] at hs hk hl
      by_cases ho : op' = op
      · subst ho
        have h := hc c op' x hr' hs hp
        simp only [Cur, hd, lastNews_cons, hl] at h
        rw [show newsOf op' (.news op' y) = some y by simp [newsOf]] at h
        have : y = x := by
          rcases h with h | ⟨h, -⟩
          · simpa using h
          · cases h
        subst this
        rw [lastTold_append, lastTold_some (x := y)]
        · rfl
        · exact List.mem_map.2 ⟨k, mem_callbacks.2 hk, rfl⟩
        · intro z hz
          obtain ⟨_, _, he⟩ := List.mem_map.1 hz
          cases he; rfl
      · refine keepTold (ht c op x k hr' hs hp hk ?_) (fun z hz => ?_)
        · rw [hd, lastNews_cons, hl]; simp [newsOf, ho]
        · obtain ⟨_, _, he⟩ := List.mem_map.1 hz
          cases he; exact ho rfl
    · simp only [upd_other hc'] at hs hk hl
      refine keepTold (ht c op x k hr' hs hp hk hl) (fun z hz => ?_)
      obtain ⟨_, _, he⟩ := List.mem_map.1 hz
      cases he; exact hc' rfl
  case got c' op' id y rest hst hd ha =>
    by_cases hc' : c = c'
    · subst hc'; simp only [upd_self] at hs hk hl
      exact keepTold (ht c op x k hr' hs hp hk (by rw [hd, lastNews_cons, hl]; rfl)) (by simp)
    · simp only [upd_other hc'] at hs hk hl
      exact keepTold (ht c op x k hr' hs hp hk hl) (by simp)
  case late c' op' id y rest hst hd ha =>
    by_cases hc' : c = c'
    · subst hc'; simp only [upd_self] at hs hk hl
      exact ht c op x k hr' hs hp hk (by rw [hd, lastNews_cons, hl]; rfl)
    · simp only [upd_other hc'] at hs hk hl
      exact ht c op x k hr' hs hp hk hl
  case store c' op' y hst =>
    by_cases hc' : c = c'
    · subst hc'; simp only [upd_self] at hs hk hl
      exact ht c op x k hr' hs hp hk hl
    · simp only [upd_other hc'] at hs hk hl
      exact ht c op x k hr' hs hp hk hl
  all_goals exact keepTold (ht c op x k hr' hs hp hk hl) (by simp)

/-- Only `register` adds a registration. -/
theorem adds {s s' : State} {a : Act} (hr : Regs s) (h : step s a = some s') {c : Nat} {op : Op} (hn : (op, (s.clients c).next) ∈ (s'.clients c).regs) : a = .register c op := by
  have no : (op, (s.clients c).next) ∉ (s.clients c).regs := fun h => Nat.lt_irrefl _ (hr.lt _ _ _ h)
  cases a with
  | register c' op' =>
    simp only [step, register, Option.some.injEq] at h
    split at h <;> subst h <;> (
      simp only [upd] at hn
      split at hn
      · rename_i hc; subst hc
        rcases List.mem_append.1 hn with hn | hn
        · exact absurd hn no
        · simp only [List.mem_singleton] at hn; cases hn; rfl
      · exact absurd hn no)
  | setStatus n v =>
    simp only [step, setStatus, Option.some.injEq] at h
    split at h <;> subst h
    · exact absurd hn no
    · simp only [broadcast] at hn; split at hn <;> exact absurd hn no
  | removeProperty n => simp only [step, removeProperty, Option.some.injEq] at h; subst h; exact absurd hn no
  | signal n v =>
    simp only [step, News.signal, Option.some.injEq] at h; subst h
    simp only [broadcast] at hn; split at hn <;> exact absurd hn no
  | unregister c' op' k =>
    simp only [step, unregister, Option.some.injEq] at h
    split at h <;> subst h <;> (
      simp only [upd] at hn
      split at hn
      · rename_i hc; subst hc; exact absurd (List.mem_of_mem_erase hn) no
      · exact absurd hn no)
  | unregisterAll c' op' =>
    simp only [step, unregisterAll, Option.some.injEq] at h; subst h
    simp only [upd] at hn
    split at hn
    · rename_i hc; subst hc; exact absurd (List.mem_filter.1 hn).1 no
    · exact absurd hn no
  | getStatus c' n =>
    simp only [step, getStatus, Option.some.injEq] at h
    split at h <;> subst h
    · simp only [upd] at hn
      split at hn
      · rename_i hc; subst hc; exact absurd hn no
      · exact absurd hn no
    · exact absurd hn no
  | serverGets c' =>
    simp only [step] at h
    split at h
    · cases h
    · rename_i m rest hu
      simp only [serverGets, Option.some.injEq] at h
      cases m <;> subst h <;> simp only [upd] at hn <;> split at hn <;> first
        | exact absurd hn no
        | (rename_i hc; subst hc; exact absurd hn no)
  | clientGets c' =>
    simp only [step] at h
    split at h
    · rename_i m rest hst hd
      simp only [clientGets, Option.some.injEq] at h
      cases m with
      | news op' x =>
        subst h; simp only [upd] at hn; split at hn
        · rename_i hc; subst hc; exact absurd hn no
        · exact absurd hn no
      | got op' id x =>
        simp only at h
        split at h <;> subst h <;> simp only [upd] at hn <;> split at hn <;> first
          | exact absurd hn no
          | (rename_i hc; subst hc; exact absurd hn no)
    · cases h
  | store c' =>
    simp only [step] at h
    split at h
    · cases h
    · simp only [News.store, Option.some.injEq] at h
      subst h; simp only [upd] at hn; split at hn
      · rename_i hc; subst hc; exact absurd hn no
      · exact absurd hn no

end Maf.News
