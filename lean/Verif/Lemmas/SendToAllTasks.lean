import Verif.Lemmas.SendToAll
namespace Maf.Bcast

def stOf (s : State) (k : Nat) : Option St := (s.tasks k).map Task.st

theorem stOf_set (s : State) (k : Nat) (x : St) (k' : Nat) : ((setSt s k x) k').map Task.st = if k' = k then (if stOf s k = none then none else some x) else stOf s k' := by
  unfold setSt upd stOf
  split
  · next e => subst e; cases s.tasks k' <;> simp
  · rfl

theorem stOf_new (s : State) (k : Nat) (a : Task) (k' : Nat) : (upd s.tasks k (some a) k').map Task.st = if k' = k then some a.st else stOf s k' := by
  unfold upd stOf
  split <;> rfl

/-- No task's function is twice on the stack. -/
def Uniq : List Frame → Prop
  | [] => True
  | .run k :: l => Frame.run k ∉ l ∧ Uniq l
  | _ :: l => Uniq l

/-- The tasks' states tell what has happened. -/
structure TskF (st : Nat → Option St) (stk : Tid → List Frame) (log : List Ev) : Prop where
  began : ∀ t k q m, Ev.began t k q m ∈ log → st k ≠ none ∧ st k ≠ some .queued ∧ st k ≠ some .broken
  dropped : ∀ k, Ev.dropped k ∈ log → st k = some .broken
  ended : ∀ t k ok, Ev.ended t k ok ∈ log → st k = some (if ok then .done else .threw)
  running : ∀ t k, st k = some (.running t) → ∃ q m, Ev.began t k q m ∈ log
  done : ∀ k, st k = some .done → ∃ t, Ev.ended t k true ∈ log
  threw : ∀ k, st k = some .threw → ∃ t, Ev.ended t k false ∈ log
  broken : ∀ k, st k = some .broken → Ev.dropped k ∈ log
  frame : ∀ t k, Frame.run k ∈ stk t → st k = some (.running t)
  once : ∀ t, Uniq (stk t)

abbrev Tsk (s : State) : Prop := TskF (stOf s) s.stk s.log

theorem tsk_init : Tsk init := by constructor <;> simp [init, stOf, Uniq]

theorem tsk_move {home : Tid → Option Pid} {s s' : State} (hm : Move home s s') (hb : Bnd s) (h : Tsk s) : Tsk s' := by
  have hnew : stOf s s.nextT = none := by
    unfold stOf
    cases e : s.tasks s.nextT with
    | none => rfl
    | some a => exact absurd (hb.tasks _ _ e) (Nat.lt_irrefl _)
  obtain ⟨h1, h2, h3, h4, h5, h6, h7, h8, h9⟩ := h
  cases hm with
  | use t w h =>
    show TskF (stOf s) _ _
    constructor <;> (try simp only [List.mem_append, List.mem_cons, List.not_mem_nil, or_false]) <;> grind [upd, Uniq]
  | start t m rest h hn =>
    show TskF (stOf s) _ _
    constructor <;> (try simp only [List.mem_append, List.mem_cons, List.not_mem_nil, or_false]) <;> grind [upd, Uniq]
  | unlock t w rest h hn =>
    show TskF (stOf s) _ _
    constructor <;> (try simp only [List.mem_append, List.mem_cons, List.not_mem_nil, or_false]) <;> grind [upd, Uniq]
  | join t p rest h hn hp =>
    show TskF (stOf s) _ _
    constructor <;> (try simp only [List.mem_append, List.mem_cons, List.not_mem_nil, or_false]) <;> grind [upd, Uniq]
  | leave t p rest h hn hp =>
    show TskF (stOf s) _ _
    constructor <;> (try simp only [List.mem_append, List.mem_cons, List.not_mem_nil, or_false]) <;> grind [upd, Uniq]
  | skip t b m q qs ks rest h =>
    show TskF (stOf s) _ _
    constructor <;> (try simp only [List.mem_append, List.mem_cons, List.not_mem_nil, or_false]) <;> grind [upd, Uniq]
  | ask t b m q qs ks rest h =>
    show TskF (stOf s) _ _
    constructor <;> (try simp only [List.mem_append, List.mem_cons, List.not_mem_nil, or_false]) <;> grind [upd, Uniq]
  | send t b m ks rest h =>
    show TskF (stOf s) _ _
    constructor <;> (try simp only [List.mem_append, List.mem_cons, List.not_mem_nil, or_false]) <;> grind [upd, Uniq]
  | inline t b m q qs ks rest h hh =>
    show TskF (fun k' => (upd s.tasks s.nextT (some ⟨b, q, m, .running t⟩) k').map Task.st) _ _
    simp only [stOf_new]
    refine ⟨?_, ?_, ?_, fun t' k' hk => ?_, ?_, ?_, ?_, ?_, ?_⟩
    rotate_left 3
    · by_cases e : k' = s.nextT
      · subst e; rw [if_pos rfl] at hk; cases hk; exact ⟨q, m, by simp⟩
      · rw [if_neg e] at hk; obtain ⟨q', m', h'⟩ := h4 t' k' hk; exact ⟨q', m', by simp [h']⟩
    all_goals (try simp only [List.mem_append, List.mem_cons, List.not_mem_nil, or_false]); grind [upd, Uniq]
  | queue t b m q qs ks rest h =>
    show TskF (fun k' => (upd s.tasks s.nextT (some ⟨b, q, m, .queued⟩) k').map Task.st) _ _
    simp only [stOf_new]
    constructor <;> (try simp only [List.mem_append, List.mem_cons, List.not_mem_nil, or_false]) <;> grind [upd, Uniq]
  | refuse t b m q qs ks rest h =>
    show TskF (stOf s) _ _
    constructor <;> (try simp only [List.mem_append, List.mem_cons, List.not_mem_nil, or_false]) <;> grind [upd, Uniq]
  | take t k b q m hu h hh =>
    have hst : stOf s k = some .queued := by unfold stOf; rw [h]; rfl
    show TskF (fun k' => ((setSt s k (.running t)) k').map Task.st) _ _
    simp only [stOf_set]
    refine ⟨?_, ?_, ?_, fun t' k' hk => ?_, ?_, ?_, ?_, ?_, ?_⟩
    rotate_left 3
    · by_cases e : k' = k
      · subst e; rw [if_pos rfl, if_neg (by rw [hst]; simp)] at hk; cases hk; exact ⟨q, m, by simp⟩
      · rw [if_neg e] at hk; obtain ⟨q', m', h'⟩ := h4 t' k' hk; exact ⟨q', m', by simp [h']⟩
    all_goals (try simp only [List.mem_append, List.mem_cons, List.not_mem_nil, or_false]); grind [upd, Uniq]
  | finish t k ok rest h =>
    have hst := h8 t k (by rw [h]; simp)
    have hc := h9 t
    rw [h] at hc
    show TskF (fun k' => ((setSt s k (if ok then .done else .threw)) k').map Task.st) _ _
    simp only [stOf_set]
    refine ⟨?_, ?_, ?_, ?_, fun k' hk => ?_, fun k' hk => ?_, ?_, ?_, ?_⟩
    rotate_left 4
    · by_cases e : k' = k
      · subst e; rw [if_pos rfl, if_neg (by rw [hst]; simp)] at hk; cases ok
        · cases hk
        · exact ⟨t, by simp⟩
      · rw [if_neg e] at hk; obtain ⟨t', h'⟩ := h5 k' hk; exact ⟨t', by simp [h']⟩
    · by_cases e : k' = k
      · subst e; rw [if_pos rfl, if_neg (by rw [hst]; simp)] at hk; cases ok
        · exact ⟨t, by simp⟩
        · cases hk
      · rw [if_neg e] at hk; obtain ⟨t', h'⟩ := h6 k' hk; exact ⟨t', by simp [h']⟩
    all_goals (try simp only [List.mem_append, List.mem_cons, List.not_mem_nil, or_false]); grind [upd, Uniq]
  | drop k b q m h =>
    have hst : stOf s k = some .queued := by unfold stOf; rw [h]; rfl
    show TskF (fun k' => ((setSt s k (.broken)) k').map Task.st) _ _
    simp only [stOf_set]
    constructor <;> (try simp only [List.mem_append, List.mem_cons, List.not_mem_nil, or_false]) <;> grind [upd, Uniq]
  | get t b ks hu h =>
    show TskF (stOf s) _ _
    constructor <;> (try simp only [List.mem_append, List.mem_cons, List.not_mem_nil, or_false]) <;> grind [upd, Uniq]
  | next t b k ks rest a h ha hd =>
    show TskF (stOf s) _ _
    constructor <;> (try simp only [List.mem_append, List.mem_cons, List.not_mem_nil, or_false]) <;> grind [upd, Uniq]
  | fail t b k ks rest a h ha hd =>
    show TskF (stOf s) _ _
    constructor <;> (try simp only [List.mem_append, List.mem_cons, List.not_mem_nil, or_false]) <;> grind [upd, Uniq]
  | ok t b rest h =>
    show TskF (stOf s) _ _
    constructor <;> (try simp only [List.mem_append, List.mem_cons, List.not_mem_nil, or_false]) <;> grind [upd, Uniq]
  | env st hs =>
    show TskF (stOf s) _ _
    constructor <;> (try simp only [List.mem_append, List.mem_cons, List.not_mem_nil, or_false]) <;> grind [upd, Uniq]

end Maf.Bcast
