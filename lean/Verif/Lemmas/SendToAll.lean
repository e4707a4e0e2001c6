import Verif.Lemmas.Hist
import Verif.Spec.SendToAll
namespace Maf.Bcast

/-- The branches of `step`. -/
inductive Move (home : Tid → Option Pid) (s : State) : State → Prop where
  | use (t : Tid) (w : Want) (h : user (s.stk t) = true) : Move home s { s with stk := upd s.stk t (.wants w :: s.stk t) }
  | start (t : Tid) (m : Msg) (rest : List Frame) (h : s.stk t = .wants (.send m) :: rest) (ho : s.owner = none) :
    Move home s { s with owner := some t, nextB := s.nextB + 1, stk := upd s.stk t (.sending s.nextB m s.joined [] :: rest), log := s.log ++ [.opened t s.nextB m s.joined] }
  | unlock (t : Tid) (w : Want) (rest : List Frame) (h : s.stk t = .wants w :: rest) (ho : s.owner = none) : Move home s { s with stk := upd s.stk t rest }
  | join (t : Tid) (p : Pid) (rest : List Frame) (h : s.stk t = .wants (.join p) :: rest) (ho : s.owner = none) (hp : p ∉ s.joined) :
    Move home s { s with joined := insertP p s.joined, stk := upd s.stk t rest, log := s.log ++ [.joined p] }
  | leave (t : Tid) (p : Pid) (rest : List Frame) (h : s.stk t = .wants (.leave p) :: rest) (ho : s.owner = none) (hp : p ∈ s.joined) :
    Move home s { s with joined := s.joined.filter (· != p), stk := upd s.stk t rest, log := s.log ++ [.left p] }
  | skip (t : Tid) (b : Nat) (m : Msg) (q : Pid) (qs : List Pid) (ks : List Nat) (rest : List Frame) (h : s.stk t = .sending b m (q :: qs) ks :: rest) :
    Move home s { s with stk := upd s.stk t (.sending b m qs ks :: rest), log := s.log ++ [.skipped b q] }
  | ask (t : Tid) (b : Nat) (m : Msg) (q : Pid) (qs : List Pid) (ks : List Nat) (rest : List Frame) (h : s.stk t = .sending b m (q :: qs) ks :: rest) :
    Move home s { s with stk := upd s.stk t (.posting b m q qs ks :: rest) }
  | send (t : Tid) (b : Nat) (m : Msg) (ks : List Nat) (rest : List Frame) (h : s.stk t = .sending b m [] ks :: rest) :
    Move home s { s with owner := none, stk := upd s.stk t rest, log := s.log ++ [.sent t b (!ks.isEmpty)], sigs := upd s.sigs b (if ks.isEmpty then none else some ks) }
  | inline (t : Tid) (b : Nat) (m : Msg) (q : Pid) (qs : List Pid) (ks : List Nat) (rest : List Frame) (h : s.stk t = .posting b m q qs ks :: rest) (hh : home t = some q) :
    Move home s { s with
      tasks := upd s.tasks s.nextT (some ⟨b, q, m, .running t⟩), nextT := s.nextT + 1
      stk := upd s.stk t (.run s.nextT :: .sending b m qs (ks ++ [s.nextT]) :: rest), log := s.log ++ [.made b q s.nextT, .began t s.nextT q m] }
  | queue (t : Tid) (b : Nat) (m : Msg) (q : Pid) (qs : List Pid) (ks : List Nat) (rest : List Frame) (h : s.stk t = .posting b m q qs ks :: rest) :
    Move home s { s with
      tasks := upd s.tasks s.nextT (some ⟨b, q, m, .queued⟩), nextT := s.nextT + 1
      stk := upd s.stk t (.sending b m qs (ks ++ [s.nextT]) :: rest), log := s.log ++ [.made b q s.nextT] }
  | refuse (t : Tid) (b : Nat) (m : Msg) (q : Pid) (qs : List Pid) (ks : List Nat) (rest : List Frame) (h : s.stk t = .posting b m q qs ks :: rest) :
    Move home s { s with stk := upd s.stk t (.sending b m qs ks :: rest), log := s.log ++ [.refused b q] }
  | take (t : Tid) (k : Nat) (b : Nat) (q : Pid) (m : Msg) (hu : user (s.stk t) = true) (h : s.tasks k = some ⟨b, q, m, .queued⟩) (hh : home t = some q) :
    Move home s { s with tasks := setSt s k (.running t), stk := upd s.stk t (.run k :: s.stk t), log := s.log ++ [.began t k q m] }
  | finish (t : Tid) (k : Nat) (ok : Bool) (rest : List Frame) (h : s.stk t = .run k :: rest) :
    Move home s { s with tasks := setSt s k (if ok then .done else .threw), stk := upd s.stk t rest, log := s.log ++ [.ended t k ok] }
  | drop (k : Nat) (b : Nat) (q : Pid) (m : Msg) (h : s.tasks k = some ⟨b, q, m, .queued⟩) : Move home s { s with tasks := setSt s k .broken, log := s.log ++ [.dropped k] }
  | get (t : Tid) (b : Nat) (ks : List Nat) (hu : user (s.stk t) = true) (h : s.sigs b = some ks) : Move home s { s with sigs := upd s.sigs b none, stk := upd s.stk t (.get b ks :: s.stk t) }
  | next (t : Tid) (b : Nat) (k : Nat) (ks : List Nat) (rest : List Frame) (a : Task) (h : s.stk t = .get b (k :: ks) :: rest) (ha : s.tasks k = some a) (hd : a.st = .done) :
    Move home s { s with stk := upd s.stk t (.get b ks :: rest) }
  | fail (t : Tid) (b : Nat) (k : Nat) (ks : List Nat) (rest : List Frame) (a : Task) (h : s.stk t = .get b (k :: ks) :: rest) (ha : s.tasks k = some a) (hd : a.st = .threw ∨ a.st = .broken) :
    Move home s { s with stk := upd s.stk t rest, log := s.log ++ [.got t b false] }
  | ok (t : Tid) (b : Nat) (rest : List Frame) (h : s.stk t = .get b [] :: rest) : Move home s { s with stk := upd s.stk t rest, log := s.log ++ [.got t b true] }
  | env (stopped : Pid → Bool) (has : Pid → Msg → H) : Move home s { s with stopped := stopped, has := has }

theorem step_move {home : Tid → Option Pid} {s s' : State} {a : Act} (hs : step home s a = some s') : Move home s s' := by
  cases a with
  | use t w => simp only [step] at hs; split at hs <;> cases hs; next h => exact .use t w h
  | lock t =>
    simp only [step] at hs
    split at hs
    · next w rest h =>
      split at hs
      · next ho =>
        cases hs
        cases w with
        | send m => exact .start t m rest h ho
        | join p =>
          simp only [locked]
          split
          · exact .unlock t _ rest h ho
          · next hp => exact .join t p rest h ho hp
        | leave p =>
          simp only [locked]
          split
          · next hp => exact .leave t p rest h ho hp
          · exact .unlock t _ rest h ho
        | look => exact .unlock t _ rest h ho
      · cases hs
    · cases hs
  | ask t =>
    simp only [step] at hs
    split at hs
    · next b m q qs ks rest h =>
      split at hs <;> cases hs
      · exact .skip t b m q qs ks rest h
      · exact .ask t b m q qs ks rest h
    · next b m ks rest h => cases hs; exact .send t b m ks rest h
    · cases hs
  | post t =>
    simp only [step] at hs
    split at hs
    · next b m q qs ks rest h =>
      split at hs
      · split at hs <;> cases hs
        · next hh => exact .inline t b m q qs ks rest h hh
        · exact .queue t b m q qs ks rest h
      · cases hs; exact .refuse t b m q qs ks rest h
    · cases hs
  | take t k =>
    simp only [step] at hs
    split at hs
    · next hu =>
      split at hs
      · next b q m h =>
        split at hs <;> cases hs
        next hh => exact .take t k b q m hu h hh
      · cases hs
    · cases hs
  | finish t ok =>
    simp only [step] at hs
    split at hs
    · next k rest h => cases hs; exact .finish t k ok rest h
    · cases hs
  | drop k =>
    simp only [step] at hs
    split at hs
    · next b q m h =>
      split at hs <;> cases hs
      exact .drop k b q m h
    · cases hs
  | get t b =>
    simp only [step] at hs
    split at hs
    · next hu =>
      split at hs <;> cases hs
      next ks h => exact .get t b ks hu h
    · cases hs
  | next t =>
    simp only [step] at hs
    split at hs
    · next b k ks rest h =>
      split at hs
      · next hd =>
        cases hs
        simp only [Option.map_eq_some_iff] at hd
        obtain ⟨a, ha, hd⟩ := hd
        exact .next t b k ks rest a h ha hd
      · next hd =>
        cases hs
        simp only [Option.map_eq_some_iff] at hd
        obtain ⟨a, ha, hd⟩ := hd
        exact .fail t b k ks rest a h ha (.inl hd)
      · next hd =>
        cases hs
        simp only [Option.map_eq_some_iff] at hd
        obtain ⟨a, ha, hd⟩ := hd
        exact .fail t b k ks rest a h ha (.inr hd)
      · cases hs
    · next b rest h => cases hs; exact .ok t b rest h
    · cases hs
  | setStopped p b => cases hs; exact .env _ _
  | setHandlers p m h => cases hs; exact .env _ _

theorem asked_append (b : Nat) (l l' : List Ev) : asked b (l ++ l') = asked b l ++ asked b l' := by simp [asked]
theorem tasksOf_append (b : Nat) (l l' : List Ev) : tasksOf b (l ++ l') = tasksOf b l ++ tasksOf b l' := by simp [tasksOf]

def askedE (b : Nat) : Ev → List Pid
  | .skipped b' q | .refused b' q | .made b' q _ => if b' = b then [q] else []
  | _ => []

def tasksE (b : Nat) : Ev → List Nat
  | .made b' _ k => if b' = b then [k] else []
  | _ => []

theorem asked_cons (b : Nat) (e : Ev) (l : List Ev) : asked b (e :: l) = askedE b e ++ asked b l := by
  cases e <;> simp only [asked, askedE, List.filterMap_cons, List.nil_append] <;> split <;> simp_all
theorem tasksOf_cons (b : Nat) (e : Ev) (l : List Ev) : tasksOf b (e :: l) = tasksE b e ++ tasksOf b l := by
  cases e <;> simp only [tasksOf, tasksE, List.filterMap_cons, List.nil_append] <;> split <;> simp_all
theorem asked_nil (b : Nat) : asked b [] = [] := rfl
theorem tasksOf_nil (b : Nat) : tasksOf b [] = [] := rfl

theorem sending_append (l l' : List Ev) : sending (l ++ l') = l'.foldl sendingStep (sending l) := by simp [sending]
theorem members_append (l l' : List Ev) : members (l ++ l') = l'.foldl joinedStep (members l) := by simp [members]

/-- Numbers are new. -/
structure Bnd (s : State) : Prop where
  tasks : ∀ k a, s.tasks k = some a → k < s.nextT
  some : ∀ k, k < s.nextT → s.tasks k ≠ none
  made : ∀ b q k, Ev.made b q k ∈ s.log → k < s.nextT
  opened : ∀ t b m js, Ev.opened t b m js ∈ s.log → b < s.nextB

theorem bnd_init : Bnd init := by constructor <;> simp [init]

theorem setSt_some {s : State} {k k' : Nat} {x : St} {a : Task} (h : setSt s k x k' = some a) : ∃ a', s.tasks k' = some a' ∧ a = if k' = k then { a' with st := x } else a' := by
  unfold setSt upd at h
  split at h
  · next e =>
    subst e
    simp only [Option.map_eq_some_iff] at h
    obtain ⟨a', h1, h2⟩ := h
    exact ⟨a', h1, by rw [if_pos rfl, h2]⟩
  · next e => exact ⟨a, h, by rw [if_neg e]⟩

theorem setSt_none {s : State} {k k' : Nat} {x : St} : setSt s k x k' = none ↔ s.tasks k' = none := by
  unfold setSt upd
  split
  · next e => subst e; simp
  · rfl

theorem setSt_of {s : State} {k k' : Nat} {x : St} {a' : Task} (h : s.tasks k' = some a') : setSt s k x k' = some (if k' = k then { a' with st := x } else a') := by
  unfold setSt upd
  split
  · next e => subst e; simp [h]
  · exact h

theorem bnd_move {home : Tid → Option Pid} {s s' : State} (hm : Move home s s') (h : Bnd s) : Bnd s' := by
  obtain ⟨h1, h2, h3, h4⟩ := h
  cases hm <;> (constructor <;> simp only [List.mem_append, List.mem_cons, List.not_mem_nil, or_false]) <;> grind [upd, setSt_some, setSt_none]

def isSend : Frame → Bool
  | .sending .. | .posting .. => true
  | _ => false

def Asc (l : List Pid) : Prop := l.Pairwise (· < ·)

theorem mem_insertP (p q : Pid) (l : List Pid) : q ∈ insertP p l ↔ q = p ∨ q ∈ l := by
  induction l with
  | nil => simp [insertP]
  | cons x l ih =>
    simp only [insertP]
    split
    · simp
    · simp only [List.mem_cons, ih]; grind

theorem insertP_sorted {p : Pid} {l : List Pid} (h : Asc l) (hp : p ∉ l) : Asc (insertP p l) := by
  unfold Asc at *
  induction l with
  | nil => simp [insertP]
  | cons x l ih =>
    simp only [List.pairwise_cons, List.mem_cons, not_or] at h hp
    simp only [insertP]
    split
    · next hlt =>
      simp only [List.pairwise_cons, List.mem_cons]
      refine ⟨?_, h⟩
      rintro y (rfl | hy)
      · exact hlt
      · exact Nat.lt_trans hlt (h.1 y hy)
    · next hlt =>
      simp only [List.pairwise_cons]
      refine ⟨fun y hy => ?_, ih h.2 hp.2⟩
      rw [mem_insertP] at hy
      have := hp.1
      rcases hy with rfl | hy
      · exact Nat.lt_of_le_of_ne (Nat.le_of_not_lt hlt) (Ne.symm hp.1)
      · exact h.1 y hy

theorem pairwise_leave {l : List Pid} (p : Pid) (h : Asc l) : Asc (l.filter (· != p)) := List.Pairwise.filter _ h

/-- The router's mutex. -/
structure Own (s : State) : Prop where
  one : ∀ t, ((s.stk t).filter isSend).length = if s.owner = some t then 1 else 0
  free : sending s.log = none ↔ s.owner = none
  sending : ∀ t b m qs ks, Frame.sending b m qs ks ∈ s.stk t → sending s.log = some (t, b)
  posting : ∀ t b m q qs ks, Frame.posting b m q qs ks ∈ s.stk t → Maf.Bcast.sending s.log = some (t, b)
  members : ∀ q, q ∈ members s.log ↔ q ∈ s.joined
  sorted : Asc s.joined

theorem own_init : Own init := by constructor <;> simp [init, sending, members, Asc]

theorem none_send {l : List Frame} (h : (l.filter isSend).length = 0) {f : Frame} (hf : f ∈ l) : isSend f = false := by
  cases e : isSend f with
  | false => rfl
  | true =>
    have : f ∈ l.filter isSend := by simp [hf, e]
    rw [List.length_eq_zero_iff.1 h] at this
    cases this

/-- There is one broadcast at a time. -/
theorem only_one {s : State} (ho : Own s) {t : Tid} {f : Frame} {rest : List Frame} (h : s.stk t = f :: rest) (hf : isSend f = true) (t' : Tid) (g : Frame) (hg : isSend g = true) :
    g ∉ rest ∧ (t' ≠ t → g ∉ s.stk t') := by
  have h1 := ho.one t
  rw [h, List.filter_cons_of_pos hf, List.length_cons] at h1
  split at h1
  · next e =>
    refine ⟨fun hr => ?_, fun hne hr => ?_⟩
    · have := none_send (by omega) hr; rw [hg] at this; cases this
    · have h2 := ho.one t'
      rw [if_neg (by rw [e]; simp; exact fun h => hne h.symm)] at h2
      have := none_send h2 hr; rw [hg] at this; cases this
  · omega

theorem alone {s : State} (ho : Own s) {t : Tid} {f : Frame} {rest : List Frame} (h : s.stk t = f :: rest) (hf : isSend f = true) :
    (∀ b m qs ks, Frame.sending b m qs ks ∉ rest) ∧ (∀ b m q qs ks, Frame.posting b m q qs ks ∉ rest) ∧
      (∀ t', t' ≠ t → ∀ b m qs ks, Frame.sending b m qs ks ∉ s.stk t') ∧ ∀ t', t' ≠ t → ∀ b m q qs ks, Frame.posting b m q qs ks ∉ s.stk t' :=
  ⟨fun _ _ _ _ => (only_one ho h hf 0 _ rfl).1, fun _ _ _ _ _ => (only_one ho h hf 0 _ rfl).1, fun t' ht _ _ _ _ => (only_one ho h hf t' _ rfl).2 ht,
    fun t' ht _ _ _ _ _ => (only_one ho h hf t' _ rfl).2 ht⟩

theorem nobody {s : State} (ho : Own s) (h : s.owner = none) (t : Tid) : (∀ b m qs ks, Frame.sending b m qs ks ∉ s.stk t) ∧ ∀ b m q qs ks, Frame.posting b m q qs ks ∉ s.stk t := by
  have h1 := ho.one t
  rw [h, if_neg (by simp)] at h1
  refine ⟨fun b m qs ks hf => ?_, fun b m q qs ks hf => ?_⟩
  · have := none_send h1 hf; simp [isSend] at this
  · have := none_send h1 hf; simp [isSend] at this

theorem own_move {home : Tid → Option Pid} {s s' : State} (hm : Move home s s') (ho : Own s) : Own s' := by
  obtain ⟨h1, h2, h3, h4, h5, h6⟩ := id ho
  cases hm with
  | use t w h =>
    constructor <;> (try simp only [sending_append, members_append, List.foldl, sendingStep, joinedStep]) <;> grind [upd, isSend, mem_insertP, insertP_sorted]
  | start t m rest h hn =>
    have hx := nobody ho hn
    constructor <;> (try simp only [sending_append, members_append, List.foldl, sendingStep, joinedStep]) <;> grind [upd, isSend, mem_insertP, insertP_sorted]
  | unlock t w rest h hn =>
    have hx := nobody ho hn
    constructor <;> (try simp only [sending_append, members_append, List.foldl, sendingStep, joinedStep]) <;> grind [upd, isSend, mem_insertP, insertP_sorted]
  | join t p rest h hn hp =>
    have hx := nobody ho hn
    constructor <;> (try simp only [sending_append, members_append, List.foldl, sendingStep, joinedStep]) <;> grind [upd, isSend, mem_insertP, insertP_sorted]
  | leave t p rest h hn hp =>
    have hy := pairwise_leave p h6
    have hx := nobody ho hn
    constructor <;> (try simp only [sending_append, members_append, List.foldl, sendingStep, joinedStep]) <;> grind [upd, isSend, mem_insertP, insertP_sorted]
  | skip t b m q qs ks rest h =>
    have hx := alone ho h rfl
    constructor <;> (try simp only [sending_append, members_append, List.foldl, sendingStep, joinedStep]) <;> grind [upd, isSend, mem_insertP, insertP_sorted]
  | ask t b m q qs ks rest h =>
    have hx := alone ho h rfl
    constructor <;> (try simp only [sending_append, members_append, List.foldl, sendingStep, joinedStep]) <;> grind [upd, isSend, mem_insertP, insertP_sorted]
  | send t b m ks rest h =>
    have hx := alone ho h rfl
    constructor <;> (try simp only [sending_append, members_append, List.foldl, sendingStep, joinedStep]) <;> grind [upd, isSend, mem_insertP, insertP_sorted]
  | inline t b m q qs ks rest h hh =>
    have hx := alone ho h rfl
    constructor <;> (try simp only [sending_append, members_append, List.foldl, sendingStep, joinedStep]) <;> grind [upd, isSend, mem_insertP, insertP_sorted]
  | queue t b m q qs ks rest h =>
    have hx := alone ho h rfl
    constructor <;> (try simp only [sending_append, members_append, List.foldl, sendingStep, joinedStep]) <;> grind [upd, isSend, mem_insertP, insertP_sorted]
  | refuse t b m q qs ks rest h =>
    have hx := alone ho h rfl
    constructor <;> (try simp only [sending_append, members_append, List.foldl, sendingStep, joinedStep]) <;> grind [upd, isSend, mem_insertP, insertP_sorted]
  | take t k b q m hu h hh =>
    constructor <;> (try simp only [sending_append, members_append, List.foldl, sendingStep, joinedStep]) <;> grind [upd, isSend, mem_insertP, insertP_sorted]
  | finish t k ok rest h =>
    constructor <;> (try simp only [sending_append, members_append, List.foldl, sendingStep, joinedStep]) <;> grind [upd, isSend, mem_insertP, insertP_sorted]
  | drop k b q m h =>
    constructor <;> (try simp only [sending_append, members_append, List.foldl, sendingStep, joinedStep]) <;> grind [upd, isSend, mem_insertP, insertP_sorted]
  | get t b ks hu h =>
    constructor <;> (try simp only [sending_append, members_append, List.foldl, sendingStep, joinedStep]) <;> grind [upd, isSend, mem_insertP, insertP_sorted]
  | next t b k ks rest a h ha hd =>
    constructor <;> (try simp only [sending_append, members_append, List.foldl, sendingStep, joinedStep]) <;> grind [upd, isSend, mem_insertP, insertP_sorted]
  | fail t b k ks rest a h ha hd =>
    constructor <;> (try simp only [sending_append, members_append, List.foldl, sendingStep, joinedStep]) <;> grind [upd, isSend, mem_insertP, insertP_sorted]
  | ok t b rest h =>
    constructor <;> (try simp only [sending_append, members_append, List.foldl, sendingStep, joinedStep]) <;> grind [upd, isSend, mem_insertP, insertP_sorted]
  | env st hs =>
    constructor <;> (try simp only [sending_append, members_append, List.foldl, sendingStep, joinedStep]) <;> grind [upd, isSend, mem_insertP, insertP_sorted]

/-- What the broadcast in progress has done. -/
structure Cont (s : State) : Prop where
  sending : ∀ t b m qs ks, Frame.sending b m qs ks ∈ s.stk t → ks = tasksOf b s.log ∧ Ev.opened t b m (asked b s.log ++ qs) ∈ s.log
  posting : ∀ t b m q qs ks, Frame.posting b m q qs ks ∈ s.stk t → ks = tasksOf b s.log ∧ Ev.opened t b m (asked b s.log ++ q :: qs) ∈ s.log
  fresh : ∀ b, s.nextB ≤ b → tasksOf b s.log = [] ∧ asked b s.log = []

theorem cont_init : Cont init := by constructor <;> simp [init, asked, tasksOf]

theorem cont_move {home : Tid → Option Pid} {s s' : State} (hm : Move home s s') (hb : Bnd s) (ho : Own s) (h : Cont s) : Cont s' := by
  have h4 := hb.opened
  have h5 := ho.sending
  have h6 := ho.posting
  obtain ⟨h1, h2, h3⟩ := h
  cases hm with
  | use t w h =>
    constructor <;> simp only [asked_append, tasksOf_append, asked_cons, tasksOf_cons, asked_nil, tasksOf_nil, askedE, tasksE, List.append_nil, List.mem_append, List.mem_cons, List.not_mem_nil, or_false, List.append_assoc] <;> grind [upd]
  | start t m rest h hn =>
    have hx := nobody ho hn
    constructor <;> simp only [asked_append, tasksOf_append, asked_cons, tasksOf_cons, asked_nil, tasksOf_nil, askedE, tasksE, List.append_nil, List.mem_append, List.mem_cons, List.not_mem_nil, or_false, List.append_assoc] <;> grind [upd]
  | unlock t w rest h hn =>
    have hx := nobody ho hn
    constructor <;> simp only [asked_append, tasksOf_append, asked_cons, tasksOf_cons, asked_nil, tasksOf_nil, askedE, tasksE, List.append_nil, List.mem_append, List.mem_cons, List.not_mem_nil, or_false, List.append_assoc] <;> grind [upd]
  | join t p rest h hn hp =>
    have hx := nobody ho hn
    constructor <;> simp only [asked_append, tasksOf_append, asked_cons, tasksOf_cons, asked_nil, tasksOf_nil, askedE, tasksE, List.append_nil, List.mem_append, List.mem_cons, List.not_mem_nil, or_false, List.append_assoc] <;> grind [upd]
  | leave t p rest h hn hp =>
    have hx := nobody ho hn
    constructor <;> simp only [asked_append, tasksOf_append, asked_cons, tasksOf_cons, asked_nil, tasksOf_nil, askedE, tasksE, List.append_nil, List.mem_append, List.mem_cons, List.not_mem_nil, or_false, List.append_assoc] <;> grind [upd]
  | skip t b m q qs ks rest h =>
    have hx := alone ho h rfl
    have hy := h1 t b m (q :: qs) ks (by rw [h]; simp)
    constructor <;> simp only [asked_append, tasksOf_append, asked_cons, tasksOf_cons, asked_nil, tasksOf_nil, askedE, tasksE, List.append_nil, List.mem_append, List.mem_cons, List.not_mem_nil, or_false, List.append_assoc] <;> grind [upd]
  | ask t b m q qs ks rest h =>
    have hx := alone ho h rfl
    constructor <;> simp only [asked_append, tasksOf_append, asked_cons, tasksOf_cons, asked_nil, tasksOf_nil, askedE, tasksE, List.append_nil, List.mem_append, List.mem_cons, List.not_mem_nil, or_false, List.append_assoc] <;> grind [upd]
  | send t b m ks rest h =>
    have hx := alone ho h rfl
    constructor <;> simp only [asked_append, tasksOf_append, asked_cons, tasksOf_cons, asked_nil, tasksOf_nil, askedE, tasksE, List.append_nil, List.mem_append, List.mem_cons, List.not_mem_nil, or_false, List.append_assoc] <;> grind [upd]
  | inline t b m q qs ks rest h hh =>
    have hx := alone ho h rfl
    have hy := h2 t b m q qs ks (by rw [h]; simp)
    constructor <;> simp only [asked_append, tasksOf_append, asked_cons, tasksOf_cons, asked_nil, tasksOf_nil, askedE, tasksE, List.append_nil, List.mem_append, List.mem_cons, List.not_mem_nil, or_false, List.append_assoc] <;> grind [upd]
  | queue t b m q qs ks rest h =>
    have hx := alone ho h rfl
    have hy := h2 t b m q qs ks (by rw [h]; simp)
    constructor <;> simp only [asked_append, tasksOf_append, asked_cons, tasksOf_cons, asked_nil, tasksOf_nil, askedE, tasksE, List.append_nil, List.mem_append, List.mem_cons, List.not_mem_nil, or_false, List.append_assoc] <;> grind [upd]
  | refuse t b m q qs ks rest h =>
    have hx := alone ho h rfl
    have hy := h2 t b m q qs ks (by rw [h]; simp)
    constructor <;> simp only [asked_append, tasksOf_append, asked_cons, tasksOf_cons, asked_nil, tasksOf_nil, askedE, tasksE, List.append_nil, List.mem_append, List.mem_cons, List.not_mem_nil, or_false, List.append_assoc] <;> grind [upd]
  | take t k b q m hu h hh =>
    constructor <;> simp only [asked_append, tasksOf_append, asked_cons, tasksOf_cons, asked_nil, tasksOf_nil, askedE, tasksE, List.append_nil, List.mem_append, List.mem_cons, List.not_mem_nil, or_false, List.append_assoc] <;> grind [upd]
  | finish t k ok rest h =>
    constructor <;> simp only [asked_append, tasksOf_append, asked_cons, tasksOf_cons, asked_nil, tasksOf_nil, askedE, tasksE, List.append_nil, List.mem_append, List.mem_cons, List.not_mem_nil, or_false, List.append_assoc] <;> grind [upd]
  | drop k b q m h =>
    constructor <;> simp only [asked_append, tasksOf_append, asked_cons, tasksOf_cons, asked_nil, tasksOf_nil, askedE, tasksE, List.append_nil, List.mem_append, List.mem_cons, List.not_mem_nil, or_false, List.append_assoc] <;> grind [upd]
  | get t b ks hu h =>
    constructor <;> simp only [asked_append, tasksOf_append, asked_cons, tasksOf_cons, asked_nil, tasksOf_nil, askedE, tasksE, List.append_nil, List.mem_append, List.mem_cons, List.not_mem_nil, or_false, List.append_assoc] <;> grind [upd]
  | next t b k ks rest a h ha hd =>
    constructor <;> simp only [asked_append, tasksOf_append, asked_cons, tasksOf_cons, asked_nil, tasksOf_nil, askedE, tasksE, List.append_nil, List.mem_append, List.mem_cons, List.not_mem_nil, or_false, List.append_assoc] <;> grind [upd]
  | fail t b k ks rest a h ha hd =>
    constructor <;> simp only [asked_append, tasksOf_append, asked_cons, tasksOf_cons, asked_nil, tasksOf_nil, askedE, tasksE, List.append_nil, List.mem_append, List.mem_cons, List.not_mem_nil, or_false, List.append_assoc] <;> grind [upd]
  | ok t b rest h =>
    constructor <;> simp only [asked_append, tasksOf_append, asked_cons, tasksOf_cons, asked_nil, tasksOf_nil, askedE, tasksE, List.append_nil, List.mem_append, List.mem_cons, List.not_mem_nil, or_false, List.append_assoc] <;> grind [upd]
  | env st hs =>
    constructor <;> simp only [asked_append, tasksOf_append, asked_cons, tasksOf_cons, asked_nil, tasksOf_nil, askedE, tasksE, List.append_nil, List.mem_append, List.mem_cons, List.not_mem_nil, or_false, List.append_assoc] <;> grind [upd]

end Maf.Bcast
