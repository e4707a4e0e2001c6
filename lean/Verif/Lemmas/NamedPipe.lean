import Verif.Model.NamedPipe
import Verif.Lemmas.Hist

namespace Maf.Pipe

variable {logs : Bool}

theorem upd_same {α : Type} (f : Nat → α) (i : Nat) (a : α) : upd f i a i = a := if_pos rfl
theorem upd_ne {α : Type} {f : Nat → α} {i j : Nat} {a : α} (h : j ≠ i) : upd f i a j = f j := if_neg h

/-- What the receiver is doing with instance `i`. -/
inductive Stage where
  | away | header | body (n : Nat) | leaving | stuck
deriving DecidableEq

def stage (p : Pc) (i : Nat) : Stage :=
  match p with
  | .readHeader j => if j = i then .header else .away
  | .readBody j n => if j = i then .body n else .away
  | .leave j => if j = i then .leaving else .away
  | .spin j => if j = i then .stuck else .away
  | _ => .away

/-- What may follow without anything being read. -/
def Stage.le (a b : Stage) : Prop := a = b ∨ b = .leaving ∨ b = .stuck ∨ (a = .away ∧ b = .header)

theorem Stage.le_refl (a : Stage) : a.le a := .inl rfl

/-- Events that belong to no call. -/
def Ev.quiet : Ev → Prop
  | .asked .. => False
  | .rogue .. => False
  | .result .. => False
  | .delivered .. => False
  | _ => True

/-- no instance is opened by `c` -/
def NoConn (s : State) (c : Nat) : Prop := ∀ i l, (s.insts i).side ≠ .conn c l

inductive Case (s s' : State) : Prop
  | quiet (es : List Ev) (he : ∀ e ∈ es, e.quiet) (h1 : s'.insts = s.insts) (h2 : s'.snds = s.snds) (h3 : s'.next = s.next)
      (h4 : s'.log = s.log ++ es) (hs : ∀ i, (stage s.pc i).le (stage s'.pc i))
  | free (i : Nat) (sd : Side) (hsd : sd = .off ∨ sd = .listen) (h1 : s'.insts = upd s.insts i ⟨sd, [], none, 0⟩) (h2 : s'.snds = s.snds)
      (h3 : s'.next = s.next) (h4 : s'.log = s.log) (hs : ∀ j, j ≠ i → (stage s.pc j).le (stage s'.pc j)) (hi : stage s'.pc i = .away)
  | stop (es : List Ev) (he : ∀ e ∈ es, e.quiet) (h1 : s'.insts = fun _ => .blank) (h2 : s'.snds = s.snds) (h3 : s'.next = s.next)
      (h4 : s'.log = s.log ++ es)
  | send (b : List Nat) (h : s' = newCall s (frame b) (.asked s.next b))
  | rogue (ms : List (List Nat)) (h : s' = newCall s ms (.rogue s.next))
  | move (c : Nat) (x : Snd) (p : SPc) (es : List Ev) (hx : s.snds c = some x) (hn : ∀ r i k, x.pc ≠ .writing r i k .taken)
      (he : ∀ r, x.pc ≠ .ended r) (hj : ∀ r i k w, x.pc = .writing r i k w → s.joined c i = false)
      (hp : (∀ e ∈ es, e.quiet) ∧ ((∃ t, p = .probe t) ∨ ∃ r, p = .opening r) ∨
        ∃ q r, r ≠ .success ∧ es = q ++ [.result c r] ∧ (∀ e ∈ q, e.quiet) ∧ p = .ended r)
      (h1 : s'.insts = s.insts) (h2 : s'.snds = upd s.snds c (some { x with pc := p })) (h3 : s'.next = s.next)
      (h4 : s'.log = s.log ++ es) (h5 : s'.pc = s.pc)
  | opened (c i : Nat) (x : Snd) (r : Nat) (hx : s.snds c = some x) (hp : x.pc = .opening r) (hi : (s.insts i).side = .listen)
      (h : s' = (s.setInst i ⟨.conn c true, [], none, 0⟩).setPc c x (.writing r i 0 .todo))
  | posted (c i : Nat) (x : Snd) (r k : Nat) (hx : s.snds c = some x) (hp : x.pc = .writing r i k .todo) (hi : (s.insts i).side = .conn c true)
      (hd : (s.insts i).pend = none)
      (h : s' = (s.setInst i { s.insts i with box := (s.insts i).box ++ [(k, x.script.getD k [])] }).setPc c x (.writing r i k .posted))
  | late (c i : Nat) (x : Snd) (r k : Nat) (es : List Ev) (hx : s.snds c = some x) (hp : x.pc = .writing r i k .todo) (hi : (s.insts i).side = .conn c true)
      (hd : (s.insts i).pend ≠ none) (he : ∀ e ∈ es, e.quiet)
      (h1 : s'.insts = upd s.insts i { s.insts i with pend := none, nread := (s.insts i).nread + 1 })
      (h2 : s'.snds = upd s.snds c (some { x with pc := .writing r i k .taken })) (h3 : s'.next = s.next)
      (h4 : s'.log = s.log ++ es) (h5 : s'.pc = s.pc)
  | advanced (c i : Nat) (x : Snd) (r k : Nat) (w : Wr) (hx : s.snds c = some x) (hp : x.pc = .writing r i k w) (hw : w ≠ .todo)
      (hk : k + 1 < x.script.length) (h : s' = s.setPc c x (.writing r i (k + 1) .todo))
  | finished (c i : Nat) (x : Snd) (r k : Nat) (w : Wr) (hx : s.snds c = some x) (hp : x.pc = .writing r i k w) (hw : w ≠ .todo)
      (hj : s.joined c i = true ∨ w = .taken) (hk : ¬ k + 1 < x.script.length) (h : s' = (s.close c i).finish c x .success)
  | read (i c : Nat) (l : Bool) (k : Nat) (m : List Nat) (rest : List (Nat × List Nat)) (es : List Ev)
      (hi : (s.insts i).side = .conn c l) (hb : (s.insts i).box = (k, m) :: rest)
      (h1 : s'.insts = upd s.insts i { s.insts i with box := rest, nread := (s.insts i).nread + 1 })
      (h2 : s'.snds = (s.take c k).snds) (h3 : s'.next = s.next) (h4 : s'.log = s.log ++ es)
      (hs : (es = [] ∧ stage s'.pc i = .leaving) ∨ (es = [] ∧ stage s.pc i = .header ∧ m.length = 4 ∧ stage s'.pc i = .body (dec m)) ∨
        (es = [.delivered c m] ∧ stage s.pc i = .body m.length ∧ stage s'.pc i = .leaving))
      (hs' : ∀ j, j ≠ i → (stage s.pc j).le (stage s'.pc j))
  | pend (i c : Nat) (l : Bool) (p : Option Pend) (es : List Ev) (hi : (s.insts i).side = .conn c l) (hb : (s.insts i).box = [])
      (h1 : s'.insts = upd s.insts i { s.insts i with pend := p })
      (h2 : s'.snds = s.snds) (h3 : s'.next = s.next) (h4 : s'.log = s.log ++ es)
      (hs : es = [] ∨ (es = [.delivered c []] ∧ stage s.pc i = .body 0)) (hl : stage s'.pc i = .leaving)
      (hs' : ∀ j, j ≠ i → (stage s.pc j).le (stage s'.pc j))

/-! ### `fillbuffer` -/

theorem fill_one (size : Nat) (lv : Bool) (m : List Nat) (rest : List (List Nat)) :
    fillbuffer size lv 1 [] (m :: rest) = if m.length ≤ size then some (.ok, m, rest) else none := by
  unfold fillbuffer readFile
  simp only [List.length_nil, Nat.sub_zero]
  by_cases h : m.length ≤ size
  · rw [if_pos h, if_pos h]; simp
  · rw [if_neg h, if_neg h]; rfl

theorem fill_nil (size : Nat) (lv : Bool) : fillbuffer size lv 1 [] [] = some (if lv then .pending else .broken, [], []) := by
  cases lv <;> rfl

/-- The cases of a call of `fillbuffer`. -/
theorem fill_cases {s s' : State} {i size : Nat} {p : Pend} {good : State → List Nat → State} {poor : State → State}
    (h : s' = s.fill i size p good poor) :
    (∃ k m rest, (s.insts i).box = (k, m) :: rest ∧
      ((size < m.length ∧ s' = { s with pc := .spin i }) ∨ (m.length = size ∧ s' = good (s.pop i) m) ∨ (m.length < size ∧ s' = poor (s.pop i)))) ∨
    ((s.insts i).box = [] ∧ (s.insts i).live = true ∧
      ((size = 0 ∧ s' = good (s.setInst i { s.insts i with pend := some p }) []) ∨ (size ≠ 0 ∧ s' = poor (s.setInst i { s.insts i with pend := some p })))) ∨
    ((s.insts i).box = [] ∧ (s.insts i).live = false ∧ ((size = 0 ∧ s' = good s []) ∨ (size ≠ 0 ∧ s' = poor s))) := by
  subst h
  unfold State.fill
  cases hb : (s.insts i).box with
  | nil =>
    simp only [List.map_nil, fill_nil]
    cases hl : (s.insts i).live with
    | true =>
      refine .inr (.inl ⟨trivial, rfl, ?_⟩)
      simp only [if_true, List.length_nil]
      by_cases hz : size = 0
      · left; rw [if_pos hz.symm]; exact ⟨hz, rfl⟩
      · right; rw [if_neg (fun h => hz h.symm)]; exact ⟨hz, rfl⟩
    | false =>
      refine .inr (.inr ⟨trivial, rfl, ?_⟩)
      have hp : s.pop i = s := by unfold State.pop; rw [hb]
      simp only [Bool.false_eq_true, if_false, List.length_nil, hp]
      by_cases hz : size = 0
      · left; rw [if_pos hz.symm]; exact ⟨hz, rfl⟩
      · right; rw [if_neg (fun h => hz h.symm)]; exact ⟨hz, rfl⟩
  | cons a rest =>
    obtain ⟨k, m⟩ := a
    refine .inl ⟨k, m, rest, rfl, ?_⟩
    simp only [List.map_cons, fill_one]
    by_cases h1 : m.length ≤ size
    · rw [if_pos h1]; dsimp only
      by_cases h2 : m.length = size
      · rw [if_pos h2]; exact .inr (.inl ⟨h2, rfl⟩)
      · rw [if_neg h2]; exact .inr (.inr ⟨by omega, rfl⟩)
    · rw [if_neg h1]; exact .inl ⟨by omega, rfl⟩

theorem pop_eq {s : State} {i c k : Nat} {l : Bool} {m : List Nat} {rest : List (Nat × List Nat)}
    (hi : (s.insts i).side = .conn c l) (hb : (s.insts i).box = (k, m) :: rest) :
    (s.pop i).insts = upd s.insts i { s.insts i with box := rest, nread := (s.insts i).nread + 1 } ∧ (s.pop i).snds = (s.take c k).snds ∧
    (s.pop i).next = s.next ∧ (s.pop i).log = s.log ∧ (s.pop i).pc = s.pc := by
  have e : s.pop i = (s.setInst i { s.insts i with box := rest, nread := (s.insts i).nread + 1 }).take c k := by
    unfold State.pop State.takeFrom; rw [hb]; dsimp only; rw [hi]
  rw [e]
  exact ⟨rfl, rfl, rfl, rfl, rfl⟩

theorem stage_other {i j : Nat} (h : j ≠ i) (n : Nat) : stage (.readHeader i) j = .away ∧ stage (.readBody i n) j = .away ∧ stage (.leave i) j = .away ∧ stage (.spin i) j = .away := by
  simp [stage, Ne.symm h]

theorem stage_self (i n : Nat) : stage (.readHeader i) i = .header ∧ stage (.readBody i n) i = .body n ∧ stage (.leave i) i = .leaving ∧ stage (.spin i) i = .stuck := by
  simp [stage]

theorem quiet_nil {P : Ev → Prop} : ∀ e ∈ ([] : List Ev), P e := by simp

theorem quiet_one {e : Ev} (h : e.quiet) : ∀ f ∈ [e], f.quiet := by
  intro f hf; rw [List.mem_singleton] at hf; exact hf ▸ h

theorem upd_self {α : Type} (f : Nat → α) (i : Nat) : upd f i (f i) = f := by
  funext j; unfold upd; split
  · next h => rw [h]
  · rfl

theorem side_cases (x : Inst) : (∃ c l, x.side = .conn c l) ∨ ((∀ c l, x.side ≠ .conn c l) ∧ x.live = false) := by
  unfold Inst.live
  cases x.side with
  | conn c l => exact .inl ⟨c, l, rfl⟩
  | _ => exact .inr ⟨(by intro c l h; cases h), rfl⟩

/-- nothing of any connection: nothing is there to be read -/
structure Bare (s : State) (i : Nat) : Prop where
  box : (∀ c l, (s.insts i).side ≠ .conn c l) → (s.insts i).box = []

theorem le_away {s : State} {p : Pc} {j : Nat} (h : stage s.pc j = .away) (h' : stage p j = .away) : (stage s.pc j).le (stage p j) := by
  rw [h, h']; exact Stage.le_refl _

theorem readHeader_case {s s' : State} (hB : ∀ i, Bare s i) (h : readHeader s = some s') : Case s s' := by
  unfold readHeader at h
  split at h
  next i hpc =>
    split at h
    · cases h; exact .quiet [.raced] (quiet_one trivial) rfl rfl rfl rfl (fun i => Stage.le_refl _)
    · have h : s' = _ := (Option.some.inj h).symm
      have hoth : ∀ j, j ≠ i → stage s.pc j = .away := fun j hj => by rw [hpc]; exact (stage_other hj 0).1
      have hself : stage s.pc i = .header := by rw [hpc]; exact (stage_self i 0).1
      rcases fill_cases h with ⟨k, m, rest, hb, hc⟩ | ⟨hb, hl, hc⟩ | ⟨hb, hl, hc⟩
      · have hconn : ∃ c l, (s.insts i).side = .conn c l := by
          rcases side_cases (s.insts i) with h | ⟨h, -⟩
          · exact h
          · rw [(hB i).box h] at hb; cases hb
        obtain ⟨c, l, hi⟩ := hconn
        obtain ⟨p1, p2, p3, p4, -⟩ := pop_eq hi hb
        rcases hc with ⟨-, rfl⟩ | ⟨hm, rfl⟩ | ⟨-, rfl⟩
        · refine .quiet [] quiet_nil rfl rfl rfl (by simp) (fun j => ?_)
          by_cases hj : j = i
          · subst hj; exact .inr (.inr (.inl (stage_self j 0).2.2.2))
          · exact le_away (hoth j hj) (stage_other hj 0).2.2.2
        · exact .read i c l k m rest [] hi hb p1 p2 p3 (by simp [p4]) (.inr (.inl ⟨rfl, hself, hm, (stage_self i _).2.1⟩))
            (fun j hj => le_away (hoth j hj) (stage_other hj _).2.1)
        · exact .read i c l k m rest [] hi hb p1 p2 p3 (by simp [p4]) (.inl ⟨rfl, (stage_self i 0).2.2.1⟩)
            (fun j hj => le_away (hoth j hj) (stage_other hj 0).2.2.1)
      · rcases hc with ⟨h0, -⟩ | ⟨-, rfl⟩
        · cases h0
        · obtain ⟨c, hi⟩ : ∃ c, (s.insts i).side = .conn c true := by
            unfold Inst.live at hl
            split at hl
            · next c l hs => subst hl; exact ⟨c, hs⟩
            · cases hl
          exact .pend i c true (some .header) [] hi hb rfl rfl rfl (by simp [State.setInst]) (.inl rfl) (stage_self i 0).2.2.1
            (fun j hj => le_away (hoth j hj) (stage_other hj 0).2.2.1)
      · rcases hc with ⟨h0, -⟩ | ⟨-, rfl⟩
        · cases h0
        · refine .quiet [] quiet_nil rfl rfl rfl (by simp) (fun j => ?_)
          by_cases hj : j = i
          · subst hj; exact .inr (.inl (stage_self j 0).2.2.1)
          · exact le_away (hoth j hj) (stage_other hj 0).2.2.1
  next => cases h

theorem deliver_conn {s : State} {i c : Nat} {l : Bool} (h : (s.insts i).side = .conn c l) (b : List Nat) :
    s.deliver i b = { s with pc := .leave i, log := s.log ++ [.delivered c b] } := by
  unfold State.deliver; rw [h]

theorem deliver_none {s : State} {i : Nat} (h : ∀ c l, (s.insts i).side ≠ .conn c l) (b : List Nat) :
    s.deliver i b = { s with pc := .leave i } := by
  unfold State.deliver; split
  · next c l hc => exact absurd hc (h c l)
  · rfl

theorem readBody_case {s s' : State} (hB : ∀ i, Bare s i) (h : readBody s = some s') : Case s s' := by
  unfold readBody at h
  split at h
  next i n hpc =>
    split at h
    · cases h; exact .quiet [.raced] (quiet_one trivial) rfl rfl rfl rfl (fun i => Stage.le_refl _)
    · have h : s' = _ := (Option.some.inj h).symm
      have hoth : ∀ j, j ≠ i → stage s.pc j = .away := fun j hj => by rw [hpc]; exact (stage_other hj n).2.1
      have hself : stage s.pc i = .body n := by rw [hpc]; exact (stage_self i n).2.1
      rcases fill_cases h with ⟨k, m, rest, hb, hc⟩ | ⟨hb, hl, hc⟩ | ⟨hb, hl, hc⟩
      · have hconn : ∃ c l, (s.insts i).side = .conn c l := by
          rcases side_cases (s.insts i) with h | ⟨h, -⟩
          · exact h
          · rw [(hB i).box h] at hb; cases hb
        obtain ⟨c, l, hi⟩ := hconn
        obtain ⟨p1, p2, p3, p4, -⟩ := pop_eq hi hb
        rcases hc with ⟨-, rfl⟩ | ⟨hm, rfl⟩ | ⟨-, rfl⟩
        · refine .quiet [] quiet_nil rfl rfl rfl (by simp) (fun j => ?_)
          by_cases hj : j = i
          · subst hj; exact .inr (.inr (.inl (stage_self j 0).2.2.2))
          · exact le_away (hoth j hj) (stage_other hj 0).2.2.2
        · have hi' : ((s.pop i).insts i).side = .conn c l := by rw [p1, upd_same]; exact hi
          rw [deliver_conn hi']
          exact .read i c l k m rest [.delivered c m] hi hb p1 p2 p3 (by simp [p4]) (.inr (.inr ⟨rfl, by rw [hself, hm], (stage_self i 0).2.2.1⟩))
            (fun j hj => le_away (hoth j hj) (stage_other hj 0).2.2.1)
        · exact .read i c l k m rest [] hi hb p1 p2 p3 (by simp [p4]) (.inl ⟨rfl, (stage_self i 0).2.2.1⟩)
            (fun j hj => le_away (hoth j hj) (stage_other hj 0).2.2.1)
      · obtain ⟨c, hi⟩ : ∃ c, (s.insts i).side = .conn c true := by
          unfold Inst.live at hl
          split at hl
          · next c l hs => subst hl; exact ⟨c, hs⟩
          · cases hl
        rcases hc with ⟨h0, rfl⟩ | ⟨-, rfl⟩
        · have hi' : ((s.setInst i { s.insts i with pend := some .body }).insts i).side = .conn c true := by
            show (upd s.insts i _ i).side = _; rw [upd_same]; exact hi
          rw [deliver_conn hi']
          exact .pend i c true (some .body) [.delivered c []] hi hb rfl rfl rfl rfl (.inr ⟨rfl, by rw [hself, h0]⟩) (stage_self i 0).2.2.1
            (fun j hj => le_away (hoth j hj) (stage_other hj 0).2.2.1)
        · exact .pend i c true (some .body) [] hi hb rfl rfl rfl (by simp [State.setInst]) (.inl rfl) (stage_self i 0).2.2.1
            (fun j hj => le_away (hoth j hj) (stage_other hj 0).2.2.1)
      · have hq : Case s { s with pc := .leave i } := by
          refine .quiet [] quiet_nil rfl rfl rfl (by simp) (fun j => ?_)
          by_cases hj : j = i
          · subst hj; exact .inr (.inl (stage_self j 0).2.2.1)
          · exact le_away (hoth j hj) (stage_other hj 0).2.2.1
        rcases hc with ⟨h0, rfl⟩ | ⟨-, rfl⟩
        · rcases side_cases (s.insts i) with ⟨c, l, hi⟩ | ⟨hn, -⟩
          · rw [deliver_conn hi]
            exact .pend i c l (s.insts i).pend [.delivered c []] hi hb (upd_self s.insts i).symm rfl rfl rfl (.inr ⟨rfl, by rw [hself, h0]⟩) (stage_self i 0).2.2.1
              (fun j hj => le_away (hoth j hj) (stage_other hj 0).2.2.1)
          · rw [deliver_none hn]; exact hq
        · exact hq
  next i hpc =>
    split at h
    · cases h; exact .quiet [.raced] (quiet_one trivial) rfl rfl rfl rfl (fun i => Stage.le_refl _)
    · cases h
  next => cases h

/-- steps of the receiver between places where it tends no instance -/
theorem pc_case {s : State} {s' : State} (es : List Ev) (he : ∀ e ∈ es, e.quiet) (h1 : s'.insts = s.insts) (h2 : s'.snds = s.snds) (h3 : s'.next = s.next)
      (h4 : s'.log = s.log ++ es) (ha : ∀ i, stage s.pc i = .away) (ha' : ∀ i, stage s'.pc i = .away) : Case s s' :=
  .quiet es he h1 h2 h3 h4 (fun i => by rw [ha, ha']; exact Stage.le_refl _)

theorem step_case {s s' : State} {a : Act} (hB : ∀ i, Bare s i) (h : step logs s a = some s') : Case s s' := by
  unfold step at h
  split at h
  · cases h
  cases a with
  | create =>
    simp only [live, create] at h
    split at h
    · next k hpc => cases h; exact .free k .listen (.inr rfl) rfl rfl rfl rfl (fun j _ => by rw [hpc]; exact Stage.le_refl _) rfl
    · cases h
  | connect =>
    simp only [live, connect] at h
    split at h
    · next k hpc =>
      have ha : ∀ i, stage s.pc i = .away := fun i => by rw [hpc]; rfl
      split at h
      · split at h
        · cases h; exact pc_case [.initDone true] (quiet_one trivial) rfl rfl rfl rfl ha (fun _ => rfl)
        · cases h; exact pc_case [] quiet_nil rfl rfl rfl (by simp) ha (fun _ => rfl)
      · cases h; exact pc_case [.initDone false] (quiet_one trivial) rfl rfl rfl rfl ha (fun _ => rfl)
    · cases h
  | start =>
    simp only [live, start] at h
    split at h
    · next hpc =>
      have ha : ∀ i, stage s.pc i = .away := fun i => by rw [hpc]; rfl
      split at h
      · cases h; exact .quiet [.raced] (quiet_one trivial) rfl rfl rfl rfl (fun i => Stage.le_refl _)
      · cases h; exact pc_case [] quiet_nil rfl rfl rfl (by simp) ha (fun _ => rfl)
    · cases h; exact .quiet [.raced] (quiet_one trivial) rfl rfl rfl rfl (fun i => Stage.le_refl _)
    · cases h
  | check =>
    simp only [live, check] at h
    split at h
    · next hpc =>
      cases h
      exact pc_case [] quiet_nil rfl rfl rfl (by simp) (fun i => by rw [hpc]; rfl) (fun _ => by dsimp only; split <;> rfl)
    · cases h
  | enter =>
    simp only [live, enter] at h
    split at h
    · next hpc =>
      split at h
      · cases h; exact .quiet [.raced] (quiet_one trivial) rfl rfl rfl rfl (fun i => Stage.le_refl _)
      · cases h; exact pc_case [] quiet_nil rfl rfl rfl (by simp) (fun i => by rw [hpc]; rfl) (fun _ => rfl)
    · cases h
  | wake i =>
    simp only [live, wake] at h
    split at h
    · next hpc =>
      have ha : ∀ i, stage s.pc i = .away := fun i => by rw [hpc]; rfl
      split at h
      · cases h; exact pc_case [] quiet_nil rfl rfl rfl (by simp) ha (fun _ => rfl)
      · split at h
        · split at h
          · cases h
            refine .quiet [] quiet_nil rfl rfl rfl (by simp) (fun j => ?_)
            rw [ha]
            by_cases hj : j = i
            · subst hj; exact .inr (.inr (.inr ⟨rfl, (stage_self j 0).1⟩))
            · exact .inl (stage_other hj 0).1.symm
          · cases h
        · cases h
    · cases h
  | readHeader => exact readHeader_case hB h
  | readBody => exact readBody_case hB h
  | disconnect =>
    simp only [live, disconnect] at h
    split at h
    · next i hpc =>
      split at h
      · cases h; exact .quiet [.raced] (quiet_one trivial) rfl rfl rfl rfl (fun i => Stage.le_refl _)
      · cases h
        exact .free i .off (.inl rfl) rfl rfl rfl rfl (fun j hj => by rw [hpc, (stage_other hj 0).2.2.1]; exact Stage.le_refl _) rfl
    · cases h
  | rearm =>
    simp only [live, rearm] at h
    split at h
    · next i hpc =>
      split at h
      · cases h; exact .quiet [.raced] (quiet_one trivial) rfl rfl rfl rfl (fun i => Stage.le_refl _)
      · cases h; exact .free i .listen (.inr rfl) rfl rfl rfl rfl (fun j hj => by rw [hpc]; exact Stage.le_refl _) rfl
    · cases h
  | stop =>
    simp only [live, stop] at h
    split at h
    · cases h
    · cases h
    · cases h; exact .stop [.stopped] (quiet_one trivial) rfl rfl rfl rfl
  | send b => cases h; exact .send b rfl
  | rogue ms => cases h; exact .rogue ms rfl
  | probe c =>
    simp only [live, probe] at h
    split at h
    next x hx =>
      split at h
      next t hp =>
        have hn : ∀ r i k, x.pc ≠ .writing r i k .taken := by rw [hp]; intros; simp
        have hen : ∀ r, x.pc ≠ .ended r := by rw [hp]; intros; simp
        have hj : ∀ r i k w, x.pc = .writing r i k w → s.joined c i = false := by rw [hp]; intro r i k w h; cases h
        split at h
        · cases h; exact .move c x (.opening 0) [] hx hn hen hj (.inl ⟨quiet_nil, .inr ⟨0, rfl⟩⟩) rfl rfl rfl (by simp [State.setPc]) rfl
        · split at h
          · split at h
            · cases h
              exact .move c x (.ended .busy) [.busyProbe c, .result c .busy] hx hn hen hj (.inr ⟨[.busyProbe c], .busy, by decide, rfl, quiet_one trivial, rfl⟩) rfl rfl rfl
                (by simp [State.finish, State.setPc, State.note]) rfl
            · cases h
              exact .move c x (.probe (t + 1)) [.busyProbe c] hx hn hen hj (.inl ⟨quiet_one trivial, .inl ⟨_, rfl⟩⟩) rfl rfl rfl rfl rfl
          · cases h
            exact .move c x (.ended .unavailable) [.result c .unavailable] hx hn hen hj (.inr ⟨[], .unavailable, by decide, rfl, quiet_nil, rfl⟩) rfl rfl rfl rfl rfl
      next => cases h
    next => cases h
  | openAt c i =>
    simp only [live, openAt] at h
    split at h
    next x hx =>
      split at h
      next r hp =>
        split at h
        · next hi => cases h; exact .opened c i x r hx hp hi.2 rfl
        · cases h
      next => cases h
    next => cases h
  | openFail c =>
    simp only [live, openFail] at h
    split at h
    next x hx =>
      split at h
      next r hp =>
        have hn : ∀ r i k, x.pc ≠ .writing r i k .taken := by rw [hp]; intros; simp
        have hen : ∀ r, x.pc ≠ .ended r := by rw [hp]; intros; simp
        have hj : ∀ r i k w, x.pc = .writing r i k w → s.joined c i = false := by rw [hp]; intro r i k w h; cases h
        split at h
        · cases h
        · split at h
          · split at h
            · cases h
              exact .move c x _ [.busyOpen c] hx hn hen hj (.inl ⟨quiet_one trivial, .inr ⟨_, rfl⟩⟩) rfl rfl rfl rfl rfl
            · cases h
              exact .move c x (.ended .busy) [.busyOpen c, .result c .busy] hx hn hen hj (.inr ⟨[.busyOpen c], .busy, by decide, rfl, quiet_one trivial, rfl⟩) rfl rfl rfl
                (by simp [State.finish, State.setPc, State.note]) rfl
          · cases h
            exact .move c x (.ended .unavailable) [.result c .unavailable] hx hn hen hj (.inr ⟨[], .unavailable, by decide, rfl, quiet_nil, rfl⟩) rfl rfl rfl rfl rfl
      next => cases h
    next => cases h
  | post c =>
    simp only [live, post] at h
    split at h
    next x hx =>
      split at h
      next r i k hp =>
        split at h
        · next hj =>
          have hi : (s.insts i).side = .conn c true := by unfold State.joined at hj; exact eq_of_beq hj
          split at h
          · next hd => cases h; exact .posted c i x r k hx hp hi hd rfl
          · next hd => cases h; exact .late c i x r k [.smashed c] hx hp hi (by rw [hd]; simp) (quiet_one trivial) rfl rfl rfl rfl rfl
          · next hd => cases h; exact .late c i x r k [] hx hp hi (by rw [hd]; simp) quiet_nil rfl rfl rfl (by simp [State.setPc, State.setInst]) rfl
        · cases h
      next => cases h
    next => cases h
  | done c =>
    simp only [live, done] at h
    split at h
    next x hx =>
      have key : ∀ r i k w, x.pc = .writing r i k w → w ≠ .todo → (s.joined c i = true ∨ w = .taken) → s' = s.advance c x r i k → Case s s' := by
        intro r i k w hp hw hj h
        unfold State.advance at h
        split at h
        · next hk => exact .advanced c i x r k w hx hp hw hk h
        · next hk => exact .finished c i x r k w hx hp hw hj hk h
      split at h
      next r i k hp =>
        split at h
        · next hj => cases h; exact key r i k _ hp (by decide) (.inl hj) rfl
        · cases h
      next r i k hp => cases h; exact key r i k _ hp (by decide) (.inr rfl) rfl
      next => cases h
    next => cases h
  | fail c =>
    simp only [live, fail] at h
    split at h
    next x hx =>
      split at h
      next => cases h
      next r i k w hw hp =>
        split at h
        · cases h
        · next hj =>
          cases h
          refine .move c x (.opening r) [] hx (fun r' i' k' he => ?_) (by rw [hp]; intros; simp) (fun r' i' k' w' he => ?_) (.inl ⟨quiet_nil, .inr ⟨r, rfl⟩⟩) rfl rfl rfl (by simp [State.setPc]) rfl
          · rw [hp] at he; cases he; exact hw rfl
          · rw [hp] at he; cases he; exact Bool.not_eq_true _ ▸ hj
      next => cases h
    next => cases h
  | ask => cases h; exact .quiet [.avail s.listening] (quiet_one trivial) rfl rfl rfl rfl (fun i => Stage.le_refl _)

end Maf.Pipe

namespace Maf.Pipe

variable {logs : Bool}

/-! ### Instances and their clients -/

/-- messages `a` to `b - 1` of a script -/
def items (script : List (List Nat)) (a b : Nat) : List (Nat × List Nat) := (List.range' a (b - a)).map fun k => (k, script.getD k [])

theorem items_nil (script : List (List Nat)) (a : Nat) : items script a a = [] := by simp [items]

theorem items_cons {script : List (List Nat)} {a b k : Nat} {m : List Nat} {rest : List (Nat × List Nat)} (h : items script a b = (k, m) :: rest) :
    k = a ∧ m = script.getD a [] ∧ a < b ∧ rest = items script (a + 1) b := by
  unfold items at h ⊢
  cases hn : b - a with
  | zero => rw [hn] at h; simp at h
  | succ n =>
    rw [hn, List.range'_succ, List.map_cons, List.cons.injEq, Prod.mk.injEq] at h
    refine ⟨h.1.1.symm, h.1.2.symm, by omega, ?_⟩
    rw [← h.2, show b - (a + 1) = n by omega]

theorem items_snoc {script : List (List Nat)} {a b : Nat} (h : a ≤ b) : items script a b ++ [(b, script.getD b [])] = items script a (b + 1) := by
  unfold items
  rw [show b + 1 - a = (b - a) + 1 by omega, List.range'_concat, List.map_append, List.map_singleton]
  rw [show a + 1 * (b - a) = b by omega]

theorem items_empty {script : List (List Nat)} {a b : Nat} (h : items script a b = []) (hab : a ≤ b) : a = b := by
  have := congrArg List.length h
  simp [items] at this; omega

/-- how many messages were handed to the pipe -/
def sentTo (k : Nat) (w : Wr) : Nat := if w = .todo then k else k + 1

/-- What is known at a stage. -/
def okAt (st : Stage) (script : List (List Nat)) (x : Inst) : Prop :=
  match st with
  | .away => x.nread = 0 ∧ x.pend = none
  | .header => x.nread = 0 ∧ x.pend = none
  | .body n => x.nread = 1 ∧ x.pend = none ∧ n = dec (script.getD 0 []) ∧ (script.getD 0 []).length = 4
  | .leaving => True
  | .stuck => True

theorem okAt_le {a b : Stage} {script : List (List Nat)} {x : Inst} (h : a.le b) (ho : okAt a script x) : okAt b script x := by
  rcases h with rfl | rfl | rfl | ⟨rfl, rfl⟩
  · exact ho
  · trivial
  · trivial
  · exact ho

/-- An instance opened by call `c`. -/
structure Joint (script : List (List Nat)) (p : SPc) (i : Nat) (l : Bool) (x : Inst) (n : Nat) : Prop where
  box : x.box = items script x.nread n
  le : x.nread ≤ n
  pend : x.pend ≠ none → x.nread = n
  open_ : l = true → ∃ r k w, p = .writing r i k w ∧ n = sentTo k w ∧ (w = .taken → x.nread = n) ∧ k < max 1 script.length
  shut : l = false → p = .ended .success ∧ n = max 1 script.length

def Linked (s : State) (i c : Nat) (l : Bool) : Prop :=
  ∃ x n, s.snds c = some x ∧ Joint x.script x.pc i l (s.insts i) n ∧ okAt (stage s.pc i) x.script (s.insts i)

structure Inv (s : State) : Prop where
  bare : ∀ i, (∀ c l, (s.insts i).side ≠ .conn c l) → (s.insts i).box = [] ∧ (s.insts i).pend = none ∧ (s.insts i).nread = 0
  link : ∀ i c l, (s.insts i).side = .conn c l → Linked s i c l
  uniq : ∀ i j c l l', (s.insts i).side = .conn c l → (s.insts j).side = .conn c l' → i = j
  new : ∀ c, s.next ≤ c → s.snds c = none
  /-- an instance that waits for a client is not being read -/
  idle : ∀ i, (s.insts i).side = .listen → ∀ n, stage s.pc i ≠ .body n
  /-- a call that is writing message `k` has a message `k`, or none at all -/
  wr : ∀ c x r i k w, s.snds c = some x → x.pc = .writing r i k w → k < max 1 x.script.length

theorem le_body {a : Stage} {n : Nat} (h : a.le (.body n)) : a = .body n := by
  rcases h with rfl | h | h | ⟨-, h⟩
  · rfl
  all_goals cases h

theorem inv_start : Inv State.start where
  bare := fun _ _ => ⟨rfl, rfl, rfl⟩
  link := fun _ _ _ h => by cases h
  uniq := fun _ _ _ _ _ h => by cases h
  new := fun _ _ => rfl
  idle := fun _ h => by cases h
  wr := fun _ _ _ _ _ _ h => by cases h

/-- A call that is not connected is the client of no instance. -/
theorem noConn_of {s : State} (hI : Inv s) {c : Nat} {x : Snd} (hx : s.snds c = some x) (he : x.pc ≠ .ended .success)
    (hj : ∀ r i k w, x.pc = .writing r i k w → s.joined c i = false) : NoConn s c := by
  intro i l hi
  obtain ⟨y, n, hy, hJ, -⟩ := hI.link i c l hi
  rw [hx] at hy; cases hy
  cases l with
  | true =>
    obtain ⟨r, k, w, hp, -⟩ := hJ.open_ rfl
    have := hj r i k w hp
    unfold State.joined at this; rw [hi] at this; simp at this
  | false => exact he (hJ.shut rfl).1

/-- `Linked` survives when neither the instance nor its client changes. -/
theorem Linked.keep {s s' : State} {i c : Nat} {l : Bool} (h : Linked s i c l) (h1 : s'.insts i = s.insts i) (h2 : s'.snds c = s.snds c)
    (h3 : (stage s.pc i).le (stage s'.pc i)) : Linked s' i c l := by
  obtain ⟨x, n, hx, hJ, ho⟩ := h
  exact ⟨x, n, by rw [h2, hx], by rw [h1]; exact hJ, by rw [h1]; exact okAt_le h3 ho⟩

theorem take_script (x : Snd) (k : Nat) : (x.take k).script = x.script := by
  unfold Snd.take; split
  · split <;> rfl
  · rfl

theorem take_pc (x : Snd) (k : Nat) : (x.take k).pc = x.pc ∨ ∃ r i, x.pc = .writing r i k .posted ∧ (x.take k).pc = .writing r i k .taken := by
  unfold Snd.take; split
  · next r i j hp =>
    split
    · next hk => subst hk; exact .inr ⟨r, i, hp, rfl⟩
    · exact .inl rfl
  · exact .inl rfl

/-- A call that is nobody's client moves on. -/
theorem inv_snd {s s' : State} (hI : Inv s) {c : Nat} (hnc : NoConn s c) (h1 : s'.insts = s.insts) (h2 : ∀ c', c' ≠ c → s'.snds c' = s.snds c')
    (hx : s.snds c ≠ none) (h3 : s'.next = s.next) (hs : ∀ j, (stage s.pc j).le (stage s'.pc j))
    (hw : ∀ x r i k w, s'.snds c = some x → x.pc = .writing r i k w → k < max 1 x.script.length) : Inv s' := by
  refine ⟨by rw [h1]; exact hI.bare, ?_, by rw [h1]; exact hI.uniq, ?_, (fun j hj n hb => hI.idle j (h1 ▸ hj) n (le_body (hb ▸ hs j))), ?_⟩
  · intro j c' l hj
    rw [h1] at hj
    have hc : c' ≠ c := fun e => hnc j l (e ▸ hj)
    exact (hI.link j c' l hj).keep (by rw [h1]) (h2 c' hc) (hs j)
  · intro c' hc'
    rw [h3] at hc'
    have hc : c' ≠ c := by rintro rfl; exact hx (hI.new c' hc')
    rw [h2 c' hc]; exact hI.new c' hc'
  · intro c' y r i k w hy hpc
    by_cases hc : c' = c
    · subst hc; exact hw y r i k w hy hpc
    · rw [h2 c' hc] at hy; exact hI.wr c' y r i k w hy hpc

/-- Call `c` and its instance `i` change. -/
theorem inv_at {s s' : State} (hI : Inv s) {i c : Nat} {l' : Bool} {X : Inst} (h1 : s'.insts = upd s.insts i X) (hX : X.side = .conn c l')
    (ho : (∃ l, (s.insts i).side = .conn c l) ∨ ((∀ c l, (s.insts i).side ≠ .conn c l) ∧ NoConn s c))
    (h2 : ∀ c', c' ≠ c → s'.snds c' = s.snds c') (hx : s.snds c ≠ none) (h3 : s'.next = s.next)
    (hs : ∀ j, j ≠ i → (stage s.pc j).le (stage s'.pc j)) (hL : Linked s' i c l')
    (hw : ∀ x r i k w, s'.snds c = some x → x.pc = .writing r i k w → k < max 1 x.script.length) : Inv s' := by
  -- no other instance is opened by `c`
  have hoth : ∀ j, j ≠ i → ∀ l, (s.insts j).side ≠ .conn c l := by
    intro j hj l hc
    rcases ho with ⟨l0, h0⟩ | ⟨-, h0⟩
    · exact hj (hI.uniq j i c l l0 hc h0)
    · exact h0 j l hc
  have hside : ∀ j, j ≠ i → s'.insts j = s.insts j := fun j hj => by rw [h1, upd_ne hj]
  have hi' : (s'.insts i).side = .conn c l' := by rw [h1, upd_same]; exact hX
  refine ⟨?_, ?_, ?_, ?_, ?_, ?_⟩
  rotate_left 4
  · intro j hj n hb
    by_cases hji : j = i
    · subst hji; rw [hi'] at hj; cases hj
    · rw [hside j hji] at hj; exact hI.idle j hj n (le_body (hb ▸ hs j hji))
  rotate_left 1
  · intro j hj
    by_cases hji : j = i
    · subst hji; exact absurd hi' (hj c l')
    · rw [hside j hji] at hj ⊢; exact hI.bare j hj
  · intro j c' l hj
    by_cases hji : j = i
    · subst hji; rw [hi'] at hj; cases hj; exact hL
    · rw [hside j hji] at hj
      have hc : c' ≠ c := fun e => hoth j hji l (e ▸ hj)
      exact (hI.link j c' l hj).keep (hside j hji) (h2 c' hc) (hs j hji)
  · intro j j' c' l l2 hj hj'
    by_cases hji : j = i
    · by_cases hji' : j' = i
      · rw [hji, hji']
      · subst hji; rw [hi'] at hj; cases hj
        rw [hside j' hji'] at hj'; exact absurd hj' (hoth j' hji' l2)
    · by_cases hji' : j' = i
      · subst hji'; rw [hi'] at hj'; cases hj'
        rw [hside j hji] at hj; exact absurd hj (hoth j hji l)
      · rw [hside j hji] at hj; rw [hside j' hji'] at hj'
        exact hI.uniq j j' c' l l2 hj hj'
  · intro c' hc'
    rw [h3] at hc'
    have hc : c' ≠ c := by rintro rfl; exact hx (hI.new c' hc')
    rw [h2 c' hc]; exact hI.new c' hc'
  · intro c' y r i k w hy hpc
    by_cases hc : c' = c
    · subst hc; exact hw y r i k w hy hpc
    · rw [h2 c' hc] at hy; exact hI.wr c' y r i k w hy hpc

theorem inv_move {s s' : State} (hI : Inv s) {c : Nat} {x : Snd} {p : SPc} (hnc : NoConn s c) (hx : s.snds c = some x)
    (h1 : s'.insts = s.insts) (h2 : s'.snds = upd s.snds c (some { x with pc := p })) (h3 : s'.next = s.next) (h5 : s'.pc = s.pc)
    (hp : ∀ r i k w, p = .writing r i k w → k < max 1 x.script.length) : Inv s' := by
  refine inv_snd hI hnc h1 (fun c' hc => by rw [h2, upd_ne hc]) (by rw [hx]; simp) h3 (fun j => by rw [h5]; exact Stage.le_refl _) ?_
  intro y r i k w hy hpc
  rw [h2, upd_same] at hy; cases hy; exact hp r i k w hpc

/-- Call `c` and its instance `i` change, not the receiver. -/
theorem inv_both {s s' : State} (hI : Inv s) {i c n : Nat} {l' : Bool} {X : Inst} {x : Snd} {p : SPc} (hx : s.snds c = some x)
    (h1 : s'.insts = upd s.insts i X) (hX : X.side = .conn c l')
    (ho : (∃ l, (s.insts i).side = .conn c l) ∨ ((∀ c l, (s.insts i).side ≠ .conn c l) ∧ NoConn s c))
    (h2 : s'.snds = upd s.snds c (some { x with pc := p })) (h3 : s'.next = s.next) (h5 : s'.pc = s.pc)
    (hJ : Joint x.script p i l' X n) (hok : okAt (stage s.pc i) x.script X)
    (hp : ∀ r i k w, p = .writing r i k w → k < max 1 x.script.length) : Inv s' := by
  refine inv_at hI h1 hX ho (fun c' hc => by rw [h2, upd_ne hc]) (by rw [hx]; simp) h3 (fun j _ => by rw [h5]; exact Stage.le_refl _) ?_ ?_
  · exact ⟨{ x with pc := p }, n, by rw [h2, upd_same], by rw [h1, upd_same]; exact hJ, by rw [h1, upd_same, h5]; exact hok⟩
  · intro y r i k w hy hpc
    rw [h2, upd_same] at hy; cases hy; exact hp r i k w hpc

/-- If the client is not what it was for the stage, nothing but the stage matters. -/
theorem stage_tended {s : State} (hI : Inv s) {i c : Nat} {l : Bool} (hi : (s.insts i).side = .conn c l) (h : (s.insts i).pend ≠ none) :
    stage s.pc i = .leaving ∨ stage s.pc i = .stuck := by
  obtain ⟨x, n, -, -, ho⟩ := hI.link i c l hi
  cases hst : stage s.pc i with
  | away => rw [hst] at ho; exact absurd ho.2 h
  | header => rw [hst] at ho; exact absurd ho.2 h
  | body n => rw [hst] at ho; exact absurd ho.2.1 h
  | leaving => exact .inl rfl
  | stuck => exact .inr rfl

theorem inv_case {s s' : State} (hI : Inv s) (h : Case s s') : Inv s' := by
  cases h with
  | quiet es he h1 h2 h3 h4 hs =>
    refine ⟨by rw [h1]; exact hI.bare, ?_, by rw [h1]; exact hI.uniq, by rw [h2, h3]; exact hI.new, ?_, by rw [h2]; exact hI.wr⟩
    rotate_left 1
    · intro i hi n hb; rw [h1] at hi; exact hI.idle i hi n (le_body (hb ▸ hs i))
    intro i c l hi
    rw [h1] at hi
    exact (hI.link i c l hi).keep (by rw [h1]) (by rw [h2]) (hs i)
  | free i sd hsd h1 h2 h3 h4 hs hst =>
    have hnc : ∀ c l, sd ≠ .conn c l := by rcases hsd with rfl | rfl <;> (intro c l h; cases h)
    have hside : ∀ j c l, (s'.insts j).side = .conn c l → j ≠ i ∧ (s.insts j).side = .conn c l := by
      intro j c l hj
      by_cases hji : j = i
      · subst hji; rw [h1, upd_same] at hj; exact absurd hj (hnc c l)
      · rw [h1, upd_ne hji] at hj; exact ⟨hji, hj⟩
    refine ⟨?_, ?_, ?_, by rw [h2, h3]; exact hI.new, ?_, by rw [h2]; exact hI.wr⟩
    rotate_left 3
    · intro j hj n hb
      by_cases hji : j = i
      · subst hji; rw [hst] at hb; cases hb
      · rw [h1, upd_ne hji] at hj; exact hI.idle j hj n (le_body (hb ▸ hs j hji))
    · intro j hj
      by_cases hji : j = i
      · subst hji; rw [h1, upd_same]; exact ⟨rfl, rfl, rfl⟩
      · rw [h1, upd_ne hji] at hj ⊢; exact hI.bare j hj
    · intro j c l hj
      obtain ⟨hji, hj⟩ := hside j c l hj
      exact (hI.link j c l hj).keep (by rw [h1, upd_ne hji]) (by rw [h2]) (hs j hji)
    · intro j j' c l l' hj hj'
      exact hI.uniq j j' c l l' (hside j c l hj).2 (hside j' c l' hj').2
  | stop es he h1 h2 h3 h4 =>
    refine ⟨?_, ?_, ?_, by rw [h2, h3]; exact hI.new, (fun j hj => by rw [h1] at hj; cases hj), by rw [h2]; exact hI.wr⟩
    · intro j _; rw [h1]; exact ⟨rfl, rfl, rfl⟩
    · intro j c l hj; rw [h1] at hj; cases hj
    · intro j j' c l l' hj; rw [h1] at hj; cases hj
  | send b h => exact new_inv hI h
  | rogue ms h => exact new_inv hI h
  | move c x p es hx hn he hj hp h1 h2 h3 h4 h5 =>
    refine inv_move hI (noConn_of hI hx (he _) hj) hx h1 h2 h3 h5 ?_
    intro r i k w hpc
    rcases hp with ⟨-, ⟨t, rfl⟩ | ⟨t, rfl⟩⟩ | ⟨q, r, -, -, -, rfl⟩ <;> cases hpc
  | opened c i x r hx hp hi h =>
    subst h
    have hnc : NoConn s c := noConn_of hI hx (by rw [hp]; simp) (by rw [hp]; intro r i k w h; cases h)
    have hfree : ∀ c l, (s.insts i).side ≠ .conn c l := by rw [hi]; intro c l h; cases h
    -- a free instance is not being tended, or it does not matter
    have hok : okAt (stage s.pc i) x.script ⟨.conn c true, [], none, 0⟩ := by
      have := hI.idle i hi
      cases hst : stage s.pc i with
      | away => exact ⟨rfl, rfl⟩
      | header => exact ⟨rfl, rfl⟩
      | body n => exact absurd hst (this n)
      | leaving => trivial
      | stuck => trivial
    refine inv_both (n := 0) hI hx rfl rfl (.inr ⟨hfree, hnc⟩) rfl rfl rfl ?_ hok ?_
    · exact ⟨(items_nil _ _).symm, Nat.le_refl _, fun _ => rfl, fun _ => ⟨r, 0, .todo, rfl, rfl, fun h => (by cases h), by omega⟩, fun h => by cases h⟩
    · intro r i k w h; cases h; omega
  | posted c i x r k hx hp hi hd h =>
    subst h
    obtain ⟨y, n, hy, hJ, ho⟩ := hI.link i c true hi
    rw [hx] at hy; cases hy
    obtain ⟨r', k', w', hp', hn, -, hk⟩ := hJ.open_ rfl
    rw [hp] at hp'; cases hp'
    have hnk : n = k := hn
    subst hnk
    refine inv_both (n := n + 1) hI hx rfl hi (.inl ⟨true, hi⟩) rfl rfl rfl ?_ ?_ ?_
    · refine ⟨?_, Nat.le_succ_of_le hJ.le, fun h => absurd hd h, fun _ => ⟨r, n, .posted, rfl, rfl, fun h => (by cases h), hk⟩, fun h => by cases h⟩
      show (s.insts i).box ++ _ = _
      rw [hJ.box, items_snoc hJ.le]
    · revert ho; cases stage s.pc i <;> exact id
    · intro r i k w h; cases h; exact hk
  | late c i x r k es hx hp hi hd he h1 h2 h3 h4 h5 =>
    obtain ⟨y, n, hy, hJ, ho⟩ := hI.link i c true hi
    rw [hx] at hy; cases hy
    obtain ⟨r', k', w', hp', hn, -, hk⟩ := hJ.open_ rfl
    rw [hp] at hp'; cases hp'
    have hnk : n = k := hn
    subst hnk
    have hrd := hJ.pend hd
    refine inv_both (n := n + 1) hI hx h1 hi (.inl ⟨true, hi⟩) h2 h3 h5 ?_ ?_ ?_
    · refine ⟨?_, Nat.succ_le_succ hJ.le, fun _ => ?_, fun _ => ⟨r, n, .taken, rfl, rfl, fun _ => ?_, hk⟩, fun h => by cases h⟩
      · show (s.insts i).box = items _ ((s.insts i).nread + 1) _
        rw [hJ.box, hrd, items_nil, items_nil]
      · show (s.insts i).nread + 1 = _; rw [hrd]
      · show (s.insts i).nread + 1 = _; rw [hrd]
    · rcases stage_tended hI hi hd with h | h <;> rw [h] <;> trivial
    · intro r i k w h; cases h; exact hk
  | advanced c i x r k w hx hp hw hk h =>
    subst h
    have hnew : ∀ r' i' k' w', SPc.writing r i (k + 1) .todo = .writing r' i' k' w' → k' < max 1 x.script.length := by
      intro r' i' k' w' h; cases h; omega
    by_cases hj : s.joined c i = true
    · have hi : (s.insts i).side = .conn c true := by unfold State.joined at hj; exact eq_of_beq hj
      obtain ⟨y, n, hy, hJ, ho⟩ := hI.link i c true hi
      rw [hx] at hy; cases hy
      obtain ⟨r', k', w', hp', hn, -, -⟩ := hJ.open_ rfl
      rw [hp] at hp'; cases hp'
      have hnk : n = k + 1 := by rw [hn]; unfold sentTo; rw [if_neg hw]
      subst hnk
      refine inv_both (n := k + 1) (X := s.insts i) hI hx (upd_self _ _).symm hi (.inl ⟨true, hi⟩) rfl rfl rfl ?_ ho hnew
      exact ⟨hJ.box, hJ.le, hJ.pend, fun _ => ⟨r, k + 1, .todo, rfl, rfl, fun h => (by cases h), by omega⟩, fun h => by cases h⟩
    · refine inv_move hI (noConn_of hI hx (by rw [hp]; simp) ?_) hx rfl rfl rfl rfl hnew
      intro r' i' k' w' h; rw [hp] at h; cases h; exact (Bool.not_eq_true _).mp hj
  | finished c i x r k w hx hp hw hj hk h =>
    subst h
    by_cases hj : s.joined c i = true
    · have hi : (s.insts i).side = .conn c true := by unfold State.joined at hj; exact eq_of_beq hj
      obtain ⟨y, n, hy, hJ, ho⟩ := hI.link i c true hi
      rw [hx] at hy; cases hy
      obtain ⟨r', k', w', hp', hn, -, hk'⟩ := hJ.open_ rfl
      rw [hp] at hp'; cases hp'
      have hnk : n = k + 1 := by rw [hn]; unfold sentTo; rw [if_neg hw]
      subst hnk
      have hc : s.close c i = s.setInst i { s.insts i with side := .conn c false } := by unfold State.close; rw [if_pos hj]
      rw [hc]
      refine inv_both (n := k + 1) (X := { s.insts i with side := .conn c false }) hI hx rfl rfl (.inl ⟨true, hi⟩) rfl rfl rfl ?_ ?_ (fun r i k w h => by cases h)
      · exact ⟨hJ.box, hJ.le, hJ.pend, fun h => (by cases h), fun _ => ⟨rfl, by omega⟩⟩
      · revert ho; cases stage s.pc i <;> exact id
    · have hc : s.close c i = s := by unfold State.close; rw [if_neg hj]
      rw [hc]
      refine inv_move hI (noConn_of hI hx (by rw [hp]; simp) ?_) hx rfl rfl rfl rfl (fun r i k w h => by cases h)
      intro r' i' k' w' h; rw [hp] at h; cases h; exact (Bool.not_eq_true _).mp hj
  | read i c l k m rest es hi hb h1 h2 h3 h4 hs hs' =>
    obtain ⟨x, n, hx, hJ, ho⟩ := hI.link i c l hi
    obtain ⟨hka, hm, hlt, hrest⟩ := items_cons (hJ.box.symm.trans hb)
    have hsnd : s'.snds c = some (x.take k) := by
      rw [h2]; show upd s.snds c _ c = _; rw [upd_same, hx]; rfl
    refine inv_at hI h1 hi (.inl ⟨l, hi⟩) (fun c' hc => by rw [h2]; exact upd_ne hc) (by rw [hx]; simp) h3 hs' ?_ ?_
    · refine ⟨x.take k, n, hsnd, ?_, ?_⟩
      · rw [h1, upd_same, take_script]
        refine ⟨hrest, hlt, fun h => ?_, fun h => ?_, fun h => ?_⟩
        · have := hJ.pend h
          omega
        · obtain ⟨r, k0, w, hp, hn, hw, hk⟩ := hJ.open_ h
          rcases take_pc x k with e | ⟨r', i', e1, e2⟩
          · refine ⟨r, k0, w, e.trans hp, hn, fun e' => ?_, hk⟩
            have := hw e'; omega
          · rw [hp] at e1; cases e1
            refine ⟨r, k, .taken, e2, hn, fun _ => ?_, hk⟩
            show (s.insts i).nread + 1 = n
            rw [hn, ← hka]; rfl
        · obtain ⟨e, hn⟩ := hJ.shut h
          refine ⟨?_, hn⟩
          unfold Snd.take; rw [e]; exact e
      · rw [h1, upd_same, take_script]
        rcases hs with ⟨-, h⟩ | ⟨-, hh, h4, h⟩ | ⟨-, -, h⟩
        · rw [h]; trivial
        · rw [h]; rw [hh] at ho
          have h0 : (s.insts i).nread = 0 := ho.1
          refine ⟨?_, ho.2, ?_, ?_⟩
          · show (s.insts i).nread + 1 = 1; rw [h0]
          · rw [hm, h0]
          · rw [hm, h0] at h4; exact h4
        · rw [h]; trivial
    · intro y r i' k' w hy hpc
      rw [hsnd] at hy; cases hy
      rw [take_script]
      rcases take_pc x k with e | ⟨r', i'', e1, e2⟩
      · exact hI.wr c x r i' k' w hx (e ▸ hpc)
      · rw [e2] at hpc; cases hpc; exact hI.wr c x _ _ _ _ hx e1
  | pend i c l p es hi hb h1 h2 h3 h4 hs hl hs' =>
    obtain ⟨x, n, hx, hJ, ho⟩ := hI.link i c l hi
    have hz := items_empty (hJ.box.symm.trans hb) hJ.le
    refine inv_at hI h1 hi (.inl ⟨l, hi⟩) (fun c' hc => by rw [h2]) (by rw [hx]; simp) h3 hs' ?_ (fun y r i k w hy => by rw [h2] at hy; exact hI.wr c y r i k w hy)
    refine ⟨x, n, by rw [h2, hx], ?_, by rw [hl]; trivial⟩
    rw [h1, upd_same]
    exact ⟨hJ.box, hJ.le, fun _ => hz, hJ.open_, hJ.shut⟩
where
  new_inv {s s' : State} {script : List (List Nat)} {e : Ev} (hI : Inv s) (h : s' = newCall s script e) : Inv s' := by
    subst h
    have hnc : NoConn s s.next := by
      intro i l hi
      obtain ⟨x, n, hx, -⟩ := hI.link i _ l hi
      rw [hI.new s.next (Nat.le_refl _)] at hx; cases hx
    refine ⟨hI.bare, ?_, hI.uniq, ?_, hI.idle, ?_⟩
    · intro j c l hj
      have hc : c ≠ s.next := fun e => hnc j l (e ▸ hj)
      exact (hI.link j c l hj).keep rfl (upd_ne hc) (Stage.le_refl _)
    · intro c hc
      show upd s.snds s.next _ c = none
      rw [upd_ne (by simp [newCall] at hc; omega)]; exact hI.new c (by simp [newCall] at hc; omega)
    · intro c y r i k w hy hpc
      by_cases hc : c = s.next
      · subst hc; rw [show (newCall s script e).snds = upd s.snds s.next _ from rfl, upd_same] at hy; cases hy; cases hpc
      · rw [show (newCall s script e).snds = upd s.snds s.next _ from rfl, upd_ne hc] at hy; exact hI.wr c y r i k w hy hpc

end Maf.Pipe
