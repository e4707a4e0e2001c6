import Verif.Lemmas.EndToEnd
import Verif.Lemmas.Hist
/-
C86: requests from end to end.
-/
namespace Maf.E2E

/-! ### Specification -/

/-- Reached from the beginning through states that all satisfy `P`. -/
inductive Reach (P : State → Prop) : State → Prop where
  | init : Reach P State.init
  | step {s s' a} : Reach P s → P s → step s a = some s' → Reach P s'

/-- Every history. -/
abbrev Reachable : State → Prop := Reach fun _ => True

/-- Client `c`'s request `(op, id)` is open at the service, or its abort is on its way. -/
def Busy (s : State) (c op id : Nat) : Prop :=
  .abort op id ∈ (s.clients c).up ∨ ∃ h ∈ s.open_, ∃ g, s.handles[h]? = some g ∧ g.client = c ∧ g.op = op ∧ g.id = id

/-- No two clients have requests of the same operation with the same id at the same time. (Ids are counted by each client.) -/
def Apart (s : State) : Prop := ∀ c c' op id, Busy s c op id → Busy s c' op id → c = c'

/-- Nothing is on its way from or to client `c`. -/
def Quiet (s : State) (c : Nat) : Prop := (s.clients c).up = [] ∧ (s.clients c).down = []

/-! ### The invariants hold -/

structure Inv (s : State) : Prop where
  flow : Flow s
  hnd : Hnd s
  ent : Ent s
  src : Src s
  done : Done s
  abt : Abt s

theorem inv_init : Inv State.init := ⟨flow_init, hnd_init, ent_init, src_init, done_init, abt_init⟩

theorem inv_move {s s' : State} (hi : Inv s) (hm : Move s s') : Inv s' :=
  ⟨flow_move hi.flow hm, hnd_move hi.flow hi.hnd hm, ent_move hi.flow hi.ent hm, src_move hi.hnd hi.src hm, done_move hi.flow hi.hnd hi.ent hi.done hm, abt_move hi.flow hi.ent hi.abt hm⟩

theorem Reach.inv {P : State → Prop} {s : State} (h : Reach P s) : Inv s := by
  induction h with
  | init => exact inv_init
  | step _ _ hs ih => exact inv_move ih (step_move hs)

/-! ### If requests are apart -/

structure Sep (s : State) : Prop where
  state : ∀ (h : Nat) (g : Handle), s.handles[h]? = some g → h ∈ s.open_ ∨ (∃ y, .responded h y true ∈ s.log) ∨ .told h ∈ s.log
  told : ∀ (h : Nat) (g : Handle), .told h ∈ s.log → s.handles[h]? = some g → .aborted g.client g.op g.id ∈ s.log
  closed : ∀ h y, .responded h y true ∈ s.log → h ∉ s.open_
  once : ∀ h y y', .responded h y true ∈ s.log → .responded h y' true ∈ s.log → y = y'
  value : ∀ (h y : Nat) (g : Handle), .responded h y true ∈ s.log → s.handles[h]? = some g →
    ⟨g.op, g.id, .value y, true⟩ ∈ (s.clients g.client).down ∨ .called g.client g.op g.id (.value y) true ∈ s.log ∨ .aborted g.client g.op g.id ∈ s.log
  ended : ∀ c op id, .aborted c op id ∈ s.log → .abort op id ∈ (s.clients c).up ∨
    ((∀ (h : Nat) (g : Handle), s.handles[h]? = some g → g.client = c → g.op = op → g.id = id → h ∉ s.open_) ∧ ∀ x, .req op id x ∉ (s.clients c).up)

theorem sep_init : Sep State.init := ⟨by simp [State.init], by simp [State.init], by simp [State.init], by simp [State.init], by simp [State.init], by simp [State.init]⟩

/-- The request that is looked up for a message of client `c` is this client's. -/
theorem found_own {s : State} (hi : Inv s) (ha : Apart s) {c op id k : Nat} (hb : Busy s c op id) (hf : find s op id = some k) : ∃ g, s.handles[k]? = some g ∧ g.client = c ∧ g.op = op ∧ g.id = id ∧
    ∀ (h : Nat) (g' : Handle), s.handles[h]? = some g' → g'.client = c → g'.id = id → h = k := by
  obtain ⟨ho, g, hg, h1, h2⟩ := find_spec hf
  have hc : g.client = c := ha _ _ op id (.inr ⟨k, ho, g, hg, rfl, h1, h2⟩) hb
  exact ⟨g, hg, hc, h1, h2, fun h g' hg' hc' hid' => hi.hnd.uniq h k g' g hg' hg (by rw [hc', hc]) (by rw [hid', h2])⟩

theorem found_self {s : State} (hi : Inv s) (ha : Apart s) {h k : Nat} {g : Handle} (hg : s.handles[h]? = some g) (ho : h ∈ s.open_) (hf : find s g.op g.id = some k) : k = h := by
  obtain ⟨_, _, _, _, _, hu⟩ := found_own hi ha (c := g.client) (.inr ⟨h, ho, g, hg, rfl, rfl, rfl⟩) hf
  exact (hu h g hg rfl rfl).symm

theorem down_add {s : State} {c k : Nat} {v : Client} {m m' : Down} (hv : v.down = (s.clients c).down ++ [m']) (h : m ∈ (s.clients k).down) : m ∈ (upd s.clients c v k).down := by
  unfold upd; split
  · rename_i hk; rw [hv, ← hk]; exact List.mem_append_left _ h
  · exact h

theorem sep_move {s s' : State} (hi : Inv s) (ha : Apart s) (hp : Sep s) (hm : Move s s') : Sep s' := by
  have hlog : ∀ {e : Ev}, e ∈ s.log → e ∈ s'.log := fun h => move_log_sub hm h
  have back : ∀ {h : Nat} {g : Handle}, h < s.handles.length → s'.handles[h]? = some g → s.handles[h]? = some g := fun h1 h2 => move_handles_back hm h1 h2
  have openOld : ∀ {h : Nat}, h < s.handles.length → h ∈ s'.open_ → h ∈ s.open_ := by
    intro h hlt ho
    cases hm with
    | handled c op id x rest hu =>
      rcases List.mem_append.1 ho with ho | ho
      · exact ho
      · simp at ho; omega
    | told => exact List.mem_of_mem_erase ho
    | responded => exact List.mem_of_mem_erase ho
    | _ => exact ho
  refine ⟨fun h g hg => ?_, fun h g ht hg => ?_, fun h y hr => ?_, fun h y y' h1 h2 => ?_, fun h y g hr hg => ?_, fun c op id hab => ?_⟩
  · -- state
    by_cases hlt : h < s.handles.length
    · rcases hp.state h g (back hlt hg) with h1 | ⟨y, h1⟩ | h1
      · cases hm with
        | handled c op id x rest hu => exact .inl (List.mem_append_left _ h1)
        | told c op id rest k hu hf =>
          by_cases hk : h = k
          · subst hk; exact .inr (.inr (by simp))
          · exact .inl ((List.mem_erase_of_ne hk).2 h1)
        | responded h' y g' k hg' ho hf =>
          have := found_self hi ha hg' ho hf
          subst this
          by_cases hk : h = k
          · subst hk; exact .inr (.inl ⟨y, by simp⟩)
          · exact .inl ((List.mem_erase_of_ne hk).2 h1)
        | _ => exact .inl h1
      · exact .inr (.inl ⟨y, hlog h1⟩)
      · exact .inr (.inr (hlog h1))
    · cases hm with
      | handled c op id x rest hu =>
        rcases get_snoc.1 hg with hg | ⟨rfl, -⟩
        · exact absurd (List.getElem?_eq_some_iff.1 hg).1 hlt
        · exact .inl (by simp)
      | _ => exact absurd (List.getElem?_eq_some_iff.1 hg).1 hlt
  · -- told
    by_cases hold : .told h ∈ s.log
    · exact hlog (hp.told h g hold (back (hi.done.toldLt h hold) hg))
    · have hl := move_new hm ht hold
      cases hm <;> first
        | (exfalso; simp at hl; done)
        | skip
      rename_i c op id rest k hu hf
      simp only [List.append_cancel_left_eq, List.cons.injEq, Ev.told.injEq, and_true] at hl
      subst hl
      have hmem : Up.abort op id ∈ (s.clients c).up := by rw [hu]; exact List.mem_cons_self ..
      obtain ⟨g', hg', h1, h2, h3, -⟩ := found_own hi ha (.inl hmem) hf
      have : g' = g := by rw [hg'] at hg; cases hg; rfl
      subst this
      rw [h1, h2, h3]
      exact hlog (hi.abt.known c op id hmem)
  · -- closed
    by_cases hold : .responded h y true ∈ s.log
    · exact fun ho => hp.closed h y hold (openOld (hi.done.lt h y true hold) ho)
    · have hl := move_new hm hr hold
      cases hm <;> first
        | (exfalso; simp at hl; done)
        | skip
      rename_i h' y' g' k hg' ho hf
      simp only [List.append_cancel_left_eq, List.cons.injEq, Ev.responded.injEq, and_true] at hl
      obtain ⟨rfl, rfl⟩ := hl
      have := found_self hi ha hg' ho hf
      subst this
      simp [hi.hnd.nodup.mem_erase_iff]
  · -- once
    have key : ∀ y1 y2, .responded h y1 true ∈ s'.log → .responded h y1 true ∉ s.log → .responded h y2 true ∈ s.log → False := by
      intro y1 y2 hn hno hold
      have hl := move_new hm hn hno
      cases hm <;> first
        | (exfalso; simp at hl; done)
        | skip
      rename_i h' y' g' k hg' ho hf
      simp only [List.append_cancel_left_eq, List.cons.injEq, Ev.responded.injEq, and_true] at hl
      obtain ⟨rfl, rfl⟩ := hl
      exact hp.closed _ _ hold ho
    by_cases o1 : .responded h y true ∈ s.log <;> by_cases o2 : .responded h y' true ∈ s.log
    · exact hp.once h y y' o1 o2
    · exact absurd (key y' y h2 o2 o1) id
    · exact absurd (key y y' h1 o1 o2) id
    · have l1 := move_new hm h1 o1
      have l2 := move_new hm h2 o2
      rw [l1] at l2
      simpa using l2
  · -- value
    by_cases hold : .responded h y true ∈ s.log
    · have hg := back (hi.done.lt h y true hold) hg
      rcases hp.value h y g hold hg with hd | hc | hab
      · cases hm with
        | final c op id a rest hd' he =>
          by_cases hk : g.client = c
          · subst hk
            rw [hd'] at hd
            rcases List.mem_cons.1 hd with hd | hd
            · cases hd; exact .inr (.inl (by simp))
            · exact .inl (by simp only [upd_self]; exact hd)
          · exact .inl (by simp only [upd, if_neg hk]; exact hd)
        | partly c op id a rest hd' he =>
          by_cases hk : g.client = c
          · subst hk
            rw [hd'] at hd
            rcases List.mem_cons.1 hd with hd | hd
            · cases hd
            · exact .inl (by simp only [upd_self]; exact hd)
          · exact .inl (by simp only [upd, if_neg hk]; exact hd)
        | ignored c op id a fin rest hd' he =>
          by_cases hk : g.client = c
          · subst hk
            rw [hd'] at hd
            rcases List.mem_cons.1 hd with hd | hd
            · cases hd
              have hs := hi.flow.arrived_sent (hi.hnd.arrived hg)
              have hno := mt (hi.ent.pending _ _ _ _ hs).2 he
              by_cases hab : .aborted g.client g.op g.id ∈ s.log
              · exact .inr (.inr hab)
              · have : ∃ a, .called g.client g.op g.id a true ∈ s.log := Classical.byContradiction fun hn => hno ⟨fun a ha => hn ⟨a, ha⟩, hab⟩
                obtain ⟨a, hca⟩ := this
                rcases hi.src.called _ _ _ _ _ hca with ⟨-, -, x, hr⟩ | ⟨h', x', y', rfl, hh, hr', -⟩
                · exact absurd rfl (hi.hnd.refused _ _ _ _ hr h g hg rfl)
                · have hg' := (hi.hnd.handle h' ⟨g.client, g.op, g.id, x'⟩).2 hh
                  have := hi.hnd.uniq h' h _ _ hg' hg rfl rfl
                  subst this
                  have := hp.once h' y' y (hr' rfl) hold
                  subst this
                  exact .inr (.inl hca)
            · exact .inl (by simp only [upd_self]; exact hd)
          · exact .inl (by simp only [upd, if_neg hk]; exact hd)
        | idle l => exact .inl hd
        | failed => exact .inl hd
        | notUpdated => exact .inl hd
        | send => exact .inl (by rw [down_same (by rfl)]; exact hd)
        | abort => exact .inl (by rw [down_same (by rfl)]; exact hd)
        | handled => exact .inl (by rw [down_same (by rfl)]; exact hd)
        | told => exact .inl (by rw [down_same (by rfl)]; exact hd)
        | untold => exact .inl (by rw [down_same (by rfl)]; exact hd)
        | refused => exact .inl (down_add (by rfl) hd)
        | responded => exact .inl (down_add (by rfl) hd)
        | updated => exact .inl (down_add (by rfl) hd)
      · exact .inr (.inl (hlog hc))
      · exact .inr (.inr (hlog hab))
    · have hl := move_new hm hr hold
      cases hm <;> first
        | (exfalso; simp at hl; done)
        | skip
      rename_i h' y' g' k hg' ho hf
      simp only [List.append_cancel_left_eq, List.cons.injEq, Ev.responded.injEq, and_true] at hl
      obtain ⟨rfl, rfl⟩ := hl
      have : g' = g := by rw [hg'] at hg; cases hg; rfl
      subst this
      exact .inl (by simp [upd])
  · -- ended
    by_cases hold : .aborted c op id ∈ s.log
    · obtain ⟨x0, hx0⟩ := hi.ent.aborted c op id hold
      have hlt := hi.flow.sent_lt hx0
      rcases hp.ended c op id hold with hu0 | ⟨hcl, hnr⟩
      · cases hm with
        | idle l => exact .inl hu0
        | failed => exact .inl hu0
        | notUpdated => exact .inl hu0
        | responded => exact .inl (by rw [up_same (by rfl)]; exact hu0)
        | updated => exact .inl (by rw [up_same (by rfl)]; exact hu0)
        | ignored => exact .inl (by rw [up_same (by rfl)]; exact hu0)
        | partly => exact .inl (by rw [up_same (by rfl)]; exact hu0)
        | final => exact .inl (by rw [up_same (by rfl)]; exact hu0)
        | send c' op' x' =>
          refine .inl ?_
          simp only [upd]; split
          · rename_i hk; rw [← hk]; exact List.mem_append_left _ hu0
          · exact hu0
        | abort c' op' id' he' =>
          refine .inl ?_
          simp only [upd]; split
          · rename_i hk; rw [← hk]; exact List.mem_append_left _ hu0
          · exact hu0
        | handled c' op' id' x' rest hu =>
          refine .inl ?_
          simp only [upd]; split
          · rename_i hk; subst hk
            rw [hu] at hu0
            rcases List.mem_cons.1 hu0 with h | h
            · cases h
            · exact h
          · exact hu0
        | refused c' op' id' x' rest hu =>
          refine .inl ?_
          simp only [upd]; split
          · rename_i hk; subst hk
            rw [hu] at hu0
            rcases List.mem_cons.1 hu0 with h | h
            · cases h
            · exact h
          · exact hu0
        | told c' op' id' rest k hu hf =>
          by_cases hk : c = c'
          · subst hk
            rw [hu] at hu0
            rcases List.mem_cons.1 hu0 with h | h
            · cases h
              refine .inr ⟨fun h g hg hc hop hid ho => ?_, fun x hx => ?_⟩
              · have hmem : Up.abort op id ∈ (s.clients c).up := by rw [hu]; exact List.mem_cons_self ..
                obtain ⟨_, _, _, _, _, huq⟩ := found_own hi ha (.inl hmem) hf
                have := huq h g hg hc hid
                subst this
                exact (hi.hnd.nodup.mem_erase_iff.1 ho).1 rfl
              · simp only [upd_self] at hx
                exact hi.abt.order c [] op id rest hu op x hx
            · exact .inl (by simp only [upd_self]; exact h)
          · exact .inl (by simp only [upd, if_neg hk]; exact hu0)
        | untold c' op' id' rest hu hf =>
          by_cases hk : c = c'
          · subst hk
            rw [hu] at hu0
            rcases List.mem_cons.1 hu0 with h | h
            · cases h
              refine .inr ⟨fun h g hg hc hop hid ho => ?_, fun x hx => ?_⟩
              · obtain ⟨k', hk'⟩ := find_some (s := s) ho hg hop hid
                rw [hf] at hk'; cases hk'
              · simp only [upd_self] at hx
                exact hi.abt.order c [] op id rest hu op x hx
            · exact .inl (by simp only [upd_self]; exact h)
          · exact .inl (by simp only [upd, if_neg hk]; exact hu0)
      · have notReq : ∀ x, .req op id x ∉ (s'.clients c).up := by
          intro x hx
          cases hm with
          | idle l => exact hnr x hx
          | failed => exact hnr x hx
          | notUpdated => exact hnr x hx
          | responded => rw [up_same (by rfl)] at hx; exact hnr x hx
          | updated => rw [up_same (by rfl)] at hx; exact hnr x hx
          | ignored => rw [up_same (by rfl)] at hx; exact hnr x hx
          | partly => rw [up_same (by rfl)] at hx; exact hnr x hx
          | final => rw [up_same (by rfl)] at hx; exact hnr x hx
          | send c' op' x' =>
            simp only [upd] at hx; split at hx
            · rename_i hk; subst hk
              rcases List.mem_append.1 hx with hx | hx
              · exact hnr x hx
              · simp only [List.mem_singleton, Up.req.injEq] at hx; omega
            · exact hnr x hx
          | abort c' op' id' he' =>
            simp only [upd] at hx; split at hx
            · rename_i hk; subst hk
              rcases List.mem_append.1 hx with hx | hx
              · exact hnr x hx
              · simp at hx
            · exact hnr x hx
          | handled c' op' id' x' rest hu =>
            simp only [upd] at hx; split at hx
            · rename_i hk; subst hk; exact hnr x (by rw [hu]; exact List.mem_cons_of_mem _ hx)
            · exact hnr x hx
          | refused c' op' id' x' rest hu =>
            simp only [upd] at hx; split at hx
            · rename_i hk; subst hk; exact hnr x (by rw [hu]; exact List.mem_cons_of_mem _ hx)
            · exact hnr x hx
          | told c' op' id' rest k hu hf =>
            simp only [upd] at hx; split at hx
            · rename_i hk; subst hk; exact hnr x (by rw [hu]; exact List.mem_cons_of_mem _ hx)
            · exact hnr x hx
          | untold c' op' id' rest hu hf =>
            simp only [upd] at hx; split at hx
            · rename_i hk; subst hk; exact hnr x (by rw [hu]; exact List.mem_cons_of_mem _ hx)
            · exact hnr x hx
        refine .inr ⟨fun h g hg hc hop hid ho => ?_, notReq⟩
        by_cases hlt' : h < s.handles.length
        · exact hcl h g (back hlt' hg) hc hop hid (openOld hlt' ho)
        · cases hm with
          | handled c' op' id' x' rest hu =>
            rcases get_snoc.1 hg with hg | ⟨-, rfl⟩
            · exact absurd (List.getElem?_eq_some_iff.1 hg).1 hlt'
            · simp only at hc hop hid
              subst hc hop hid
              exact hnr x' (by rw [hu]; exact List.mem_cons_self ..)
          | _ => exact absurd (List.getElem?_eq_some_iff.1 hg).1 hlt'
    · have hl := move_new hm hab hold
      cases hm <;> first
        | (exfalso; simp at hl; done)
        | skip
      rename_i c' op' id' he'
      simp only [List.append_cancel_left_eq, List.cons.injEq, Ev.aborted.injEq, and_true] at hl
      obtain ⟨rfl, rfl, rfl⟩ := hl
      exact .inl (by simp [upd])

theorem Reach.sep {s : State} (h : Reach Apart s) : Sep s := by
  induction h with
  | init => exact sep_init
  | step hr ha hs ih => exact sep_move hr.inv ha ih (step_move hs)

/-! ### Theorems -/

/-- What a callback is called with is what the service answered to this very request, to which it was given what the client had sent; or
the error that there is no handler. -/
theorem right_answer {s : State} (h : Reachable s) {c op id : Nat} {a : Ans} {fin : Bool} (hc : .called c op id a fin ∈ s.log) :
    ∃ x, .sent c op id x ∈ s.log ∧
      ((a = .noHandler ∧ fin = true ∧ .refused c op id x ∈ s.log) ∨
        ∃ hd y, a = .value y ∧ .handled hd c op id x ∈ s.log ∧ (fin = true → .responded hd y true ∈ s.log) ∧ (fin = false → .updated hd y true ∈ s.log)) := by
  have hi := h.inv
  obtain ⟨x, hx⟩ := hi.ent.called _ _ _ _ _ hc
  refine ⟨x, hx, ?_⟩
  rcases hi.src.called _ _ _ _ _ hc with ⟨h1, h2, x', h3⟩ | ⟨hd, x', y, h1, h2, h3, h4⟩
  · have := (hi.flow.sent_uniq hx (hi.flow.arrived_sent (mem_arrivedOf.2 (.inr h3)))).2
    subst this
    exact .inl ⟨h1, h2, h3⟩
  · have := (hi.flow.sent_uniq hx (hi.flow.arrived_sent (mem_arrivedOf.2 (.inl ⟨hd, h2⟩)))).2
    subst this
    exact .inr ⟨hd, y, h1, h2, h3, h4⟩

/-- A callback is called neither after the final answer nor after the abort. -/
def Quit (l : List Ev) (e : Ev) : Prop := ∀ c op id a fin, e = .called c op id a fin → .aborted c op id ∉ l ∧ ∀ a', .called c op id a' true ∉ l

theorem quit_reach {P : State → Prop} {s : State} (h : Reach P s) : Hist Quit s.log := by
  induction h with
  | init => exact Hist.nil
  | @step s s' a hr _ hs ih =>
    have hi := hr.inv
    have hm := step_move hs
    have key : ∀ {c op id : Nat} {a : Ans} {f : Bool}, (op, id) ∈ (s.clients c).entries → Quit s.log (.called c op id a f) := by
      intro c op id a f he c' op' id' a' f' heq
      cases heq
      obtain ⟨x, hx⟩ := hi.ent.sent _ _ _ he
      have := (hi.ent.pending _ _ _ _ hx).1 he
      exact ⟨this.2, this.1⟩
    cases hm with
    | idle => exact ih
    | untold => exact ih
    | ignored => exact ih
    | final c op id a rest hd he => exact ih.one (key he)
    | partly c op id a rest hd he => exact ih.one (key he)
    | _ => exact ih.one (by intro _ _ _ _ _ h; cases h)

theorem silent_after {s : State} (h : Reachable s) {l l' : List Ev} {c op id : Nat} {e : Ev} (hl : s.log = l ++ e :: l') (he : e = .aborted c op id ∨ ∃ a, e = .called c op id a true) :
    ∀ a fin, .called c op id a fin ∉ l' := by
  intro a fin hm
  obtain ⟨l1, l2, rfl⟩ := List.append_of_mem hm
  have hq := (quit_reach h).all (l ++ e :: l1) (.called c op id a fin) l2 (by rw [hl]; simp) c op id a fin rfl
  rcases he with rfl | ⟨a', rfl⟩
  · exact hq.1 (by simp)
  · exact hq.2 a' (by simp)

/-- Requests of a client arrive in the order they were sent, each once: what has been sent is what has arrived and what is on its way.
Ids are counted. -/
theorem arrive_in_order {s : State} (h : Reachable s) (c : Nat) :
    sentOf c s.log = arrivedOf c s.log ++ reqs (s.clients c).up ∧ (sentOf c s.log).map (·.2.1) = List.range (s.clients c).next :=
  ⟨h.inv.flow.flow c, h.inv.flow.ids c⟩

/-- A request is handled once at most: two handles of one client with the same id are the same. -/
theorem handled_once {s : State} (h : Reachable s) {h1 h2 c op op' id x x' : Nat} (e1 : .handled h1 c op id x ∈ s.log) (e2 : .handled h2 c op' id x' ∈ s.log) : h1 = h2 :=
  h.inv.hnd.uniq h1 h2 ⟨c, op, id, x⟩ ⟨c, op', id, x'⟩ ((h.inv.hnd.handle h1 ⟨c, op, id, x⟩).2 e1) ((h.inv.hnd.handle h2 ⟨c, op', id, x'⟩).2 e2) rfl rfl

/-- To answer does no harm, whichever requests collide: no null pointer is dereferenced. -/
theorem respond_defined {s : State} (h : Reachable s) {hd : Nat} {g : Handle} (hg : s.handles[hd]? = some g) (y : Nat) : ∃ s', step s (.respond hd y) = some s' := by
  simp only [step, hg, Option.bind_some, respond]
  split
  · rename_i ho
    obtain ⟨k, hk⟩ := find_some ho hg rfl rfl
    exact ⟨_, by rw [hk]; rfl⟩
  · exact ⟨_, rfl⟩

/-- If the answering of a request succeeded and nothing is on its way to its client, then its callback has been called with a final
answer, or the client has aborted it. Likewise if there was no handler. -/
theorem success_answers {s : State} (h : Reachable s) {c op id x : Nat} (hq : (s.clients c).down = [])
    (hr : (∃ hd y, .handled hd c op id x ∈ s.log ∧ .responded hd y true ∈ s.log) ∨ .refused c op id x ∈ s.log) :
    (∃ a, .called c op id a true ∈ s.log) ∨ .aborted c op id ∈ s.log := by
  have hi := h.inv
  have hfin : Fin s c op id := by
    rcases hr with ⟨hd, y, h1, h2⟩ | h1
    · exact hi.done.resp hd y ⟨c, op, id, x⟩ h2 ((hi.hnd.handle hd ⟨c, op, id, x⟩).2 h1)
    · exact hi.done.ref c op id x h1
  have hx : .sent c op id x ∈ s.log := by
    rcases hr with ⟨hd, y, h1, h2⟩ | h1
    · exact hi.flow.arrived_sent (mem_arrivedOf.2 (.inl ⟨hd, h1⟩))
    · exact hi.flow.arrived_sent (mem_arrivedOf.2 (.inr h1))
  rcases hfin with ⟨a, ha⟩ | hne
  · rw [hq] at ha; cases ha
  · have hno := mt (hi.ent.pending _ _ _ _ hx).2 hne
    refine Classical.byContradiction fun hn => hno ⟨fun a ha => hn (.inl ⟨a, ha⟩), fun ha => hn (.inr ha)⟩

/-- The full property: whoever answers a request he was given, for the first time and unless it was aborted, succeeds. False if ids of
two clients collide (`swallowed`); what is missing are such histories. -/
theorem first_succeeds_partial {s : State} (h : Reach Apart s) {hd c op id x : Nat} (hh : .handled hd c op id x ∈ s.log) (hn : ∀ y, .responded hd y true ∉ s.log) (ha : .aborted c op id ∉ s.log) (y : Nat) :
    ∃ s', step s (.respond hd y) = some s' ∧ .responded hd y true ∈ s'.log := by
  have hi := h.inv
  have hg := (hi.hnd.handle hd ⟨c, op, id, x⟩).2 hh
  have ho : hd ∈ s.open_ := by
    rcases h.sep.state hd _ hg with h1 | ⟨y', h1⟩ | h1
    · exact h1
    · exact absurd h1 (hn y')
    · exact absurd (h.sep.told hd _ h1 hg) ha
  obtain ⟨k, hk⟩ := find_some ho hg rfl rfl
  refine ⟨_, by simp only [step, hg, Option.bind_some, respond, if_pos ho, hk]; rfl, by simp [sendDown]⟩

/-- And his answer is what the callback is called with. -/
theorem value_arrives_partial {s : State} (h : Reach Apart s) {hd c op id x y : Nat} (hh : .handled hd c op id x ∈ s.log) (hr : .responded hd y true ∈ s.log) (hq : (s.clients c).down = []) :
    .called c op id (.value y) true ∈ s.log ∨ .aborted c op id ∈ s.log := by
  have hg := (h.inv.hnd.handle hd ⟨c, op, id, x⟩).2 hh
  rcases h.sep.value hd y _ hr hg with h1 | h1
  · rw [show (State.clients s (⟨c, op, id, x⟩ : Handle).client).down = [] from hq] at h1; cases h1
  · exact h1

/-- No request is lost: if nothing is on its way, a request is answered, or aborted, or open at the service, which can answer it. -/
theorem none_lost_partial {s : State} (h : Reach Apart s) {c op id x : Nat} (hx : .sent c op id x ∈ s.log) (hq : Quiet s c) :
    (∃ a, .called c op id a true ∈ s.log) ∨ .aborted c op id ∈ s.log ∨ ∃ hd ∈ s.open_, .handled hd c op id x ∈ s.log := by
  have hi := h.inv
  have harr : (op, id, x) ∈ arrivedOf c s.log := by
    have := mem_sentOf.2 hx
    rw [hi.flow.flow c, hq.1] at this
    simpa [reqs] using this
  refine Classical.byContradiction fun hn => ?_
  have hpend : (op, id) ∈ (s.clients c).entries := (hi.ent.pending _ _ _ _ hx).2 ⟨fun a ha => hn (.inl ⟨a, ha⟩), fun ha => hn (.inr (.inl ha))⟩
  have nofin : ¬ Fin s c op id := by
    rintro (⟨a, ha⟩ | h1)
    · rw [hq.2] at ha; cases ha
    · exact h1 hpend
  rcases mem_arrivedOf.1 harr with ⟨hd, hh⟩ | hr
  · have hg := (hi.hnd.handle hd ⟨c, op, id, x⟩).2 hh
    rcases h.sep.state hd _ hg with h1 | ⟨y, h1⟩ | h1
    · exact hn (.inr (.inr ⟨hd, h1, hh⟩))
    · exact nofin (hi.done.resp hd y _ h1 hg)
    · exact hn (.inr (.inl (h.sep.told hd _ h1 hg)))
  · exact nofin (hi.done.ref c op id x hr)

/-- A handler is told of an abort only if its client has aborted this request, and is told if the abort has arrived before it answered. -/
theorem abort_told_partial {s : State} (h : Reach Apart s) {hd c op id x : Nat} (hh : .handled hd c op id x ∈ s.log) :
    (.told hd ∈ s.log → .aborted c op id ∈ s.log) ∧ (.aborted c op id ∈ s.log → (s.clients c).up = [] → .told hd ∈ s.log ∨ ∃ y, .responded hd y true ∈ s.log) := by
  have hi := h.inv
  have hg := (hi.hnd.handle hd ⟨c, op, id, x⟩).2 hh
  refine ⟨fun ht => h.sep.told hd _ ht hg, fun ha hu => ?_⟩
  rcases h.sep.ended c op id ha with h1 | ⟨h1, -⟩
  · rw [hu] at h1; cases h1
  · rcases h.sep.state hd _ hg with h2 | h2 | h2
    · exact absurd h2 (h1 hd _ hg rfl rfl rfl)
    · exact .inr h2
    · exact .inl h2

/-- A request is finally answered once: two successful answers through one handle are the same. -/
theorem respond_once_partial {s : State} (h : Reach Apart s) {hd y y' : Nat} (h1 : .responded hd y true ∈ s.log) (h2 : .responded hd y' true ∈ s.log) : y = y' ∧ hd ∉ s.open_ :=
  ⟨h.sep.once hd y y' h1 h2, h.sep.closed hd y h1⟩

/-- With one client nothing collides: all of the above holds for every history (in one process there is one client). -/
theorem one_client {s : State} {c : Nat} (h : Reachable s) (hone : ∀ c' op id x, .sent c' op id x ∈ s.log → c' = c) : Reach Apart s := by
  induction h with
  | init => exact .init
  | @step s s' a hr _ hs ih =>
    have hm := step_move hs
    have hone' : ∀ c' op id x, .sent c' op id x ∈ s.log → c' = c := fun c' op id x h => hone c' op id x (move_log_sub hm h)
    refine .step (ih hone') ?_ hs
    have hi := hr.inv
    have key : ∀ {c' op id : Nat}, Busy s c' op id → c' = c := by
      rintro c' op id (hb | ⟨hd, -, g, hg, rfl, -, -⟩)
      · obtain ⟨x, hx⟩ := hi.ent.aborted _ _ _ (hi.abt.known _ _ _ hb)
        exact hone' _ _ _ _ hx
      · exact hone' _ _ _ _ (hi.flow.arrived_sent (hi.hnd.arrived hg))
    intro c1 c2 op id h1 h2
    rw [key h1, key h2]

/-! ### What does not hold -/

def runs (s : State) : List Act → Option State
  | [] => some s
  | a :: as => (step s a).bind fun s' => runs s' as

theorem runs_reach : ∀ (as : List Act) {s s' : State}, Reachable s → runs s as = some s' → Reachable s'
  | [], _, _, h, hr => by cases hr; exact h
  | a :: as, s, s', h, hr => by
    simp only [runs] at hr
    obtain ⟨s1, h1, h2⟩ := Option.bind_eq_some_iff.1 hr
    exact runs_reach as (.step h trivial h1) h2

theorem runs_wit {α : Type} {as : List Act} {f : State → α} {v : α} (h : (runs State.init as).map f = some v) : ∃ s, Reachable s ∧ f s = v := by
  obtain ⟨s, h1, h2⟩ := Option.map_eq_some_iff.1 h
  exact ⟨s, runs_reach as .init h1, h2⟩

/-- what is on its way from and to the first two clients, the open requests, the log -/
def view (s : State) : List Up × List Down × List Up × List Down × List Nat × List Ev :=
  ((s.clients 0).up, (s.clients 0).down, (s.clients 1).up, (s.clients 1).down, s.open_, s.log)

/-- Two clients ask the same, each for the first time. The service answers both, the second's first: the first client never gets its
answer, although nothing has failed and nobody has aborted; answering it is refused. -/
theorem swallowed : ∃ s, Reachable s ∧ Quiet s 0 ∧ Quiet s 1 ∧ .handled 0 0 5 0 10 ∈ s.log ∧ .handled 1 1 5 0 11 ∈ s.log ∧ .called 1 5 0 (.value 21) true ∈ s.log ∧
    .responded 0 20 false ∈ s.log ∧ .aborted 0 5 0 ∉ s.log ∧ (∀ a, .called 0 5 0 a true ∉ s.log) ∧ s.open_ = [1] := by
  have hv : (runs State.init [.registerHandler 5, .send 0 5 10, .send 1 5 11, .serverGets 0, .serverGets 1, .respond 1 21, .respond 0 20, .clientGets 1]).map view =
      some ([], [], [], [], [1], [.sent 0 5 0 10, .sent 1 5 0 11, .handled 0 0 5 0 10, .handled 1 1 5 0 11, .responded 1 21 true, .responded 0 20 false, .called 1 5 0 (.value 21) true]) := by rfl
  obtain ⟨s, hr, h⟩ := runs_wit hv
  simp only [view, Prod.mk.injEq] at h
  obtain ⟨h1, h2, h3, h4, h5, h6⟩ := h
  exact ⟨s, hr, ⟨h1, h2⟩, ⟨h3, h4⟩, by rw [h6]; decide, by rw [h6]; decide, by rw [h6]; decide, by rw [h6]; decide, by rw [h6]; decide,
    fun a => by rw [h6]; simp, h5⟩

/-- A client's abort ends another client's request: its handler is told of an abort its client has not made, its answer is refused. -/
theorem foreign_abort : ∃ s, Reachable s ∧ Quiet s 0 ∧ Quiet s 1 ∧ .handled 0 0 5 0 10 ∈ s.log ∧ .handled 1 1 5 0 11 ∈ s.log ∧ .aborted 1 5 0 ∈ s.log ∧ .told 0 ∈ s.log ∧ .told 1 ∉ s.log ∧
    .aborted 0 5 0 ∉ s.log ∧ .responded 0 20 false ∈ s.log := by
  have hv : (runs State.init [.registerHandler 5, .send 0 5 10, .send 1 5 11, .serverGets 0, .serverGets 1, .abort 1 5 0, .serverGets 1, .respond 0 20]).map view =
      some ([], [], [], [], [1], [.sent 0 5 0 10, .sent 1 5 0 11, .handled 0 0 5 0 10, .handled 1 1 5 0 11, .aborted 1 5 0, .told 0, .responded 0 20 false]) := by rfl
  obtain ⟨s, hr, h⟩ := runs_wit hv
  simp only [view, Prod.mk.injEq] at h
  obtain ⟨h1, h2, h3, h4, -, h6⟩ := h
  exact ⟨s, hr, ⟨h1, h2⟩, ⟨h3, h4⟩, by rw [h6]; decide, by rw [h6]; decide, by rw [h6]; decide, by rw [h6]; decide, by rw [h6]; decide, by rw [h6]; decide, by rw [h6]; decide⟩

/-! ### Examples -/

def logOf (as : List Act) : Option (List Ev) := (runs State.init as).map (·.log)

/-- A client asks twice; one request is answered in parts, the other aborted; a third has no handler. -/
example : logOf [.registerHandler 5, .send 0 5 10, .send 0 5 11, .send 0 6 12, .serverGets 0, .serverGets 0, .abort 0 5 1, .serverGets 0, .update 0 20, .respond 0 21, .serverGets 0, .respond 1 22, .clientGets 0, .clientGets 0, .clientGets 0] =
    some [.sent 0 5 0 10, .sent 0 5 1 11, .sent 0 6 2 12, .handled 0 0 5 0 10, .handled 1 0 5 1 11, .aborted 0 5 1, .refused 0 6 2 12, .updated 0 20 true, .responded 0 21 true, .told 1, .responded 1 22 false,
      .called 0 6 2 .noHandler true, .called 0 5 0 (.value 20) false, .called 0 5 0 (.value 21) true] := by decide +kernel

/-- Two clients whose requests do not collide because the first is answered before the second arrives (the hypothesis `Apart` on a history
with two clients). -/
example : ∃ s, Reach Apart s ∧ .called 0 5 0 (.value 20) true ∈ s.log ∧ .handled 1 1 5 0 11 ∈ s.log ∧ s.open_ = [1] := by
  have ap : ∀ {s : State} {l : List (Nat × Nat × Nat)}, (∀ c op id, Busy s c op id → (c, op, id) ∈ l) → (l.map (·.2)).Nodup → Apart s := by
    intro s l h hn c c' op id h1 h2
    have := inj_of_nodup hn (h _ _ _ h1) (h _ _ _ h2) rfl
    exact (Prod.mk.inj this).1
  have r0 : Reach Apart State.init := .init
  have e : ∀ {s : State} (l : List (Nat × Nat × Nat)), (∀ c, (s.clients c).up.all (fun m => match m with | .abort _ _ => false | _ => true) = true) →
      (s.open_.filterMap fun h => (s.handles[h]?).map fun g => (g.client, g.op, g.id)) = l → (l.map (·.2)).Nodup → Apart s := by
    intro s l hu hl hn
    refine ap (fun c op id hb => ?_) hn
    rcases hb with hb | ⟨h, ho, g, hg, rfl, rfl, rfl⟩
    · have := List.all_eq_true.1 (hu c) _ hb; simp at this
    · rw [← hl]; exact List.mem_filterMap.2 ⟨h, ho, by rw [hg]; rfl⟩
  have all : ∀ {f : Nat → Client} {c : Nat} {v : Client}, (∀ k, (f k).up.all (fun m => match m with | .abort _ _ => false | _ => true) = true) → v.up.all (fun m => match m with | .abort _ _ => false | _ => true) = true → ∀ k, ((upd f c v) k).up.all (fun m => match m with | .abort _ _ => false | _ => true) = true := by
    intro f c v h1 h2 k
    unfold upd; split
    · exact h2
    · exact h1 k
  have a0 : ∀ k, ((State.init).clients k).up.all (fun m => match m with | .abort _ _ => false | _ => true) = true := fun _ => rfl
  have r1 := Reach.step r0 (e [] a0 rfl (by decide)) (a := .registerHandler 5) rfl
  have r2 := Reach.step r1 (e [] a0 rfl (by decide)) (a := .send 0 5 10) rfl
  have a2 := all (f := State.init.clients) (c := 0) (v := ⟨1, [(5, 0)], [.req 5 0 10], []⟩) a0 rfl
  have r3 := Reach.step r2 (e [] a2 rfl (by decide)) (a := .send 1 5 11) rfl
  have a3 := all (c := 1) (v := ⟨1, [(5, 0)], [.req 5 0 11], []⟩) a2 rfl
  have r4 := Reach.step r3 (e [] a3 rfl (by decide)) (a := .serverGets 0) rfl
  have a4 := all (c := 0) (v := ⟨1, [(5, 0)], [], []⟩) a3 rfl
  have r5 := Reach.step r4 (e [(0, 5, 0)] a4 rfl (by decide)) (a := .respond 0 20) rfl
  have a5 := all (c := 0) (v := ⟨1, [(5, 0)], [], [⟨5, 0, .value 20, true⟩]⟩) a4 rfl
  have r6 := Reach.step r5 (e [] a5 rfl (by decide)) (a := .clientGets 0) rfl
  have a6 := all (c := 0) (v := ⟨1, [], [], []⟩) a5 rfl
  have r7 := Reach.step r6 (e [] a6 rfl (by decide)) (a := .serverGets 1) rfl
  exact ⟨_, r7, by decide +kernel, by decide +kernel, rfl⟩

end Maf.E2E
