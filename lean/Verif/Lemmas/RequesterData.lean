import Verif.Lemmas.Requester
/-
The data of a requester are what the history says, and every event obeys its rule.
-/
namespace Maf.Req

def promStep (id : Id) (acc : Option (Option Val)) : Ev → Option (Option Val)
  | .promised _ i p => if i = id then some p else acc
  | _ => acc

/-- The rules of events in terms of the state. -/
def StOk (s : State) : Ev → Prop
  | .checked _ b => b = true ↔ s.status = .available
  | .stored _ _ id _ => id = s.nextId
  | .registered _ op id _ b => id = s.nextId ∧ (b = true ↔ s.regs op = [])
  | .unregistered _ op id k => k = ((s.regs op).filter (·.1 != id)).length
  | .looked _ op id b => b = true ↔ ∃ tg, (id, tg) ∈ s.reqs op
  | .taken _ m tg => ∀ g, tg = some g ↔ ∃ id, m.id = some id ∧ (id, g) ∈ s.reqs m.op
  | .collected _ op fs => fs = (s.regs op).map (·.2)
  | .subscribed _ op b => b = true ↔ s.regs op ≠ []
  | .readCache _ op o => (s.cache op = none ∧ o = none) ∨ ∃ v, s.cache op = some (some v) ∧ o = some v
  | .promised _ id _ => s.promise id = none
  | .threw _ id => s.promise id ≠ none
  | .got _ id p => s.promise id = some p
  | .broken n id => s.promise id = none ∧ ∃ op t, s.pc n = .waiting op id t ∧ gone s op id = true
  | .expired _ id => s.promise id = none
  | .statusStored _ a => a ≠ s.status
  | _ => True

/-- The ids in the maps are different. -/
structure NodupI (s : State) : Prop where
  reqs : ∀ op, ((s.reqs op).map (·.1)).Nodup
  regs : ∀ op, ((s.regs op).map (·.1)).Nodup
  reqsLt : ∀ op x, x ∈ s.reqs op → x.1 < s.nextId
  regsLt : ∀ op x, x ∈ s.regs op → x.1 < s.nextId

theorem eraseId_filter {α : Type} {id : Id} {l : List (Id × α)} (h : (l.map (·.1)).Nodup) : eraseId id l = l.filter (·.1 != id) := by
  induction l with
  | nil => rfl
  | cons x l ih =>
    rw [List.map_cons, List.nodup_cons] at h
    by_cases e : x.1 = id
    · have : l.filter (·.1 != id) = l := by
        rw [List.filter_eq_self]
        intro y hy
        have : y.1 ≠ id := fun k => h.1 (by rw [e, ← k]; exact List.mem_map.2 ⟨y, hy, rfl⟩)
        simpa using this
      simp [eraseId, List.eraseP_cons, e, this]
    · have := ih h.2
      simp only [eraseId] at this
      simp [eraseId, List.eraseP_cons, e, this]

/-- The events of a step. -/
inductive OkEs (s : State) : List Ev → Prop
  | none : OkEs s []
  | one {e} (h : StOk s e) : OkEs s [e]
  | two {e n r} (h : StOk s e) : OkEs s [e, .returned n r]

structure Delta (s s' : State) (es : List Ev) : Prop where
  log : s'.log = s.log ++ es
  status : s'.status = es.foldl statusStep s.status
  reqs : ∀ op, s'.reqs op = es.foldl (pendStep op) (s.reqs op)
  regs : ∀ op, s'.regs op = es.foldl (regStep op) (s.regs op)
  cache : ∀ op, s'.cache op = es.foldl (cacheStep op) (s.cache op)
  promise : ∀ id, s'.promise id = es.foldl (promStep id) (s.promise id)
  nextId : s.nextId ≤ s'.nextId ∧ ∀ e ∈ es, ∀ n op id, (∀ tg, e = .stored n op id tg → id < s'.nextId) ∧ ∀ f b, e = .registered n op id f b → id < s'.nextId
  ok : OkEs s es

theorem foldl_upd {β : Type} {f : Nat → β} {i : Nat} {v : β} (g : Nat → β) (hi : g i = v) (hne : ∀ j, j ≠ i → g j = f j) (j : Nat) : upd f i v j = g j := by
  by_cases e : j = i
  · subst e; rw [upd_same, hi]
  · rw [upd_other e, hne j e]

theorem delta_step {s s' : State} {a : Act} (hn : NodupI s) (hs : step s a = some s') : ∃ es, Delta s s' es := by
  unfold step at hs
  split at hs
  · cases hs
  cases a with
  | call c => cases hs; exact ⟨_, rfl, rfl, fun _ => rfl, fun _ => rfl, fun _ => rfl, fun _ => rfl, ⟨Nat.le_refl _, by simp⟩, .one (trivial)⟩
  | back n st =>
    simp only at hs
    cases hpc : s.pc n <;> rw [hpc] at hs <;> try (cases hs; done)
    · simp only [backPc] at hs
      split at hs
      · split at hs
        · split at hs
          · cases hs; exact ⟨_, rfl, rfl, fun _ => rfl, fun _ => rfl, fun _ => rfl, fun _ => rfl, ⟨Nat.le_refl _, by simp⟩, .two (trivial)⟩
          · cases hs; exact ⟨_, rfl, rfl, fun _ => rfl, fun _ => rfl, fun _ => rfl, fun _ => rfl, ⟨Nat.le_refl _, by simp⟩, .two (trivial)⟩
          · split at hs <;> cases hs
            · exact ⟨_, rfl, rfl, fun _ => rfl, fun _ => rfl, fun _ => rfl, fun _ => rfl, ⟨Nat.le_refl _, by simp⟩, .two (trivial)⟩
            · exact ⟨_, rfl, rfl, fun _ => rfl, fun _ => rfl, fun _ => rfl, fun _ => rfl, ⟨Nat.le_refl _, by simp⟩, .one (trivial)⟩
        · cases hs; exact ⟨_, rfl, rfl, fun _ => rfl, fun _ => rfl, fun _ => rfl, fun _ => rfl, ⟨Nat.le_refl _, by simp⟩, .one (trivial)⟩
      · split at hs <;> cases hs
        · exact ⟨_, rfl, rfl, fun _ => rfl, fun _ => rfl, fun _ => rfl, fun _ => rfl, ⟨Nat.le_refl _, by simp⟩, .two (trivial)⟩
        · exact ⟨_, rfl, rfl, fun _ => rfl, fun _ => rfl, fun _ => rfl, fun _ => rfl, ⟨Nat.le_refl _, by simp⟩, .one (trivial)⟩
      · cases hs; exact ⟨_, rfl, rfl, fun _ => rfl, fun _ => rfl, fun _ => rfl, fun _ => rfl, ⟨Nat.le_refl _, by simp⟩, .two (trivial)⟩
      · cases hs; exact ⟨_, rfl, rfl, fun _ => rfl, fun _ => rfl, fun _ => rfl, fun _ => rfl, ⟨Nat.le_refl _, by simp⟩, .one (trivial)⟩
      · cases hs; exact ⟨_, rfl, rfl, fun _ => rfl, fun _ => rfl, fun _ => rfl, fun _ => rfl, ⟨Nat.le_refl _, by simp⟩, .two (trivial)⟩
      · cases hs; exact ⟨_, rfl, rfl, fun _ => rfl, fun _ => rfl, fun _ => rfl, fun _ => rfl, ⟨Nat.le_refl _, by simp⟩, .two (trivial)⟩
    · cases hs; exact ⟨_, rfl, rfl, fun _ => rfl, fun _ => rfl, fun _ => rfl, fun _ => rfl, ⟨Nat.le_refl _, by simp⟩, .none⟩
    · cases hs; exact ⟨_, rfl, rfl, fun _ => rfl, fun _ => rfl, fun _ => rfl, fun _ => rfl, ⟨Nat.le_refl _, by simp⟩, .one (trivial)⟩
  | expire n =>
    simp only at hs
    split at hs
    · split at hs
      · next h => cases hs; exact ⟨_, rfl, rfl, fun _ => rfl, fun _ => rfl, fun _ => rfl, fun _ => rfl, ⟨Nat.le_refl _, by simp⟩, .one (h.1)⟩
      · cases hs
    · cases hs
  | step n =>
    simp only at hs
    cases hpc : s.pc n with
    | idle => rw [hpc] at hs; cases hs
    | done => rw [hpc] at hs; cases hs
    | sending k => rw [hpc] at hs; cases hs
    | inCbs m a fs => rw [hpc] at hs; cases hs
    | inOne r => rw [hpc] at hs; cases hs
    | start c =>
      rw [hpc] at hs
      simp only [stepPc] at hs
      have avail : ∀ {b : Bool}, (b = true ↔ s.status = .available) → StOk s (.checked n b) := fun h => h
      cases c with
      | request op p f =>
        simp only [begin_] at hs
        split at hs <;> cases hs
        · next h => exact ⟨_, rfl, rfl, fun _ => rfl, fun _ => rfl, fun _ => rfl, fun _ => rfl, ⟨Nat.le_refl _, by simp⟩, .one (avail (by simp [h]))⟩
        · next h => exact ⟨_, rfl, rfl, fun _ => rfl, fun _ => rfl, fun _ => rfl, fun _ => rfl, ⟨Nat.le_refl _, by simp⟩, .two (avail (by simp [h]))⟩
      | requestSync op p f =>
        simp only [begin_] at hs
        split at hs <;> cases hs
        · next h => exact ⟨_, rfl, rfl, fun _ => rfl, fun _ => rfl, fun _ => rfl, fun _ => rfl, ⟨Nat.le_refl _, by simp⟩, .one (avail (by simp [h]))⟩
        · next h => exact ⟨_, rfl, rfl, fun _ => rfl, fun _ => rfl, fun _ => rfl, fun _ => rfl, ⟨Nat.le_refl _, by simp⟩, .two (avail (by simp [h]))⟩
      | getSync op p =>
        simp only [begin_] at hs
        split at hs <;> cases hs
        · next h => exact ⟨_, rfl, rfl, fun _ => rfl, fun _ => rfl, fun _ => rfl, fun _ => rfl, ⟨Nat.le_refl _, by simp⟩, .one (avail (by simp [h]))⟩
        · next h => exact ⟨_, rfl, rfl, fun _ => rfl, fun _ => rfl, fun _ => rfl, fun _ => rfl, ⟨Nat.le_refl _, by simp⟩, .one (avail (by simp [h]))⟩
      | getAsync op p =>
        simp only [begin_] at hs
        split at hs <;> cases hs
        · next h => exact ⟨_, rfl, rfl, fun _ => rfl, fun _ => rfl, fun _ => rfl, fun _ => rfl, ⟨Nat.le_refl _, by simp⟩, .one (avail (by simp [h]))⟩
        · next h => exact ⟨_, rfl, rfl, fun _ => rfl, fun _ => rfl, fun _ => rfl, fun _ => rfl, ⟨Nat.le_refl _, by simp⟩, .one (avail (by simp [h]))⟩
      | register g op f =>
        simp only [begin_] at hs
        split at hs
        · next h =>
          cases f <;> cases hs
          · exact ⟨_, rfl, rfl, fun _ => rfl, fun _ => rfl, fun _ => rfl, fun _ => rfl, ⟨Nat.le_refl _, by simp⟩, .two (avail (by simp [h]))⟩
          · exact ⟨_, rfl, rfl, fun _ => rfl, fun _ => rfl, fun _ => rfl, fun _ => rfl, ⟨Nat.le_refl _, by simp⟩, .one (avail (by simp [h]))⟩
        · next h => cases hs; exact ⟨_, rfl, rfl, fun _ => rfl, fun _ => rfl, fun _ => rfl, fun _ => rfl, ⟨Nat.le_refl _, by simp⟩, .two (avail (by simp [h]))⟩
      | unregister op id =>
        cases id with
        | none => cases hs; exact ⟨_, rfl, rfl, fun _ => rfl, fun _ => rfl, fun _ => rfl, fun _ => rfl, ⟨Nat.le_refl _, by simp⟩, .one (trivial)⟩
        | some id =>
          simp only [begin_] at hs
          split at hs <;> cases hs
          · exact ⟨_, rfl, rfl, fun _ => rfl, fun _ => rfl, fun _ => rfl, fun _ => rfl, ⟨Nat.le_refl _, by simp⟩, .one (trivial)⟩
          · exact ⟨_, rfl, rfl, fun _ => rfl, fun _ => rfl, fun _ => rfl, fun _ => rfl, ⟨Nat.le_refl _, by simp⟩, .none⟩
      | unregisterAll op =>
        simp only [begin_] at hs
        split at hs <;> cases hs
        · next h => exact ⟨_, rfl, rfl, fun _ => rfl, fun _ => rfl, fun _ => rfl, fun _ => rfl, ⟨Nat.le_refl _, by simp⟩, .one (avail (by simp [h]))⟩
        · next h => exact ⟨_, rfl, rfl, fun _ => rfl, fun _ => rfl, fun _ => rfl, fun _ => rfl, ⟨Nat.le_refl _, by simp⟩, .two (avail (by simp [h]))⟩
      | abort op id =>
        cases id with
        | none => cases hs; exact ⟨_, rfl, rfl, fun _ => rfl, fun _ => rfl, fun _ => rfl, fun _ => rfl, ⟨Nat.le_refl _, by simp⟩, .one (trivial)⟩
        | some id =>
          simp only [begin_] at hs
          split at hs <;> cases hs
          · exact ⟨_, rfl, rfl, fun _ => rfl, fun _ => rfl, fun _ => rfl, fun _ => rfl, ⟨Nat.le_refl _, by simp⟩, .one (trivial)⟩
          · exact ⟨_, rfl, rfl, fun _ => rfl, fun _ => rfl, fun _ => rfl, fun _ => rfl, ⟨Nat.le_refl _, by simp⟩, .none⟩
      | incoming m mine =>
        simp only [begin_] at hs
        split at hs
        · split at hs <;> cases hs <;> first
            | exact ⟨_, rfl, rfl, fun _ => rfl, fun _ => rfl, fun _ => rfl, fun _ => rfl, ⟨Nat.le_refl _, by simp⟩, .none⟩
            | exact ⟨_, rfl, rfl, fun _ => rfl, fun _ => rfl, fun _ => rfl, fun _ => rfl, ⟨Nat.le_refl _, by simp⟩, .one (trivial)⟩
        · cases hs; exact ⟨_, rfl, rfl, fun _ => rfl, fun _ => rfl, fun _ => rfl, fun _ => rfl, ⟨Nat.le_refl _, by simp⟩, .one (trivial)⟩
      | status a =>
        simp only [begin_] at hs
        split at hs
        · cases hs
        · split at hs
          · cases hs; exact ⟨_, rfl, rfl, fun _ => rfl, fun _ => rfl, fun _ => rfl, fun _ => rfl, ⟨Nat.le_refl _, by simp⟩, .one (trivial)⟩
          · next hne =>
            split at hs <;> cases hs
            · exact ⟨_, rfl, rfl, fun _ => rfl, fun _ => rfl, fun _ => rfl, fun _ => rfl, ⟨Nat.le_refl _, by simp⟩, .one (hne)⟩
            · exact ⟨_, rfl, rfl, fun _ => rfl, fun _ => rfl, fun _ => rfl, fun _ => rfl, ⟨Nat.le_refl _, by simp⟩, .two (hne)⟩
      | deinit => cases hs; exact ⟨_, rfl, rfl, fun _ => rfl, fun _ => rfl, fun _ => rfl, fun _ => rfl, ⟨Nat.le_refl _, by simp⟩, .none⟩
    | store code op p tg h =>
      rw [hpc] at hs; cases hs
      refine ⟨_, rfl, rfl, ?_, fun _ => rfl, fun _ => rfl, fun _ => rfl, ⟨Nat.le_succ _, (by simp [go, ret]; intros; subst_vars; exact Nat.lt_succ_self _)⟩, .one (rfl)⟩
      exact foldl_upd _ (by simp [pendStep]) fun j hj => by simp [pendStep, Ne.symm hj]
    | send m k => rw [hpc] at hs; cases hs; exact ⟨_, rfl, rfl, fun _ => rfl, fun _ => rfl, fun _ => rfl, fun _ => rfl, ⟨Nat.le_refl _, by simp⟩, .one (trivial)⟩
    | fail op id st =>
      rw [hpc] at hs; cases hs
      refine ⟨_, rfl, rfl, ?_, fun _ => rfl, fun _ => rfl, fun _ => rfl, ⟨Nat.le_refl _, by simp⟩, .two (trivial)⟩
      exact foldl_upd _ (by simp [pendStep, eraseId_filter (hn.reqs op)]) fun j hj => by simp [pendStep, Ne.symm hj]
    | regFail op id st =>
      rw [hpc] at hs; cases hs
      refine ⟨_, rfl, rfl, fun _ => rfl, ?_, fun _ => rfl, fun _ => rfl, ⟨Nat.le_refl _, by simp⟩, .two (by rw [eraseId_filter (hn.regs op)]; rfl)⟩
      exact foldl_upd _ (by simp [regStep, eraseId_filter (hn.regs op)]) fun j hj => by simp [regStep, Ne.symm hj]
    | waiting op id t =>
      rw [hpc] at hs
      simp only [stepPc] at hs
      split at hs
      · next hp => cases hs; exact ⟨_, rfl, rfl, fun _ => rfl, fun _ => rfl, fun _ => rfl, fun _ => rfl, ⟨Nat.le_refl _, by simp⟩, .two (hp)⟩
      · next hp =>
        split at hs
        · next hg =>
          cases hs
          exact ⟨_, rfl, rfl, fun _ => rfl, fun _ => rfl, fun _ => rfl, fun _ => rfl, ⟨Nat.le_refl _, by simp⟩, .two (⟨hp, op, t, hpc, hg⟩)⟩
        · cases hs
    | abortFind op id k =>
      rw [hpc] at hs
      simp only [stepPc] at hs
      have hany : ∀ b, ((s.reqs op).any (·.1 == id)) = b → StOk s (.looked n op id b) := by
        rintro b rfl
        simp [StOk]
      split at hs
      · next h =>
        cases hs
        refine ⟨_, rfl, rfl, ?_, fun _ => rfl, fun _ => rfl, fun _ => rfl, ⟨Nat.le_refl _, by simp⟩, .one (hany _ h)⟩
        exact foldl_upd _ (by simp [pendStep, eraseId_filter (hn.reqs op)]) fun j hj => by simp [pendStep, Ne.symm hj]
      · next h =>
        cases hs
        refine ⟨_, rfl, rfl, ?_, fun _ => rfl, fun _ => rfl, fun _ => rfl, ⟨Nat.le_refl _, by simp⟩, .two (hany _ (by simpa only [Bool.not_eq_true] using h))⟩
        exact foldl_upd _ (by simp [pendStep, eraseId_filter (hn.reqs op)]) fun j hj => by simp [pendStep, Ne.symm hj]
    | regStore code op f =>
      rw [hpc] at hs
      simp only [stepPc] at hs
      split at hs
      · next hlen =>
        cases hs
        refine ⟨_, rfl, rfl, fun _ => rfl, ?_, fun _ => rfl, fun _ => rfl, ⟨Nat.le_succ _, (by simp [go, ret]; intros; subst_vars; exact Nat.lt_succ_self _)⟩, .one ⟨rfl, by simpa using hlen⟩⟩
        exact foldl_upd _ (by simp [regStep]) fun j hj => by simp [regStep, Ne.symm hj]
      · next hlen =>
        split at hs <;> cases hs
        · refine ⟨_, rfl, rfl, fun _ => rfl, ?_, fun _ => rfl, fun _ => rfl, ⟨Nat.le_succ _, (by simp [go, ret]; intros; subst_vars; exact Nat.lt_succ_self _)⟩, .one ⟨rfl, by simpa using hlen⟩⟩
          exact foldl_upd _ (by simp [regStep]) fun j hj => by simp [regStep, Ne.symm hj]
        · refine ⟨_, rfl, rfl, fun _ => rfl, ?_, fun _ => rfl, fun _ => rfl, ⟨Nat.le_succ _, (by simp [go, ret]; intros; subst_vars; exact Nat.lt_succ_self _)⟩, .two ⟨rfl, by simpa using hlen⟩⟩
          exact foldl_upd _ (by simp [regStep]) fun j hj => by simp [regStep, Ne.symm hj]
    | readCache op u =>
      rw [hpc] at hs
      simp only [stepPc] at hs
      split at hs
      · cases hs; exact ⟨[], by simp, rfl, fun _ => rfl, fun _ => rfl, fun _ => rfl, fun _ => rfl, ⟨Nat.le_refl _, by simp⟩, .none⟩
      · next hc =>
        have hok : ∀ o, (s.cache op).join = o → StOk s (.readCache n op o) := by
          rintro o rfl
          cases h : s.cache op with
          | none => exact .inl ⟨h, rfl⟩
          | some x =>
            cases x with
            | none => exact absurd h hc
            | some v => exact .inr ⟨v, h, rfl⟩
        split at hs
        · cases hs; exact ⟨_, rfl, rfl, fun _ => rfl, fun _ => rfl, fun _ => rfl, fun _ => rfl, ⟨Nat.le_refl _, by simp⟩, .two (hok _ rfl)⟩
        · cases hs; exact ⟨_, rfl, rfl, fun _ => rfl, fun _ => rfl, fun _ => rfl, fun _ => rfl, ⟨Nat.le_refl _, by simp⟩, .one (hok _ rfl)⟩
        · split at hs <;> cases hs
          · exact ⟨_, rfl, rfl, fun _ => rfl, fun _ => rfl, fun _ => rfl, fun _ => rfl, ⟨Nat.le_refl _, by simp⟩, .one (hok _ rfl)⟩
          · exact ⟨_, rfl, rfl, fun _ => rfl, fun _ => rfl, fun _ => rfl, fun _ => rfl, ⟨Nat.le_refl _, by simp⟩, .two (hok _ rfl)⟩
    | unregRemove op id =>
      rw [hpc] at hs
      simp only [stepPc] at hs
      split at hs <;> cases hs
      · refine ⟨_, rfl, rfl, fun _ => rfl, ?_, fun _ => rfl, fun _ => rfl, ⟨Nat.le_refl _, by simp⟩, .one (by rw [eraseId_filter (hn.regs op)]; rfl)⟩
        exact foldl_upd _ (by simp [regStep, eraseId_filter (hn.regs op)]) fun j hj => by simp [regStep, Ne.symm hj]
      · refine ⟨_, rfl, rfl, fun _ => rfl, ?_, fun _ => rfl, fun _ => rfl, ⟨Nat.le_refl _, by simp⟩, .two (by rw [eraseId_filter (hn.regs op)]; rfl)⟩
        exact foldl_upd _ (by simp [regStep, eraseId_filter (hn.regs op)]) fun j hj => by simp [regStep, Ne.symm hj]
    | uncache op check =>
      rw [hpc] at hs
      simp only [stepPc] at hs
      split at hs <;> cases hs
      · refine ⟨_, rfl, rfl, fun _ => rfl, fun _ => rfl, ?_, fun _ => rfl, ⟨Nat.le_refl _, by simp⟩, .one (trivial)⟩
        exact foldl_upd _ (by simp [cacheStep]) fun j hj => by simp [cacheStep, Ne.symm hj]
      · refine ⟨_, rfl, rfl, fun _ => rfl, fun _ => rfl, ?_, fun _ => rfl, ⟨Nat.le_refl _, by simp⟩, .two (trivial)⟩
        exact foldl_upd _ (by simp [cacheStep]) fun j hj => by simp [cacheStep, Ne.symm hj]
    | unregCheck op =>
      rw [hpc] at hs
      simp only [stepPc] at hs
      split at hs <;> cases hs
      · next h => exact ⟨_, rfl, rfl, fun _ => rfl, fun _ => rfl, fun _ => rfl, fun _ => rfl, ⟨Nat.le_refl _, by simp⟩, .one ((by simp [StOk, h]))⟩
      · next h => exact ⟨_, rfl, rfl, fun _ => rfl, fun _ => rfl, fun _ => rfl, fun _ => rfl, ⟨Nat.le_refl _, by simp⟩, .two ((by simp [StOk, h]))⟩
    | eraseAll op =>
      rw [hpc] at hs; cases hs
      refine ⟨_, rfl, rfl, fun _ => rfl, ?_, fun _ => rfl, fun _ => rfl, ⟨Nat.le_refl _, by simp⟩, .one (trivial)⟩
      exact foldl_upd _ (by simp [regStep]) fun j hj => by simp [regStep, Ne.symm hj]
    | subQ op f t =>
      rw [hpc] at hs
      simp only [stepPc] at hs
      split at hs
      · next h =>
        cases f <;> cases hs
        · exact ⟨_, rfl, rfl, fun _ => rfl, fun _ => rfl, fun _ => rfl, fun _ => rfl, ⟨Nat.le_refl _, by simp⟩, .one ((by simp [StOk, h]))⟩
        · exact ⟨_, rfl, rfl, fun _ => rfl, fun _ => rfl, fun _ => rfl, fun _ => rfl, ⟨Nat.le_refl _, by simp⟩, .one ((by simp [StOk, h]))⟩
      · next h =>
        have h : s.regs op = [] := by simpa using h
        cases f <;> cases hs
        · exact ⟨_, rfl, rfl, fun _ => rfl, fun _ => rfl, fun _ => rfl, fun _ => rfl, ⟨Nat.le_refl _, by simp⟩, .one ((by simp [StOk, h]))⟩
        · exact ⟨_, rfl, rfl, fun _ => rfl, fun _ => rfl, fun _ => rfl, fun _ => rfl, ⟨Nat.le_refl _, by simp⟩, .one ((by simp [StOk, h]))⟩
    | recheck op t =>
      rw [hpc] at hs
      simp only [stepPc] at hs
      split at hs <;> cases hs
      · next h => exact ⟨_, rfl, rfl, fun _ => rfl, fun _ => rfl, fun _ => rfl, fun _ => rfl, ⟨Nat.le_refl _, by simp⟩, .one ((by simp [StOk, h]))⟩
      · next h => exact ⟨_, rfl, rfl, fun _ => rfl, fun _ => rfl, fun _ => rfl, fun _ => rfl, ⟨Nat.le_refl _, by simp⟩, .two ((by simp [StOk, h]))⟩
    | regUpd m => rw [hpc] at hs; cases hs; exact ⟨_, rfl, rfl, fun _ => rfl, fun _ => rfl, fun _ => rfl, fun _ => rfl, ⟨Nat.le_refl _, by simp⟩, .one (rfl)⟩
    | runCbs m a fs =>
      rw [hpc] at hs
      cases fs with
      | cons f fs => cases hs; exact ⟨_, rfl, rfl, fun _ => rfl, fun _ => rfl, fun _ => rfl, fun _ => rfl, ⟨Nat.le_refl _, by simp⟩, .one (trivial)⟩
      | nil =>
        simp only [stepPc] at hs
        split at hs <;> cases hs
        · exact ⟨_, rfl, rfl, fun _ => rfl, fun _ => rfl, fun _ => rfl, fun _ => rfl, ⟨Nat.le_refl _, by simp⟩, .none⟩
        · exact ⟨_, rfl, rfl, fun _ => rfl, fun _ => rfl, fun _ => rfl, fun _ => rfl, ⟨Nat.le_refl _, by simp⟩, .one (trivial)⟩
    | cacheIt op p =>
      rw [hpc] at hs; cases hs
      refine ⟨_, rfl, rfl, fun _ => rfl, fun _ => rfl, ?_, fun _ => rfl, ⟨Nat.le_refl _, by simp⟩, .two (trivial)⟩
      exact foldl_upd _ (by simp [cacheStep]) fun j hj => by simp [cacheStep, Ne.symm hj]
    | reqRes m =>
      rw [hpc] at hs
      simp only [stepPc] at hs
      split at hs
      · next hf =>
        rw [List.find?_eq_none] at hf
        cases hs
        have hnot : ∀ id g, m.id = some id → (id, g) ∉ s.reqs m.op := fun id g hid hm => by
          have := hf _ hm
          simp [hid] at this
        refine ⟨_, rfl, rfl, fun op => ?_, fun _ => rfl, fun _ => rfl, fun _ => rfl, ⟨Nat.le_refl _, by simp⟩, .two (?_)⟩
        · simp only [List.foldl_cons, List.foldl_nil, List.foldl_append, List.cons_append, List.nil_append, pendStep]
          split
          · next h =>
            simp only [ret, go]
            symm
            rw [List.filter_eq_self]
            intro x hx
            have := hf x (by rw [h.1]; exact hx)
            simpa [bne] using this
          · rfl
        · intro g
          constructor
          · intro h; cases h
          · rintro ⟨id, hid, hm⟩; exact absurd hm (hnot id g hid)
      · next id tg hf =>
        have hid : m.id = some id := by
          have := List.find?_some hf
          simp at this
          exact this.symm
        have hmem := List.mem_of_find?_eq_some hf
        have hok : StOk s (.taken n m (some tg)) := by
          intro g
          constructor
          · intro h; cases h; exact ⟨id, hid, hmem⟩
          · rintro ⟨id', hid', hm⟩
            rw [hid] at hid'
            cases hid'
            have := (List.pairwise_map.1 (hn.reqs m.op))
            by_cases e : g = tg
            · rw [e]
            · exfalso
              rcases List.append_of_mem hmem with ⟨a, b, hab⟩
              rw [hab] at hm
              have hnd := hn.reqs m.op
              rw [hab] at hnd
              simp only [List.map_append, List.map_cons] at hnd
              rw [List.nodup_append] at hnd
              rcases List.mem_append.1 hm with k | k
              · exact hnd.2.2 _ (List.mem_map.2 ⟨_, k, rfl⟩) _ (by simp) rfl
              · rcases List.mem_cons.1 k with k | k
                · cases k; exact e rfl
                · exact (List.nodup_cons.1 hnd.2.1).1 (List.mem_map.2 ⟨_, k, rfl⟩)
        have hreq : ∀ op, (if m.code = .partialUpdate then s else { s with reqs := upd s.reqs m.op (eraseId id (s.reqs m.op)) }).reqs op = pendStep op (s.reqs op) (.taken n m (some tg)) := by
          intro op
          simp only [pendStep]
          by_cases hc : m.code = .partialUpdate
          · simp [hc]
          · rw [if_neg hc]
            by_cases e : m.op = op
            · subst e
              rw [if_pos ⟨rfl, hc⟩]
              simp only [upd_same, eraseId_filter (hn.reqs m.op), hid]
              congr 1
            · rw [if_neg (fun k => e k.1)]
              simp only
              rw [upd_other (Ne.symm e)]
        split at hs
        · cases hs
          refine ⟨[.taken n m _, .returned n ⟨none, none, none⟩], ?_, ?_, ?_, ?_, ?_, ?_, ⟨?_, by simp⟩, .two (hok)⟩
          · simp only [ret, go]; split <;> rfl
          · simp only [ret, go]; split <;> rfl
          · intro op; exact hreq op
          · intro op; simp only [ret, go]; split <;> rfl
          · intro op; simp only [ret, go]; split <;> rfl
          · intro op; simp only [ret, go]; split <;> rfl
          · simp only [ret, go]; split <;> exact Nat.le_refl _
        · cases hs
          refine ⟨[.taken n m _], ?_, ?_, ?_, ?_, ?_, ?_, ⟨?_, by simp⟩, .one (hok)⟩
          · simp only [go]; split <;> rfl
          · simp only [go]; split <;> rfl
          · intro op; exact hreq op
          · intro op; simp only [go]; split <;> rfl
          · intro op; simp only [go]; split <;> rfl
          · intro op; simp only [go]; split <;> rfl
          · simp only [go]; split <;> exact Nat.le_refl _
        · cases hs
          refine ⟨[.taken n m _], ?_, ?_, ?_, ?_, ?_, ?_, ⟨?_, by simp⟩, .one (hok)⟩
          · simp only [go]; split <;> rfl
          · simp only [go]; split <;> rfl
          · intro op; exact hreq op
          · intro op; simp only [go]; split <;> rfl
          · intro op; simp only [go]; split <;> rfl
          · intro op; simp only [go]; split <;> rfl
          · simp only [go]; split <;> exact Nat.le_refl _
    | runOne f p r => rw [hpc] at hs; cases hs; exact ⟨_, rfl, rfl, fun _ => rfl, fun _ => rfl, fun _ => rfl, fun _ => rfl, ⟨Nat.le_refl _, by simp⟩, .one (trivial)⟩
    | fulfil id p =>
      rw [hpc] at hs
      simp only [stepPc] at hs
      split at hs <;> cases hs
      · next h =>
        refine ⟨_, rfl, rfl, fun _ => rfl, fun _ => rfl, fun _ => rfl, ?_, ⟨Nat.le_refl _, by simp⟩, .two (h)⟩
        exact foldl_upd _ (by simp [promStep]) fun j hj => by simp [promStep, Ne.symm hj]
      · next h => exact ⟨_, rfl, rfl, fun _ => rfl, fun _ => rfl, fun _ => rfl, fun _ => rfl, ⟨Nat.le_refl _, by simp⟩, .one ((by simp [StOk, h]))⟩
    | clearReqs more =>
      rw [hpc] at hs
      cases more <;> cases hs
      · exact ⟨_, rfl, rfl, fun _ => rfl, fun _ => rfl, fun _ => rfl, fun _ => rfl, ⟨Nat.le_refl _, by simp⟩, .two (trivial)⟩
      · exact ⟨_, rfl, rfl, fun _ => rfl, fun _ => rfl, fun _ => rfl, fun _ => rfl, ⟨Nat.le_refl _, by simp⟩, .one (trivial)⟩
    | clearRegs => rw [hpc] at hs; cases hs; exact ⟨_, rfl, rfl, fun _ => rfl, fun _ => rfl, fun _ => rfl, fun _ => rfl, ⟨Nat.le_refl _, by simp⟩, .two (trivial)⟩

theorem mem_pendStep {op : Op} {l : List (Id × Target)} {e : Ev} {x : Id × Target} (h : x ∈ pendStep op l e) : x ∈ l ∨ ∃ n tg, e = .stored n op x.1 tg := by
  cases e <;> simp only [pendStep] at h <;> try exact .inl h
  · split at h
    · next e =>
      subst e
      rcases List.mem_append.1 h with k | k
      · exact .inl k
      · simp at k; subst k; exact .inr ⟨_, _, rfl⟩
    · exact .inl h
  all_goals first
    | (split at h
       · exact .inl (List.mem_filter.1 h).1
       · exact .inl h)
    | cases h

theorem mem_regStep {op : Op} {l : List (Id × Fn)} {e : Ev} {x : Id × Fn} (h : x ∈ regStep op l e) : x ∈ l ∨ ∃ n f b, e = .registered n op x.1 f b := by
  cases e <;> simp only [regStep] at h <;> try exact .inl h
  · split at h
    · next e =>
      subst e
      rcases List.mem_append.1 h with k | k
      · exact .inl k
      · simp at k; subst k; exact .inr ⟨_, _, _, rfl⟩
    · exact .inl h
  all_goals first
    | (split at h
       · exact .inl (List.mem_filter.1 h).1
       · exact .inl h)
    | (split at h
       · cases h
       · exact .inl h)
    | cases h

theorem nodup_pendStep {op : Op} {l : List (Id × Target)} {e : Ev} (h : (l.map (·.1)).Nodup) (hs : ∀ n tg id, e = .stored n op id tg → ∀ x ∈ l, x.1 ≠ id) :
    ((pendStep op l e).map (·.1)).Nodup := by
  have hf : ∀ p : Id × Target → Bool, ((l.filter p).map (·.1)).Nodup := fun p => List.Nodup.sublist (List.filter_sublist.map _) h
  cases e <;> simp only [pendStep] <;> try exact h
  · split
    · next e =>
      subst e
      rw [List.map_append, List.nodup_append]
      refine ⟨h, by simp, ?_⟩
      intro a ha b hb
      simp at hb
      rcases List.mem_map.1 ha with ⟨x, hx, rfl⟩
      rw [hb]
      exact hs _ _ _ rfl x hx
    · exact h
  all_goals first
    | (split
       · exact hf _
       · exact h)
    | simp

theorem nodup_regStep {op : Op} {l : List (Id × Fn)} {e : Ev} (h : (l.map (·.1)).Nodup) (hs : ∀ n f id b, e = .registered n op id f b → ∀ x ∈ l, x.1 ≠ id) :
    ((regStep op l e).map (·.1)).Nodup := by
  have hf : ∀ p : Id × Fn → Bool, ((l.filter p).map (·.1)).Nodup := fun p => List.Nodup.sublist (List.filter_sublist.map _) h
  cases e <;> simp only [regStep] <;> try exact h
  · split
    · next e =>
      subst e
      rw [List.map_append, List.nodup_append]
      refine ⟨h, by simp, ?_⟩
      intro a ha b hb
      simp at hb
      rcases List.mem_map.1 ha with ⟨x, hx, rfl⟩
      rw [hb]
      exact hs _ _ _ _ rfl x hx
    · exact h
  all_goals first
    | (split
       · exact hf _
       · exact h)
    | (split
       · simp
       · exact h)
    | simp

/-- A step logs nothing, or one event, or one and the return. -/
theorem OkEs.cases' {s : State} {es : List Ev} (h : OkEs s es) : es = [] ∨ ∃ e rs, es = e :: rs ∧ StOk s e ∧ (rs = [] ∨ ∃ n r, rs = [.returned n r]) := by
  cases h with
  | none => exact .inl rfl
  | one h => exact .inr ⟨_, _, rfl, h, .inl rfl⟩
  | two h => exact .inr ⟨_, _, rfl, h, .inr ⟨_, _, rfl⟩⟩

theorem NodupI_delta {s s' : State} {es : List Ev} (h : NodupI s) (d : Delta s s' es) : NodupI s' := by
  rcases d.ok.cases' with rfl | ⟨e, rs, rfl, hok, hrs⟩
  · have hr : s'.reqs = s.reqs := funext d.reqs
    have hg : s'.regs = s.regs := funext d.regs
    exact ⟨fun op => hr ▸ h.reqs op, fun op => hg ▸ h.regs op, fun op x hx => Nat.lt_of_lt_of_le (h.reqsLt op x (hr ▸ hx)) d.nextId.1,
      fun op x hx => Nat.lt_of_lt_of_le (h.regsLt op x (hg ▸ hx)) d.nextId.1⟩
  · have hr : ∀ op, s'.reqs op = pendStep op (s.reqs op) e := by
      intro op; rw [d.reqs op]; rcases hrs with rfl | ⟨n, r, rfl⟩ <;> rfl
    have hg : ∀ op, s'.regs op = regStep op (s.regs op) e := by
      intro op; rw [d.regs op]; rcases hrs with rfl | ⟨n, r, rfl⟩ <;> rfl
    refine ⟨fun op => ?_, fun op => ?_, fun op x hx => ?_, fun op x hx => ?_⟩
    · rw [hr]
      refine nodup_pendStep (h.reqs op) ?_
      rintro n tg id rfl x hx rfl
      have := h.reqsLt op x hx
      rw [hok] at this
      exact Nat.lt_irrefl _ this
    · rw [hg]
      refine nodup_regStep (h.regs op) ?_
      rintro n tg id b rfl x hx rfl
      have := h.regsLt op x hx
      rw [hok.1] at this
      exact Nat.lt_irrefl _ this
    · rw [hr] at hx
      rcases mem_pendStep hx with k | ⟨n, tg, rfl⟩
      · exact Nat.lt_of_lt_of_le (h.reqsLt op x k) d.nextId.1
      · exact (d.nextId.2 _ (by simp) n op x.1).1 tg rfl
    · rw [hg] at hx
      rcases mem_regStep hx with k | ⟨n, tg, b, rfl⟩
      · exact Nat.lt_of_lt_of_le (h.regsLt op x k) d.nextId.1
      · exact (d.nextId.2 _ (by simp) n op x.1).2 tg b rfl

/-- The data are what the history says. -/
structure Abs (s : State) : Prop where
  nodup : NodupI s
  status : s.status = statusIn s.log
  reqs : ∀ op, s.reqs op = pendIn s.log op
  regs : ∀ op, s.regs op = regsIn s.log op
  cache : ∀ op, s.cache op = cacheIn s.log op
  promise : ∀ id, s.promise id = s.log.foldl (promStep id) none
  stored : ∀ n op id tg, .stored n op id tg ∈ s.log → id < s.nextId
  registered : ∀ n op id f b, .registered n op id f b ∈ s.log → id < s.nextId

theorem Abs_step {s s' : State} {a : Act} (h : Abs s) (hs : step s a = some s') : Abs s' := by
  obtain ⟨es, d⟩ := delta_step h.nodup hs
  refine ⟨NodupI_delta h.nodup d, ?_, fun op => ?_, fun op => ?_, fun op => ?_, fun id => ?_, fun n op id tg hm => ?_, fun n op id f b hm => ?_⟩
  · rw [d.status, d.log, h.status, statusIn, statusIn, List.foldl_append]
  · rw [d.reqs, d.log, h.reqs, pendIn, pendIn, List.foldl_append]
  · rw [d.regs, d.log, h.regs, regsIn, regsIn, List.foldl_append]
  · rw [d.cache, d.log, h.cache, cacheIn, cacheIn, List.foldl_append]
  · rw [d.promise, d.log, h.promise, List.foldl_append]
  · rw [d.log, List.mem_append] at hm
    rcases hm with hm | hm
    · exact Nat.lt_of_lt_of_le (h.stored n op id tg hm) d.nextId.1
    · exact (d.nextId.2 _ hm n op id).1 tg rfl
  · rw [d.log, List.mem_append] at hm
    rcases hm with hm | hm
    · exact Nat.lt_of_lt_of_le (h.registered n op id f b hm) d.nextId.1
    · exact (d.nextId.2 _ hm n op id).2 f b rfl

theorem Abs_init : Abs init :=
  ⟨⟨fun _ => by simp [init], fun _ => by simp [init], fun _ _ h => (by cases h), fun _ _ h => (by cases h)⟩, rfl, fun _ => rfl, fun _ => rfl, fun _ => rfl, fun _ => rfl,
    fun _ _ _ _ h => (by cases h), fun _ _ _ _ _ h => (by cases h)⟩

theorem promFold {id : Id} (l : List Ev) (acc : Option (Option Val)) :
    (l.foldl (promStep id) acc = none ↔ acc = none ∧ Unset l id) ∧ ∀ p, l.foldl (promStep id) acc = some p → acc = some p ∨ ∃ n, .promised n id p ∈ l := by
  induction l generalizing acc with
  | nil => simp [Unset]
  | cons e l ih =>
    rw [List.foldl_cons]
    by_cases he : ∃ n p, e = .promised n id p
    · obtain ⟨n, p, rfl⟩ := he
      simp only [promStep, if_pos]
      refine ⟨⟨fun h => ?_, fun h => absurd h.2 fun k => k n p (by simp)⟩, fun q hq => ?_⟩
      · exact absurd ((ih _).1.1 h).1 (by simp)
      · rcases (ih _).2 q hq with k | ⟨m, k⟩
        · cases k; exact .inr ⟨n, by simp⟩
        · exact .inr ⟨m, by simp [k]⟩
    · have : promStep id acc e = acc := by
        cases e <;> simp only [promStep] <;> try rfl
        split
        · next h => subst h; exact absurd ⟨_, _, rfl⟩ he
        · rfl
      rw [this]
      refine ⟨(ih acc).1.trans ⟨fun h => ⟨h.1, fun n p hm => ?_⟩, fun h => ⟨h.1, fun n p hm => h.2 n p (by simp [hm])⟩⟩, fun q hq => ?_⟩
      · rcases List.mem_cons.1 hm with k | k
        · exact he ⟨n, p, k.symm⟩
        · exact h.2 n p k
      · rcases (ih acc).2 q hq with k | ⟨m, k⟩
        · exact .inl k
        · exact .inr ⟨m, by simp [k]⟩

theorem promise_none {s : State} (h : Abs s) {id : Id} : s.promise id = none ↔ Unset s.log id := by
  rw [h.promise, (promFold _ _).1]; simp

theorem promise_some {s : State} (h : Abs s) {id : Id} {p : Option Val} (hp : s.promise id = some p) : ∃ n, .promised n id p ∈ s.log := by
  rw [h.promise] at hp
  rcases (promFold _ _).2 p hp with k | k
  · cases k
  · exact k

theorem unused_of {s : State} (h : Abs s) : Unused s.log s.nextId :=
  ⟨fun n op tg hm => Nat.lt_irrefl _ (h.stored n op _ tg hm), fun n op f b hm => Nat.lt_irrefl _ (h.registered n op _ f b hm)⟩

/-- The rule of an event in terms of the state is its rule in terms of the history, but for `broken`. -/
theorem evOk_of {s : State} (h : Abs s) {e : Ev} (hok : StOk s e) (hb : ∀ n id, e = .broken n id → EvOk s.log e) : EvOk s.log e := by
  cases e with
  | checked => simp only [EvOk, StOk] at *; rwa [← h.status]
  | stored => simp only [EvOk, StOk] at *; subst hok; exact unused_of h
  | registered => simp only [EvOk, StOk] at *; obtain ⟨rfl, hk⟩ := hok; rw [← h.regs]; exact ⟨unused_of h, hk⟩
  | unregistered => simp only [EvOk, StOk] at *; rwa [← h.regs]
  | looked => simp only [EvOk, StOk] at *; rwa [← h.reqs]
  | taken => simp only [EvOk, StOk] at *; rwa [← h.reqs]
  | collected => simp only [EvOk, StOk] at *; rwa [← h.regs]
  | subscribed => simp only [EvOk, StOk] at *; rwa [← h.regs]
  | readCache => simp only [EvOk, StOk] at *; rwa [← h.cache]
  | promised => exact (promise_none h).1 hok
  | threw => exact fun k => hok ((promise_none h).2 k)
  | got => exact promise_some h hok
  | broken => exact hb _ _ rfl
  | expired => exact (promise_none h).1 hok
  | statusStored => simp only [EvOk, StOk] at *; rwa [← h.status]
  | _ => trivial

end Maf.Req
