import Verif.Spec.Requester
import Verif.Lemmas.Hist
/-
Every call follows its specification.
-/
namespace Maf.Req

@[simp] theorem upd_same {β : Type} (f : Nat → β) (i : Nat) (v : β) : upd f i v i = v := by simp [upd]
theorem upd_other {β : Type} {f : Nat → β} {i j : Nat} {v : β} (h : j ≠ i) : upd f i v j = f j := by simp [upd, h]

/-- What a call has done when it is about to store its request. -/
def StoreOk (n : Cid) (code : Code) (op : Op) (p : Option Val) (tg : Target) (h : How) (l : List Ev) : Prop :=
  (∃ f, code = .request ∧ tg = .user f ∧ h = .async ∧ l = [.called n (.request op p f), .checked n true]) ∨
  (∃ t, code = .request ∧ tg = .sync ∧ h = .sync t ∧ l = [.called n (.requestSync op p t), .checked n true]) ∨
  (∃ f, code = .statusGet ∧ p = none ∧ tg = .user (some f) ∧ h = .get ∧ l = [.called n (.getAsync op f), .checked n true, .subscribed n op false]) ∨
  ∃ t, code = .statusGet ∧ p = none ∧ tg = .sync ∧ h = .sync t ∧ l = [.called n (.getSync op t), .checked n true, .subscribed n op false, .checked n true]

/-- When it is about to send. -/
def SendOk (n : Cid) (m : Msg) (l : List Ev) : Kont → Prop
  | .request op id h => ∃ code p tg l', m = ⟨code, op, some id, p⟩ ∧ StoreOk n code op p tg h l' ∧ l = l' ++ [.stored n op id tg]
  | .register op id => ∃ g f, m = ⟨regCode g, op, some id, none⟩ ∧ l = [.called n (.register g op (some f)), .checked n true, .registered n op id f true]
  | .unregister => ∃ op id, op ≠ 0 ∧ m = ⟨.unregister, op, none, none⟩ ∧ l = [.called n (.unregister op (some id)), .unregistered n op id 0, .uncached n op, .checked n true]
  | .unregisterAll op => m = ⟨.unregister, op, none, none⟩ ∧ l = [.called n (.unregisterAll op), .checked n true, .erased n op]
  | .abort => ∃ op id, op ≠ 0 ∧ m = ⟨.abort, op, some id, none⟩ ∧ l = [.called n (.abort op (some id)), .looked n op id true]
  | .abortSync => ∃ op id code p tg l', op ≠ 0 ∧ m = ⟨.abort, op, some id, none⟩ ∧ StoreOk n code op p tg (.sync true) l' ∧
      l = l' ++ [.stored n op id tg, .sent n ⟨code, op, some id, p⟩, .sentBack n .success, .expired n id, .looked n op id true]

def RunOk (n : Cid) (f : Fn) (p : Option Val) (r : Res) (l : List Ev) : Prop :=
  (∃ m, isAnswer m.code = true ∧ p = m.payload ∧ r = ⟨none, none, none⟩ ∧ l = [.called n (.incoming m true), .taken n m (some (.user (some f)))]) ∨
  (∃ op, r = ⟨none, none, some .serviceUnavailable⟩ ∧ l = [.called n (.getAsync op f), .checked n false, .readCache n op p]) ∨
  (∃ op, r = ⟨none, none, some .success⟩ ∧ l = [.called n (.getAsync op f), .checked n true, .subscribed n op true, .readCache n op p]) ∨
  ∃ op id v, p = some v ∧ r = ⟨some (op, id), none, some .success⟩ ∧ l = [.called n (.register false op (some f)), .checked n true, .registered n op id f false, .readCache n op (some v)]

/-- What a call has done when it is at a place. -/
def PathOk (n : Cid) (l : List Ev) : Pc → Prop
  | .idle => l = []
  | .done => ∃ c, Full n c l
  | .start c => l = [.called n c]
  | .store code op p tg h => StoreOk n code op p tg h l
  | .send m k => SendOk n m l k
  | .sending k => ∃ m l', SendOk n m l' k ∧ l = l' ++ [.sent n m]
  | .fail op id st => ∃ h st', st' ≠ .success ∧ st = (if h = .get then .success else st') ∧ ∃ m l', SendOk n m l' (.request op id h) ∧ l = l' ++ [.sent n m, .sentBack n st']
  | .regFail op id st => st ≠ .success ∧ ∃ m l', SendOk n m l' (.register op id) ∧ l = l' ++ [.sent n m, .sentBack n st]
  | .waiting op id t => op ≠ 0 ∧ ∃ m l', SendOk n m l' (.request op id (.sync t)) ∧ l = l' ++ [.sent n m, .sentBack n .success]
  | .abortFind op id k => op ≠ 0 ∧ ((k = .abort ∧ l = [.called n (.abort op (some id))]) ∨
      (k = .abortSync ∧ ∃ m l', SendOk n m l' (.request op id (.sync true)) ∧ l = l' ++ [.sent n m, .sentBack n .success, .expired n id]))
  | .regStore code op f => ∃ g, code = regCode g ∧ l = [.called n (.register g op (some f)), .checked n true]
  | .readCache op u =>
    match u with
    | .ret st => ∃ t, (st = .serviceUnavailable ∧ l = [.called n (.getSync op t), .checked n false]) ∨
        (st = .success ∧ l = [.called n (.getSync op t), .checked n true, .subscribed n op true])
    | .give f st => (st = .serviceUnavailable ∧ l = [.called n (.getAsync op f), .checked n false]) ∨
        (st = .success ∧ l = [.called n (.getAsync op f), .checked n true, .subscribed n op true])
    | .late o id f => o = op ∧ l = [.called n (.register false op (some f)), .checked n true, .registered n op id f false]
  | .unregRemove op id => op ≠ 0 ∧ l = [.called n (.unregister op (some id))]
  | .uncache op check =>
    if check then op ≠ 0 ∧ ∃ id, l = [.called n (.unregister op (some id)), .unregistered n op id 0]
    else ∃ st, l = [.called n (.unregisterAll op), .checked n true, .erased n op, .sent n ⟨.unregister, op, none, none⟩, .sentBack n st]
  | .unregCheck op => op ≠ 0 ∧ ∃ id, l = [.called n (.unregister op (some id)), .unregistered n op id 0, .uncached n op]
  | .eraseAll op => l = [.called n (.unregisterAll op), .checked n true]
  | .subQ op f t =>
    match f with
    | none => l = [.called n (.getSync op t), .checked n true]
    | some f => l = [.called n (.getAsync op f), .checked n true]
  | .recheck op t => l = [.called n (.getSync op t), .checked n true, .subscribed n op false]
  | .regUpd m => isUpdate m.code = true ∧ l = [.called n (.incoming m true)]
  | .runCbs m any fs | .inCbs m any fs => isUpdate m.code = true ∧ ∃ gs, any = !(gs ++ fs).isEmpty ∧
      l = .called n (.incoming m true) :: .collected n m.op (gs ++ fs) :: gs.map (.ran n · m.payload)
  | .cacheIt op p => ∃ m fs, m.code = .statusRegister ∧ fs ≠ [] ∧ op = m.op ∧ p = m.payload ∧
      l = .called n (.incoming m true) :: .collected n m.op fs :: fs.map (.ran n · m.payload)
  | .reqRes m => isAnswer m.code = true ∧ l = [.called n (.incoming m true)]
  | .runOne f p r => RunOk n f p r l
  | .inOne r => ∃ f p l', RunOk n f p r l' ∧ l = l' ++ [.ran n f p]
  | .fulfil id p => ∃ m, isAnswer m.code = true ∧ m.id = some id ∧ p = m.payload ∧ l = [.called n (.incoming m true), .taken n m (some .sync)]
  | .clearReqs more => if more then l = [.called n (.status .unavailable), .statusStored n .unavailable] else l = [.called n .deinit]
  | .clearRegs => l = [.called n (.status .unavailable), .statusStored n .unavailable, .reqsCleared n]

/-- A step of call `n`, seen from outside. -/
structure Moves (s s' : State) (n : Cid) (pc : Pc) (es : List Ev) : Prop where
  at_ : s'.pc = upd s.pc n pc
  log : s'.log = s.log ++ es ∧ s'.nextC = s.nextC
  cid : ∀ e ∈ es, e.cid = n
  path : ∀ l, PathOk n l (s.pc n) → PathOk n (l ++ es) pc

theorem exchange_failed {n : Cid} {code : Code} {op : Op} {p : Option Val} {tg : Target} {h : How} {id : Id} {st : Status} (hst : st ≠ .success) :
    Exchange n code op p tg h [.stored n op id tg, .sent n ⟨code, op, some id, p⟩, .sentBack n st, .dropped n op id,
      .returned n ⟨none, none, some (if h = .get then .success else st)⟩] := by
  by_cases hh : h = .get
  · subst hh; exact .unheard hst
  · rw [if_neg hh]; exact .failed hh hst

theorem storeOk_full {n : Cid} {code : Code} {op : Op} {p : Option Val} {tg : Target} {h : How} {l x : List Ev} (hl : StoreOk n code op p tg h l)
    (hx : Exchange n code op p tg h x) : ∃ c, Full n c (l ++ x) := by
  rcases hl with ⟨f, rfl, rfl, rfl, rfl⟩ | ⟨t, rfl, rfl, rfl, rfl⟩ | ⟨f, rfl, rfl, rfl, rfl, rfl⟩ | ⟨t, rfl, rfl, rfl, rfl, rfl⟩
  · exact ⟨_, .req hx⟩
  · exact ⟨_, .sync hx⟩
  · exact ⟨_, .geta hx⟩
  · exact ⟨_, .get hx⟩

theorem moves_begin {s s' : State} {n : Cid} {c : Call} (hpc : s.pc n = .start c) (hs : begin_ s n c = some s') : ∃ pc es, Moves s s' n pc es := by
  cases c with
  | request op p f =>
    simp only [begin_] at hs
    split at hs <;> cases hs
    · exact ⟨_, _, rfl, ⟨rfl, rfl⟩, by simp [Ev.cid], fun l h => by rw [hpc] at h; cases h; exact .inl ⟨f, rfl, rfl, rfl, rfl⟩⟩
    · exact ⟨_, _, rfl, ⟨rfl, rfl⟩, by simp [Ev.cid], fun l h => by rw [hpc] at h; cases h; exact ⟨_, .reqRefused⟩⟩
  | requestSync op p t =>
    simp only [begin_] at hs
    split at hs <;> cases hs
    · exact ⟨_, _, rfl, ⟨rfl, rfl⟩, by simp [Ev.cid], fun l h => by rw [hpc] at h; cases h; exact .inr (.inl ⟨t, rfl, rfl, rfl, rfl⟩)⟩
    · exact ⟨_, _, rfl, ⟨rfl, rfl⟩, by simp [Ev.cid], fun l h => by rw [hpc] at h; cases h; exact ⟨_, .syncRefused⟩⟩
  | getSync op t =>
    simp only [begin_] at hs
    split at hs <;> cases hs
    · exact ⟨_, _, rfl, ⟨rfl, rfl⟩, by simp [Ev.cid], fun l h => by rw [hpc] at h; cases h; rfl⟩
    · exact ⟨_, _, rfl, ⟨rfl, rfl⟩, by simp [Ev.cid], fun l h => by rw [hpc] at h; cases h; exact ⟨t, .inl ⟨rfl, rfl⟩⟩⟩
  | getAsync op f =>
    simp only [begin_] at hs
    split at hs <;> cases hs
    · exact ⟨_, _, rfl, ⟨rfl, rfl⟩, by simp [Ev.cid], fun l h => by rw [hpc] at h; cases h; rfl⟩
    · exact ⟨_, _, rfl, ⟨rfl, rfl⟩, by simp [Ev.cid], fun l h => by rw [hpc] at h; cases h; exact .inl ⟨rfl, rfl⟩⟩
  | register g op f =>
    simp only [begin_] at hs
    split at hs
    · cases f with
      | none => cases hs; exact ⟨_, _, rfl, ⟨rfl, rfl⟩, by simp [Ev.cid], fun l h => by rw [hpc] at h; cases h; exact ⟨_, .regEmpty⟩⟩
      | some f => cases hs; exact ⟨_, _, rfl, ⟨rfl, rfl⟩, by simp [Ev.cid], fun l h => by rw [hpc] at h; cases h; exact ⟨g, rfl, rfl⟩⟩
    · cases hs; exact ⟨_, _, rfl, ⟨rfl, rfl⟩, by simp [Ev.cid], fun l h => by rw [hpc] at h; cases h; exact ⟨_, .regRefused⟩⟩
  | unregister op id =>
    cases id with
    | none => cases hs; exact ⟨_, _, rfl, ⟨rfl, rfl⟩, by simp [Ev.cid], fun l h => by rw [hpc] at h; cases h; exact ⟨_, .unregInvalid (.inr rfl)⟩⟩
    | some id =>
      simp only [begin_] at hs
      split at hs <;> cases hs
      · next h0 => exact ⟨_, _, rfl, ⟨rfl, rfl⟩, by simp [Ev.cid], fun l h => by rw [hpc] at h; cases h; exact ⟨_, .unregInvalid (.inl h0)⟩⟩
      · next h0 => exact ⟨_, _, rfl, ⟨rfl, rfl⟩, by simp, fun l h => by rw [hpc] at h; cases h; exact ⟨h0, rfl⟩⟩
  | unregisterAll op =>
    simp only [begin_] at hs
    split at hs <;> cases hs
    · exact ⟨_, _, rfl, ⟨rfl, rfl⟩, by simp [Ev.cid], fun l h => by rw [hpc] at h; cases h; rfl⟩
    · exact ⟨_, _, rfl, ⟨rfl, rfl⟩, by simp [Ev.cid], fun l h => by rw [hpc] at h; cases h; exact ⟨_, .allRefused⟩⟩
  | abort op id =>
    cases id with
    | none => cases hs; exact ⟨_, _, rfl, ⟨rfl, rfl⟩, by simp [Ev.cid], fun l h => by rw [hpc] at h; cases h; exact ⟨_, .abortInvalid (.inr rfl)⟩⟩
    | some id =>
      simp only [begin_] at hs
      split at hs <;> cases hs
      · next h0 => exact ⟨_, _, rfl, ⟨rfl, rfl⟩, by simp [Ev.cid], fun l h => by rw [hpc] at h; cases h; exact ⟨_, .abortInvalid (.inl h0)⟩⟩
      · next h0 => exact ⟨_, _, rfl, ⟨rfl, rfl⟩, by simp, fun l h => by rw [hpc] at h; cases h; exact ⟨h0, .inl ⟨rfl, rfl⟩⟩⟩
  | incoming m mine =>
    cases mine with
    | false =>
      cases hs
      exact ⟨_, _, rfl, ⟨rfl, rfl⟩, by simp [Ev.cid], fun l h => by rw [hpc] at h; cases h; exact ⟨_, .ignored (.inl rfl)⟩⟩
    | true =>
      simp only [begin_, if_true] at hs
      split at hs <;> cases hs
      · next hc => exact ⟨_, _, rfl, ⟨rfl, rfl⟩, by simp, fun l h => by rw [hpc] at h; cases h; exact ⟨by rw [hc]; rfl, rfl⟩⟩
      · next hc => exact ⟨_, _, rfl, ⟨rfl, rfl⟩, by simp, fun l h => by rw [hpc] at h; cases h; exact ⟨by rw [hc]; rfl, rfl⟩⟩
      · next hc => exact ⟨_, _, rfl, ⟨rfl, rfl⟩, by simp, fun l h => by rw [hpc] at h; cases h; exact ⟨by rw [hc]; rfl, rfl⟩⟩
      · next hc => exact ⟨_, _, rfl, ⟨rfl, rfl⟩, by simp, fun l h => by rw [hpc] at h; cases h; exact ⟨by rw [hc]; rfl, rfl⟩⟩
      · next hc => exact ⟨_, _, rfl, ⟨rfl, rfl⟩, by simp, fun l h => by rw [hpc] at h; cases h; exact ⟨by rw [hc]; rfl, rfl⟩⟩
      · refine ⟨_, _, rfl, ⟨rfl, rfl⟩, by simp [Ev.cid], fun l h => ?_⟩
        rw [hpc] at h; cases h
        refine ⟨_, .ignored (.inr ?_)⟩
        cases hc : m.code <;> simp_all [isUpdate, isAnswer]
  | status a =>
    simp only [begin_] at hs
    split at hs
    · cases hs
    · split at hs
      · cases hs; exact ⟨_, _, rfl, ⟨rfl, rfl⟩, by simp [Ev.cid], fun l h => by rw [hpc] at h; cases h; exact ⟨_, .same⟩⟩
      · split at hs
        · next h0 => subst h0; cases hs; exact ⟨_, _, rfl, ⟨rfl, rfl⟩, by simp [Ev.cid], fun l h => by rw [hpc] at h; cases h; rfl⟩
        · next h0 => cases hs; exact ⟨_, _, rfl, ⟨rfl, rfl⟩, by simp [Ev.cid], fun l h => by rw [hpc] at h; cases h; exact ⟨_, .changed h0⟩⟩
  | deinit =>
    cases hs
    exact ⟨_, _, rfl, ⟨rfl, rfl⟩, by simp, fun l h => by rw [hpc] at h; cases h; rfl⟩

theorem moves_step {s s' : State} {n : Cid} (hs : stepPc s n (s.pc n) = some s') : s' = { s with ub := true } ∨ ∃ pc es, Moves s s' n pc es := by
  cases hpc : s.pc n with
  | idle => rw [hpc] at hs; cases hs
  | done => rw [hpc] at hs; cases hs
  | sending k => rw [hpc] at hs; cases hs
  | inCbs m a fs => rw [hpc] at hs; cases hs
  | inOne r => rw [hpc] at hs; cases hs
  | start c => rw [hpc] at hs; exact .inr (moves_begin hpc hs)
  | store code op p tg h =>
    rw [hpc] at hs; cases hs
    exact .inr ⟨_, _, rfl, ⟨rfl, rfl⟩, by simp [Ev.cid], fun l hl => by rw [hpc] at hl; exact ⟨code, p, tg, l, rfl, hl, rfl⟩⟩
  | send m k =>
    rw [hpc] at hs; cases hs
    exact .inr ⟨_, _, rfl, ⟨rfl, rfl⟩, by simp [Ev.cid], fun l hl => by rw [hpc] at hl; exact ⟨m, l, hl, rfl⟩⟩
  | fail op id st =>
    rw [hpc] at hs; cases hs
    refine .inr ⟨_, _, rfl, ⟨rfl, rfl⟩, by simp [Ev.cid], fun l hl => ?_⟩
    rw [hpc] at hl
    obtain ⟨h, st', hst, rfl, m, l', ⟨code, p, tg, l'', rfl, hx, rfl⟩, rfl⟩ := hl
    simpa [PathOk] using storeOk_full hx (exchange_failed (id := id) hst)
  | regFail op id st =>
    rw [hpc] at hs; cases hs
    refine .inr ⟨_, _, rfl, ⟨rfl, rfl⟩, by simp [Ev.cid], fun l hl => ?_⟩
    rw [hpc] at hl
    obtain ⟨hst, m, l', ⟨g, f, rfl, rfl⟩, rfl⟩ := hl
    exact ⟨_, .regFailed hst⟩
  | waiting op id t =>
    rw [hpc] at hs
    simp only [stepPc] at hs
    split at hs
    · cases hs
      refine .inr ⟨_, _, rfl, ⟨rfl, rfl⟩, by simp [Ev.cid], fun l hl => ?_⟩
      rw [hpc] at hl
      obtain ⟨hop, m, l', ⟨code, p, tg, l'', rfl, hx, rfl⟩, rfl⟩ := hl
      simpa [PathOk] using storeOk_full hx (.got (id := id) hop)
    · split at hs
      · cases hs
        refine .inr ⟨_, _, rfl, ⟨rfl, rfl⟩, by simp [Ev.cid], fun l hl => ?_⟩
        rw [hpc] at hl
        obtain ⟨hop, m, l', ⟨code, p, tg, l'', rfl, hx, rfl⟩, rfl⟩ := hl
        simpa [PathOk] using storeOk_full hx (.broken (id := id) hop)
      · cases hs
  | abortFind op id k =>
    rw [hpc] at hs
    simp only [stepPc] at hs
    split at hs
    · cases hs
      refine .inr ⟨_, _, rfl, ⟨rfl, rfl⟩, by simp [Ev.cid], fun l hl => ?_⟩
      rw [hpc] at hl
      obtain ⟨hop, ⟨rfl, rfl⟩ | ⟨rfl, m, l', ⟨code, p, tg, l'', rfl, hx, rfl⟩, rfl⟩⟩ := hl
      · exact ⟨op, id, hop, rfl, rfl⟩
      · exact ⟨op, id, code, p, tg, l'', hop, rfl, hx, by simp⟩
    · cases hs
      refine .inr ⟨_, _, rfl, ⟨rfl, rfl⟩, by simp [Ev.cid], fun l hl => ?_⟩
      rw [hpc] at hl
      obtain ⟨hop, ⟨rfl, rfl⟩ | ⟨rfl, m, l', ⟨code, p, tg, l'', rfl, hx, rfl⟩, rfl⟩⟩ := hl
      · exact ⟨_, .abortNone hop⟩
      · simpa [PathOk] using storeOk_full hx (.late (id := id) hop)
  | regStore code op f =>
    rw [hpc] at hs
    simp only [stepPc] at hs
    split at hs
    · cases hs
      refine .inr ⟨_, _, rfl, ⟨rfl, rfl⟩, by simp [Ev.cid], fun l hl => ?_⟩
      rw [hpc] at hl
      obtain ⟨g, rfl, rfl⟩ := hl
      exact ⟨g, f, rfl, rfl⟩
    · split at hs
      · next hc =>
        cases hs
        refine .inr ⟨_, _, rfl, ⟨rfl, rfl⟩, by simp [Ev.cid], fun l hl => ?_⟩
        rw [hpc] at hl
        obtain ⟨g, rfl, rfl⟩ := hl
        cases g
        · exact ⟨rfl, rfl⟩
        · simp [regCode] at hc
      · next hc =>
        cases hs
        refine .inr ⟨_, _, rfl, ⟨rfl, rfl⟩, by simp [Ev.cid], fun l hl => ?_⟩
        rw [hpc] at hl
        obtain ⟨g, rfl, rfl⟩ := hl
        cases g
        · simp [regCode] at hc
        · exact ⟨_, .regSignal⟩
  | readCache op u =>
    rw [hpc] at hs
    simp only [stepPc] at hs
    split at hs
    · cases hs; exact .inl rfl
    · split at hs
      · cases hs
        refine .inr ⟨_, _, rfl, ⟨rfl, rfl⟩, by simp [Ev.cid], fun l hl => ?_⟩
        rw [hpc] at hl
        obtain ⟨t, ⟨rfl, rfl⟩ | ⟨rfl, rfl⟩⟩ := hl
        · exact ⟨_, .getOff⟩
        · exact ⟨_, .getSub⟩
      · cases hs
        refine .inr ⟨_, _, rfl, ⟨rfl, rfl⟩, by simp [Ev.cid], fun l hl => ?_⟩
        rw [hpc] at hl
        rcases hl with ⟨rfl, rfl⟩ | ⟨rfl, rfl⟩
        · exact .inr (.inl ⟨op, rfl, rfl⟩)
        · exact .inr (.inr (.inl ⟨op, rfl, rfl⟩))
      · split at hs
        · next hv =>
          cases hs
          refine .inr ⟨_, _, rfl, ⟨rfl, rfl⟩, by simp [Ev.cid], fun l hl => ?_⟩
          rw [hpc] at hl
          obtain ⟨rfl, rfl⟩ := hl
          rw [hv]
          exact .inr (.inr (.inr ⟨_, _, _, rfl, rfl, rfl⟩))
        · next hv =>
          cases hs
          refine .inr ⟨_, _, rfl, ⟨rfl, rfl⟩, by simp [Ev.cid], fun l hl => ?_⟩
          rw [hpc] at hl
          obtain ⟨rfl, rfl⟩ := hl
          rw [hv]
          exact ⟨_, .regLateNone⟩
  | unregRemove op id =>
    rw [hpc] at hs
    simp only [stepPc] at hs
    split at hs
    · next h0 =>
      cases hs
      refine .inr ⟨_, _, rfl, ⟨rfl, rfl⟩, by simp [Ev.cid], fun l hl => ?_⟩
      rw [hpc] at hl
      obtain ⟨hop, rfl⟩ := hl
      rw [h0]
      exact ⟨hop, id, rfl⟩
    · next h0 =>
      cases hs
      refine .inr ⟨_, _, rfl, ⟨rfl, rfl⟩, by simp [Ev.cid], fun l hl => ?_⟩
      rw [hpc] at hl
      obtain ⟨hop, rfl⟩ := hl
      exact ⟨_, .unregMore hop h0⟩
  | uncache op check =>
    rw [hpc] at hs
    simp only [stepPc] at hs
    split at hs
    · next hc =>
      subst hc
      cases hs
      refine .inr ⟨_, _, rfl, ⟨rfl, rfl⟩, by simp [Ev.cid], fun l hl => ?_⟩
      rw [hpc] at hl
      obtain ⟨hop, id, rfl⟩ := hl
      exact ⟨hop, id, rfl⟩
    · next hc =>
      have hc : check = false := by simpa using hc
      subst hc
      cases hs
      refine .inr ⟨_, _, rfl, ⟨rfl, rfl⟩, by simp [Ev.cid], fun l hl => ?_⟩
      rw [hpc] at hl
      obtain ⟨st, rfl⟩ := hl
      exact ⟨_, .all⟩
  | unregCheck op =>
    rw [hpc] at hs
    simp only [stepPc] at hs
    split at hs
    · cases hs
      refine .inr ⟨_, _, rfl, ⟨rfl, rfl⟩, by simp [Ev.cid], fun l hl => ?_⟩
      rw [hpc] at hl
      obtain ⟨hop, id, rfl⟩ := hl
      exact ⟨op, id, hop, rfl, rfl⟩
    · cases hs
      refine .inr ⟨_, _, rfl, ⟨rfl, rfl⟩, by simp [Ev.cid], fun l hl => ?_⟩
      rw [hpc] at hl
      obtain ⟨hop, id, rfl⟩ := hl
      exact ⟨_, .unregOff hop⟩
  | eraseAll op =>
    rw [hpc] at hs; cases hs
    refine .inr ⟨_, _, rfl, ⟨rfl, rfl⟩, by simp [Ev.cid], fun l hl => ?_⟩
    rw [hpc] at hl; cases hl
    exact ⟨rfl, rfl⟩
  | subQ op f t =>
    rw [hpc] at hs
    simp only [stepPc] at hs
    split at hs
    · cases f with
      | none => cases hs; exact .inr ⟨_, _, rfl, ⟨rfl, rfl⟩, by simp [Ev.cid], fun l hl => by rw [hpc] at hl; cases hl; exact ⟨t, .inr ⟨rfl, rfl⟩⟩⟩
      | some f => cases hs; exact .inr ⟨_, _, rfl, ⟨rfl, rfl⟩, by simp [Ev.cid], fun l hl => by rw [hpc] at hl; cases hl; exact .inr ⟨rfl, rfl⟩⟩
    · cases f with
      | none => cases hs; exact .inr ⟨_, _, rfl, ⟨rfl, rfl⟩, by simp [Ev.cid], fun l hl => by rw [hpc] at hl; cases hl; rfl⟩
      | some f => cases hs; exact .inr ⟨_, _, rfl, ⟨rfl, rfl⟩, by simp [Ev.cid], fun l hl => by rw [hpc] at hl; cases hl; exact .inr (.inr (.inl ⟨f, rfl, rfl, rfl, rfl, rfl⟩))⟩
  | recheck op t =>
    rw [hpc] at hs
    simp only [stepPc] at hs
    split at hs <;> cases hs
    · exact .inr ⟨_, _, rfl, ⟨rfl, rfl⟩, by simp [Ev.cid], fun l hl => by rw [hpc] at hl; cases hl; exact .inr (.inr (.inr ⟨t, rfl, rfl, rfl, rfl, rfl⟩))⟩
    · exact .inr ⟨_, _, rfl, ⟨rfl, rfl⟩, by simp [Ev.cid], fun l hl => by rw [hpc] at hl; cases hl; exact ⟨_, .getLost⟩⟩
  | regUpd m =>
    rw [hpc] at hs; cases hs
    refine .inr ⟨_, _, rfl, ⟨rfl, rfl⟩, by simp [Ev.cid], fun l hl => ?_⟩
    rw [hpc] at hl
    obtain ⟨hc, rfl⟩ := hl
    exact ⟨hc, [], rfl, rfl⟩
  | runCbs m a fs =>
    rw [hpc] at hs
    cases fs with
    | cons f fs =>
      cases hs
      refine .inr ⟨_, _, rfl, ⟨rfl, rfl⟩, by simp [Ev.cid], fun l hl => ?_⟩
      rw [hpc] at hl
      obtain ⟨hc, gs, ha, rfl⟩ := hl
      exact ⟨hc, gs ++ [f], by simpa using ha, by simp⟩
    | nil =>
      simp only [stepPc] at hs
      split at hs
      · next hb =>
        cases hs
        refine .inr ⟨_, _, rfl, ⟨rfl, rfl⟩, by simp, fun l hl => ?_⟩
        rw [hpc] at hl
        obtain ⟨hc, gs, ha, rfl⟩ := hl
        simp at hb ha
        rw [hb.1] at ha
        refine ⟨m, gs, hb.2, fun e => by simp [e] at ha, rfl, rfl, by simp⟩
      · next hb =>
        cases hs
        refine .inr ⟨_, _, rfl, ⟨rfl, rfl⟩, by simp [Ev.cid], fun l hl => ?_⟩
        rw [hpc] at hl
        obtain ⟨hc, gs, ha, rfl⟩ := hl
        have := Full.update (n := n) (m := m) (fs := gs) hc
        rw [if_neg] at this
        · exact ⟨_, by simpa using this⟩
        · rintro ⟨k1, k2⟩
          apply hb
          rw [ha, k1]
          cases gs
          · exact absurd rfl k2
          · rfl
  | cacheIt op p =>
    rw [hpc] at hs; cases hs
    refine .inr ⟨_, _, rfl, ⟨rfl, rfl⟩, by simp [Ev.cid], fun l hl => ?_⟩
    rw [hpc] at hl
    obtain ⟨m, fs, hc, hne, rfl, rfl, rfl⟩ := hl
    have := Full.update (n := n) (m := m) (fs := fs) (by rw [hc]; rfl)
    rw [if_pos ⟨hc, hne⟩] at this
    exact ⟨_, by simpa using this⟩
  | reqRes m =>
    rw [hpc] at hs
    simp only [stepPc] at hs
    split at hs
    · cases hs
      refine .inr ⟨_, _, rfl, ⟨rfl, rfl⟩, by simp [Ev.cid], fun l hl => ?_⟩
      rw [hpc] at hl
      obtain ⟨hc, rfl⟩ := hl
      exact ⟨_, .unmatched hc⟩
    · next id tg hf =>
      have hid : m.id = some id := by
        have := List.find?_some hf
        simp at this
        exact this.symm
      split at hs
      · cases hs
        refine .inr ⟨_, _, by unfold ret go; split <;> rfl, by unfold ret go; split <;> exact ⟨rfl, rfl⟩, by simp [Ev.cid], fun l hl => ?_⟩
        rw [hpc] at hl
        obtain ⟨hc, rfl⟩ := hl
        exact ⟨_, .noCallback hc⟩
      · cases hs
        refine .inr ⟨_, _, by unfold go; split <;> rfl, by unfold go; split <;> exact ⟨rfl, rfl⟩, by simp [Ev.cid], fun l hl => ?_⟩
        rw [hpc] at hl
        obtain ⟨hc, rfl⟩ := hl
        exact .inl ⟨m, hc, rfl, rfl, rfl⟩
      · cases hs
        refine .inr ⟨_, _, by unfold go; split <;> rfl, by unfold go; split <;> exact ⟨rfl, rfl⟩, by simp [Ev.cid], fun l hl => ?_⟩
        rw [hpc] at hl
        obtain ⟨hc, rfl⟩ := hl
        exact ⟨m, hc, hid, rfl, rfl⟩
  | runOne f p r =>
    rw [hpc] at hs; cases hs
    exact .inr ⟨_, _, rfl, ⟨rfl, rfl⟩, by simp [Ev.cid], fun l hl => by rw [hpc] at hl; exact ⟨f, p, l, hl, rfl⟩⟩
  | fulfil id p =>
    rw [hpc] at hs
    simp only [stepPc] at hs
    split at hs
    · cases hs
      refine .inr ⟨_, _, rfl, ⟨rfl, rfl⟩, by simp [Ev.cid], fun l hl => ?_⟩
      rw [hpc] at hl
      obtain ⟨m, hc, hid, rfl, rfl⟩ := hl
      exact ⟨_, .promised hc hid⟩
    · cases hs
      refine .inr ⟨_, _, rfl, ⟨rfl, rfl⟩, by simp [Ev.cid], fun l hl => ?_⟩
      rw [hpc] at hl
      obtain ⟨m, hc, hid, rfl, rfl⟩ := hl
      exact ⟨_, .threw hc hid⟩
  | clearReqs more =>
    rw [hpc] at hs
    cases more <;> cases hs
    · exact .inr ⟨_, _, rfl, ⟨rfl, rfl⟩, by simp [Ev.cid], fun l hl => by rw [hpc] at hl; cases hl; exact ⟨_, .deinit⟩⟩
    · exact .inr ⟨_, _, rfl, ⟨rfl, rfl⟩, by simp [Ev.cid], fun l hl => by rw [hpc] at hl; cases hl; rfl⟩
  | clearRegs =>
    rw [hpc] at hs; cases hs
    exact .inr ⟨_, _, rfl, ⟨rfl, rfl⟩, by simp [Ev.cid], fun l hl => by rw [hpc] at hl; cases hl; exact ⟨_, .lost⟩⟩

theorem moves_back {s s' : State} {n : Cid} {st : Status} (hs : backPc s n st (s.pc n) = some s') : ∃ pc es, Moves s s' n pc es := by
  cases hpc : s.pc n with
  | sending k =>
    rw [hpc] at hs
    cases k with
    | request op id h =>
      simp only [backPc] at hs
      split at hs
      · next hst =>
        subst hst
        cases h with
        | async =>
          cases hs
          refine ⟨_, _, rfl, ⟨rfl, rfl⟩, by simp [Ev.cid], fun l hl => ?_⟩
          rw [hpc] at hl
          obtain ⟨m, l', ⟨code, p, tg, l'', rfl, hx, rfl⟩, rfl⟩ := hl
          simpa [PathOk] using storeOk_full hx (.async (id := id))
        | get =>
          cases hs
          refine ⟨_, _, rfl, ⟨rfl, rfl⟩, by simp [Ev.cid], fun l hl => ?_⟩
          rw [hpc] at hl
          obtain ⟨m, l', ⟨code, p, tg, l'', rfl, hx, rfl⟩, rfl⟩ := hl
          simpa [PathOk] using storeOk_full hx (.asked (id := id))
        | sync t =>
          simp only at hs
          split at hs
          · next hop =>
            cases hs
            refine ⟨_, _, rfl, ⟨rfl, rfl⟩, by simp [Ev.cid], fun l hl => ?_⟩
            rw [hpc] at hl
            obtain ⟨m, l', ⟨code, p, tg, l'', rfl, hx, rfl⟩, rfl⟩ := hl
            simpa [PathOk] using storeOk_full hx (.invalid (id := id) hop)
          · next hop =>
            cases hs
            refine ⟨_, _, rfl, ⟨rfl, rfl⟩, by simp [Ev.cid], fun l hl => ?_⟩
            rw [hpc] at hl
            obtain ⟨m, l', hx, rfl⟩ := hl
            exact ⟨hop, m, l', hx, by simp⟩
      · next hst =>
        cases hs
        refine ⟨_, _, rfl, ⟨rfl, rfl⟩, by simp [Ev.cid], fun l hl => ?_⟩
        rw [hpc] at hl
        obtain ⟨m, l', hx, rfl⟩ := hl
        exact ⟨h, st, hst, rfl, m, l', hx, by simp⟩
    | register op id =>
      simp only [backPc] at hs
      split at hs
      · next hst =>
        subst hst
        cases hs
        refine ⟨_, _, rfl, ⟨rfl, rfl⟩, by simp [Ev.cid], fun l hl => ?_⟩
        rw [hpc] at hl
        obtain ⟨m, l', ⟨g, f, rfl, rfl⟩, rfl⟩ := hl
        exact ⟨_, .regFirst⟩
      · next hst =>
        cases hs
        refine ⟨_, _, rfl, ⟨rfl, rfl⟩, by simp [Ev.cid], fun l hl => ?_⟩
        rw [hpc] at hl
        obtain ⟨m, l', hx, rfl⟩ := hl
        exact ⟨hst, m, l', hx, by simp⟩
    | unregister =>
      cases hs
      refine ⟨_, _, rfl, ⟨rfl, rfl⟩, by simp [Ev.cid], fun l hl => ?_⟩
      rw [hpc] at hl
      obtain ⟨m, l', ⟨op, id, hop, rfl, rfl⟩, rfl⟩ := hl
      exact ⟨_, .unregLast hop⟩
    | unregisterAll op =>
      cases hs
      refine ⟨_, _, rfl, ⟨rfl, rfl⟩, by simp [Ev.cid], fun l hl => ?_⟩
      rw [hpc] at hl
      obtain ⟨m, l', ⟨rfl, rfl⟩, rfl⟩ := hl
      exact ⟨st, rfl⟩
    | abort =>
      cases hs
      refine ⟨_, _, rfl, ⟨rfl, rfl⟩, by simp [Ev.cid], fun l hl => ?_⟩
      rw [hpc] at hl
      obtain ⟨m, l', ⟨op, id, hop, rfl, rfl⟩, rfl⟩ := hl
      exact ⟨_, .abort hop⟩
    | abortSync =>
      cases hs
      refine ⟨_, _, rfl, ⟨rfl, rfl⟩, by simp [Ev.cid], fun l hl => ?_⟩
      rw [hpc] at hl
      obtain ⟨m, l', ⟨op, id, code, p, tg, l'', hop, rfl, hx, rfl⟩, rfl⟩ := hl
      simpa [PathOk] using storeOk_full hx (.timeout (id := id) (st := st) hop)
  | inCbs m a fs =>
    rw [hpc] at hs; cases hs
    exact ⟨_, _, rfl, ⟨rfl, rfl⟩, by simp, fun l hl => by rw [hpc] at hl; rw [List.append_nil]; exact hl⟩
  | inOne r =>
    rw [hpc] at hs; cases hs
    refine ⟨_, _, rfl, ⟨rfl, rfl⟩, by simp [Ev.cid], fun l hl => ?_⟩
    rw [hpc] at hl
    obtain ⟨f, p, l', hr, rfl⟩ := hl
    rcases hr with ⟨m, hc, rfl, rfl, rfl⟩ | ⟨op, rfl, rfl⟩ | ⟨op, rfl, rfl⟩ | ⟨op, id, v, rfl, rfl, rfl⟩
    · exact ⟨_, .answered hc⟩
    · exact ⟨_, .getaOff⟩
    · exact ⟨_, .getaSub⟩
    · exact ⟨_, .regLate⟩
  | _ => rw [hpc] at hs; cases hs

/-- Every action that is not undefined is a start or a move of one call. -/
theorem step_moves {s s' : State} {a : Act} (hs : step s a = some s') :
    s' = { s with ub := true } ∨ (∃ c, s' = { go s s.nextC (.start c) [.called s.nextC c] with nextC := s.nextC + 1 }) ∨ ∃ n pc es, s.pc n ≠ .idle ∧ Moves s s' n pc es := by
  unfold step at hs
  split at hs
  · cases hs
  · cases a with
    | call c => cases hs; exact .inr (.inl ⟨c, rfl⟩)
    | step n =>
      rcases moves_step hs with h | ⟨pc, es, h⟩
      · exact .inl h
      · exact .inr (.inr ⟨n, pc, es, (by intro e; simp only [e] at hs; cases hs), h⟩)
    | back n st => obtain ⟨pc, es, h⟩ := moves_back hs; exact .inr (.inr ⟨n, pc, es, (by intro e; simp only [e] at hs; cases hs), h⟩)
    | expire n =>
      simp only at hs
      split at hs
      · next op id hpc =>
        split at hs
        · cases hs
          refine .inr (.inr ⟨n, _, _, by rw [hpc]; simp, rfl, ⟨rfl, rfl⟩, by simp [Ev.cid], fun l hl => ?_⟩)
          rw [hpc] at hl
          obtain ⟨hop, m, l', hx, rfl⟩ := hl
          exact ⟨hop, .inr ⟨rfl, m, l', hx, by simp⟩⟩
        · cases hs
      · cases hs

theorem trace_append (n : Cid) (a b : List Ev) : trace n (a ++ b) = trace n a ++ trace n b := by simp [trace]

theorem trace_own {n : Cid} {es : List Ev} (h : ∀ e ∈ es, e.cid = n) : trace n es = es := by
  simp only [trace, List.filter_eq_self]; intro e he; simp [h e he]

theorem trace_other {n m : Cid} {es : List Ev} (h : ∀ e ∈ es, e.cid = n) (hne : m ≠ n) : trace m es = [] := by
  simp only [trace, List.filter_eq_nil_iff]; intro e he; simp [h e he, Ne.symm hne]

structure PathI (s : State) : Prop where
  path : ∀ n, PathOk n (trace n s.log) (s.pc n)
  new : ∀ n, s.nextC ≤ n → s.pc n = .idle

theorem PathI_step {s s' : State} {a : Act} (h : PathI s) (hs : step s a = some s') : PathI s' := by
  rcases step_moves hs with rfl | ⟨c, rfl⟩ | ⟨n, pc, es, hni, hm⟩
  · exact ⟨h.path, h.new⟩
  · refine ⟨fun m => ?_, fun m hm => ?_⟩
    · simp only [go, trace_append]
      by_cases e : m = s.nextC
      · subst e
        have := h.path s.nextC
        rw [h.new s.nextC (Nat.le_refl _)] at this
        rw [show trace s.nextC s.log = [] from this, upd_same]
        simp [trace, Ev.cid, PathOk]
      · rw [upd_other e, trace_other (n := s.nextC) (es := [Ev.called s.nextC c]) (by simp [Ev.cid]) e, List.append_nil]
        exact h.path m
    · simp only [go]
      rw [upd_other (Nat.ne_of_gt hm)]
      exact h.new m (Nat.le_of_succ_le hm)
  · have hlt : n < s.nextC := Nat.lt_of_not_le fun hle => hni (h.new n hle)
    refine ⟨fun m => ?_, fun m hm' => ?_⟩
    · rw [hm.at_, hm.log.1, trace_append]
      by_cases e : m = n
      · subst e; rw [upd_same, trace_own hm.cid]; exact hm.path _ (h.path m)
      · rw [upd_other e, trace_other hm.cid e, List.append_nil]; exact h.path m
    · rw [hm.log.2] at hm'
      rw [hm.at_, upd_other (Nat.ne_of_gt (Nat.lt_of_lt_of_le hlt hm'))]
      exact h.new m hm'

theorem PathI_init : PathI init := ⟨fun n => rfl, fun n _ => rfl⟩

/-! ### What a call has done is the beginning of what it should do -/

theorem storeOk_prefix {n : Cid} {code : Code} {op : Op} {p : Option Val} {tg : Target} {h : How} {l x : List Ev} {l0 : List Ev} (hl : StoreOk n code op p tg h l)
    (hx : Exchange n code op p tg h x) (hp : l0 <+: l ++ x) : ∃ c full, Full n c full ∧ l0 <+: full := by
  obtain ⟨c, hc⟩ := storeOk_full hl hx
  exact ⟨c, _, hc, hp⟩

theorem follows_of {n : Cid} {l : List Ev} {pc : Pc} (h : PathOk n l pc) : l = [] ∨ ∃ c full, Full n c full ∧ l <+: full := by
  have pre : ∀ {c : Call} {full : List Ev} (x : List Ev), Full n c full → l ++ x = full → l = [] ∨ ∃ c full, Full n c full ∧ l <+: full :=
    fun x hf e => .inr ⟨_, _, hf, x, e⟩
  have fails : (Status.failed 0) ≠ .success := by simp
  have sent : ∀ {m op id hh l'}, SendOk n m l' (.request op id hh) → ∃ c full, Full n c full ∧ l' ++ [.sent n m] <+: full := by
    rintro m op id hh l' ⟨code, p, tg, l'', rfl, hx, rfl⟩
    exact storeOk_prefix hx (exchange_failed (id := id) fails) (by simp)
  have shorter : ∀ {a b : List Ev}, (∃ c full, Full n c full ∧ a ++ b <+: full) → ∃ c full, Full n c full ∧ a <+: full :=
    fun ⟨c, full, hf, hp⟩ => ⟨c, full, hf, (List.prefix_append _ _).trans hp⟩
  cases pc with
  | idle => exact .inl h
  | done => obtain ⟨c, hc⟩ := h; exact .inr ⟨c, l, hc, List.prefix_refl _⟩
  | start c =>
    cases h
    cases c with
    | request => exact pre _ .reqRefused rfl
    | requestSync => exact pre _ .syncRefused rfl
    | getSync op t => exact pre _ (.getOff (o := none)) rfl
    | getAsync => exact pre _ (.getaOff (o := none)) rfl
    | register => exact pre _ .regRefused rfl
    | unregister op id =>
      by_cases h0 : op = 0 ∨ id = none
      · exact pre _ (.unregInvalid h0) rfl
      · cases id with
        | none => simp at h0
        | some id => exact pre _ (.unregOff (fun e => h0 (.inl e))) rfl
    | unregisterAll => exact pre _ .allRefused rfl
    | abort op id =>
      by_cases h0 : op = 0 ∨ id = none
      · exact pre _ (.abortInvalid h0) rfl
      · cases id with
        | none => simp at h0
        | some id => exact pre _ (.abortNone (fun e => h0 (.inl e))) rfl
    | incoming m b =>
      by_cases h0 : b = false ∨ (isUpdate m.code = false ∧ isAnswer m.code = false)
      · exact pre _ (.ignored h0) rfl
      · cases b with
        | false => simp at h0
        | true =>
          by_cases h1 : isUpdate m.code = true
          · exact pre _ (.update (fs := []) h1) rfl
          · refine pre _ (.unmatched ?_) rfl
            simp only [Bool.not_eq_true] at h1
            simp [h1] at h0
            exact h0
    | status => exact pre _ .same rfl
    | deinit => exact pre _ .deinit rfl
  | store code op p tg hh =>
    refine .inr (shorter (b := [.stored n op 0 tg, .sent n ⟨code, op, some 0, p⟩]) ?_)
    have := sent ⟨code, p, tg, l, rfl, h, rfl⟩ (id := 0)
    simpa using this
  | send m k =>
    cases k with
    | request op id hh => exact .inr (shorter (sent h))
    | register op id => obtain ⟨g, f, rfl, rfl⟩ := h; exact pre _ .regFirst rfl
    | unregister => obtain ⟨op, id, hop, rfl, rfl⟩ := h; exact pre _ (.unregLast hop (st := .success)) rfl
    | unregisterAll op => obtain ⟨rfl, rfl⟩ := h; exact pre _ (.all (st := .success)) rfl
    | abort => obtain ⟨op, id, hop, rfl, rfl⟩ := h; exact pre _ (.abort hop (st := .success)) rfl
    | abortSync =>
      obtain ⟨op, id, code, p, tg, l'', hop, rfl, hx, rfl⟩ := h
      exact .inr (storeOk_prefix hx (Exchange.timeout (id := id) (st := .success) hop) (by simp))
  | sending k =>
    obtain ⟨m, l', h, rfl⟩ := h
    cases k with
    | request op id hh => exact .inr (sent h)
    | register op id => obtain ⟨g, f, rfl, rfl⟩ := h; exact pre _ .regFirst rfl
    | unregister => obtain ⟨op, id, hop, rfl, rfl⟩ := h; exact pre _ (.unregLast hop (st := .success)) rfl
    | unregisterAll op => obtain ⟨rfl, rfl⟩ := h; exact pre _ (.all (st := .success)) rfl
    | abort => obtain ⟨op, id, hop, rfl, rfl⟩ := h; exact pre _ (.abort hop (st := .success)) rfl
    | abortSync =>
      obtain ⟨op, id, code, p, tg, l'', hop, rfl, hx, rfl⟩ := h
      exact .inr (storeOk_prefix hx (Exchange.timeout (id := id) (st := .success) hop) (by simp))
  | fail op id st =>
    obtain ⟨hh, st', hst, -, m, l', ⟨code, p, tg, l'', rfl, hx, rfl⟩, rfl⟩ := h
    exact .inr (storeOk_prefix hx (exchange_failed (id := id) hst) (by simp))
  | regFail op id st =>
    obtain ⟨hst, m, l', ⟨g, f, rfl, rfl⟩, rfl⟩ := h
    exact pre _ (.regFailed hst (k := 0)) rfl
  | waiting op id t =>
    obtain ⟨hop, m, l', ⟨code, p, tg, l'', rfl, hx, rfl⟩, rfl⟩ := h
    exact .inr (storeOk_prefix hx (Exchange.got (id := id) (q := none) hop) (by simp))
  | abortFind op id k =>
    obtain ⟨hop, ⟨rfl, rfl⟩ | ⟨rfl, m, l', ⟨code, p, tg, l'', rfl, hx, rfl⟩, rfl⟩⟩ := h
    · exact pre _ (.abortNone hop) rfl
    · exact .inr (storeOk_prefix hx (Exchange.late (id := id) hop) (by simp))
  | regStore code op f => obtain ⟨g, rfl, rfl⟩ := h; exact pre _ (.regFirst (id := 0)) rfl
  | readCache op u =>
    cases u with
    | ret st =>
      obtain ⟨t, ⟨rfl, rfl⟩ | ⟨rfl, rfl⟩⟩ := h
      · exact pre _ (.getOff (o := none)) rfl
      · exact pre _ (.getSub (o := none)) rfl
    | give f st =>
      rcases h with ⟨rfl, rfl⟩ | ⟨rfl, rfl⟩
      · exact pre _ (.getaOff (o := none)) rfl
      · exact pre _ (.getaSub (o := none)) rfl
    | late o id f => obtain ⟨rfl, rfl⟩ := h; exact pre _ .regLateNone rfl
  | unregRemove op id => obtain ⟨hop, rfl⟩ := h; exact pre _ (.unregOff hop) rfl
  | uncache op check =>
    cases check with
    | true => obtain ⟨hop, id, rfl⟩ := h; exact pre _ (.unregOff hop) rfl
    | false => obtain ⟨st, rfl⟩ := h; exact pre _ .all rfl
  | unregCheck op => obtain ⟨hop, id, rfl⟩ := h; exact pre _ (.unregOff hop) rfl
  | eraseAll op => cases h; exact pre _ (.all (st := .success)) rfl
  | subQ op f t =>
    cases f with
    | none => cases h; exact pre _ (.getSub (o := none)) rfl
    | some f => cases h; exact pre _ (.getaSub (o := none)) rfl
  | recheck op t => cases h; exact pre _ .getLost rfl
  | regUpd m => obtain ⟨hc, rfl⟩ := h; exact pre _ (.update (fs := []) hc) rfl
  | runCbs m a fs | inCbs m a fs =>
    obtain ⟨hc, gs, ha, rfl⟩ := h
    refine .inr ⟨_, _, .update (fs := gs ++ fs) hc, ?_⟩
    rw [List.map_append]
    exact ⟨fs.map (.ran n · m.payload) ++ ((if m.code = .statusRegister ∧ gs ++ fs ≠ [] then [.cached n m.op m.payload] else []) ++ [.returned n ⟨none, none, none⟩]), by simp⟩
  | cacheIt op p =>
    obtain ⟨m, fs, hc, hne, rfl, rfl, rfl⟩ := h
    refine .inr ⟨_, _, .update (fs := fs) (by rw [hc]; rfl), ?_⟩
    exact ⟨(if m.code = .statusRegister ∧ fs ≠ [] then [.cached n m.op m.payload] else []) ++ [.returned n ⟨none, none, none⟩], by simp⟩
  | reqRes m => obtain ⟨hc, rfl⟩ := h; exact pre _ (.unmatched hc) rfl
  | runOne f p r =>
    rcases h with ⟨m, hc, rfl, rfl, rfl⟩ | ⟨op, rfl, rfl⟩ | ⟨op, rfl, rfl⟩ | ⟨op, id, v, rfl, rfl, rfl⟩
    · exact pre _ (.answered hc) rfl
    · exact pre _ .getaOff rfl
    · exact pre _ .getaSub rfl
    · exact pre _ .regLate rfl
  | inOne r =>
    obtain ⟨f, p, l', h, rfl⟩ := h
    rcases h with ⟨m, hc, rfl, rfl, rfl⟩ | ⟨op, rfl, rfl⟩ | ⟨op, rfl, rfl⟩ | ⟨op, id, v, rfl, rfl, rfl⟩
    · exact pre _ (.answered hc) rfl
    · exact pre _ .getaOff rfl
    · exact pre _ .getaSub rfl
    · exact pre _ .regLate rfl
  | fulfil id p => obtain ⟨m, hc, hid, rfl, rfl⟩ := h; exact pre _ (.promised hc hid) rfl
  | clearReqs more =>
    cases more with
    | true => cases h; exact pre _ .lost rfl
    | false => cases h; exact pre _ .deinit rfl
  | clearRegs => cases h; exact pre _ .lost rfl

end Maf.Req
