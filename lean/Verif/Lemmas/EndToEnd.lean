import Verif.Model.EndToEnd
/-
Requests from end to end: the invariants.
-/
namespace Maf.E2E

/-- The requests client `c` has sent. -/
def sentOf (c : Nat) (log : List Ev) : List (Nat × Nat × Nat) :=
  log.filterMap fun
    | .sent c' op id x => if c' = c then some (op, id, x) else none
    | _ => none

/-- The requests of client `c` that have arrived. -/
def arrivedOf (c : Nat) (log : List Ev) : List (Nat × Nat × Nat) :=
  log.filterMap fun
    | .handled _ c' op id x => if c' = c then some (op, id, x) else none
    | .refused c' op id x => if c' = c then some (op, id, x) else none
    | _ => none

/-- Those that are on their way. -/
def reqs (l : List Up) : List (Nat × Nat × Nat) :=
  l.filterMap fun
    | .req op id x => some (op, id, x)
    | _ => none

theorem mem_sentOf {c op id x : Nat} {log : List Ev} : (op, id, x) ∈ sentOf c log ↔ .sent c op id x ∈ log := by
  unfold sentOf
  rw [List.mem_filterMap]
  constructor
  · rintro ⟨e, he, h⟩
    split at h
    · split at h
      · rename_i hc; subst hc; cases h; exact he
      · cases h
    · cases h
  · intro h; exact ⟨_, h, by simp⟩

theorem mem_arrivedOf {c op id x : Nat} {log : List Ev} : (op, id, x) ∈ arrivedOf c log ↔ (∃ h, .handled h c op id x ∈ log) ∨ .refused c op id x ∈ log := by
  unfold arrivedOf
  rw [List.mem_filterMap]
  constructor
  · rintro ⟨e, he, h⟩
    split at h
    · split at h
      · rename_i hc; subst hc; cases h; exact .inl ⟨_, he⟩
      · cases h
    · split at h
      · rename_i hc; subst hc; cases h; exact .inr he
      · cases h
    · cases h
  · rintro (⟨h, hm⟩ | hm)
    · exact ⟨_, hm, by simp⟩
    · exact ⟨_, hm, by simp⟩

theorem mem_reqs {op id x : Nat} {l : List Up} : (op, id, x) ∈ reqs l ↔ .req op id x ∈ l := by
  unfold reqs
  rw [List.mem_filterMap]
  constructor
  · rintro ⟨e, he, h⟩
    split at h
    · cases h; exact he
    · cases h
  · intro h; exact ⟨_, h, rfl⟩

theorem sentOf_snoc (c : Nat) (l : List Ev) (e : Ev) : sentOf c (l ++ [e]) = sentOf c l ++ sentOf c [e] := List.filterMap_append
theorem arrivedOf_snoc (c : Nat) (l : List Ev) (e : Ev) : arrivedOf c (l ++ [e]) = arrivedOf c l ++ arrivedOf c [e] := List.filterMap_append
theorem reqs_snoc (l : List Up) (e : Up) : reqs (l ++ [e]) = reqs l ++ reqs [e] := List.filterMap_append

/-- The steps, with their states written out. -/
inductive Move (s : State) : State → Prop where
  | send (c op x : Nat) : Move s
      ⟨upd s.clients c ⟨(s.clients c).next + 1, (s.clients c).entries ++ [(op, (s.clients c).next)], (s.clients c).up ++ [.req op (s.clients c).next x], (s.clients c).down⟩,
        s.handles, s.open_, s.handlers, s.log ++ [.sent c op (s.clients c).next x]⟩
  | abort (c op id : Nat) (he : (op, id) ∈ (s.clients c).entries) : Move s
      ⟨upd s.clients c ⟨(s.clients c).next, (s.clients c).entries.erase (op, id), (s.clients c).up ++ [.abort op id], (s.clients c).down⟩,
        s.handles, s.open_, s.handlers, s.log ++ [.aborted c op id]⟩
  | idle (l : List Nat) : Move s ⟨s.clients, s.handles, s.open_, l, s.log⟩
  | handled (c op id x : Nat) (rest : List Up) (hu : (s.clients c).up = .req op id x :: rest) : Move s
      ⟨upd s.clients c ⟨(s.clients c).next, (s.clients c).entries, rest, (s.clients c).down⟩,
        s.handles ++ [⟨c, op, id, x⟩], s.open_ ++ [s.handles.length], s.handlers, s.log ++ [.handled s.handles.length c op id x]⟩
  | refused (c op id x : Nat) (rest : List Up) (hu : (s.clients c).up = .req op id x :: rest) : Move s
      ⟨upd s.clients c ⟨(s.clients c).next, (s.clients c).entries, rest, (s.clients c).down ++ [⟨op, id, .noHandler, true⟩]⟩,
        s.handles, s.open_, s.handlers, s.log ++ [.refused c op id x]⟩
  | told (c op id : Nat) (rest : List Up) (h : Nat) (hu : (s.clients c).up = .abort op id :: rest) (hf : find s op id = some h) : Move s
      ⟨upd s.clients c ⟨(s.clients c).next, (s.clients c).entries, rest, (s.clients c).down⟩,
        s.handles, s.open_.erase h, s.handlers, s.log ++ [.told h]⟩
  | untold (c op id : Nat) (rest : List Up) (hu : (s.clients c).up = .abort op id :: rest) (hf : find s op id = none) : Move s
      ⟨upd s.clients c ⟨(s.clients c).next, (s.clients c).entries, rest, (s.clients c).down⟩, s.handles, s.open_, s.handlers, s.log⟩
  | responded (h y : Nat) (g : Handle) (k : Nat) (hg : s.handles[h]? = some g) (ho : h ∈ s.open_) (hf : find s g.op g.id = some k) : Move s
      ⟨upd s.clients g.client ⟨(s.clients g.client).next, (s.clients g.client).entries, (s.clients g.client).up, (s.clients g.client).down ++ [⟨g.op, g.id, .value y, true⟩]⟩,
        s.handles, s.open_.erase k, s.handlers, s.log ++ [.responded h y true]⟩
  | failed (h y : Nat) (g : Handle) (hg : s.handles[h]? = some g) (ho : h ∉ s.open_) : Move s
      ⟨s.clients, s.handles, s.open_, s.handlers, s.log ++ [.responded h y false]⟩
  | updated (h y : Nat) (g : Handle) (hg : s.handles[h]? = some g) (ho : h ∈ s.open_) : Move s
      ⟨upd s.clients g.client ⟨(s.clients g.client).next, (s.clients g.client).entries, (s.clients g.client).up, (s.clients g.client).down ++ [⟨g.op, g.id, .value y, false⟩]⟩,
        s.handles, s.open_, s.handlers, s.log ++ [.updated h y true]⟩
  | notUpdated (h y : Nat) (g : Handle) (hg : s.handles[h]? = some g) : Move s
      ⟨s.clients, s.handles, s.open_, s.handlers, s.log ++ [.updated h y false]⟩
  | final (c op id : Nat) (a : Ans) (rest : List Down) (hd : (s.clients c).down = ⟨op, id, a, true⟩ :: rest) (he : (op, id) ∈ (s.clients c).entries) : Move s
      ⟨upd s.clients c ⟨(s.clients c).next, (s.clients c).entries.erase (op, id), (s.clients c).up, rest⟩,
        s.handles, s.open_, s.handlers, s.log ++ [.called c op id a true]⟩
  | partly (c op id : Nat) (a : Ans) (rest : List Down) (hd : (s.clients c).down = ⟨op, id, a, false⟩ :: rest) (he : (op, id) ∈ (s.clients c).entries) : Move s
      ⟨upd s.clients c ⟨(s.clients c).next, (s.clients c).entries, (s.clients c).up, rest⟩,
        s.handles, s.open_, s.handlers, s.log ++ [.called c op id a false]⟩
  | ignored (c op id : Nat) (a : Ans) (fin : Bool) (rest : List Down) (hd : (s.clients c).down = ⟨op, id, a, fin⟩ :: rest) (he : (op, id) ∉ (s.clients c).entries) : Move s
      ⟨upd s.clients c ⟨(s.clients c).next, (s.clients c).entries, (s.clients c).up, rest⟩, s.handles, s.open_, s.handlers, s.log⟩

theorem upd_self (f : Nat → Client) (c : Nat) (v : Client) : upd f c v c = v := if_pos rfl
theorem upd_upd (f : Nat → Client) (c : Nat) (v w : Client) : upd (upd f c v) c w = upd f c w := by
  funext k; unfold upd; split <;> rfl

theorem step_move {s s' : State} {a : Act} (h : step s a = some s') : Move s s' := by
  cases a with
  | send c op x => cases h; exact .send c op x
  | abort c op id =>
    simp only [step, Option.some.injEq, abort] at h
    split at h
    · rename_i he; subst h; exact .abort c op id he
    · subst h; exact .idle s.handlers
  | serverGets c =>
    simp only [step] at h
    split at h
    · cases h
    · rename_i m rest hu
      cases h
      cases m with
      | req op id x =>
        simp only [serverGets, onRequest]
        split
        · exact .handled c op id x rest hu
        · simp only [sendDown, upd_self, upd_upd]; exact .refused c op id x rest hu
      | abort op id =>
        simp only [serverGets, onAbort]
        split
        · rename_i hf; exact .untold c op id rest hu hf
        · rename_i k hf; exact .told c op id rest k hu hf
  | clientGets c =>
    simp only [step] at h
    split at h
    · cases h
    · rename_i m rest hd
      cases h
      obtain ⟨op, id, a, fin⟩ := m
      simp only [clientGets]
      split
      · rename_i he
        cases fin with
        | true => exact .final c op id a rest hd he
        | false => exact .partly c op id a rest hd he
      · rename_i he; exact .ignored c op id a fin rest hd he
  | respond h0 y =>
    simp only [step] at h
    obtain ⟨g, hg, h⟩ := Option.bind_eq_some_iff.1 h
    simp only [respond] at h
    split at h
    · rename_i ho
      obtain ⟨k, hf, h⟩ := Option.map_eq_some_iff.1 h
      subst h
      exact .responded h0 y g k hg ho hf
    · rename_i ho; cases h; exact .failed h0 y g hg ho
  | update h0 y =>
    simp only [step] at h
    obtain ⟨g, hg, h⟩ := Option.map_eq_some_iff.1 h
    simp only [update] at h
    split at h
    · rename_i ho; subst h; exact .updated h0 y g hg ho.1
    · subst h; exact .notUpdated h0 y g hg
  | registerHandler op => cases h; exact .idle _
  | unregisterHandler op => cases h; exact .idle _

/-- `find` finds an open request of this operation and id. -/
theorem find_spec {s : State} {op id k : Nat} (h : find s op id = some k) : k ∈ s.open_ ∧ ∃ g, s.handles[k]? = some g ∧ g.op = op ∧ g.id = id := by
  unfold find at h
  have h1 := List.mem_of_find?_eq_some h
  have h2 := List.find?_some h
  obtain ⟨g, hg, hn⟩ := Option.any_eq_true .. |>.1 h2
  exact ⟨h1, g, hg, by simpa [named] using hn⟩

theorem find_some {s : State} {op id k : Nat} {g : Handle} (h1 : k ∈ s.open_) (h2 : s.handles[k]? = some g) (h3 : g.op = op) (h4 : g.id = id) : ∃ k', find s op id = some k' := by
  have : (find s op id).isSome := by
    unfold find
    rw [List.find?_isSome]
    exact ⟨k, h1, by simp [h2, named, h3, h4]⟩
  exact Option.isSome_iff_exists.1 this

/-! ### Ids and arrivals -/

structure Flow (s : State) : Prop where
  ids : ∀ c, (sentOf c s.log).map (·.2.1) = List.range (s.clients c).next
  flow : ∀ c, sentOf c s.log = arrivedOf c s.log ++ reqs (s.clients c).up

theorem flow_init : Flow State.init := ⟨fun _ => rfl, fun _ => rfl⟩

theorem flow_move {s s' : State} (hi : Flow s) (hm : Move s s') : Flow s' := by
  have hids := hi.ids
  have hfl := hi.flow
  cases hm with
  | send c op x =>
    refine ⟨fun k => ?_, fun k => ?_⟩
    · by_cases hk : k = c
      · subst hk; simp [upd, sentOf_snoc, hids, sentOf, List.range_succ]; exact hids k
      · simp [upd, hk, sentOf_snoc, hids]; simp [sentOf, Ne.symm hk]
    · by_cases hk : k = c
      · subst hk
        have e1 : sentOf k [Ev.sent k op (s.clients k).next x] = [(op, (s.clients k).next, x)] := by simp [sentOf]
        have e2 : arrivedOf k [Ev.sent k op (s.clients k).next x] = [] := by simp [arrivedOf]
        simp only [upd, if_pos, sentOf_snoc, arrivedOf_snoc, reqs_snoc, hfl k, e1, e2]
        simp [reqs]
      · simp [upd, hk, sentOf_snoc, arrivedOf_snoc, hfl k]; simp [sentOf, arrivedOf, Ne.symm hk]
  | abort c op id he =>
    refine ⟨fun k => ?_, fun k => ?_⟩
    · by_cases hk : k = c
      · subst hk; simp [upd, sentOf_snoc, hids k]; simp [sentOf]
      · simp [upd, hk, sentOf_snoc, hids]; simp [sentOf]
    · by_cases hk : k = c
      · subst hk
        simp [upd, sentOf_snoc, arrivedOf_snoc, reqs_snoc, hfl k]; simp [sentOf, arrivedOf, reqs]
      · simp [upd, hk, sentOf_snoc, arrivedOf_snoc, hfl k]; simp [sentOf, arrivedOf]
  | idle l => exact ⟨hids, hfl⟩
  | handled c op id x rest hu =>
    refine ⟨fun k => ?_, fun k => ?_⟩
    · by_cases hk : k = c
      · subst hk; simp [upd, sentOf_snoc, hids k]; simp [sentOf]
      · simp [upd, hk, sentOf_snoc, hids]; simp [sentOf]
    · by_cases hk : k = c
      · subst hk
        simp [upd, sentOf_snoc, arrivedOf_snoc, hfl k, hu]; simp [sentOf, arrivedOf, reqs]
      · simp [upd, hk, sentOf_snoc, arrivedOf_snoc, hfl k]; simp [sentOf, arrivedOf, Ne.symm hk]
  | refused c op id x rest hu =>
    refine ⟨fun k => ?_, fun k => ?_⟩
    · by_cases hk : k = c
      · subst hk; simp [upd, sentOf_snoc, hids k]; simp [sentOf]
      · simp [upd, hk, sentOf_snoc, hids]; simp [sentOf]
    · by_cases hk : k = c
      · subst hk
        simp [upd, sentOf_snoc, arrivedOf_snoc, hfl k, hu]; simp [sentOf, arrivedOf, reqs]
      · simp [upd, hk, sentOf_snoc, arrivedOf_snoc, hfl k]; simp [sentOf, arrivedOf, Ne.symm hk]
  | told c op id rest h hu hf =>
    refine ⟨fun k => ?_, fun k => ?_⟩
    · by_cases hk : k = c
      · subst hk; simp [upd, sentOf_snoc, hids k]; simp [sentOf]
      · simp [upd, hk, sentOf_snoc, hids]; simp [sentOf]
    · by_cases hk : k = c
      · subst hk
        simp [upd, sentOf_snoc, arrivedOf_snoc, hfl k, hu]; simp [sentOf, arrivedOf, reqs]
      · simp [upd, hk, sentOf_snoc, arrivedOf_snoc, hfl k]; simp [sentOf, arrivedOf]
  | untold c op id rest hu hf =>
    refine ⟨fun k => ?_, fun k => ?_⟩
    · by_cases hk : k = c
      · subst hk; simp [upd, hids k]
      · simp [upd, hk, hids]
    · by_cases hk : k = c
      · subst hk
        simp [upd, hfl k, hu]; simp [reqs]
      · simp [upd, hk, hfl k]
  | responded h y g k' hg ho hf =>
    refine ⟨fun k => ?_, fun k => ?_⟩
    · by_cases hk : k = g.client
      · subst hk; simp [upd, sentOf_snoc, hids]; simp [sentOf]
      · simp [upd, hk, sentOf_snoc, hids]; simp [sentOf]
    · by_cases hk : k = g.client
      · subst hk; simp [upd, sentOf_snoc, arrivedOf_snoc, hfl]; simp [sentOf, arrivedOf]
      · simp [upd, hk, sentOf_snoc, arrivedOf_snoc, hfl k]; simp [sentOf, arrivedOf]
  | failed h y g hg ho =>
    exact ⟨fun k => by simp [sentOf_snoc, hids]; simp [sentOf], fun k => by simp [sentOf_snoc, arrivedOf_snoc, hfl k]; simp [sentOf, arrivedOf]⟩
  | updated h y g hg ho =>
    refine ⟨fun k => ?_, fun k => ?_⟩
    · by_cases hk : k = g.client
      · subst hk; simp [upd, sentOf_snoc, hids]; simp [sentOf]
      · simp [upd, hk, sentOf_snoc, hids]; simp [sentOf]
    · by_cases hk : k = g.client
      · subst hk; simp [upd, sentOf_snoc, arrivedOf_snoc, hfl]; simp [sentOf, arrivedOf]
      · simp [upd, hk, sentOf_snoc, arrivedOf_snoc, hfl k]; simp [sentOf, arrivedOf]
  | notUpdated h y g hg =>
    exact ⟨fun k => by simp [sentOf_snoc, hids]; simp [sentOf], fun k => by simp [sentOf_snoc, arrivedOf_snoc, hfl k]; simp [sentOf, arrivedOf]⟩
  | final c op id a rest hd he =>
    refine ⟨fun k => ?_, fun k => ?_⟩
    · by_cases hk : k = c
      · subst hk; simp [upd, sentOf_snoc, hids k]; simp [sentOf]
      · simp [upd, hk, sentOf_snoc, hids]; simp [sentOf]
    · by_cases hk : k = c
      · subst hk; simp [upd, sentOf_snoc, arrivedOf_snoc, hfl k]; simp [sentOf, arrivedOf]
      · simp [upd, hk, sentOf_snoc, arrivedOf_snoc, hfl k]; simp [sentOf, arrivedOf]
  | partly c op id a rest hd he =>
    refine ⟨fun k => ?_, fun k => ?_⟩
    · by_cases hk : k = c
      · subst hk; simp [upd, sentOf_snoc, hids k]; simp [sentOf]
      · simp [upd, hk, sentOf_snoc, hids]; simp [sentOf]
    · by_cases hk : k = c
      · subst hk; simp [upd, sentOf_snoc, arrivedOf_snoc, hfl k]; simp [sentOf, arrivedOf]
      · simp [upd, hk, sentOf_snoc, arrivedOf_snoc, hfl k]; simp [sentOf, arrivedOf]
  | ignored c op id a fin rest hd he =>
    refine ⟨fun k => ?_, fun k => ?_⟩
    · by_cases hk : k = c
      · subst hk; simp [upd, hids k]
      · simp [upd, hk, hids]
    · by_cases hk : k = c
      · subst hk; simp [upd, hfl k]
      · simp [upd, hk, hfl k]

theorem inj_of_nodup {α β : Type} {f : α → β} : ∀ {l : List α}, (l.map f).Nodup → ∀ {a b : α}, a ∈ l → b ∈ l → f a = f b → a = b
  | [], _, _, _, h, _, _ => by cases h
  | x :: l, hn, a, b, ha, hb, he => by
    rw [List.map_cons, List.nodup_cons] at hn
    rcases List.mem_cons.1 ha with h1 | h1 <;> rcases List.mem_cons.1 hb with h2 | h2
    · rw [h1, h2]
    · exact absurd (by rw [← h1, he]; exact List.mem_map_of_mem h2) hn.1
    · exact absurd (by rw [← h2, ← he]; exact List.mem_map_of_mem h1) hn.1
    · exact inj_of_nodup hn.2 h1 h2 he

/-- An id is one request of the client. -/
theorem Flow.sent_uniq {s : State} (hi : Flow s) {c op id x op' x' : Nat} (h1 : .sent c op id x ∈ s.log) (h2 : .sent c op' id x' ∈ s.log) : op = op' ∧ x = x' := by
  have hn : ((sentOf c s.log).map (·.2.1)).Nodup := by rw [hi.ids]; exact List.nodup_range
  have := inj_of_nodup hn (mem_sentOf.2 h1) (mem_sentOf.2 h2) rfl
  cases this; exact ⟨rfl, rfl⟩

theorem Flow.sent_lt {s : State} (hi : Flow s) {c op id x : Nat} (h1 : .sent c op id x ∈ s.log) : id < (s.clients c).next := by
  have : id ∈ (sentOf c s.log).map (·.2.1) := List.mem_map.2 ⟨_, mem_sentOf.2 h1, rfl⟩
  rw [hi.ids] at this
  exact List.mem_range.1 this

theorem Flow.arrived_sent {s : State} (hi : Flow s) {c op id x : Nat} (h : (op, id, x) ∈ arrivedOf c s.log) : .sent c op id x ∈ s.log := by
  rw [← mem_sentOf, hi.flow]; exact List.mem_append_left _ h

theorem Flow.req_sent {s : State} (hi : Flow s) {c op id x : Nat} (h : .req op id x ∈ (s.clients c).up) : .sent c op id x ∈ s.log := by
  rw [← mem_sentOf, hi.flow]; exact List.mem_append_right _ (mem_reqs.2 h)

/-- What has arrived is not on its way. -/
theorem Flow.apart {s : State} (hi : Flow s) {c op id x op' x' : Nat} (h1 : (op, id, x) ∈ arrivedOf c s.log) (h2 : .req op' id x' ∈ (s.clients c).up) : False := by
  have hn : ((sentOf c s.log).map (·.2.1)).Nodup := by rw [hi.ids]; exact List.nodup_range
  rw [hi.flow, List.map_append, List.nodup_append] at hn
  exact hn.2.2 _ (List.mem_map.2 ⟨_, h1, rfl⟩) _ (List.mem_map.2 ⟨_, mem_reqs.2 h2, rfl⟩) rfl

/-- A request is on its way once. -/
theorem Flow.req_once {s : State} (hi : Flow s) {c op id x : Nat} {rest : List Up} (hu : (s.clients c).up = .req op id x :: rest) {op' x' : Nat} (h : .req op' id x' ∈ rest) : False := by
  have hn : ((sentOf c s.log).map (·.2.1)).Nodup := by rw [hi.ids]; exact List.nodup_range
  rw [hi.flow, List.map_append, List.nodup_append] at hn
  have := hn.2.1
  rw [hu] at this
  have h3 : reqs (.req op id x :: rest) = (op, id, x) :: reqs rest := rfl
  rw [h3, List.map_cons, List.nodup_cons] at this
  exact this.1 (List.mem_map.2 ⟨_, mem_reqs.2 h, rfl⟩)

/-- A request arrives once. -/
theorem Flow.arrived_uniq {s : State} (hi : Flow s) {c : Nat} : ((arrivedOf c s.log).map (·.2.1)).Nodup := by
  have hn : ((sentOf c s.log).map (·.2.1)).Nodup := by rw [hi.ids]; exact List.nodup_range
  rw [hi.flow, List.map_append, List.nodup_append] at hn
  exact hn.1

/-! ### Handles -/

structure Hnd (s : State) : Prop where
  handle : ∀ (h : Nat) (g : Handle), s.handles[h]? = some g ↔ .handled h g.client g.op g.id g.x ∈ s.log
  uniq : ∀ (h h' : Nat) (g g' : Handle), s.handles[h]? = some g → s.handles[h']? = some g' → g.client = g'.client → g.id = g'.id → h = h'
  nodup : s.open_.Nodup
  lt : ∀ h ∈ s.open_, h < s.handles.length
  refused : ∀ c op id x, .refused c op id x ∈ s.log → ∀ (h : Nat) (g : Handle), s.handles[h]? = some g → g.client = c → g.id ≠ id

theorem hnd_init : Hnd State.init := ⟨by simp [State.init], by simp [State.init], by simp [State.init], by simp [State.init], by simp [State.init]⟩

/-- steps that have nothing to do with handles -/
theorem Hnd.keep {s s' : State} (hi : Hnd s) (h1 : s'.handles = s.handles) (h2 : s'.open_.Sublist s.open_) (h3 : s'.log = s.log ∨ ∃ e, s'.log = s.log ++ [e] ∧ (∀ h c op id x, e ≠ .handled h c op id x) ∧ ∀ c op id x, e ≠ .refused c op id x) : Hnd s' := by
  have h4 : ∀ h c op id x, .handled h c op id x ∈ s'.log ↔ .handled h c op id x ∈ s.log := by
    intro h c op id x
    rcases h3 with h3 | ⟨e, h3, he, -⟩
    · rw [h3]
    · rw [h3]; simp [Ne.symm (he h c op id x)]
  have h5 : ∀ c op id x, .refused c op id x ∈ s'.log ↔ .refused c op id x ∈ s.log := by
    intro c op id x
    rcases h3 with h3 | ⟨e, h3, -, he⟩
    · rw [h3]
    · rw [h3]; simp [Ne.symm (he c op id x)]
  refine ⟨fun h g => ?_, ?_, hi.nodup.sublist h2, fun h hh => ?_, fun c op id x hr => ?_⟩
  · rw [h1, h4]; exact hi.handle h g
  · rw [h1]; exact hi.uniq
  · rw [h1]; exact hi.lt h (h2.subset hh)
  · rw [h1]; exact hi.refused c op id x ((h5 ..).1 hr)

theorem Hnd.arrived {s : State} (hi : Hnd s) {h : Nat} {g : Handle} (hg : s.handles[h]? = some g) : (g.op, g.id, g.x) ∈ arrivedOf g.client s.log :=
  mem_arrivedOf.2 (.inl ⟨h, (hi.handle h g).1 hg⟩)

theorem get_snoc {α : Type} {l : List α} {a x : α} {k : Nat} : (l ++ [a])[k]? = some x ↔ l[k]? = some x ∨ (k = l.length ∧ x = a) := by
  rw [List.getElem?_append]
  split
  · rename_i hk
    constructor
    · exact .inl
    · rintro (h | ⟨h, -⟩)
      · exact h
      · omega
  · rename_i hk
    have hn : l[k]? = none := List.getElem?_eq_none (by omega)
    rw [hn]
    by_cases he : k = l.length
    · subst he; simp [eq_comm]
    · rw [List.getElem?_eq_none (by simp; omega)]; simp [he]

theorem hnd_move {s s' : State} (hf : Flow s) (hi : Hnd s) (hm : Move s s') : Hnd s' := by
  cases hm with
  | send c op x => exact hi.keep rfl (List.Sublist.refl _) (.inr ⟨_, rfl, by simp, by simp⟩)
  | abort c op id he => exact hi.keep rfl (List.Sublist.refl _) (.inr ⟨_, rfl, by simp, by simp⟩)
  | idle l => exact hi.keep rfl (List.Sublist.refl _) (.inl rfl)
  | told c op id rest h hu hf => exact hi.keep rfl List.erase_sublist (.inr ⟨_, rfl, by simp, by simp⟩)
  | untold c op id rest hu hf => exact hi.keep rfl (List.Sublist.refl _) (.inl rfl)
  | responded h y g k' hg ho hf => exact hi.keep rfl List.erase_sublist (.inr ⟨_, rfl, by simp, by simp⟩)
  | failed h y g hg ho => exact hi.keep rfl (List.Sublist.refl _) (.inr ⟨_, rfl, by simp, by simp⟩)
  | updated h y g hg ho => exact hi.keep rfl (List.Sublist.refl _) (.inr ⟨_, rfl, by simp, by simp⟩)
  | notUpdated h y g hg => exact hi.keep rfl (List.Sublist.refl _) (.inr ⟨_, rfl, by simp, by simp⟩)
  | final c op id a rest hd he => exact hi.keep rfl (List.Sublist.refl _) (.inr ⟨_, rfl, by simp, by simp⟩)
  | partly c op id a rest hd he => exact hi.keep rfl (List.Sublist.refl _) (.inr ⟨_, rfl, by simp, by simp⟩)
  | ignored c op id a fin rest hd he => exact hi.keep rfl (List.Sublist.refl _) (.inl rfl)
  | refused c op id x rest hu =>
    have hreq : Up.req op id x ∈ (s.clients c).up := by rw [hu]; exact List.mem_cons_self ..
    refine ⟨fun h g => ?_, hi.uniq, hi.nodup, hi.lt, fun c' op' id' x' hr h g hg hc hid => ?_⟩
    · rw [hi.handle h g]; simp
    · rcases List.mem_append.1 hr with hr | hr
      · exact hi.refused c' op' id' x' hr h g hg hc hid
      · simp only [List.mem_singleton, Ev.refused.injEq] at hr
        obtain ⟨rfl, rfl, rfl, rfl⟩ := hr
        have := hi.arrived hg
        rw [hc, hid] at this
        exact hf.apart this hreq
  | handled c op id x rest hu =>
    have hreq : Up.req op id x ∈ (s.clients c).up := by rw [hu]; exact List.mem_cons_self ..
    have new : ∀ (h : Nat) (g : Handle), s.handles[h]? = some g → g.client = c → g.id ≠ id := by
      intro h g hg hc hid
      have := hi.arrived hg
      rw [hc, hid] at this
      exact hf.apart this hreq
    refine ⟨fun h g => ?_, fun h h' g g' hg hg' hc hid => ?_, ?_, fun h hh => ?_, fun c' op' id' x' hr h g hg hc hid => ?_⟩
    · show (s.handles ++ [_])[h]? = some g ↔ _ ∈ s.log ++ [_]
      rw [get_snoc, hi.handle h g, List.mem_append, List.mem_singleton]
      obtain ⟨gc, go, gi, gx⟩ := g
      simp
    · rcases get_snoc.1 hg with hg | ⟨rfl, rfl⟩ <;> rcases get_snoc.1 hg' with hg' | ⟨rfl, rfl⟩
      · exact hi.uniq h h' g g' hg hg' hc hid
      · exact absurd hid (new h g hg hc)
      · exact absurd hid.symm (new h' g' hg' hc.symm)
      · rfl
    · show (s.open_ ++ [_]).Nodup
      rw [List.nodup_append]
      refine ⟨hi.nodup, by simp, fun a ha b hb hab => ?_⟩
      have := hi.lt a ha
      simp only [List.mem_singleton] at hb
      omega
    · show h < (s.handles ++ [_]).length
      rcases List.mem_append.1 hh with hh | hh
      · have := hi.lt h hh; simp; omega
      · simp at hh; simp; omega
    · have hr : Ev.refused c' op' id' x' ∈ s.log := by simpa using hr
      rcases get_snoc.1 hg with hg | ⟨rfl, rfl⟩
      · exact hi.refused c' op' id' x' hr h g hg hc hid
      · simp only at hc hid
        subst hc hid
        exact hf.apart (mem_arrivedOf.2 (.inr hr)) hreq

/-! ### Pending requests -/

structure Ent (s : State) : Prop where
  sent : ∀ c op id, (op, id) ∈ (s.clients c).entries → ∃ x, .sent c op id x ∈ s.log
  nodup : ∀ c, (s.clients c).entries.Nodup
  called : ∀ c op id a f, .called c op id a f ∈ s.log → ∃ x, .sent c op id x ∈ s.log
  aborted : ∀ c op id, .aborted c op id ∈ s.log → ∃ x, .sent c op id x ∈ s.log
  pending : ∀ c op id x, .sent c op id x ∈ s.log → ((op, id) ∈ (s.clients c).entries ↔ (∀ a, .called c op id a true ∉ s.log) ∧ .aborted c op id ∉ s.log)

theorem ent_init : Ent State.init := ⟨by simp [State.init], by simp [State.init], by simp [State.init], by simp [State.init], by simp [State.init]⟩

/-- steps that have nothing to do with pending requests -/
theorem Ent.keep {s s' : State} (hi : Ent s) (h1 : ∀ c, (s'.clients c).entries = (s.clients c).entries)
    (h3 : s'.log = s.log ∨ ∃ e, s'.log = s.log ++ [e] ∧ (∀ c op id a f, e ≠ .called c op id a f) ∧ (∀ c op id, e ≠ .aborted c op id) ∧ ∀ c op id x, e ≠ .sent c op id x) : Ent s' := by
  have h4 : ∀ c op id a f, .called c op id a f ∈ s'.log ↔ .called c op id a f ∈ s.log := by
    intro c op id a f
    rcases h3 with h3 | ⟨e, h3, he, -, -⟩
    · rw [h3]
    · rw [h3]; simp [Ne.symm (he c op id a f)]
  have h5 : ∀ c op id, .aborted c op id ∈ s'.log ↔ .aborted c op id ∈ s.log := by
    intro c op id
    rcases h3 with h3 | ⟨e, h3, -, he, -⟩
    · rw [h3]
    · rw [h3]; simp [Ne.symm (he c op id)]
  have h6 : ∀ c op id x, .sent c op id x ∈ s'.log ↔ .sent c op id x ∈ s.log := by
    intro c op id x
    rcases h3 with h3 | ⟨e, h3, -, -, he⟩
    · rw [h3]
    · rw [h3]; simp [Ne.symm (he c op id x)]
  refine ⟨fun c op id h => ?_, fun c => ?_, fun c op id a f h => ?_, fun c op id h => ?_, fun c op id x h => ?_⟩
  · rw [h1] at h; simp only [h6]; exact hi.sent c op id h
  · rw [h1]; exact hi.nodup c
  · rw [h4] at h; simp only [h6]; exact hi.called c op id a f h
  · rw [h5] at h; simp only [h6]; exact hi.aborted c op id h
  · rw [h6] at h; rw [h1]; simp only [h4, h5]; exact hi.pending c op id x h

theorem ent_same {s : State} {c : Nat} {v : Client} (hv : v.entries = (s.clients c).entries) (k : Nat) : (upd s.clients c v k).entries = (s.clients k).entries := by
  unfold upd; split
  · rename_i h; subst h; exact hv
  · rfl

theorem ent_move {s s' : State} (hf : Flow s) (hi : Ent s) (hm : Move s s') : Ent s' := by
  cases hm with
  | idle l => exact hi.keep (fun _ => rfl) (.inl rfl)
  | handled c op id x rest hu => exact hi.keep (fun k => ent_same (by rfl) k) (.inr ⟨_, rfl, by simp, by simp, by simp⟩)
  | refused c op id x rest hu => exact hi.keep (fun k => ent_same (by rfl) k) (.inr ⟨_, rfl, by simp, by simp, by simp⟩)
  | told c op id rest h hu hf => exact hi.keep (fun k => ent_same (by rfl) k) (.inr ⟨_, rfl, by simp, by simp, by simp⟩)
  | untold c op id rest hu hf => exact hi.keep (fun k => ent_same (by rfl) k) (.inl rfl)
  | responded h y g k' hg ho hf => exact hi.keep (fun k => ent_same (by rfl) k) (.inr ⟨_, rfl, by simp, by simp, by simp⟩)
  | failed h y g hg ho => exact hi.keep (fun _ => rfl) (.inr ⟨_, rfl, by simp, by simp, by simp⟩)
  | updated h y g hg ho => exact hi.keep (fun k => ent_same (by rfl) k) (.inr ⟨_, rfl, by simp, by simp, by simp⟩)
  | notUpdated h y g hg => exact hi.keep (fun _ => rfl) (.inr ⟨_, rfl, by simp, by simp, by simp⟩)
  | ignored c op id a fin rest hd he => exact hi.keep (fun k => ent_same (by rfl) k) (.inl rfl)
  | partly c op id a rest hd he =>
    refine ⟨fun k op' id' h => ?_, fun k => ?_, fun k op' id' a' f h => ?_, fun k op' id' h => ?_, fun k op' id' x h => ?_⟩
    · rw [ent_same (by rfl)] at h
      obtain ⟨x, hx⟩ := hi.sent k op' id' h
      exact ⟨x, List.mem_append_left _ hx⟩
    · rw [ent_same (by rfl)]; exact hi.nodup k
    · rcases List.mem_append.1 h with h | h
      · obtain ⟨x, hx⟩ := hi.called k op' id' a' f h; exact ⟨x, List.mem_append_left _ hx⟩
      · simp only [List.mem_singleton, Ev.called.injEq] at h
        obtain ⟨rfl, rfl, rfl, rfl, rfl⟩ := h
        obtain ⟨x, hx⟩ := hi.sent k op' id' he
        exact ⟨x, List.mem_append_left _ hx⟩
    · have h : Ev.aborted k op' id' ∈ s.log := by simpa using h
      obtain ⟨x, hx⟩ := hi.aborted k op' id' h; exact ⟨x, List.mem_append_left _ hx⟩
    · have h : Ev.sent k op' id' x ∈ s.log := by simpa using h
      rw [ent_same (by rfl)]
      simpa using hi.pending k op' id' x h
  | send c op x =>
    have fresh : ∀ x' op', .sent c op' (s.clients c).next x' ∉ s.log := fun x' op' h => Nat.lt_irrefl _ (hf.sent_lt h)
    refine ⟨fun k op' id' h => ?_, fun k => ?_, fun k op' id' a' f h => ?_, fun k op' id' h => ?_, fun k op' id' x' h => ?_⟩
    · simp only [upd] at h
      split at h
      · rename_i hk; subst hk
        rcases List.mem_append.1 h with h | h
        · obtain ⟨x', hx⟩ := hi.sent k op' id' h; exact ⟨x', List.mem_append_left _ hx⟩
        · simp only [List.mem_singleton, Prod.mk.injEq] at h
          obtain ⟨rfl, rfl⟩ := h
          exact ⟨x, by simp⟩
      · obtain ⟨x', hx⟩ := hi.sent k op' id' h; exact ⟨x', List.mem_append_left _ hx⟩
    · simp only [upd]
      split
      · rename_i hk; subst hk
        rw [List.nodup_append]
        refine ⟨hi.nodup k, by simp, fun a ha b hb hab => ?_⟩
        simp only [List.mem_singleton] at hb
        subst hab hb
        obtain ⟨x', hx⟩ := hi.sent k _ _ ha
        exact fresh x' _ hx
      · exact hi.nodup k
    · have h : Ev.called k op' id' a' f ∈ s.log := by simpa using h
      obtain ⟨x', hx⟩ := hi.called k op' id' a' f h; exact ⟨x', List.mem_append_left _ hx⟩
    · have h : Ev.aborted k op' id' ∈ s.log := by simpa using h
      obtain ⟨x', hx⟩ := hi.aborted k op' id' h; exact ⟨x', List.mem_append_left _ hx⟩
    · rcases List.mem_append.1 h with h2 | h
      · have := hi.pending k op' id' x' h2
        simp only [upd]
        split
        · rename_i hk; subst hk
          have hne : id' ≠ (s.clients k).next := fun h0 => fresh x' op' (h0 ▸ h2)
          simp [hne, this]
        · simpa using this
      · simp only [List.mem_singleton, Ev.sent.injEq] at h
        obtain ⟨rfl, rfl, rfl, rfl⟩ := h
        simp only [upd, if_pos]
        refine ⟨fun _ => ⟨fun a hc => ?_, fun hc => ?_⟩, fun _ => by simp⟩
        · have hc : Ev.called k op' (s.clients k).next a true ∈ s.log := by simpa using hc
          obtain ⟨x2, hx⟩ := hi.called _ _ _ _ _ hc
          exact fresh x2 _ hx
        · have hc : Ev.aborted k op' (s.clients k).next ∈ s.log := by simpa using hc
          obtain ⟨x2, hx⟩ := hi.aborted _ _ _ hc
          exact fresh x2 _ hx
  | abort c op id he =>
    refine ⟨fun k op' id' h => ?_, fun k => ?_, fun k op' id' a' f h => ?_, fun k op' id' h => ?_, fun k op' id' x' h => ?_⟩
    · have h : (op', id') ∈ (s.clients k).entries := by
        simp only [upd] at h
        split at h
        · rename_i hk; subst hk; exact List.mem_of_mem_erase h
        · exact h
      obtain ⟨x', hx⟩ := hi.sent k op' id' h; exact ⟨x', List.mem_append_left _ hx⟩
    · simp only [upd]
      split
      · exact (hi.nodup c).sublist List.erase_sublist
      · exact hi.nodup k
    · have h : Ev.called k op' id' a' f ∈ s.log := by simpa using h
      obtain ⟨x', hx⟩ := hi.called k op' id' a' f h; exact ⟨x', List.mem_append_left _ hx⟩
    · rcases List.mem_append.1 h with h | h
      · obtain ⟨x', hx⟩ := hi.aborted k op' id' h; exact ⟨x', List.mem_append_left _ hx⟩
      · simp only [List.mem_singleton, Ev.aborted.injEq] at h
        obtain ⟨rfl, rfl, rfl⟩ := h
        obtain ⟨x', hx⟩ := hi.sent k op' id' he; exact ⟨x', List.mem_append_left _ hx⟩
    · have h : Ev.sent k op' id' x' ∈ s.log := by simpa using h
      have := hi.pending k op' id' x' h
      simp only [upd]
      split
      · rename_i hk; subst hk
        simp only [(hi.nodup k).mem_erase_iff, this]
        simp only [List.mem_append, List.mem_singleton, Ev.aborted.injEq, true_and, reduceCtorEq, or_false, not_or, not_and, ne_eq, Prod.mk.injEq]
        constructor
        · rintro ⟨h1, h2, h3⟩; exact ⟨h2, h3, h1⟩
        · rintro ⟨h2, h3, h1⟩; exact ⟨h1, h2, h3⟩
      · rename_i hk
        simpa [hk] using this
  | final c op id a rest hd he =>
    refine ⟨fun k op' id' h => ?_, fun k => ?_, fun k op' id' a' f h => ?_, fun k op' id' h => ?_, fun k op' id' x' h => ?_⟩
    · have h : (op', id') ∈ (s.clients k).entries := by
        simp only [upd] at h
        split at h
        · rename_i hk; subst hk; exact List.mem_of_mem_erase h
        · exact h
      obtain ⟨x', hx⟩ := hi.sent k op' id' h; exact ⟨x', List.mem_append_left _ hx⟩
    · simp only [upd]
      split
      · exact (hi.nodup c).sublist List.erase_sublist
      · exact hi.nodup k
    · rcases List.mem_append.1 h with h | h
      · obtain ⟨x', hx⟩ := hi.called k op' id' a' f h; exact ⟨x', List.mem_append_left _ hx⟩
      · simp only [List.mem_singleton, Ev.called.injEq] at h
        obtain ⟨rfl, rfl, rfl, rfl, rfl⟩ := h
        obtain ⟨x', hx⟩ := hi.sent k op' id' he; exact ⟨x', List.mem_append_left _ hx⟩
    · have h : Ev.aborted k op' id' ∈ s.log := by simpa using h
      obtain ⟨x', hx⟩ := hi.aborted k op' id' h; exact ⟨x', List.mem_append_left _ hx⟩
    · have h : Ev.sent k op' id' x' ∈ s.log := by simpa using h
      have := hi.pending k op' id' x' h
      simp only [upd]
      split
      · rename_i hk; subst hk
        simp only [(hi.nodup k).mem_erase_iff, this]
        simp only [List.mem_append, List.mem_singleton, Ev.called.injEq, true_and, and_true, reduceCtorEq, or_false, not_or, not_and, ne_eq, Prod.mk.injEq]
        constructor
        · rintro ⟨h1, h2, h3⟩; exact ⟨fun a' => ⟨h2 a', fun e1 e2 => absurd e2 (h1 e1)⟩, h3⟩
        · rintro ⟨h2, h3⟩; exact ⟨fun e1 e2 => (h2 a).2 e1 e2 rfl, fun a' => (h2 a').1, h3⟩
      · rename_i hk
        simpa [hk] using this

/-! ### Where answers come from -/

/-- The service has given this answer to this request of client `c`, or the library has because there is no handler. -/
def Source (log : List Ev) (c op id : Nat) (a : Ans) (fin : Bool) : Prop :=
  (a = .noHandler ∧ fin = true ∧ ∃ x, .refused c op id x ∈ log) ∨
  ∃ h x y, a = .value y ∧ .handled h c op id x ∈ log ∧ (fin = true → .responded h y true ∈ log) ∧ (fin = false → .updated h y true ∈ log)

theorem Source.mono {log : List Ev} {e : Ev} {c op id : Nat} {a : Ans} {fin : Bool} (h : Source log c op id a fin) : Source (log ++ [e]) c op id a fin := by
  rcases h with ⟨h1, h2, x, h3⟩ | ⟨h, x, y, h1, h2, h3, h4⟩
  · exact .inl ⟨h1, h2, x, List.mem_append_left _ h3⟩
  · exact .inr ⟨h, x, y, h1, List.mem_append_left _ h2, fun h => List.mem_append_left _ (h3 h), fun h => List.mem_append_left _ (h4 h)⟩

structure Src (s : State) : Prop where
  down : ∀ c m, m ∈ (s.clients c).down → Source s.log c m.op m.id m.a m.fin
  called : ∀ c op id a f, .called c op id a f ∈ s.log → Source s.log c op id a f

theorem src_init : Src State.init := ⟨by simp [State.init], by simp [State.init]⟩

/-- steps that send nothing to a client -/
theorem Src.keep {s s' : State} (hi : Src s) (h1 : ∀ c m, m ∈ (s'.clients c).down → m ∈ (s.clients c).down)
    (h3 : s'.log = s.log ∨ ∃ e, s'.log = s.log ++ [e] ∧ (∀ c op id a f, e = .called c op id a f → Source s.log c op id a f)) : Src s' := by
  have h4 : ∀ c op id a f, Source s.log c op id a f → Source s'.log c op id a f := by
    intro c op id a f h
    rcases h3 with h3 | ⟨e, h3, -⟩
    · rw [h3]; exact h
    · rw [h3]; exact h.mono
  refine ⟨fun c m hm => h4 _ _ _ _ _ (hi.down c m (h1 c m hm)), fun c op id a f h => ?_⟩
  rcases h3 with h3 | ⟨e, h3, he⟩
  · rw [h3] at h ⊢; exact hi.called c op id a f h
  · rw [h3] at h
    rcases List.mem_append.1 h with h | h
    · exact h4 _ _ _ _ _ (hi.called c op id a f h)
    · exact h4 _ _ _ _ _ (he c op id a f (List.mem_singleton.1 h).symm)

/-- steps that send a message to a client -/
theorem Src.add {s : State} (hi : Src s) {c' : Nat} {v : Client} {m' : Down} {e : Ev} {hs os l : List Nat} {gs : List Handle} (hv : v.down = (s.clients c').down ++ [m'])
    (hs' : Source (s.log ++ [e]) c' m'.op m'.id m'.a m'.fin) (he : ∀ c op id a f, e ≠ .called c op id a f) : Src ⟨upd s.clients c' v, gs, os, l, s.log ++ [e]⟩ := by
  refine ⟨fun c m hm => ?_, fun c op id a f h => ?_⟩
  · simp only [upd] at hm
    split at hm
    · rename_i hc; subst hc
      rw [hv] at hm
      rcases List.mem_append.1 hm with hm | hm
      · exact (hi.down c m hm).mono
      · rw [List.mem_singleton.1 hm]; exact hs'
    · exact (hi.down c m hm).mono
  · rcases List.mem_append.1 h with h | h
    · exact (hi.called c op id a f h).mono
    · exact absurd (List.mem_singleton.1 h).symm (he c op id a f)

theorem down_same {s : State} {c : Nat} {v : Client} (hv : v.down = (s.clients c).down) (k : Nat) : (upd s.clients c v k).down = (s.clients k).down := by
  unfold upd; split
  · rename_i h; subst h; exact hv
  · rfl

theorem down_pop {s : State} {c : Nat} {v : Client} {m : Down} (hv : (s.clients c).down = m :: v.down) (k : Nat) (m' : Down) (h : m' ∈ (upd s.clients c v k).down) : m' ∈ (s.clients k).down := by
  unfold upd at h; split at h
  · rename_i hk; subst hk; rw [hv]; exact List.mem_cons_of_mem _ h
  · exact h

theorem src_move {s s' : State} (hh : Hnd s) (hi : Src s) (hm : Move s s') : Src s' := by
  cases hm with
  | send c op x => exact hi.keep (fun k m h => by rw [down_same (by rfl)] at h; exact h) (.inr ⟨_, rfl, by simp⟩)
  | abort c op id he => exact hi.keep (fun k m h => by rw [down_same (by rfl)] at h; exact h) (.inr ⟨_, rfl, by simp⟩)
  | idle l => exact hi.keep (fun _ _ h => h) (.inl rfl)
  | handled c op id x rest hu => exact hi.keep (fun k m h => by rw [down_same (by rfl)] at h; exact h) (.inr ⟨_, rfl, by simp⟩)
  | refused c op id x rest hu => exact hi.add (hs := []) (by rfl) (.inl ⟨rfl, rfl, x, by simp⟩) (by simp)
  | told c op id rest h hu hf => exact hi.keep (fun k m h => by rw [down_same (by rfl)] at h; exact h) (.inr ⟨_, rfl, by simp⟩)
  | untold c op id rest hu hf => exact hi.keep (fun k m h => by rw [down_same (by rfl)] at h; exact h) (.inl rfl)
  | responded h y g k' hg ho hf =>
    exact hi.add (hs := []) (by rfl) (.inr ⟨h, g.x, y, rfl, List.mem_append_left _ ((hh.handle h g).1 hg), fun _ => by simp, fun h => by cases h⟩) (by simp)
  | failed h y g hg ho => exact hi.keep (fun _ _ h => h) (.inr ⟨_, rfl, by simp⟩)
  | updated h y g hg ho =>
    exact hi.add (hs := []) (by rfl) (.inr ⟨h, g.x, y, rfl, List.mem_append_left _ ((hh.handle h g).1 hg), (fun h => by cases h), fun _ => by simp⟩) (by simp)
  | notUpdated h y g hg => exact hi.keep (fun _ _ h => h) (.inr ⟨_, rfl, by simp⟩)
  | ignored c op id a fin rest hd he => exact hi.keep (fun k m h => down_pop (by exact hd) k m h) (.inl rfl)
  | partly c op id a rest hd he =>
    refine hi.keep (fun k m h => down_pop (by exact hd) k m h) (.inr ⟨_, rfl, fun c' op' id' a' f h => ?_⟩)
    cases h
    exact hi.down c ⟨op, id, a, false⟩ (by rw [hd]; exact List.mem_cons_self ..)
  | final c op id a rest hd he =>
    refine hi.keep (fun k m h => down_pop (by exact hd) k m h) (.inr ⟨_, rfl, fun c' op' id' a' f h => ?_⟩)
    cases h
    exact hi.down c ⟨op, id, a, true⟩ (by rw [hd]; exact List.mem_cons_self ..)

/-! ### Final answers reach the client -/

/-- A final answer is on its way, or the request is not pending any more. -/
def Fin (s : State) (c op id : Nat) : Prop := (∃ a, ⟨op, id, a, true⟩ ∈ (s.clients c).down) ∨ (op, id) ∉ (s.clients c).entries

theorem fin_move {s s' : State} (hf : Flow s) (he : Ent s) (hm : Move s s') {c op id x : Nat} (hx : .sent c op id x ∈ s.log) (h : Fin s c op id) : Fin s' c op id := by
  have keep : ∀ {s' : State}, (∀ m ∈ (s.clients c).down, m ∈ (s'.clients c).down) → ((op, id) ∈ (s'.clients c).entries → (op, id) ∈ (s.clients c).entries) → Fin s' c op id := by
    intro s' h1 h2
    rcases h with ⟨a, h⟩ | h
    · exact .inl ⟨a, h1 _ h⟩
    · exact .inr fun h0 => h (h2 h0)
  have pop : ∀ {k : Nat} {m : Down} {v : Client} {gs : List Handle} {os l : List Nat} {log : List Ev}, (s.clients k).down = m :: v.down → ((op, id) ∈ v.entries → (op, id) ∈ (s.clients k).entries) → (∀ a, m = ⟨op, id, a, true⟩ → (op, id) ∉ v.entries) → Fin ⟨upd s.clients k v, gs, os, l, log⟩ c op id := by
    intro k m v gs os l log h1 h2 h3
    by_cases hk : c = k
    · subst hk
      rcases h with ⟨a, h⟩ | h
      · rw [h1] at h
        rcases List.mem_cons.1 h with h | h
        · exact .inr (by simp only [upd_self]; exact h3 a h.symm)
        · exact .inl ⟨a, by simp only [upd_self]; exact h⟩
      · exact .inr (by simp only [upd_self]; exact fun h0 => h (h2 h0))
    · rcases h with ⟨a, h⟩ | h
      · exact .inl ⟨a, by simp only [upd, if_neg hk]; exact h⟩
      · exact .inr (by simp only [upd, if_neg hk]; exact h)
  cases hm with
  | send k op' x' =>
    refine keep (fun m hm => by rw [down_same (by rfl)]; exact hm) fun h0 => ?_
    simp only [upd] at h0
    split at h0
    · rename_i hk; subst hk
      rcases List.mem_append.1 h0 with h0 | h0
      · exact h0
      · simp only [List.mem_singleton, Prod.mk.injEq] at h0
        have := hf.sent_lt hx
        omega
    · exact h0
  | abort k op' id' he' =>
    refine keep (fun m hm => by rw [down_same (by rfl)]; exact hm) fun h0 => ?_
    simp only [upd] at h0
    split at h0
    · rename_i hk; subst hk; exact List.mem_of_mem_erase h0
    · exact h0
  | idle l => exact keep (fun _ h => h) (fun h => h)
  | handled k op' id' x' rest hu => exact keep (fun m hm => by rw [down_same (by rfl)]; exact hm) fun h0 => by rw [ent_same (by rfl)] at h0; exact h0
  | refused k op' id' x' rest hu =>
    refine keep (fun m hm => ?_) fun h0 => by rw [ent_same (by rfl)] at h0; exact h0
    simp only [upd]; split
    · rename_i hk; subst hk; exact List.mem_append_left _ hm
    · exact hm
  | told k op' id' rest h' hu hf' => exact keep (fun m hm => by rw [down_same (by rfl)]; exact hm) fun h0 => by rw [ent_same (by rfl)] at h0; exact h0
  | untold k op' id' rest hu hf' => exact keep (fun m hm => by rw [down_same (by rfl)]; exact hm) fun h0 => by rw [ent_same (by rfl)] at h0; exact h0
  | responded h' y g k' hg ho hf' =>
    refine keep (fun m hm => ?_) fun h0 => by rw [ent_same (by rfl)] at h0; exact h0
    simp only [upd]; split
    · rename_i hk; subst hk; exact List.mem_append_left _ hm
    · exact hm
  | failed h' y g hg ho => exact keep (fun _ h => h) (fun h => h)
  | updated h' y g hg ho =>
    refine keep (fun m hm => ?_) fun h0 => by rw [ent_same (by rfl)] at h0; exact h0
    simp only [upd]; split
    · rename_i hk; subst hk; exact List.mem_append_left _ hm
    · exact hm
  | notUpdated h' y g hg => exact keep (fun _ h => h) (fun h => h)
  | final k op' id' a rest hd he' =>
    refine pop (by exact hd) List.mem_of_mem_erase fun a' ha => ?_
    cases ha
    simp [(he.nodup k).mem_erase_iff]
  | partly k op' id' a rest hd he' => exact pop (by exact hd) (fun h => h) fun a' ha => by cases ha
  | ignored k op' id' a fin rest hd he' =>
    refine pop (by exact hd) (fun h => h) fun a' ha => ?_
    cases ha
    exact he'

structure Done (s : State) : Prop where
  resp : ∀ h y g, .responded h y true ∈ s.log → s.handles[h]? = some g → Fin s g.client g.op g.id
  ref : ∀ c op id x, .refused c op id x ∈ s.log → Fin s c op id
  lt : ∀ h y ok, .responded h y ok ∈ s.log → h < s.handles.length
  toldLt : ∀ h, .told h ∈ s.log → h < s.handles.length

theorem done_init : Done State.init := ⟨by simp [State.init], by simp [State.init], by simp [State.init], by simp [State.init]⟩

theorem move_log {s s' : State} (hm : Move s s') : s'.log = s.log ∨ ∃ e, s'.log = s.log ++ [e] := by
  cases hm <;> first | exact .inl rfl | exact .inr ⟨_, rfl⟩

theorem move_log_sub {s s' : State} (hm : Move s s') {e : Ev} (h : e ∈ s.log) : e ∈ s'.log := by
  rcases move_log hm with h1 | ⟨_, h1⟩
  · rw [h1]; exact h
  · rw [h1]; exact List.mem_append_left _ h

theorem move_handles {s s' : State} (hm : Move s s') {h : Nat} {g : Handle} (hg : s.handles[h]? = some g) : s'.handles[h]? = some g := by
  cases hm with
  | handled c op id x rest hu => exact get_snoc.2 (.inl hg)
  | _ => exact hg

theorem move_len {s s' : State} (hm : Move s s') : s.handles.length ≤ s'.handles.length := by
  cases hm with
  | handled c op id x rest hu => simp
  | _ => exact Nat.le_refl _

theorem move_handles_back {s s' : State} (hm : Move s s') {h : Nat} {g : Handle} (hlt : h < s.handles.length) (hg : s'.handles[h]? = some g) : s.handles[h]? = some g := by
  have h1 : s.handles[h]? = some s.handles[h] := List.getElem?_eq_getElem hlt
  have := move_handles hm h1
  rw [hg] at this
  rw [this]; exact h1

/-- The events of a step. -/
theorem move_new {s s' : State} (hm : Move s s') {e : Ev} (h : e ∈ s'.log) (hn : e ∉ s.log) : s'.log = s.log ++ [e] := by
  rcases move_log hm with h1 | ⟨e', h1⟩
  · rw [h1] at h; exact absurd h hn
  · rw [h1] at h ⊢
    rcases List.mem_append.1 h with h | h
    · exact absurd h hn
    · rw [List.mem_singleton.1 h]

theorem done_move {s s' : State} (hf : Flow s) (hh : Hnd s) (he : Ent s) (hi : Done s) (hm : Move s s') : Done s' := by
  have sentOfHandle : ∀ {h : Nat} {g : Handle}, s.handles[h]? = some g → .sent g.client g.op g.id g.x ∈ s.log := fun hg => hf.arrived_sent (hh.arrived hg)
  refine ⟨fun h y g hr hg => ?_, fun c op id x hr => ?_, fun h y ok hr => ?_, fun h hr => ?_⟩
  · by_cases hold : .responded h y true ∈ s.log
    · have hg := move_handles_back hm (hi.lt h y true hold) hg
      exact fin_move hf he hm (sentOfHandle hg) (hi.resp h y g hold hg)
    · have hl := move_new hm hr hold
      cases hm <;> first
        | (exfalso; simp at hl; done)
        | skip
      rename_i h' y' g' k' hg' ho hf'
      simp only [List.append_cancel_left_eq, List.cons.injEq, Ev.responded.injEq, and_true] at hl
      obtain ⟨rfl, rfl⟩ := hl
      have : g' = g := by rw [hg'] at hg; cases hg; rfl
      subst this
      exact .inl ⟨.value y', by simp [upd]⟩
  · by_cases hold : .refused c op id x ∈ s.log
    · exact fin_move hf he hm (hf.arrived_sent (mem_arrivedOf.2 (.inr hold))) (hi.ref c op id x hold)
    · have hl := move_new hm hr hold
      cases hm <;> first
        | (exfalso; simp at hl; done)
        | skip
      rename_i c' op' id' x' rest hu
      simp only [List.append_cancel_left_eq, List.cons.injEq, Ev.refused.injEq, and_true] at hl
      obtain ⟨rfl, rfl, rfl, rfl⟩ := hl
      exact .inl ⟨.noHandler, by simp [upd]⟩
  · by_cases hold : .responded h y ok ∈ s.log
    · exact Nat.lt_of_lt_of_le (hi.lt h y ok hold) (move_len hm)
    · have hl := move_new hm hr hold
      cases hm <;> first
        | (exfalso; simp at hl; done)
        | skip
      · rename_i h' y' g' k' hg' ho hf'
        simp only [List.append_cancel_left_eq, List.cons.injEq, Ev.responded.injEq, and_true] at hl
        obtain ⟨rfl, rfl, -⟩ := hl
        exact (List.getElem?_eq_some_iff.1 hg').1
      · rename_i h' y' g' hg' ho
        simp only [List.append_cancel_left_eq, List.cons.injEq, Ev.responded.injEq, and_true] at hl
        obtain ⟨rfl, rfl, -⟩ := hl
        exact (List.getElem?_eq_some_iff.1 hg').1
  · by_cases hold : .told h ∈ s.log
    · exact Nat.lt_of_lt_of_le (hi.toldLt h hold) (move_len hm)
    · have hl := move_new hm hr hold
      cases hm <;> first
        | (exfalso; simp at hl; done)
        | skip
      rename_i c op id rest h' hu hf'
      simp only [List.append_cancel_left_eq, List.cons.injEq, Ev.told.injEq, and_true] at hl
      subst hl
      exact hh.lt h' (find_spec hf').1

/-! ### Aborts on their way -/

structure Abt (s : State) : Prop where
  known : ∀ c op id, .abort op id ∈ (s.clients c).up → .aborted c op id ∈ s.log
  order : ∀ c l1 op id l2, (s.clients c).up = l1 ++ .abort op id :: l2 → ∀ op' x, .req op' id x ∉ l2

theorem abt_init : Abt State.init := ⟨by simp [State.init], by simp [State.init]⟩

theorem up_same {s : State} {c : Nat} {v : Client} (hv : v.up = (s.clients c).up) (k : Nat) : (upd s.clients c v k).up = (s.clients k).up := by
  unfold upd; split
  · rename_i h; subst h; exact hv
  · rfl

theorem Abt.keep {s s' : State} (hi : Abt s) (hl : ∀ e ∈ s.log, e ∈ s'.log) (h1 : ∀ c, (s'.clients c).up = (s.clients c).up) : Abt s' :=
  ⟨fun c op id h => hl _ (hi.known c op id (by rw [h1] at h; exact h)), fun c l1 op id l2 h => hi.order c l1 op id l2 (by rw [h1] at h; exact h)⟩

theorem Abt.pop {s : State} (hi : Abt s) {c : Nat} {m : Up} {v : Client} {gs : List Handle} {os l : List Nat} {log : List Ev} (hu : (s.clients c).up = m :: v.up) (hl : ∀ e ∈ s.log, e ∈ log) : Abt ⟨upd s.clients c v, gs, os, l, log⟩ := by
  refine ⟨fun k op id h => hl _ ?_, fun k l1 op id l2 h => ?_⟩
  · simp only [upd] at h
    split at h
    · rename_i hk; subst hk; exact hi.known k op id (by rw [hu]; exact List.mem_cons_of_mem _ h)
    · exact hi.known k op id h
  · simp only [upd] at h
    split at h
    · rename_i hk; subst hk; exact hi.order k (m :: l1) op id l2 (by rw [hu, h]; rfl)
    · exact hi.order k l1 op id l2 h

theorem snoc_split {α : Type} {l l1 l2 : List α} {a b : α} (h : l ++ [b] = l1 ++ a :: l2) : (l = l1 ∧ a = b ∧ l2 = []) ∨ ∃ l3, l = l1 ++ a :: l3 ∧ l2 = l3 ++ [b] := by
  rcases List.eq_nil_or_concat l2 with h2 | ⟨l3, b', h2⟩
  · subst h2
    have := List.append_inj' h rfl
    exact .inl ⟨this.1, by simpa using this.2.symm, rfl⟩
  · subst h2
    have h : l ++ [b] = (l1 ++ a :: l3) ++ [b'] := by rw [h]; simp
    have := List.append_inj' h rfl
    exact .inr ⟨l3, this.1, by have := this.2; simp at this; rw [this]; simp⟩

theorem abt_move {s s' : State} (hf : Flow s) (he : Ent s) (hi : Abt s) (hm : Move s s') : Abt s' := by
  have hl : ∀ e ∈ s.log, e ∈ s'.log := fun e h => move_log_sub hm h
  cases hm with
  | idle l => exact hi.keep hl fun _ => rfl
  | handled c op id x rest hu => exact hi.pop (by exact hu) hl
  | refused c op id x rest hu => exact hi.pop (by exact hu) hl
  | told c op id rest h hu hf => exact hi.pop (by exact hu) hl
  | untold c op id rest hu hf => exact hi.pop (by exact hu) hl
  | responded h y g k' hg ho hf => exact hi.keep hl fun k => up_same (by rfl) k
  | failed h y g hg ho => exact hi.keep hl fun _ => rfl
  | updated h y g hg ho => exact hi.keep hl fun k => up_same (by rfl) k
  | notUpdated h y g hg => exact hi.keep hl fun _ => rfl
  | ignored c op id a fin rest hd he => exact hi.keep hl fun k => up_same (by rfl) k
  | partly c op id a rest hd he => exact hi.keep hl fun k => up_same (by rfl) k
  | final c op id a rest hd he => exact hi.keep hl fun k => up_same (by rfl) k
  | send c op x =>
    refine ⟨fun k op' id' h => hl _ ?_, fun k l1 op' id' l2 h op2 x2 hm => ?_⟩
    · simp only [upd] at h
      split at h
      · rename_i hk; subst hk; exact hi.known k op' id' (by simpa using h)
      · exact hi.known k op' id' h
    · simp only [upd] at h
      split at h
      · rename_i hk; subst hk
        rcases snoc_split h with ⟨-, h1, -⟩ | ⟨l3, h1, h2⟩
        · cases h1
        · subst h2
          rcases List.mem_append.1 hm with hm | hm
          · exact hi.order k l1 op' id' l3 h1 op2 x2 hm
          · simp only [List.mem_singleton, Up.req.injEq] at hm
            have hab := hi.known k op' id' (by rw [h1]; simp)
            obtain ⟨x3, hx3⟩ := he.aborted _ _ _ hab
            have := hf.sent_lt hx3
            omega
      · exact hi.order k l1 op' id' l2 h op2 x2 hm
  | abort c op id he =>
    refine ⟨fun k op' id' h => ?_, fun k l1 op' id' l2 h op2 x2 hm => ?_⟩
    · simp only [upd] at h
      split at h
      · rename_i hk; subst hk
        rcases List.mem_append.1 h with h | h
        · exact hl _ (hi.known k op' id' h)
        · simp only [List.mem_singleton, Up.abort.injEq] at h
          obtain ⟨rfl, rfl⟩ := h
          simp
      · exact hl _ (hi.known k op' id' h)
    · simp only [upd] at h
      split at h
      · rename_i hk; subst hk
        rcases snoc_split h with ⟨-, -, h1⟩ | ⟨l3, h1, h2⟩
        · subst h1; cases hm
        · subst h2
          rcases List.mem_append.1 hm with hm | hm
          · exact hi.order k l1 op' id' l3 h1 op2 x2 hm
          · simp at hm
      · exact hi.order k l1 op' id' l2 h op2 x2 hm

end Maf.E2E
