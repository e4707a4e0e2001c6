import Verif.Lemmas.RequesterHold
/-
What an event of a call says about the call, from the table of what calls do; what stays removed.
-/
namespace Maf.Req

/-- What is known of call `n` (it is `c`) when it does `e` having done `pre`. -/
def LocalOk (n : Cid) (c : Call) (pre : List Ev) : Ev → Prop
  | .called _ c' => c' = c ∧ pre = []
  | .taken _ m _ => c = .incoming m true ∧ isAnswer m.code = true ∧ pre = [.called n c]
  | .collected _ op _ => ∃ m, c = .incoming m true ∧ isUpdate m.code = true ∧ op = m.op ∧ pre = [.called n c]
  | .cached _ op p => ∃ m fs, c = .incoming m true ∧ m.code = .statusRegister ∧ op = m.op ∧ p = m.payload ∧ .collected n op fs ∈ pre ∧ fs ≠ []
  | .ran _ f p =>
    (∃ m, c = .incoming m true ∧ isAnswer m.code = true ∧ p = m.payload ∧ pre = [.called n c, .taken n m (some (.user (some f)))]) ∨
    (∃ m fs, c = .incoming m true ∧ isUpdate m.code = true ∧ p = m.payload ∧ .collected n m.op fs ∈ pre ∧ f ∈ fs) ∨
    (∃ op, c = .getAsync op f ∧ .readCache n op p ∈ pre) ∨
    ∃ op v, c = .register false op (some f) ∧ p = some v ∧ .readCache n op p ∈ pre
  | .sent _ m =>
    (m.code = .abort → ∃ id, m.id = some id ∧ .looked n m.op id true ∈ pre ∧ ∀ m', .sent n m' ∈ pre → m'.code ≠ .abort) ∧
    (∀ op, (m.code = .statusRegister ∨ m.code = .signalRegister) → m.op = op → ∃ g f id, c = .register g op (some f) ∧ m = ⟨regCode g, op, some id, none⟩ ∧ .registered n op id f true ∈ pre) ∧
    (m.code = .unregister → (∃ id, c = .unregister m.op (some id) ∧ .unregistered n m.op id 0 ∈ pre) ∨ (c = .unregisterAll m.op ∧ .erased n m.op ∈ pre))
  | .stored _ op id tg => (∃ p f, c = .request op p f ∧ tg = .user f) ∨ (∃ p t, c = .requestSync op p t ∧ tg = .sync) ∨
      (∃ f, c = .getAsync op f ∧ tg = .user (some f)) ∨ ∃ t, c = .getSync op t ∧ tg = .sync
  | .dropped _ op id => ∃ tg st, .stored n op id tg ∈ pre ∧ .sentBack n st ∈ pre ∧ st ≠ .success
  | .promised _ id p => ∃ m, c = .incoming m true ∧ isAnswer m.code = true ∧ m.id = some id ∧ p = m.payload ∧ pre = [.called n c, .taken n m (some .sync)]
  | .threw _ id => ∃ m, c = .incoming m true ∧ isAnswer m.code = true ∧ m.id = some id ∧ pre = [.called n c, .taken n m (some .sync)]
  | .broken _ id => ∃ op tg, .stored n op id tg ∈ pre
  | .expired _ id => ∃ op tg, .stored n op id tg ∈ pre
  | .looked _ op id _ => c = .abort op (some id) ∨ (.expired n id ∈ pre ∧ ∃ tg, .stored n op id tg ∈ pre)
  | .registered _ op _ f _ => ∃ g, c = .register g op (some f)
  | .unregistered _ op id _ => c = .unregister op (some id) ∨ ∃ g f, c = .register g op (some f)
  | .erased _ op => c = .unregisterAll op
  | .uncached _ op => (∃ id, c = .unregister op (some id)) ∨ c = .unregisterAll op
  | .statusStored _ a => c = .status a
  | .reqsCleared _ => c = .deinit ∨ (c = .status .unavailable ∧ .statusStored n .unavailable ∈ pre)
  | .regsCleared _ => c = .status .unavailable ∧ .statusStored n .unavailable ∈ pre
  | _ => True

/-- The rule holds at every place, counted from `pre`. -/
def AtAll (P : List Ev → Ev → Prop) : List Ev → List Ev → Prop
  | _, [] => True
  | pre, e :: es => P pre e ∧ AtAll P (pre ++ [e]) es

theorem AtAll.at {P : List Ev → Ev → Prop} {pre full : List Ev} (h : AtAll P pre full) {a b : List Ev} {e : Ev} (hf : full = a ++ e :: b) : P (pre ++ a) e := by
  induction a generalizing pre full with
  | nil => subst hf; simpa using h.1
  | cons x a ih =>
    subst hf
    have := ih h.2 rfl
    simpa using this

theorem AtAll.append {P : List Ev → Ev → Prop} {pre a b : List Ev} (ha : AtAll P pre a) (hb : AtAll P (pre ++ a) b) : AtAll P pre (a ++ b) := by
  induction a generalizing pre with
  | nil => simpa using hb
  | cons e a ih => exact ⟨ha.1, ih ha.2 (by simpa using hb)⟩

theorem exchange_local {n : Cid} {c : Call} {code : Code} {op : Op} {p : Option Val} {tg : Target} {h : How} {x pre : List Ev} (hx : Exchange n code op p tg h x)
    (hcode : code = .request ∨ code = .statusGet)
    (hp : ∀ m, .sent n m ∉ pre)
    (hc : (∃ p f, c = .request op p f ∧ tg = .user f) ∨ (∃ p t, c = .requestSync op p t ∧ tg = .sync) ∨ (∃ f, c = .getAsync op f ∧ tg = .user (some f)) ∨ ∃ t, c = .getSync op t ∧ tg = .sync) :
    AtAll (LocalOk n c) pre x := by
  cases hx <;> rcases hcode with rfl | rfl <;> simp_all [AtAll, LocalOk] <;> exact ⟨op, tg, .inr ⟨rfl, rfl⟩⟩

theorem ran_local {n : Cid} {m : Msg} {gs fs pre : List Ev} {cs rest : List Fn} (h : isUpdate m.code = true) (hc : .collected n m.op cs ∈ pre) (hr : ∀ f ∈ rest, f ∈ cs) :
    AtAll (LocalOk n (.incoming m true)) pre (rest.map (.ran n · m.payload)) := by
  induction rest generalizing pre with
  | nil => trivial
  | cons f rest ih =>
    refine ⟨.inr (.inl ⟨m, cs, rfl, h, rfl, hc, hr f (by simp)⟩), ih (by simp [hc]) fun g hg => hr g (by simp [hg])⟩

theorem full_local {n : Cid} {c : Call} {full : List Ev} (h : Full n c full) : AtAll (LocalOk n c) [] full := by
  cases h with
  | req h => refine ⟨⟨rfl, rfl⟩, trivial, exchange_local h (.inl rfl) (by simp) (.inl ⟨_, _, rfl, rfl⟩)⟩
  | sync h => refine ⟨⟨rfl, rfl⟩, trivial, exchange_local h (.inl rfl) (by simp) (.inr (.inl ⟨_, _, rfl, rfl⟩))⟩
  | geta h => refine ⟨⟨rfl, rfl⟩, trivial, trivial, exchange_local h (.inr rfl) (by simp) (.inr (.inr (.inl ⟨_, rfl, rfl⟩)))⟩
  | get h => refine ⟨⟨rfl, rfl⟩, trivial, trivial, trivial, exchange_local h (.inr rfl) (by simp) (.inr (.inr (.inr ⟨_, rfl, rfl⟩)))⟩
  | @update m fs h =>
    refine AtAll.append (AtAll.append (a := _ :: _ :: _) ⟨⟨rfl, rfl⟩, ⟨m, rfl, h, rfl, rfl⟩, ran_local (gs := []) (fs := []) h (cs := fs) (by simp) (fun _ h => h)⟩ ?_) ⟨trivial, trivial⟩
    split
    · next hh => exact ⟨⟨m, fs, rfl, hh.1, rfl, rfl, by simp, hh.2⟩, trivial⟩
    · trivial
  | @regFirst g op f id => cases g <;> simp_all [AtAll, LocalOk, regCode]
  | @regFailed g op f id => cases g <;> simp_all [AtAll, LocalOk, regCode]
  | _ => simp_all [AtAll, LocalOk]

theorem full_head {n : Cid} {c : Call} {full : List Ev} (h : Full n c full) : ∃ t, full = .called n c :: t := by
  cases h <;> exact ⟨_, rfl⟩

theorem follows {as : List Act} {s : State} (hr : run init as = some s) (n : Cid) : Follows n s.log := follows_of ((good_of hr).path.path n)

theorem Follows.pre {n : Cid} {l r : List Ev} (h : Follows n (l ++ r)) : Follows n l := by
  rcases h with h | ⟨c, full, hf, hp⟩
  · left; rw [trace_append] at h; exact (List.append_eq_nil_iff.1 h).1
  · rw [trace_append] at hp; exact .inr ⟨c, full, hf, List.IsPrefix.trans (List.prefix_append _ _) hp⟩

theorem trace_cons_own {e : Ev} {l : List Ev} : trace e.cid (e :: l) = e :: trace e.cid l := by simp [trace]

/-- What an event of a call says about it. -/
theorem local_at {log l r : List Ev} {e : Ev} (hf : Follows e.cid log) (h : log = l ++ e :: r) :
    ∃ c, (∀ t, log ≠ [] → trace e.cid log = t → ∃ t', t = .called e.cid c :: t') ∧ LocalOk e.cid c (trace e.cid l) e := by
  have ht : trace e.cid log = trace e.cid l ++ e :: trace e.cid r := by rw [h, trace_append, trace_cons_own]
  rcases hf with hf | ⟨c, full, hfull, t, hp⟩
  · rw [hf] at ht; simp at ht
  · refine ⟨c, ?_, ?_⟩
    · rintro t' - rfl
      obtain ⟨u, hu⟩ := full_head hfull
      rw [hu, ht] at hp
      rw [ht]
      cases hl : trace e.cid l with
      | nil => rw [hl] at hp; simp at hp; exact ⟨_, by rw [hp.1]; rfl⟩
      | cons x xs => rw [hl] at hp; simp at hp; exact ⟨_, by rw [hp.1]; rfl⟩
    · have := (full_local hfull).at (a := trace e.cid l) (b := trace e.cid r ++ t) (e := e) (by rw [← hp, ht]; simp)
      simpa using this

theorem local_called {log l r : List Ev} {e : Ev} (hf : Follows e.cid log) (h : log = l ++ e :: r) :
    ∃ c, LocalOk e.cid c (trace e.cid l) e ∧ .called e.cid c ∈ l ++ [e] ∧ ∀ c', .called e.cid c' ∈ log → c' = c := by
  obtain ⟨c, h1, h2⟩ := local_at hf h
  have ht : trace e.cid log = trace e.cid l ++ e :: trace e.cid r := by rw [h, trace_append, trace_cons_own]
  obtain ⟨t', ht'⟩ := h1 _ (by rw [h]; simp) rfl
  refine ⟨c, h2, ?_, fun c' hc' => ?_⟩
  · rw [ht'] at ht
    cases hl : trace e.cid l with
    | nil => rw [hl] at ht; simp at ht; exact List.mem_append.2 (.inr (List.mem_singleton.2 ht.1))
    | cons x xs =>
      rw [hl] at ht
      simp at ht
      have : x ∈ l := mem_trace (n := e.cid) (by rw [hl]; simp)
      rw [← ht.1] at this
      simp [this]
  · -- a second start
    obtain ⟨a, b, hab⟩ := List.append_of_mem hc'
    obtain ⟨c2, k1, k2⟩ := local_at (e := .called e.cid c') (l := a) (r := b) hf hab
    obtain ⟨u, hu⟩ := k1 _ (by rw [h]; simp) rfl
    change trace e.cid log = _ at hu
    rw [ht'] at hu
    cases hu
    exact k2.1

/-- Only one call is started under a name. -/
theorem called_one {log : List Ev} {n : Cid} (hf : Follows n log) {c c' : Call} (h : .called n c ∈ log) (h' : .called n c' ∈ log) : c = c' := by
  obtain ⟨a, b, hab⟩ := List.append_of_mem h
  obtain ⟨c2, -, -, k⟩ := local_called (e := .called n c) hf hab
  exact (k c h).trans (k c' h').symm

theorem exchange_returned {n : Cid} {code : Code} {op : Op} {p : Option Val} {tg : Target} {h : How} {x : List Ev} (hx : Exchange n code op p tg h x) :
    ∃ a r, x = a ++ [.returned n r] ∧ ∀ r, .returned n r ∉ a := by
  have : ∃ r, x = x.dropLast ++ [.returned n r] ∧ ∀ r, .returned n r ∉ x.dropLast := by
    cases hx <;> exact ⟨_, rfl, by simp⟩
  exact ⟨_, this⟩

theorem full_returned {n : Cid} {c : Call} {full : List Ev} (h : Full n c full) : (∀ r, .returned n r ∉ full) ∨ ∃ a r, full = a ++ [.returned n r] ∧ ∀ r, .returned n r ∉ a := by
  have ex : ∀ {pre x : List Ev}, (∀ r, .returned n r ∉ pre) → (∃ a r, x = a ++ [.returned n r] ∧ ∀ r, .returned n r ∉ a) → ∃ a r, pre ++ x = a ++ [.returned n r] ∧ ∀ r, .returned n r ∉ a := by
    rintro pre x hp ⟨a, r, rfl, ha⟩
    exact ⟨pre ++ a, r, by simp, fun r h => (List.mem_append.1 h).elim (hp r) (ha r)⟩
  cases h with
  | req h => exact .inr (ex (pre := [_, _]) (by simp) (exchange_returned h))
  | sync h => exact .inr (ex (pre := [_, _]) (by simp) (exchange_returned h))
  | geta h => exact .inr (ex (pre := [_, _, _]) (by simp) (exchange_returned h))
  | get h => exact .inr (ex (pre := [_, _, _, _]) (by simp) (exchange_returned h))
  | threw => left; simp
  | @update m fs h =>
    refine .inr ⟨_, _, rfl, fun r h => ?_⟩
    simp only [List.cons_append, List.mem_cons, List.mem_append, List.mem_map, reduceCtorEq, false_or, and_false, exists_false] at h
    split at h <;> simp at h
  | _ =>
    right
    have key : ∀ x : List Ev, (∃ r, x = x.dropLast ++ [.returned n r] ∧ ∀ r, .returned n r ∉ x.dropLast) → ∃ a r, x = a ++ [.returned n r] ∧ ∀ r, .returned n r ∉ a := fun x h => ⟨_, h⟩
    exact key _ ⟨_, rfl, by simp⟩

/-- A call that has returned has done all it does. -/
theorem complete {log : List Ev} {n : Cid} (hf : Follows n log) {r : Res} (h : .returned n r ∈ log) : ∃ c, .called n c ∈ log ∧ Full n c (trace n log) := by
  have hm : .returned n r ∈ trace n log := List.mem_filter.2 ⟨h, by simp [Ev.cid]⟩
  rcases hf with hf | ⟨c, full, hfull, t, hp⟩
  · rw [hf] at hm; cases hm
  · have hin : .returned n r ∈ full := by rw [← hp]; simp [hm]
    have ht : t = [] := by
      rcases full_returned hfull with k | ⟨a, r', ha, hna⟩
      · exact absurd hin (k r)
      · rcases List.eq_nil_or_concat t with k | ⟨t, x, rfl⟩
        · exact k
        · exfalso
          rw [ha, List.concat_eq_append, ← List.append_assoc] at hp
          obtain ⟨h1, -⟩ := List.append_inj' hp rfl
          apply hna r
          rw [← h1]; simp [hm]
    subst ht
    rw [List.append_nil] at hp
    obtain ⟨u, hu⟩ := full_head hfull
    exact ⟨c, mem_trace (n := n) (by rw [hp, hu]; simp), by rw [hp]; exact hfull⟩

/-- … and does nothing more. -/
theorem complete_silent {l r : List Ev} {n : Cid} (hf : Follows n (l ++ r)) {x : Res} (h : .returned n x ∈ l) : ∀ e ∈ r, e.cid ≠ n := by
  have hm : .returned n x ∈ trace n l := List.mem_filter.2 ⟨h, by simp [Ev.cid]⟩
  rcases hf with hf | ⟨c, full, hfull, t, hp⟩
  · rw [trace_append] at hf; rw [(List.append_eq_nil_iff.1 hf).1] at hm; cases hm
  · rw [trace_append] at hp
    rcases full_returned hfull with k | ⟨a, r', ha, hna⟩
    · exact absurd (by rw [← hp]; simp [hm]) (k x)
    · have hnil : trace n r ++ t = [] := by
        rcases List.eq_nil_or_concat (trace n r ++ t) with k | ⟨u, y, hrt⟩
        · exact k
        · exfalso
          rw [List.append_assoc, hrt, ha, List.concat_eq_append, ← List.append_assoc] at hp
          obtain ⟨h1, -⟩ := List.append_inj' hp rfl
          exact hna x (by rw [← h1]; simp [hm])
      intro e he hc
      have : e ∈ trace n r := List.mem_filter.2 ⟨he, by simp [hc]⟩
      rw [(List.append_eq_nil_iff.1 hnil).1] at this
      cases this

/-! ### Pending requests -/

theorem pendIn_append (a b : List Ev) (op : Op) : pendIn (a ++ b) op = b.foldl (pendStep op) (pendIn a op) := by simp [pendIn, List.foldl_append]
theorem regsIn_append (a b : List Ev) (op : Op) : regsIn (a ++ b) op = b.foldl (regStep op) (regsIn a op) := by simp [regsIn, List.foldl_append]
theorem cacheIn_append (a b : List Ev) (op : Op) : cacheIn (a ++ b) op = b.foldl (cacheStep op) (cacheIn a op) := by simp [cacheIn, List.foldl_append]

/-- A request that is not pending stays so, unless it is stored. -/
theorem not_pend_later {a b : List Ev} {id : Id} (h : ∀ op tg, (id, tg) ∉ pendIn a op) (hb : ∀ n op tg, .stored n op id tg ∉ b) : ∀ op tg, (id, tg) ∉ pendIn (a ++ b) op := by
  intro op
  rw [pendIn_append]
  have h0 := h op
  generalize pendIn a op = acc at h0
  induction b generalizing acc with
  | nil => exact h0
  | cons e b ih =>
    rw [List.foldl_cons]
    refine ih (fun n op tg hm => hb n op tg (by simp [hm])) _ fun tg hm => ?_
    rcases mem_pendStep hm with k | ⟨n, tg', rfl⟩
    · exact h0 tg k
    · exact hb n op tg' (by simp)

theorem not_stored_later {log l r : List Ev} (h : Hist EvOk log) (hl : log = l ++ r) {k : Cid} {op : Op} {id : Id} {tg : Target} (hs : .stored k op id tg ∈ l) :
    ∀ n op tg, .stored n op id tg ∉ r := by
  intro n op' tg' hm
  obtain ⟨a, b, rfl⟩ := List.append_of_mem hs
  obtain ⟨c, d, rfl⟩ := List.append_of_mem hm
  have := (stored_once (n := k) (n' := n) (op := op) (op' := op') (id := id) (tg := tg) (tg' := tg') (a := a) (b := b ++ c ++ .stored n op' id tg' :: d) (a' := a ++ .stored k op id tg :: b ++ c) (b' := d) h (by rw [hl]; simp) (by rw [hl]; simp)).1
  have := congrArg List.length this
  simp at this

/-- The events that end a request. -/
def Ends (id : Id) : Ev → Prop
  | .taken _ m tg => m.id = some id ∧ m.code ≠ .partialUpdate ∧ tg ≠ none
  | .looked _ _ i b => i = id ∧ b = true
  | .reqsCleared _ => True
  | _ => False

theorem ended {log l r : List Ev} {e : Ev} {id : Id} (h : Hist EvOk log) (hl : log = l ++ e :: r) (he : Ends id e) (hst : ∃ k op tg, .stored k op id tg ∈ l) :
    ∀ r1 r2, r = r1 ++ r2 → ∀ op tg, (id, tg) ∉ pendIn (l ++ e :: r1) op := by
  obtain ⟨k, o, tg0, hs⟩ := hst
  rintro r1 r2 rfl
  have hlater := not_stored_later (r := e :: (r1 ++ r2)) h (by rw [hl]) hs
  rw [show l ++ e :: r1 = (l ++ [e]) ++ r1 by simp]
  refine not_pend_later ?_ fun n op tg hm => hlater n op tg (by simp [hm])
  intro op tg hm
  have hev := h.all _ _ _ hl
  -- it was stored for one operation
  have one : ∀ op' tg', (id, tg') ∈ pendIn l op' → op' = o := fun op' tg' hp => by
    obtain ⟨k', hk'⟩ := mem_pendIn hp
    exact (stored_once' h (show _ ∈ log by rw [hl]; exact List.mem_append_left _ hs) (show _ ∈ log by rw [hl]; exact List.mem_append_left _ hk')).2.1.symm
  have hin : (id, tg) ∈ pendIn (l ++ [e]) op → (id, tg) ∈ pendIn l op := fun hm => by
    obtain ⟨k', hk'⟩ := mem_pendIn hm
    rw [pendIn_append, List.foldl_cons, List.foldl_nil] at hm
    rcases mem_pendStep hm with q | ⟨n, tg', rfl⟩
    · exact q
    · exact absurd (by simp) (hlater n op tg')
  have hop := one op tg (hin hm)
  subst hop
  rw [pendIn_append, List.foldl_cons, List.foldl_nil] at hm
  cases e with
  | taken n m tg' =>
    obtain ⟨hid, hf, ht⟩ := he
    obtain ⟨g, rfl⟩ := Option.ne_none_iff_exists'.1 ht
    obtain ⟨id', hid', hp⟩ := (hev g).1 rfl
    rw [hid] at hid'; cases hid'
    have := one _ _ hp
    simp only [pendStep, this, hf, ne_eq, not_false_eq_true, and_self, if_true, hid] at hm
    simpa using (List.mem_filter.1 hm).2
  | looked n op' i b =>
    obtain ⟨rfl, rfl⟩ := he
    obtain ⟨g, hp⟩ := hev.1 rfl
    have := one _ _ hp
    simp only [pendStep, this, if_true] at hm
    simpa using (List.mem_filter.1 hm).2
  | reqsCleared n => simp [pendStep] at hm
  | _ => exact he

/-- No response finds a request that has ended. -/
theorem ended_not_taken {log l r : List Ev} {e : Ev} {id : Id} (h : Hist EvOk log) (hl : log = l ++ e :: r) (he : Ends id e) (hst : ∃ k op tg, .stored k op id tg ∈ l)
    {n : Cid} {m : Msg} {tg : Target} (hm : .taken n m (some tg) ∈ r) : m.id ≠ some id := by
  intro hid
  obtain ⟨a, b, rfl⟩ := List.append_of_mem hm
  obtain ⟨id', hid', hp⟩ := (h.all (l ++ e :: a) (.taken n m (some tg)) b (by rw [hl]; simp) tg).1 rfl
  rw [hid] at hid'; cases hid'
  exact ended h hl he hst a _ rfl _ _ hp

/-- No abort does. -/
theorem ended_not_looked {log l r : List Ev} {e : Ev} {id : Id} (h : Hist EvOk log) (hl : log = l ++ e :: r) (he : Ends id e) (hst : ∃ k op tg, .stored k op id tg ∈ l)
    {n : Cid} {op : Op} : .looked n op id true ∉ r := by
  intro hm
  obtain ⟨a, b, rfl⟩ := List.append_of_mem hm
  obtain ⟨tg, hp⟩ := (h.all (l ++ e :: a) (.looked n op id true) b (by rw [hl]; simp)).1 rfl
  exact ended h hl he hst a _ rfl _ _ hp

/-- A request that was stored and is not pending was removed by some event. -/
theorem removal {l : List Ev} {op : Op} {id : Id} {k : Cid} {tg : Target} (hs : .stored k op id tg ∈ l) (hp : (id, tg) ∉ pendIn l op) :
    ∃ a e b, l = a ++ e :: b ∧ .stored k op id tg ∈ a ∧ (id, tg) ∈ pendIn a op ∧ (id, tg) ∉ pendStep op (pendIn a op) e := by
  obtain ⟨a, b, rfl⟩ := List.append_of_mem hs
  have key : ∀ (b a : List Ev), .stored k op id tg ∈ a → (id, tg) ∈ pendIn a op → (id, tg) ∉ pendIn (a ++ b) op →
      ∃ x e y, a ++ b = x ++ e :: y ∧ .stored k op id tg ∈ x ∧ (id, tg) ∈ pendIn x op ∧ (id, tg) ∉ pendStep op (pendIn x op) e := by
    intro b
    induction b with
    | nil => intro a _ h1 h2; exact absurd h1 (by simpa using h2)
    | cons e b ih =>
      intro a hst h1 h2
      by_cases h : (id, tg) ∈ pendStep op (pendIn a op) e
      · have := ih (a ++ [e]) (by simp [hst]) (by rw [pendIn_append]; exact h) (by simpa using h2)
        simpa using this
      · exact ⟨a, e, b, rfl, hst, h1, h⟩
  have := key b (a ++ [.stored k op id tg]) (by simp) (by rw [pendIn_append]; simp [pendStep]) (by simpa using hp)
  simpa using this

/-- The events that remove a pending request. -/
theorem removal_cases {log a b : List Ev} {op : Op} {id : Id} {tg : Target} {e : Ev} (h : Hist EvOk log) (hl : log = a ++ e :: b) (hp : (id, tg) ∈ pendIn a op)
    (hn : (id, tg) ∉ pendStep op (pendIn a op) e) :
    (∃ n, e = .dropped n op id) ∨ (∃ n, e = .looked n op id true) ∨ (∃ n m, e = .taken n m (some tg) ∧ m.op = op ∧ m.id = some id ∧ m.code ≠ .partialUpdate) ∨ ∃ n, e = .reqsCleared n := by
  have hev := h.all _ _ _ hl
  cases e with
  | stored n o i g =>
    exfalso
    simp only [pendStep] at hn
    split at hn
    · exact hn (List.mem_append_left _ hp)
    · exact hn hp
  | dropped n o i =>
    simp only [pendStep] at hn
    split at hn
    · next e =>
      subst e
      simp only [List.mem_filter, hp, true_and, bne_iff_ne, ne_eq, Decidable.not_not] at hn
      subst hn; exact .inl ⟨_, rfl⟩
    · exact absurd hp hn
  | looked n o i c =>
    simp only [pendStep] at hn
    split at hn
    · next e =>
      subst e
      simp only [List.mem_filter, hp, true_and, bne_iff_ne, ne_eq, Decidable.not_not] at hn
      subst hn
      have : c = true := hev.2 ⟨tg, hp⟩
      subst this
      exact .inr (.inl ⟨_, rfl⟩)
    · exact absurd hp hn
  | taken n m g =>
    simp only [pendStep] at hn
    split at hn
    · next e =>
      simp only [List.mem_filter, hp, true_and, bne_iff_ne, ne_eq, Decidable.not_not] at hn
      have := (hev tg).2 ⟨id, hn.symm, by rw [e.1]; exact hp⟩
      subst this
      exact .inr (.inr (.inl ⟨_, _, rfl, e.1, hn.symm, e.2⟩))
    · exact absurd hp hn
  | reqsCleared n => exact .inr (.inr (.inr ⟨_, rfl⟩))
  | _ => exact absurd hp hn

end Maf.Req
