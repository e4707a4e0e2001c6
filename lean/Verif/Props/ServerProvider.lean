import Verif.Lemmas.Server
/-
C43 (servers).
-/
namespace Maf.Srv
open Maf.Calls

/-- The operations call `n` has done. -/
abbrev opsOf (n : Nat) (l : List Event) : List (Op Query Ans) := allOps (S := sys) (trace (S := sys) n l)

theorem mem_opsOf {n : Nat} {l : List Event} {q : Query} {a : Ans q} : ⟨q, a⟩ ∈ opsOf n l ↔ .did n q a ∈ l := by
  constructor
  · intro h
    obtain ⟨e, he, h⟩ := List.mem_filterMap.1 h
    obtain ⟨h1, h2⟩ := List.mem_filter.1 he
    cases e with
    | did k q' a' => cases h; simp [Ev.cid] at h2; subst h2; exact h1
    | _ => cases h
  · intro h; exact List.mem_filterMap.2 ⟨.did n q a, in_trace (S := sys) h, rfl⟩

theorem ops_path {l : List Event} (h : Run l) {n : Nat} {c : Call} {x : Res} (hc : .called n c ∈ l) (hx : .returned n x ∈ l) : Path (prog c) (opsOf n l) (.ret x) := by
  obtain ⟨as, s, hr, rfl⟩ := h
  obtain ⟨ops, h1, h2⟩ := returned_ops hr hc hx
  have : opsOf n s.log = ops := by
    unfold opsOf
    rw [h1, ← List.singleton_append, allOps_append, allOps_append, allOps_evs]
    simp [allOps]
  rw [this]; exact h2

/-- Where an operation of call `n` is in the history. -/
theorem ops_split {n : Nat} {l : List Event} {X Y : List (Op Query Ans)} {q : Query} {a : Ans q} (h : opsOf n l = X ++ ⟨q, a⟩ :: Y) :
    ∃ l1 l2, l = l1 ++ .did n q a :: l2 ∧ opsOf n l1 = X ∧ opsOf n l2 = Y := by
  obtain ⟨t1, t2, h1, h2, h3⟩ := List.filterMap_eq_append_iff.1 h
  obtain ⟨t3, e, t4, h4, h5, h6, h7⟩ := List.filterMap_eq_cons_iff.1 h3
  have ht : trace (S := sys) n l = (t1 ++ t3) ++ e :: t4 := by rw [h1, h4]; simp
  obtain ⟨l1, l2, hl, h8, h9⟩ := trace_split ht
  have he : e ∈ trace (S := sys) n l := by rw [ht]; simp
  have he' := (List.mem_filter.1 he).2
  cases e with
  | did k q' a' =>
    cases h6
    simp [Ev.cid] at he'
    subst he'
    refine ⟨l1, l2, hl, ?_, ?_⟩
    · show allOps (S := sys) (trace (S := sys) k l1) = X
      rw [h8, allOps_append]
      have : allOps (S := sys) t3 = [] := List.filterMap_eq_nil_iff.2 h5
      rw [this, List.append_nil]; exact h2
    · show allOps (S := sys) (trace (S := sys) k l2) = Y
      rw [h9]; exact h7
  | _ => cases h6

/-! ### Which call does which operation -/

def OpOf (c : Call) : Query → Prop
  | .getProv sid => c = .getServiceProvider sid
  | .takeProvs => c = .deinit
  | .addAddr a => c = .incoming (.register a)
  | .greet a _ => c = .incoming (.register a)
  | .dropAddr a => c = .incoming (.unregister a none)
  | .setAvail p b => c = (if b then .startServing p else .stopServing p) ∨ c = .deinit ∧ b = false
  | .tell _ _ b => (∃ p, c = (if b then .startServing p else .stopServing p)) ∨ c = .deinit ∧ b = false
  | .deliver _ _ => ∃ m, c = .incoming m
  | .unlockProvs => ∃ a, c = .incoming (.register a) ∨ c = .incoming (.unregister a none)
  | _ => True

abbrev OpIs (c : Call) : List (Op Query Ans) → Op Query Ans → Prop := fun _ o => OpOf c o.1

theorem tellAll_is {c : Call} {b : Bool} (hb : (∃ p, c = (if b then .startServing p else .stopServing p)) ∨ c = .deinit ∧ b = false) (pre : List (Op Query Ans)) (sid : Sid) (as : List Addr) :
    Along (OpIs c) pre (tellAll sid b as) := by
  induction as generalizing pre with
  | nil => trivial
  | cons a as ih =>
    simp only [tellAll, atom, ask_bind, along_ask]
    intro e
    refine ⟨hb, ?_⟩
    cases e with
    | ok => exact (ih _).bind fun _ _ _ => trivial
    | failed => exact (ih _).bind fun _ _ _ => trivial
    | lost => exact ih _

theorem serve_is {c : Call} {p : Pr} {b : Bool} (hb : c = (if b then .startServing p else .stopServing p) ∨ c = .deinit ∧ b = false) (pre : List (Op Query Ans)) :
    Along (OpIs c) pre (serve p b) := by
  simp only [serve, onServiceStatusChanged, notifyAll, atom, ask_bind, along_ask]
  refine fun sid => ⟨hb, fun f => ⟨trivial, ?_⟩⟩
  split
  · simp only [along_ask]
    refine fun as => ⟨trivial, Along.bind (tellAll_is ?_ _ _ _) fun _ _ _ _ => ⟨trivial, trivial⟩⟩
    rcases hb with hb | hb
    · exact .inl ⟨p, hb⟩
    · exact .inr hb
  · trivial

theorem prog_is (c : Call) : Along (OpIs c) [] (prog c) := by
  cases c with
  | getServiceProvider sid => exact fun _ => ⟨rfl, trivial⟩
  | hasServiceProvider sid => exact fun _ => ⟨trivial, trivial⟩
  | incoming m =>
    refine Along.bind ?_ fun _ _ _ => trivial
    have hd : ∀ sid, Along (OpIs (.incoming m)) [] (dispatch sid m) := by
      intro sid
      simp only [dispatch, atom, ask_bind, along_ask]
      refine fun o => ⟨trivial, ?_⟩
      cases o with
      | none => trivial
      | some p => exact fun _ => ⟨⟨m, rfl⟩, trivial⟩
    cases m with
    | register a =>
      have hg : ∀ pre ps, Along (OpIs (.incoming (.register a))) pre (greetAll a ps) := by
        intro pre ps
        induction ps generalizing pre with
        | nil => trivial
        | cons x ps ih =>
          simp only [greetAll, atom, ask_bind, along_ask]
          refine fun f => ⟨trivial, ?_⟩
          split
          · exact fun _ => ⟨rfl, ih _⟩
          · exact ih _
      simp only [onIncomingMessage, atom, ask_bind, along_ask]
      exact fun _ => ⟨rfl, fun ps => ⟨trivial, (hg _ ps).bind fun _ _ _ _ => ⟨⟨a, .inl rfl⟩, trivial⟩⟩⟩
    | unregister a o =>
      cases o with
      | none =>
        have hg : ∀ pre ps, Along (OpIs (.incoming (.unregister a none))) pre (forwardAll a ps) := by
          intro pre ps
          induction ps generalizing pre with
          | nil => trivial
          | cons x ps ih =>
            simp only [forwardAll, atom, ask_bind, along_ask]
            exact fun _ => ⟨⟨_, rfl⟩, ih _⟩
        simp only [onIncomingMessage, atom, ask_bind, along_ask]
        exact fun _ => ⟨rfl, fun ps => ⟨trivial, (hg _ ps).bind fun _ _ _ _ => ⟨⟨a, .inr rfl⟩, trivial⟩⟩⟩
      | some sid => exact hd sid
    | other sid tag => exact hd sid
  | deinit =>
    have hs : ∀ pre ps, Along (OpIs .deinit) pre (stopAll ps) := by
      intro pre ps
      induction ps generalizing pre with
      | nil => trivial
      | cons x ps ih => exact (serve_is (.inr ⟨rfl, rfl⟩) _).bind fun _ _ _ => ih _
    have hd : ∀ pre ps, Along (OpIs .deinit) pre (deinitAll ps) := by
      intro pre ps
      induction ps generalizing pre with
      | nil => trivial
      | cons x ps ih =>
        simp only [deinitAll, atom, ask_bind, along_ask]
        exact fun _ => ⟨trivial, ih _⟩
    refine Along.bind ?_ fun _ _ _ => trivial
    simp only [deinit, atom, ask_bind, along_ask]
    exact fun ps => ⟨rfl, (hs _ ps).bind fun _ _ _ => hd _ ps⟩
  | startServing p => exact (serve_is (.inl rfl) _).bind fun _ _ _ => trivial
  | stopServing p => exact (serve_is (.inl rfl) _).bind fun _ _ _ => trivial
  | availability p => exact fun _ => ⟨trivial, trivial⟩

theorem op_of {l : List Event} (h : Run l) {n : Nat} {q : Query} {a : Ans q} (hd : .did n q a ∈ l) : ∃ c, .called n c ∈ l ∧ OpOf c q := by
  obtain ⟨x, y, rfl⟩ := List.append_of_mem hd
  obtain ⟨as, s, hr, hl⟩ := h
  obtain ⟨c, pre, k, h1, -, hk⟩ := did_path hr hl
  exact ⟨c, by simp [h1], (prog_is c).at hk a⟩

/-! ### C43 -/

theorem made_of_provIn {l : List Event} {sid : Sid} {p : Pr} (h : provIn l sid = some p) : Made l p sid := by
  revert h
  refine snoc_induct (motive := fun l => provIn l sid = some p → Made l p sid) (by intro h; cases h) ?_ l
  intro l e ih h
  rw [provIn_one] at h
  have keep : provIn l sid = some p → Made (l ++ [e]) p sid := fun h => made_one.2 (.inl (ih h))
  cases e with
  | did n q a =>
    cases q
    case getProv s =>
      obtain ⟨p', y⟩ := a
      cases y with
      | false => exact keep h
      | true =>
        simp only [provStep] at h
        split at h
        · next hs => subst hs; cases h; exact made_one.2 (.inr ⟨n, rfl⟩)
        · exact keep h
    case takeProvs => cases h
    all_goals exact keep h
  | _ => exact keep h

theorem made_one_service {l : List Event} (h : Run l) {p : Pr} {sid sid' : Sid} (h1 : Made l p sid) (h2 : Made l p sid') : sid = sid' := by
  obtain ⟨n, h1⟩ := h1
  obtain ⟨n', h2⟩ := h2
  obtain ⟨a, b, rfl⟩ := List.append_of_mem h1
  obtain ⟨c, d, h2⟩ := List.append_of_mem h2
  rcases places h2 with ⟨-, e, -⟩ | ⟨x, rfl, -⟩ | ⟨x, rfl, -⟩
  · cases e; rfl
  · rw [h2] at h
    exact absurd ⟨n, by simp⟩ (h.ok.2.1 sid)
  · exact absurd ⟨n', by simp⟩ (h.ok.2.1 sid')

theorem prov_kept {l m : List Event} {sid : Sid} {p : Pr} (h : Run (l ++ m)) (hr : provIn l sid = some p) (hf : ∀ n ps, .did n .takeProvs ps ∉ m) : provIn (l ++ m) sid = some p := by
  revert h hf
  refine snoc_induct (motive := fun m => Run (l ++ m) → (∀ n ps, .did n .takeProvs ps ∉ m) → provIn (l ++ m) sid = some p) (by intro _ _; simpa using hr) ?_ m
  intro m e ih h hf
  rw [← List.append_assoc] at h ⊢
  have ih := ih h.left (fun n a h => hf n a (by simp [h]))
  rw [provIn_one]
  cases e with
  | did n q a =>
    cases q
    case getProv s =>
      obtain ⟨p', y⟩ := a
      cases y with
      | false => exact ih
      | true =>
        have hk := h.ok
        simp only [provStep]
        split
        · next hs => subst hs; rw [hk.1] at ih; cases ih
        · exact ih
    case takeProvs => exact absurd (by simp) (hf n a)
    all_goals exact ih
  | _ => exact ih

theorem prov_got {l : List Event} {n : Nat} {sid : Sid} {p : Pr} {x : Bool} (h : Run (l ++ [.did n (.getProv sid) (p, x)])) : provIn (l ++ [.did n (.getProv sid) (p, x)]) sid = some p := by
  have hk := h.ok
  rw [provIn_one]
  cases x with
  | false => exact hk.1
  | true => simp [provStep]

theorem getProv_done {l : List Event} (h : Run l) {n : Nat} {sid : Sid} {p : Pr} (hc : .called n (.getServiceProvider sid) ∈ l) (hx : .returned n (.prov p) ∈ l) : ∃ x, .did n (.getProv sid) (p, x) ∈ l := by
  have hp := ops_path h hc hx
  simp only [prog, atom, ask_bind, path_ask_ret, path_pure] at hp
  obtain ⟨⟨p', x⟩, l', h1, rfl, h2⟩ := hp
  cases h2
  exact ⟨x, mem_opsOf.1 (by rw [h1]; simp)⟩

/-- C43: as long as the server is not ended, there is one provider of a service: all calls for it return the same. -/
theorem one_provider {l : List Event} (h : Run l) (hd : ∀ n, .called n .deinit ∉ l) {sid : Sid} {n n' : Nat} {p p' : Pr} (hc : .called n (.getServiceProvider sid) ∈ l) (hx : .returned n (.prov p) ∈ l)
    (hc' : .called n' (.getServiceProvider sid) ∈ l) (hx' : .returned n' (.prov p') ∈ l) : p = p' := by
  have hf : ∀ n a, .did n .takeProvs a ∉ l := by
    intro n a hm
    obtain ⟨c, h1, h2⟩ := op_of h hm
    simp only [OpOf] at h2
    subst h2
    exact hd n h1
  have key : ∀ n p, .called n (.getServiceProvider sid) ∈ l → .returned n (.prov p) ∈ l → provIn l sid = some p := by
    intro n p hc hx
    obtain ⟨x, hg⟩ := getProv_done h hc hx
    obtain ⟨a, b, hl⟩ := List.append_of_mem hg
    have hl' : l = (a ++ [.did n (.getProv sid) (p, x)]) ++ b := by rw [hl]; simp
    have h' : Run ((a ++ [.did n (.getProv sid) (p, x)]) ++ b) := hl' ▸ h
    rw [hl']
    exact prov_kept h' (prov_got h'.left) fun n a' hm => hf n a' (by rw [hl]; simp [hm])
  have := key n p hc hx
  rw [key n' p' hc' hx'] at this
  cases this; rfl

/-- C43: even if it is ended and used again: between two lookups there was the end. -/
theorem same_provider {a b c : List Event} {n n' : Nat} {sid : Sid} {p p' : Pr} {x x' : Bool} (h : Run (a ++ .did n (.getProv sid) (p, x) :: (b ++ .did n' (.getProv sid) (p', x') :: c)))
    (hf : ∀ n ps, .did n .takeProvs ps ∉ b) : p' = p := by
  have h1 : Run ((a ++ [.did n (.getProv sid) (p, x)]) ++ (b ++ .did n' (.getProv sid) (p', x') :: c)) := by simpa using h
  have h2 : Run (((a ++ [.did n (.getProv sid) (p, x)]) ++ b) ++ .did n' (.getProv sid) (p', x') :: c) := by simpa using h
  have hk := prov_kept h2.left (prov_got h1.left) hf
  have ho := h2.ok
  cases x' with
  | false => have := ho.1; rw [hk] at this; cases this; rfl
  | true => have := ho.1; rw [hk] at this; cases this

/-- C43: the providers of different services are different. -/
theorem different_providers {l : List Event} (h : Run l) {sid sid' : Sid} {n n' : Nat} {p : Pr} (hc : .called n (.getServiceProvider sid) ∈ l) (hx : .returned n (.prov p) ∈ l)
    (hc' : .called n' (.getServiceProvider sid') ∈ l) (hx' : .returned n' (.prov p) ∈ l) : sid = sid' := by
  have key : ∀ n sid, .called n (.getServiceProvider sid) ∈ l → .returned n (.prov p) ∈ l → Made l p sid := by
    intro n sid hc hx
    obtain ⟨x, hg⟩ := getProv_done h hc hx
    obtain ⟨a, b, hl⟩ := List.append_of_mem hg
    have hl' : l = (a ++ [.did n (.getProv sid) (p, x)]) ++ b := by rw [hl]; simp
    obtain ⟨k, hm⟩ := made_of_provIn (prov_got (hl' ▸ h : Run ((a ++ [.did n (.getProv sid) (p, x)]) ++ b)).left)
    exact ⟨k, by rw [hl']; exact List.mem_append_left _ hm⟩
  exact made_one_service h (key n sid hc hx) (key n' sid' hc' hx')

/-- The service a message is for: what a client sends to one service. -/
def For (sid : Sid) : Msg → Prop
  | .register _ => False
  | .unregister _ o => o = some sid
  | .other s _ => s = sid

/-- C43: a message for a service is given to the provider of that service, as it is, and to nobody else, which decides whether it is accepted; it is refused if there is none (at the moment of the lookup). -/
theorem provider_dispatched {l : List Event} (h : Run l) {n : Nat} {sid : Sid} {m : Msg} {b : Bool} (hm : For sid m) (hc : .called n (.incoming m) ∈ l) (hx : .returned n (.bool b) ∈ l) :
    ∃ l1 l2, l = l1 ++ .did n (.findProv sid) (provIn l1 sid) :: l2 ∧
      ((provIn l1 sid = none ∧ b = false ∧ ∀ p t a, .did n (.deliver p t) a ∉ l) ∨ ∃ p, provIn l1 sid = some p ∧ .did n (.deliver p m) b ∈ l2 ∧ ∀ p' t a, .did n (.deliver p' t) a ∈ l → p' = p ∧ t = m) := by
  have hp := ops_path h hc hx
  have hi : onIncomingMessage m = dispatch sid m := by
    cases m with
    | register a => exact hm.elim
    | unregister a o => cases hm; rfl
    | other s t => cases hm; rfl
  simp only [prog, hi, dispatch, path_bind_ret, atom, ask_bind, path_ask_ret] at hp
  obtain ⟨l1, l2, b', h1, ⟨o, l3, rfl, h3⟩, h4⟩ := hp
  simp only [path_pure, Prog.ret.injEq, Res.bool.injEq] at h4
  obtain ⟨rfl, rfl⟩ := h4
  rw [List.append_nil] at h1
  obtain ⟨x, y, hl, -, hy⟩ := ops_split (X := []) (by rw [h1]; rfl)
  have ho : o = provIn x sid := by rw [hl] at h; exact h.ok.1
  refine ⟨x, y, by rw [← ho]; exact hl, ?_⟩
  rw [← ho]
  cases o with
  | none =>
    simp only [path_pure, Prog.ret.injEq] at h3
    obtain ⟨rfl, rfl⟩ := h3
    refine .inl ⟨rfl, rfl, fun r t a hm => ?_⟩
    have := mem_opsOf.2 hm
    rw [h1] at this; simp at this
  | some r =>
    simp only [atom, ask, path_ask_ret, path_ret, Prog.ret.injEq] at h3
    obtain ⟨a, l4, rfl, rfl, rfl⟩ := h3
    refine .inr ⟨r, rfl, mem_opsOf.1 (by rw [hy]; simp), fun r' t a' hm => ?_⟩
    have := mem_opsOf.2 hm
    rw [h1] at this; simp at this
    exact this.1

/-- C43: `hasServiceProvider` says whether there is one. -/
theorem has_provider {l : List Event} (h : Run l) {n : Nat} {sid : Sid} {b : Bool} (hc : .called n (.hasServiceProvider sid) ∈ l) (hx : .returned n (.bool b) ∈ l) :
    ∃ l1 l2, l = l1 ++ .did n (.hasProv sid) b :: l2 ∧ (b = true ↔ provIn l1 sid ≠ none) := by
  have hp := ops_path h hc hx
  simp only [prog, atom, ask_bind, path_ask_ret, path_pure, Prog.ret.injEq, Res.bool.injEq] at hp
  obtain ⟨b', l', h1, rfl, rfl⟩ := hp
  obtain ⟨x, y, hl⟩ := List.append_of_mem (mem_opsOf.1 (show ⟨.hasProv sid, b⟩ ∈ opsOf n l by rw [h1]; simp))
  exact ⟨x, y, hl, by rw [hl] at h; exact h.ok.1⟩

/-- Call `n` goes on `k` steps; clients are reached, messages handled. -/
def go (n k : Nat) : List (Act sys) := List.replicate k (.step n .ok)

/-- The hypotheses are met: two services, three lookups, two messages, of which one is for neither. -/
example : ∃ s, run (Calls.init sys) (.call (.getServiceProvider 1) :: go 0 2 ++ .call (.getServiceProvider 2) :: go 1 2 ++ .call (.getServiceProvider 1) :: go 2 2 ++ .call (.incoming (.other 2 7)) :: go 3 3 ++
      .call (.incoming (.other 3 8)) :: go 4 2) = some s ∧
    .returned 0 (.prov 0) ∈ s.log ∧ .returned 1 (.prov 1) ∈ s.log ∧ .returned 2 (.prov 0) ∈ s.log ∧ .did 3 (.deliver 1 (.other 2 7)) true ∈ s.log ∧ .returned 3 (.bool true) ∈ s.log ∧
    .returned 4 (.bool false) ∈ s.log := by
  refine ⟨_, rfl, by decide, by decide, by decide, by decide, by decide, by decide⟩

end Maf.Srv
