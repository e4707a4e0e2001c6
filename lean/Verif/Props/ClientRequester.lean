import Verif.Props.Client
/-
C43 (clients).
-/
namespace Maf.Cli
open Maf.Calls

theorem made_of_reqIn {l : List Event} {sid : Sid} {r : Rq} (h : reqIn l sid = some r) : Made l r sid := by
  revert h
  refine snoc_induct (motive := fun l => reqIn l sid = some r → Made l r sid) (by intro h; cases h) ?_ l
  intro l e ih h
  rw [reqIn_one] at h
  have keep : reqIn l sid = some r → Made (l ++ [e]) r sid := fun h => made_one.2 (.inl (ih h))
  cases e with
  | did n q a =>
    cases q
    case getReq s =>
      obtain ⟨r', y⟩ := a
      cases y with
      | none => exact keep h
      | some st =>
        simp only [reqStep] at h
        split at h
        · next hs => subst hs; cases h; exact made_one.2 (.inr ⟨n, st, rfl⟩)
        · exact keep h
    case forgetReqs => cases h
    all_goals exact keep h
  | _ => exact keep h

theorem made_one_service {l : List Event} (h : Run l) {r : Rq} {sid sid' : Sid} (h1 : Made l r sid) (h2 : Made l r sid') : sid = sid' := by
  obtain ⟨n, st, h1⟩ := h1
  obtain ⟨n', st', h2⟩ := h2
  obtain ⟨a, b, rfl⟩ := List.append_of_mem h1
  obtain ⟨c, d, h2⟩ := List.append_of_mem h2
  rcases places h2 with ⟨-, e, -⟩ | ⟨x, rfl, -⟩ | ⟨x, rfl, -⟩
  · cases e; rfl
  · rw [h2] at h
    exact absurd ⟨n, st, by simp⟩ (h.ok.2.1 sid)
  · exact absurd ⟨n', st', by simp⟩ (h.ok.2.1 sid')

theorem req_kept {l m : List Event} {sid : Sid} {r : Rq} (h : Run (l ++ m)) (hr : reqIn l sid = some r) (hf : ∀ n a, .did n .forgetReqs a ∉ m) : reqIn (l ++ m) sid = some r := by
  revert h hf
  refine snoc_induct (motive := fun m => Run (l ++ m) → (∀ n a, .did n .forgetReqs a ∉ m) → reqIn (l ++ m) sid = some r) (by intro _ _; simpa using hr) ?_ m
  intro m e ih h hf
  rw [← List.append_assoc] at h ⊢
  have ih := ih h.left (fun n a h => hf n a (by simp [h]))
  rw [reqIn_one]
  cases e with
  | did n q a =>
    cases q
    case getReq s =>
      obtain ⟨r', y⟩ := a
      cases y with
      | none => exact ih
      | some st =>
        have hk := h.ok
        simp only [reqStep]
        split
        · next hs => subst hs; rw [hk.1] at ih; cases ih
        · exact ih
    case forgetReqs => exact absurd (by simp) (hf n a)
    all_goals exact ih
  | _ => exact ih

theorem req_got {l : List Event} {n : Nat} {sid : Sid} {r : Rq} {x : Option Avail} (h : Run (l ++ [.did n (.getReq sid) (r, x)])) : reqIn (l ++ [.did n (.getReq sid) (r, x)]) sid = some r := by
  have hk := h.ok
  rw [reqIn_one]
  cases x with
  | none => exact hk.1
  | some st => simp [reqStep]

theorem getReq_done {l : List Event} (h : Run l) {n : Nat} {sid : Sid} {r : Rq} (hc : .called n (.getServiceRequester sid) ∈ l) (hx : .returned n (.req r) ∈ l) : ∃ x, .did n (.getReq sid) (r, x) ∈ l := by
  have hp := ops_path h hc hx
  simp only [prog, atom, ask_bind, path_ask_ret, path_pure] at hp
  obtain ⟨⟨r', x⟩, l', h1, rfl, h2⟩ := hp
  cases h2
  exact ⟨x, mem_opsOf.1 (by rw [h1]; simp)⟩

/-- `deinit` is what forgets the requesters. -/
theorem forget_deinit {l : List Event} (h : Run l) {n : Nat} {u : Unit} (hd : .did n .forgetReqs u ∈ l) : .called n .deinit ∈ l := by
  obtain ⟨a, b, rfl⟩ := List.append_of_mem hd
  obtain ⟨as, s, hr, hl⟩ := h
  obtain ⟨c, pre, k, h1, -, hk⟩ := did_path hr hl
  let M : Mon Query Ans := { σ := Unit, free := (), step := fun _ _ => (), ok := fun _ o => o.1 ≠ .forgetReqs, neutral := fun _ => True }
  have htell : ∀ r old new os, M.Keeps () (fun _ _ => True) (tellAll r old new os) := by
    intro r old new os
    induction os with
    | nil => trivial
    | cons o os ih =>
      simp only [tellAll, atom, ask_bind, keeps_ask]
      intro a
      refine ⟨by simp [M], ?_⟩
      cases a with
      | ok => exact Mon.Keeps.bind (ih.mono fun _ _ _ => trivial)
      | gone => exact ih
      | throws => trivial
  have hfw : ∀ r old new, M.Keeps () (fun _ _ => True) (forward r old new) := by
    intro r old new
    simp only [forward, atom, ask_bind, keeps_ask]
    exact fun os => ⟨by simp [M], Mon.Keeps.bind ((htell r old new os).mono fun _ _ _ _ => ⟨by simp [M], trivial⟩)⟩
  have hch : ∀ r old new, M.Keeps () (fun _ _ => True) (changeStatus r old new) := by
    intro r old new
    simp only [changeStatus, atom, ask_bind, keeps_ask]
    refine fun cur => ⟨by simp [M], ?_⟩
    split
    · trivial
    · refine fun _ => ⟨by simp [M], ?_⟩
      split
      · exact fun _ => ⟨by simp [M], hfw r old new⟩
      · exact hfw r old new
  have hsv : ∀ sid old new, M.Keeps () (fun _ _ => True) (onServiceStatusChanged sid old new) := by
    intro sid old new
    simp only [onServiceStatusChanged, atom, ask_bind, keeps_ask]
    refine fun _ => ⟨by simp [M], fun o => ⟨by simp [M], ?_⟩⟩
    cases o with
    | none => exact fun _ => ⟨by simp [M], trivial⟩
    | some r => exact Mon.Keeps.bind ((hch r old new).mono fun _ _ _ _ => ⟨by simp [M], trivial⟩)
  have hall : ∀ old new rs, M.Keeps () (fun _ _ => True) (changeAll old new rs) := by
    intro old new rs
    induction rs with
    | nil => trivial
    | cons y rs ih => exact Mon.Keeps.bind ((hch y.2 old new).mono fun _ _ _ => ih)
  have hk' : c ≠ .deinit → M.Keeps () (fun _ _ => True) (prog c) := by
    intro hc
    cases c with
    | getServiceRequester sid => exact fun _ => ⟨by simp [M], trivial⟩
    | hasServiceRequester sid => exact fun _ => ⟨by simp [M], trivial⟩
    | getServiceStatus sid => exact fun _ => ⟨by simp [M], trivial⟩
    | incoming m =>
      refine Mon.Keeps.bind (M := M) ?_
      cases m with
      | status sid st =>
        cases st with
        | available =>
          simp only [onIncomingMessage, atom, ask_bind, keeps_ask]
          exact fun _ => ⟨by simp [M], Mon.Keeps.bind ((hsv sid .unavailable .available).mono fun _ _ _ => trivial)⟩
        | unavailable =>
          simp only [onIncomingMessage, atom, ask_bind, keeps_ask]
          exact fun _ => ⟨by simp [M], Mon.Keeps.bind ((hsv sid .available .unavailable).mono fun _ _ _ => trivial)⟩
        | unknown => trivial
      | other sid tag =>
        simp only [onIncomingMessage, atom, ask_bind, keeps_ask]
        refine fun o => ⟨by simp [M], ?_⟩
        cases o with
        | none => trivial
        | some r => exact fun _ => ⟨by simp [M], trivial⟩
    | serviceChanged sid old new => exact Mon.Keeps.bind ((hsv sid old new).mono fun _ _ _ => trivial)
    | monitor st =>
      refine Mon.Keeps.bind (M := M) ?_
      simp only [monitor, atom, ask_bind, keeps_ask]
      refine fun cur => ⟨by simp [M], ?_⟩
      split
      · trivial
      · unfold onServerStatusChanged
        split
        · simp only [atom, ask_bind, keeps_ask]
          refine fun b => ⟨by simp [M], ?_⟩
          split
          · exact fun _ => ⟨by simp [M], trivial⟩
          · trivial
        · refine Mon.Keeps.bind (M := M) ?_
          simp only [serverGone, atom, ask_bind, keeps_ask]
          refine fun _ => ⟨by simp [M], fun rs => ⟨by simp [M], ?_⟩⟩
          exact Mon.Keeps.bind ((hall cur st rs).mono fun _ _ _ _ => ⟨by simp [M], fun _ => ⟨by simp [M], trivial⟩⟩)
    | deinit => exact absurd rfl hc
    | serviceStatus r => exact fun _ => ⟨by simp [M], trivial⟩
    | registerObserver r o =>
      refine Mon.Keeps.bind (M := M) ?_
      simp only [registerObserver, atom, ask_bind, keeps_ask]
      refine fun cur => ⟨by simp [M], ?_⟩
      split
      · exact fun _ => ⟨by simp [M], trivial⟩
      · trivial
    | unregisterObserver r o => exact fun _ => ⟨by simp [M], trivial⟩
  by_cases hc : c = .deinit
  · subst hc; simp [h1]
  · exact absurd rfl ((hk' hc).at hk u)

/-- C43: as long as the client is not ended, there is one requester for a service: all calls for it return the same. -/
theorem one_requester {l : List Event} (h : Run l) (hd : ∀ n, .called n .deinit ∉ l) {sid : Sid} {n n' : Nat} {r r' : Rq} (hc : .called n (.getServiceRequester sid) ∈ l) (hx : .returned n (.req r) ∈ l)
    (hc' : .called n' (.getServiceRequester sid) ∈ l) (hx' : .returned n' (.req r') ∈ l) : r = r' := by
  have hf : ∀ n a, .did n .forgetReqs a ∉ l := fun n a hm => hd n (forget_deinit h hm)
  have key : ∀ n r, .called n (.getServiceRequester sid) ∈ l → .returned n (.req r) ∈ l → reqIn l sid = some r := by
    intro n r hc hx
    obtain ⟨x, hg⟩ := getReq_done h hc hx
    obtain ⟨a, b, hl⟩ := List.append_of_mem hg
    have hl' : l = (a ++ [.did n (.getReq sid) (r, x)]) ++ b := by rw [hl]; simp
    have h' : Run ((a ++ [.did n (.getReq sid) (r, x)]) ++ b) := hl' ▸ h
    rw [hl']
    exact req_kept h' (req_got h'.left) fun n a' hm => hf n a' (by rw [hl]; simp [hm])
  have := key n r hc hx
  rw [key n' r' hc' hx'] at this
  cases this; rfl

/-- C43: even if it is ended and used again: between two lookups there was the end. -/
theorem same_requester {a b c : List Event} {n n' : Nat} {sid : Sid} {r r' : Rq} {x x' : Option Avail} (h : Run (a ++ .did n (.getReq sid) (r, x) :: (b ++ .did n' (.getReq sid) (r', x') :: c)))
    (hf : ∀ n u, .did n .forgetReqs u ∉ b) : r' = r := by
  have h1 : Run ((a ++ [.did n (.getReq sid) (r, x)]) ++ (b ++ .did n' (.getReq sid) (r', x') :: c)) := by simpa using h
  have h2 : Run (((a ++ [.did n (.getReq sid) (r, x)]) ++ b) ++ .did n' (.getReq sid) (r', x') :: c) := by simpa using h
  have hk := req_kept h2.left (req_got h1.left) hf
  have ho := h2.ok
  cases x' with
  | none => have := ho.1; rw [hk] at this; cases this; rfl
  | some st => have := ho.1; rw [hk] at this; cases this

/-- C43: the requesters of different services are different. -/
theorem different_requesters {l : List Event} (h : Run l) {sid sid' : Sid} {n n' : Nat} {r : Rq} (hc : .called n (.getServiceRequester sid) ∈ l) (hx : .returned n (.req r) ∈ l)
    (hc' : .called n' (.getServiceRequester sid') ∈ l) (hx' : .returned n' (.req r) ∈ l) : sid = sid' := by
  have key : ∀ n sid, .called n (.getServiceRequester sid) ∈ l → .returned n (.req r) ∈ l → Made l r sid := by
    intro n sid hc hx
    obtain ⟨x, hg⟩ := getReq_done h hc hx
    obtain ⟨a, b, hl⟩ := List.append_of_mem hg
    have hl' : l = (a ++ [.did n (.getReq sid) (r, x)]) ++ b := by rw [hl]; simp
    obtain ⟨k, st, hm⟩ := made_of_reqIn (req_got (hl' ▸ h : Run ((a ++ [.did n (.getReq sid) (r, x)]) ++ b)).left)
    exact ⟨k, st, by rw [hl']; exact List.mem_append_left _ hm⟩
  exact made_one_service h (key n sid hc hx) (key n' sid' hc' hx')

/-- C43: a message that is not a service status is given to the requester of its service, and to that only, which decides whether it is accepted; it is refused if there is none (at the moment of the lookup). -/
theorem dispatched {l : List Event} (h : Run l) {n : Nat} {sid : Sid} {tag : Nat} {b : Bool} (hc : .called n (.incoming (.other sid tag)) ∈ l) (hx : .returned n (.bool b) ∈ l) :
    ∃ l1 l2, l = l1 ++ .did n (.findReq sid) (reqIn l1 sid) :: l2 ∧
      ((reqIn l1 sid = none ∧ b = false ∧ ∀ r t a, .did n (.deliver r t) a ∉ l) ∨ ∃ r, reqIn l1 sid = some r ∧ .did n (.deliver r tag) b ∈ l ∧ ∀ r' t a, .did n (.deliver r' t) a ∈ l → r' = r ∧ t = tag) := by
  have hp := ops_path h hc hx
  simp only [prog, onIncomingMessage, path_bind_ret, atom, ask_bind, path_ask_ret] at hp
  obtain ⟨l1, l2, b', h1, ⟨o, l3, rfl, h3⟩, h4⟩ := hp
  simp only [path_pure, Prog.ret.injEq, Res.bool.injEq] at h4
  obtain ⟨rfl, rfl⟩ := h4
  rw [List.append_nil] at h1
  have hf : .did n (.findReq sid) o ∈ l := mem_opsOf.1 (by rw [h1]; simp)
  obtain ⟨x, y, hl⟩ := List.append_of_mem hf
  have ho : o = reqIn x sid := by rw [hl] at h; exact h.ok.1
  refine ⟨x, y, by rw [← ho]; exact hl, ?_⟩
  rw [← ho]
  cases o with
  | none =>
    simp only [path_pure, Prog.ret.injEq] at h3
    obtain ⟨rfl, rfl⟩ := h3
    refine .inl ⟨rfl, rfl, fun r t a hm => ?_⟩
    have := mem_opsOf.2 hm
    rw [h1] at this; simp at this
  | some r =>
    simp only [atom, ask, path_ask_ret, path_ret, Prog.ret.injEq] at h3
    obtain ⟨a, l4, rfl, rfl, rfl⟩ := h3
    refine .inr ⟨r, rfl, mem_opsOf.1 (by rw [h1]; simp), fun r' t a' hm => ?_⟩
    have := mem_opsOf.2 hm
    rw [h1] at this; simp at this
    exact this.1

/-- C43: `hasServiceRequester` says whether there is one. -/
theorem has_requester {l : List Event} (h : Run l) {n : Nat} {sid : Sid} {b : Bool} (hc : .called n (.hasServiceRequester sid) ∈ l) (hx : .returned n (.bool b) ∈ l) :
    ∃ l1 l2, l = l1 ++ .did n (.hasReq sid) b :: l2 ∧ (b = true ↔ reqIn l1 sid ≠ none) := by
  have hp := ops_path h hc hx
  simp only [prog, atom, ask_bind, path_ask_ret, path_pure, Prog.ret.injEq, Res.bool.injEq] at hp
  obtain ⟨b', l', h1, rfl, rfl⟩ := hp
  obtain ⟨x, y, hl⟩ := List.append_of_mem (mem_opsOf.1 (show ⟨.hasReq sid, b⟩ ∈ opsOf n l by rw [h1]; simp))
  exact ⟨x, y, hl, by rw [hl] at h; exact h.ok.1⟩

/-- The hypotheses are met: two services, three lookups, two messages, of which one is for neither. -/
example : ∃ s, run (Calls.init sys) (.call (.getServiceRequester 1) :: go 0 2 ++ .call (.getServiceRequester 2) :: go 1 2 ++ .call (.getServiceRequester 1) :: go 2 2 ++ .call (.incoming (.other 2 7)) :: go 3 3 ++
      .call (.incoming (.other 3 8)) :: go 4 2) = some s ∧
    .returned 0 (.req 0) ∈ s.log ∧ .returned 1 (.req 1) ∈ s.log ∧ .returned 2 (.req 0) ∈ s.log ∧ .did 3 (.deliver 1 7) true ∈ s.log ∧ .returned 3 (.bool true) ∈ s.log ∧ .returned 4 (.bool false) ∈ s.log := by
  refine ⟨_, rfl, by decide, by decide, by decide, by decide, by decide, by decide⟩

/-- After `deinit` there are new requesters. -/
example : ∃ s, run (Calls.init sys) (.call (.getServiceRequester 1) :: go 0 2 ++ .call .deinit :: go 1 7 ++ .call (.getServiceRequester 1) :: go 2 2) = some s ∧
    .returned 0 (.req 0) ∈ s.log ∧ .returned 1 .unit ∈ s.log ∧ .returned 2 (.req 1) ∈ s.log := by
  refine ⟨_, rfl, by decide, by decide, by decide⟩

end Maf.Cli
