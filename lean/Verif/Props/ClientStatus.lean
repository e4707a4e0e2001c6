import Verif.Props.ClientRequester
/-
C68: what the requesters say of their services agrees with what the client says.
-/
namespace Maf.Cli
open Maf.Calls

/-- The calls that bring news about services. -/
def News : Call → Prop
  | .incoming (.status ..) => True
  | .serviceChanged .. => True
  | .monitor _ => True
  | _ => False

/-- The requester for `sid`, if there is one, has the status that the client has for the service (none is as good as unavailable). -/
def Agree (l : List Event) (sid : Sid) : Prop := ∀ r, reqIn l sid = some r → statusIn l r = (mapIn l sid).getD .unavailable

/-- Where the news are. -/
inductive Ag where
  | calm
  /-- the client has the new status of `sid`, its requester has not -/
  | dirty (sid : Sid) (st : Avail)
  | found (sid : Sid) (st : Avail) (r : Rq)
  /-- the client knows nothing any more, the requesters do not know -/
  | cleared
  /-- the requesters that are to be told -/
  | sweep (rest : List Rq)

def agLock (o : Option Rq) : Ag → Ag
  | .dirty sid st => match o with
    | some r => .found sid st r
    | none => .calm
  | x => x

def agCheck (a : Avail) : Ag → Ag
  | .found sid st r => if a = st then .calm else .found sid st r
  | .sweep (r :: rest) => if a = .unavailable then .sweep rest else .sweep (r :: rest)
  | x => x

def agSet : Ag → Ag
  | .found _ _ _ => .calm
  | .sweep (_ :: rest) => .sweep rest
  | x => x

def agStep (x : Ag) : Op Query Ans → Ag
  | ⟨.store sid st, _⟩ => .dirty sid st
  | ⟨.lockReq _, o⟩ => agLock o x
  | ⟨.check _, a⟩ => agCheck a x
  | ⟨.setStatus _ _, _⟩ => agSet x
  | ⟨.clearMap, _⟩ => .cleared
  | ⟨.lockReqs, rs⟩ => .sweep (rs.map (·.2))
  | ⟨.unlockReqs, _⟩ => .calm
  | _ => x

def agOk (x : Ag) : Op Query Ans → Prop
  | ⟨.store sid _, _⟩ => x = .calm ∨ ∃ st', x = .dirty sid st'
  | ⟨.lockReq sid, _⟩ => ∃ st, x = .dirty sid st
  | ⟨.check r, _⟩ => (∃ s st, x = .found s st r) ∨ ∃ rest, x = .sweep (r :: rest)
  | ⟨.setStatus r v, _⟩ => (∃ s, x = .found s v r) ∨ (v = .unavailable ∧ ∃ rest, x = .sweep (r :: rest))
  | ⟨.clearMap, _⟩ => x = .calm
  | ⟨.lockReqs, _⟩ => x = .cleared
  | ⟨.unlockReqs, _⟩ => x = .calm ∨ x = .sweep []
  | ⟨.unlockMap, _⟩ => False
  | ⟨.forgetReqs, _⟩ => False
  | _ => True

def agNeutral : Op Query Ans → Prop
  | ⟨.store .., _⟩ | ⟨.lockReq _, _⟩ | ⟨.check _, _⟩ | ⟨.setStatus .., _⟩ | ⟨.clearMap, _⟩ | ⟨.lockReqs, _⟩ | ⟨.unlockReqs, _⟩ | ⟨.unlockMap, _⟩ | ⟨.forgetReqs, _⟩ => False
  | _ => True

@[reducible] def ag : Mon Query Ans := { σ := Ag, free := .calm, step := agStep, ok := agOk, neutral := agNeutral }

theorem ag_neutral (o : Op Query Ans) (x : Ag) (h : agNeutral o) : agStep x o = x := by
  obtain ⟨q, a⟩ := o
  cases q <;> first | rfl | exact h.elim

theorem tellAll_ag (r : Rq) (old new : Avail) (os : List Obs) (x : Ag) : ag.Keeps x (fun y _ => y = x) (tellAll r old new os) := by
  induction os with
  | nil => exact rfl
  | cons o os ih =>
    simp only [tellAll, atom, ask_bind, keeps_ask]
    intro a
    refine ⟨trivial, ?_⟩
    cases a with
    | ok => exact Mon.Keeps.bind (ih.mono fun y _ h => h)
    | gone => exact ih
    | throws => trivial

theorem forward_ag (r : Rq) (old new : Avail) (x : Ag) : ag.Keeps x (fun y _ => y = x) (forward r old new) := by
  simp only [forward, atom, ask_bind, keeps_ask]
  refine fun os => ⟨trivial, Mon.Keeps.bind ((tellAll_ag r old new os x).mono ?_)⟩
  rintro y _ rfl
  exact fun _ => ⟨trivial, rfl⟩

theorem changeStatus_found (sid : Sid) (r : Rq) (old new : Avail) : ag.Keeps (.found sid new r) (fun y _ => y = .calm) (changeStatus r old new) := by
  simp only [changeStatus, atom, ask_bind, keeps_ask]
  refine fun cur => ⟨.inl ⟨sid, new, rfl⟩, ?_⟩
  split
  · next h => subst h; simp [agStep, agCheck]
  · next h =>
    have e : agStep (.found sid new r) ⟨.check r, cur⟩ = .found sid new r := by simp [agStep, agCheck, Ne.symm h]
    refine fun _ => ⟨.inl ⟨sid, e⟩, ?_⟩
    have e2 : ∀ u, ag.step (agStep (.found sid new r) ⟨.check r, cur⟩) ⟨.setStatus r new, u⟩ = .calm := by intro u; rw [e]; rfl
    show ag.Keeps (ag.step (agStep (.found sid new r) ⟨.check r, cur⟩) ⟨.setStatus r new, _⟩) _ _
    rw [e2]
    split
    · exact fun _ => ⟨trivial, forward_ag r old new .calm⟩
    · exact forward_ag r old new .calm

theorem changeStatus_sweep (r : Rq) (old : Avail) (rest : List Rq) : ag.Keeps (.sweep (r :: rest)) (fun y _ => y = .sweep rest) (changeStatus r old .unavailable) := by
  simp only [changeStatus, atom, ask_bind, keeps_ask]
  refine fun cur => ⟨.inr ⟨rest, rfl⟩, ?_⟩
  split
  · next h => subst h; simp [agStep, agCheck]
  · next h =>
    have e : agStep (.sweep (r :: rest)) ⟨.check r, cur⟩ = .sweep (r :: rest) := by simp [agStep, agCheck, Ne.symm h]
    refine fun _ => ⟨.inr ⟨rfl, rest, e⟩, ?_⟩
    have e2 : ∀ u, ag.step (agStep (.sweep (r :: rest)) ⟨.check r, cur⟩) ⟨.setStatus r .unavailable, u⟩ = .sweep rest := by intro u; rw [e]; rfl
    show ag.Keeps (ag.step (agStep (.sweep (r :: rest)) ⟨.check r, cur⟩) ⟨.setStatus r .unavailable, _⟩) _ _
    rw [e2]
    split
    · exact fun _ => ⟨trivial, forward_ag r old _ (.sweep rest)⟩
    · exact forward_ag r old _ (.sweep rest)

theorem onServiceStatusChanged_ag (sid : Sid) (old new : Avail) (x : Ag) (hx : x = .calm ∨ ∃ st', x = .dirty sid st') : ag.Keeps x (fun y _ => y = .calm) (onServiceStatusChanged sid old new) := by
  simp only [onServiceStatusChanged, atom, ask_bind, keeps_ask]
  refine fun _ => ⟨hx, fun o => ⟨⟨new, rfl⟩, ?_⟩⟩
  cases o with
  | none => exact fun _ => ⟨.inl rfl, rfl⟩
  | some r =>
    refine Mon.Keeps.bind ((changeStatus_found sid r old new).mono ?_)
    rintro y _ rfl
    exact fun _ => ⟨.inl rfl, rfl⟩

theorem changeAll_ag (old : Avail) (rs : List (Sid × Rq)) : ag.Keeps (.sweep (rs.map (·.2))) (fun y _ => y = .sweep []) (changeAll old .unavailable rs) := by
  induction rs with
  | nil => exact rfl
  | cons y rs ih =>
    have h := changeStatus_sweep y.2 old (rs.map fun x : Sid × Rq => x.2)
    refine Mon.Keeps.bind (h.mono ?_)
    rintro z _ rfl
    exact ih

theorem news_ag {c : Call} (hN : News c) (hu : c ≠ .monitor .unknown) : ag.Keeps .calm (fun y _ => y = .calm) (prog c) := by
  cases c with
  | incoming m =>
    refine Mon.Keeps.bind (M := ag) ?_
    cases m with
    | other sid tag => exact hN.elim
    | status sid st =>
      cases st with
      | available =>
        simp only [onIncomingMessage, atom, ask_bind, keeps_ask]
        refine fun _ => ⟨.inl rfl, Mon.Keeps.bind ((onServiceStatusChanged_ag sid .unavailable .available _ (.inr ⟨_, rfl⟩)).mono ?_)⟩
        rintro y _ rfl; exact rfl
      | unavailable =>
        simp only [onIncomingMessage, atom, ask_bind, keeps_ask]
        refine fun _ => ⟨.inl rfl, Mon.Keeps.bind ((onServiceStatusChanged_ag sid .available .unavailable _ (.inr ⟨_, rfl⟩)).mono ?_)⟩
        rintro y _ rfl; exact rfl
      | unknown => exact rfl
  | serviceChanged sid old new =>
    refine Mon.Keeps.bind ((onServiceStatusChanged_ag sid old new _ (.inl rfl)).mono ?_)
    rintro y _ rfl; exact rfl
  | monitor st =>
    refine Mon.Keeps.bind (M := ag) ?_
    simp only [monitor, atom, ask_bind, keeps_ask]
    refine fun cur => ⟨trivial, ?_⟩
    split
    · exact rfl
    · unfold onServerStatusChanged
      split
      · simp only [atom, ask_bind, keeps_ask]
        refine fun b => ⟨trivial, ?_⟩
        split
        · exact fun _ => ⟨trivial, rfl⟩
        · exact rfl
      · next hav =>
        have : st = .unavailable := by
          cases st with
          | available => exact absurd rfl hav
          | unavailable => rfl
          | unknown => exact absurd rfl hu
        subst this
        refine Mon.Keeps.bind (M := ag) ?_
        simp only [serverGone, atom, ask_bind, keeps_ask]
        refine fun _ => ⟨rfl, fun rs => ⟨rfl, ?_⟩⟩
        refine Mon.Keeps.bind ((changeAll_ag cur rs).mono ?_)
        rintro y _ rfl
        exact fun _ => ⟨.inr rfl, fun _ => ⟨trivial, rfl⟩⟩
  | _ => exact hN.elim

theorem other_ag {c : Call} (hN : ¬News c) (hd : c ≠ .deinit) : ag.still.Keeps .calm (fun _ _ => True) (prog c) := by
  cases c with
  | getServiceRequester sid => exact fun _ => ⟨trivial, trivial⟩
  | hasServiceRequester sid => exact fun _ => ⟨trivial, trivial⟩
  | getServiceStatus sid => exact fun _ => ⟨trivial, trivial⟩
  | incoming m =>
    cases m with
    | status sid st => exact absurd trivial hN
    | other sid tag =>
      refine Mon.Keeps.bind (M := ag.still) ?_
      simp only [onIncomingMessage, atom, ask_bind, keeps_ask]
      refine fun o => ⟨trivial, ?_⟩
      cases o with
      | none => trivial
      | some r => exact fun _ => ⟨trivial, trivial⟩
  | serviceChanged sid old new => exact absurd trivial hN
  | monitor st => exact absurd trivial hN
  | deinit => exact absurd rfl hd
  | serviceStatus r => exact fun _ => ⟨trivial, trivial⟩
  | registerObserver r o =>
    refine Mon.Keeps.bind (M := ag.still) ?_
    simp only [registerObserver, atom, ask_bind, keeps_ask]
    refine fun cur => ⟨trivial, ?_⟩
    dsimp only
    split
    · exact fun _ => ⟨trivial, trivial⟩
    · trivial
  | unregisterObserver r o => exact fun _ => ⟨trivial, trivial⟩

/-- What holds in each state. -/
def AgInv (l : List Event) : Ag → Prop
  | .calm => ∀ sid, Agree l sid
  | .dirty sid st => mapIn l sid = some st ∧ ∀ sid', sid' ≠ sid → Agree l sid'
  | .found sid st r => mapIn l sid = some st ∧ reqIn l sid = some r ∧ ∀ sid', sid' ≠ sid → Agree l sid'
  | .cleared => ∀ sid, mapIn l sid = none
  | .sweep rest => (∀ sid, mapIn l sid = none) ∧ ∀ sid r, reqIn l sid = some r → r ∈ rest ∨ statusIn l r = .unavailable

theorem AgInv.same {l l' : List Event} {x : Ag} (h : AgInv l x) (hm : ∀ sid, mapIn l' sid = mapIn l sid) (hr : ∀ sid, reqIn l' sid = reqIn l sid) (hs : ∀ r, statusIn l' r = statusIn l r) : AgInv l' x := by
  cases x <;> simp only [AgInv, Agree, hm, hr, hs] at h ⊢ <;> exact h

/-- Who is asked for agrees from the beginning. -/
theorem agree_new {l : List Event} {n : Nat} {sid : Sid} {r : Rq} {st : Avail} (h : Run (l ++ [.did n (.getReq sid) (r, some st)])) {x : Ag} (hx : AgInv l x) :
    AgInv (l ++ [.did n (.getReq sid) (r, some st)]) x := by
  obtain ⟨h1, h2, h3, -⟩ := h.ok
  have hm : ∀ s, mapIn (l ++ [.did n (.getReq sid) (r, some st)]) s = mapIn l s := fun s => by rw [mapIn_one]; rfl
  have hr : ∀ s, reqIn (l ++ [.did n (.getReq sid) (r, some st)]) s = if sid = s then some r else reqIn l s := fun s => by rw [reqIn_one]; rfl
  have hs : ∀ r', statusIn (l ++ [.did n (.getReq sid) (r, some st)]) r' = if r = r' then st else statusIn l r' := fun s => by rw [statusIn_one]; rfl
  have hne : ∀ s r', reqIn l s = some r' → r ≠ r' := fun s r' h e => h2 s (e ▸ made_of_reqIn h)
  have key : ∀ s, Agree l s → Agree (l ++ [.did n (.getReq sid) (r, some st)]) s := by
    intro s ha r' hr'
    rw [hr] at hr'
    rw [hs, hm]
    by_cases e : sid = s
    · subst e; rw [if_pos rfl] at hr'; cases hr'; rw [if_pos rfl]; exact h3
    · rw [if_neg e] at hr'; rw [if_neg (hne s r' hr')]; exact ha r' hr'
  cases x with
  | calm => exact fun s => key s (hx s)
  | dirty s' st' => exact ⟨by rw [hm]; exact hx.1, fun s hs => key s (hx.2 s hs)⟩
  | found s' st' r' =>
    refine ⟨by rw [hm]; exact hx.1, ?_, fun s hs => key s (hx.2.2 s hs)⟩
    rw [hr, if_neg]
    · exact hx.2.1
    · rintro rfl; rw [hx.2.1] at h1; cases h1
  | cleared => exact fun s => by rw [hm]; exact hx s
  | sweep rest =>
    refine ⟨fun s => by rw [hm]; exact hx.1 s, fun s r' hr' => ?_⟩
    rw [hr] at hr'
    by_cases e : sid = s
    · subst e; rw [if_pos rfl] at hr'; cases hr'
      right; rw [hs, if_pos rfl, h3, hx.1]; rfl
    · rw [if_neg e] at hr'
      rw [hs, if_neg (hne s r' hr')]
      exact hx.2 s r' hr'

/-- The conditions: the client is not ended, and the server is found to be available or not. -/
def Usual (l : List Event) : Prop := ∀ n c, .called n c ∈ l → c ≠ .deinit ∧ c ≠ .monitor .unknown

abbrev news (l : List Event) : Ag := ag.all (S := sys) l

theorem news_ok {l r : List Event} {n : Nat} {q : Query} {a : Ans q} (h : Run (l ++ .did n q a :: r)) (hU : Usual (l ++ .did n q a :: r)) (hs : Serial (S := sys) News l) (hn : ¬agNeutral ⟨q, a⟩) :
    agOk (news l) ⟨q, a⟩ := by
  obtain ⟨as, s, hr, hl⟩ := h
  refine Mon.turn_ok (S := sys) (M := ag) (Notif := News) hr ag_neutral ?_ ?_ hl hs hn
  · intro n c hc hN; rw [hl] at hc; exact news_ag hN (hU n c hc).2
  · intro n c hc hN; rw [hl] at hc; exact other_ag hN (hU n c hc).1

theorem agInv {l r : List Event} (h : Run (l ++ r)) (hU : Usual (l ++ r)) (hs : Serial (S := sys) News l) : AgInv l (news l) := by
  revert r
  refine snoc_induct (motive := fun l => Serial (S := sys) News l → ∀ {r}, Run (l ++ r) → Usual (l ++ r) → AgInv l (news l)) ?_ ?_ l hs
  · intro _ r _ _ sid r' hr'; cases hr'
  · intro l e ih hs r h hU
    have h' : Run (l ++ e :: r) := by simpa using h
    have hU' : Usual (l ++ e :: r) := by simpa using hU
    have ih := ih hs.left h' hU'
    have h1 : Run (l ++ [e]) := h.left
    cases e with
    | did n q a =>
      have hone : news (l ++ [.did n q a]) = agStep (news l) ⟨q, a⟩ := Mon.all_one (S := sys) (M := ag) l n q a
      rw [hone]
      by_cases hn : agNeutral ⟨q, a⟩
      · rw [ag_neutral _ _ hn]
        cases q
        case getReq sid =>
          obtain ⟨r', y⟩ := a
          cases y with
          | none => exact ih.same (fun _ => by rw [mapIn_one]; rfl) (fun _ => by rw [reqIn_one]; rfl) (fun _ => by rw [statusIn_one]; rfl)
          | some st => exact agree_new h1 ih
        all_goals first
          | exact ih.same (fun _ => by rw [mapIn_one]; rfl) (fun _ => by rw [reqIn_one]; rfl) (fun _ => by rw [statusIn_one]; rfl)
          | exact hn.elim
      · have ho := news_ok h' hU' hs.left hn
        have hk := h1.ok
        cases q
        case store sid st =>
          have hm : ∀ s, mapIn (l ++ [.did n (.store sid st) a]) s = if sid = s then some st else mapIn l s := fun s => by rw [mapIn_one]; rfl
          have hr : ∀ s, reqIn (l ++ [.did n (.store sid st) a]) s = reqIn l s := fun s => by rw [reqIn_one]; rfl
          have hst : ∀ s, statusIn (l ++ [.did n (.store sid st) a]) s = statusIn l s := fun s => by rw [statusIn_one]; rfl
          have hag : ∀ s, s ≠ sid → Agree l s := by
            rcases ho with ho | ⟨st', ho⟩
            · rw [ho] at ih; exact fun s _ => ih s
            · rw [ho] at ih; exact ih.2
          refine ⟨by rw [hm, if_pos rfl], fun s hs r' hr' => ?_⟩
          rw [hr] at hr'; rw [hst, hm, if_neg (Ne.symm hs)]; exact hag s hs r' hr'
        case lockReq sid =>
          obtain ⟨st, ho⟩ := ho
          rw [ho] at ih ⊢
          have ih' : AgInv (l ++ [.did n (.lockReq sid) a]) (.dirty sid st) := ih.same (fun _ => by rw [mapIn_one]; rfl) (fun _ => by rw [reqIn_one]; rfl) (fun _ => by rw [statusIn_one]; rfl)
          have ha : a = reqIn (l ++ [.did n (.lockReq sid) a]) sid := by rw [reqIn_one]; exact hk.1
          generalize l ++ [.did n (.lockReq sid) a] = L at ih' ha
          cases a with
          | none =>
            intro s
            by_cases e : s = sid
            · subst e; intro r' hr'; rw [hr'] at ha; cases ha
            · exact ih'.2 s e
          | some r' => exact ⟨ih'.1, ha.symm, ih'.2⟩
        case check r' =>
          have ih' : AgInv (l ++ [.did n (.check r') a]) (news l) := ih.same (fun _ => by rw [mapIn_one]; rfl) (fun _ => by rw [reqIn_one]; rfl) (fun _ => by rw [statusIn_one]; rfl)
          have ha : a = statusIn (l ++ [.did n (.check r') a]) r' := by rw [statusIn_one]; exact hk
          generalize l ++ [.did n (.check r') a] = L at ih' ha
          rcases ho with ⟨sid, st, ho⟩ | ⟨rest, ho⟩
          · rw [ho] at ih' ⊢
            simp only [agStep, agCheck]
            split
            · next hst =>
              subst hst
              intro s
              by_cases e : s = sid
              · subst e; intro r2 hr2
                rw [ih'.2.1] at hr2; cases hr2
                rw [ih'.1, ← ha]; rfl
              · exact ih'.2.2 s e
            · exact ih'
          · rw [ho] at ih' ⊢
            simp only [agStep, agCheck]
            split
            · next hst =>
              subst hst
              refine ⟨ih'.1, fun s r2 hr2 => ?_⟩
              rcases ih'.2 s r2 hr2 with hm | hm
              · rcases List.mem_cons.1 hm with rfl | hm
                · exact .inr ha.symm
                · exact .inl hm
              · exact .inr hm
            · exact ih'
        case setStatus r' v =>
          have hm : ∀ s, mapIn (l ++ [.did n (.setStatus r' v) a]) s = mapIn l s := fun s => by rw [mapIn_one]; rfl
          have hr : ∀ s, reqIn (l ++ [.did n (.setStatus r' v) a]) s = reqIn l s := fun s => by rw [reqIn_one]; rfl
          have hst : ∀ s, statusIn (l ++ [.did n (.setStatus r' v) a]) s = if r' = s then v else statusIn l s := fun s => by rw [statusIn_one]; rfl
          rcases ho with ⟨sid, ho⟩ | ⟨rfl, rest, ho⟩
          · rw [ho] at ih ⊢
            intro s r2 hr2
            rw [hr] at hr2
            rw [hst, hm]
            by_cases e : s = sid
            · subst e
              rw [ih.2.1] at hr2; cases hr2
              rw [if_pos rfl, ih.1]; rfl
            · rw [if_neg]
              · exact ih.2.2 s e r2 hr2
              · rintro rfl
                exact e (made_one_service h1.left (made_of_reqIn hr2) (made_of_reqIn ih.2.1))
          · rw [ho] at ih ⊢
            refine ⟨fun s => by rw [hm]; exact ih.1 s, fun s r2 hr2 => ?_⟩
            rw [hr] at hr2
            rw [hst]
            by_cases e : r' = r2
            · subst e; exact .inr (if_pos rfl)
            · rw [if_neg e]
              rcases ih.2 s r2 hr2 with hm | hm
              · rcases List.mem_cons.1 hm with rfl | hm
                · exact absurd rfl e
                · exact .inl hm
              · exact .inr hm
        case clearMap => exact fun s => by rw [mapIn_one]; rfl
        case lockReqs =>
          have hw : news l = .cleared := ho
          rw [hw] at ih ⊢
          refine ⟨fun s => by rw [mapIn_one]; exact ih s, fun s r' hr' => .inl ?_⟩
          rw [reqIn_one] at hr'
          exact List.mem_map.2 ⟨(s, r'), (hk.1 s r').2 hr', rfl⟩
        case unlockReqs =>
          have ih' : AgInv (l ++ [.did n .unlockReqs a]) (news l) := ih.same (fun _ => by rw [mapIn_one]; rfl) (fun _ => by rw [reqIn_one]; rfl) (fun _ => by rw [statusIn_one]; rfl)
          rcases ho with ho | ho
          · rw [ho] at ih'; exact ih'
          · rw [ho] at ih'
            intro s r' hr'
            rcases ih'.2 s r' hr' with h | h
            · cases h
            · rw [h, ih'.1]; rfl
        case unlockMap => exact ho.elim
        case forgetReqs => exact ho.elim
        all_goals exact absurd trivial hn
    | called n c =>
      have : news (l ++ [.called n c]) = news l := Mon.all_skip (S := sys) (M := ag) l _ (by simp)
      rw [this]
      exact ih.same (fun _ => by rw [mapIn_one]; rfl) (fun _ => by rw [reqIn_one]; rfl) (fun _ => by rw [statusIn_one]; rfl)
    | returned n c =>
      have : news (l ++ [.returned n c]) = news l := Mon.all_skip (S := sys) (M := ag) l _ (by simp)
      rw [this]
      exact ih.same (fun _ => by rw [mapIn_one]; rfl) (fun _ => by rw [reqIn_one]; rfl) (fun _ => by rw [statusIn_one]; rfl)
    | crashed n =>
      have : news (l ++ [.crashed n]) = news l := Mon.all_skip (S := sys) (M := ag) l _ (by simp)
      rw [this]
      exact ih.same (fun _ => by rw [mapIn_one]; rfl) (fun _ => by rw [reqIn_one]; rfl) (fun _ => by rw [statusIn_one]; rfl)

/-- C68: if news are brought one after the other, then, when all have been worked off, the requester of every service has the status that the client has: whenever requesters are
asked for, and whatever else goes on. -/
theorem status_agrees_partial {l : List Event} (h : Run l) (hU : Usual l) (hs : Serial (S := sys) News l) (hd : ∀ n c, .called n c ∈ l → News c → ∃ x, .returned n x ∈ l) {sid : Sid} {r : Rq}
    (hr : reqIn l sid = some r) : statusIn l r = (mapIn l sid).getD .unavailable := by
  have hi := agInv (r := []) (by simpa using h) (by simpa using hU) hs
  have hf : news l = .calm := by
    obtain ⟨as, s, hr, hl⟩ := h
    refine (Mon.inTurn (S := sys) (M := ag) (Notif := News) hr ag_neutral ?_ ?_ (l := l) (r := []) (by simp [hl]) hs).out ?_
    · intro n c hc hN; rw [hl] at hc; exact news_ag hN (hU n c hc).2
    · intro n c hc hN; rw [hl] at hc; exact other_ag hN (hU n c hc).1
    · rintro n ⟨c, hc, hN, hx⟩
      obtain ⟨x, hx'⟩ := hd n c hc hN
      exact hx x hx'
  rw [hf] at hi
  exact hi sid r hr

/-- What `getServiceStatus` returns is what the client was last told, at the moment it reads it. -/
theorem status_of_client {l : List Event} (h : Run l) {n : Nat} {sid : Sid} {a : Avail} (hc : .called n (.getServiceStatus sid) ∈ l) (hx : .returned n (.avail a) ∈ l) :
    ∃ l1 l2, l = l1 ++ .did n (.read sid) (mapIn l1 sid) :: l2 ∧ a = (mapIn l1 sid).getD .unavailable := by
  have hp := ops_path h hc hx
  simp only [prog, atom, ask_bind, path_ask_ret, path_pure, Prog.ret.injEq, Res.avail.injEq] at hp
  obtain ⟨o, l', h1, rfl, rfl⟩ := hp
  obtain ⟨x, y, hl⟩ := List.append_of_mem (mem_opsOf.1 (show ⟨.read sid, o⟩ ∈ opsOf n l by rw [h1]; simp))
  have ho : o = mapIn x sid := by rw [hl] at h; exact h.ok.1
  exact ⟨x, y, by rw [← ho]; exact hl, by rw [ho]⟩

/-- What `serviceStatus` returns is the requester's status at that moment. -/
theorem status_of_requester {l : List Event} (h : Run l) {n : Nat} {r : Rq} {a : Avail} (hc : .called n (.serviceStatus r) ∈ l) (hx : .returned n (.avail a) ∈ l) :
    ∃ l1 l2, l = l1 ++ .did n (.status r) a :: l2 ∧ a = statusIn l1 r := by
  have hp := ops_path h hc hx
  simp only [prog, atom, ask_bind, path_ask_ret, path_pure, Prog.ret.injEq, Res.avail.injEq] at hp
  obtain ⟨o, l', h1, rfl, rfl⟩ := hp
  obtain ⟨x, y, hl⟩ := List.append_of_mem (mem_opsOf.1 (show ⟨.status r, a⟩ ∈ opsOf n l by rw [h1]; simp))
  exact ⟨x, y, hl, by rw [hl] at h; exact h.ok⟩

/-- The hypotheses are met: news of service 1, while its requester is asked for. -/
example : ∃ s, run (Calls.init sys) (.call (.incoming (.status 1 .available)) :: go 0 2 ++ .call (.getServiceRequester 1) :: go 1 2 ++ go 0 4 ++ .call (.monitor .available) :: go 2 4 ++
      .call (.monitor .unavailable) :: go 3 2 ++ .call (.getServiceRequester 2) :: go 4 2 ++ go 3 10) = some s ∧
    reqIn s.log 1 = some 0 ∧ reqIn s.log 2 = some 1 ∧ changesIn 0 s.log = [.unavailable] ∧ .returned 0 (.bool true) ∈ s.log ∧ .returned 2 .unit ∈ s.log ∧ .returned 3 .unit ∈ s.log := by
  refine ⟨_, rfl, by decide, by decide, by decide, by decide, by decide, by decide⟩

/-- C68 does not hold in general. The server is found to be lost while the news that a service is available are worked off (they come on different threads): in the end the client knows that the service is
unavailable, and the requester, for ever, believes that it is available. -/
theorem overlap_disagrees : ∃ s, run (Calls.init sys) (.call (.getServiceRequester 1) :: go 0 2 ++ .call (.monitor .available) :: go 1 4 ++ .call (.incoming (.status 1 .available)) :: go 2 2 ++
      .call (.monitor .unavailable) :: go 3 7 ++ go 2 7 ++ .call (.getServiceStatus 1) :: go 4 2 ++ .call (.serviceStatus 0) :: go 5 2) = some s ∧
    .returned 2 (.bool true) ∈ s.log ∧ .returned 3 .unit ∈ s.log ∧ .returned 4 (.avail .unavailable) ∈ s.log ∧ .returned 5 (.avail .available) ∈ s.log := by
  refine ⟨_, rfl, by decide, by decide, by decide, by decide⟩

/-- Nor if a requester is asked for while the client is ended: it gets the status the client is about to forget. -/
theorem end_disagrees : ∃ s, run (Calls.init sys) (.call (.incoming (.status 1 .available)) :: go 0 5 ++ .call .deinit :: go 1 3 ++ .call (.getServiceRequester 1) :: go 2 2 ++ go 1 4 ++
      .call (.getServiceStatus 1) :: go 3 2 ++ .call (.serviceStatus 0) :: go 4 2) = some s ∧
    .returned 1 .unit ∈ s.log ∧ .returned 3 (.avail .unavailable) ∈ s.log ∧ .returned 4 (.avail .available) ∈ s.log := by
  refine ⟨_, rfl, by decide, by decide, by decide⟩

/-! ### C69 -/

/-- What a call that has the server's status set to available has done before. -/
def SetOk (pre : List (Op Query Ans)) : Op Query Ans → Prop
  | ⟨.setServer .available, _⟩ => ∃ cur, cur ≠ .available ∧ pre = [⟨.server, cur⟩, ⟨.sendRegister, true⟩]
  | ⟨.sendRegister, _⟩ => ∃ cur, cur ≠ .available ∧ pre = [⟨.server, cur⟩]
  | _ => True

theorem tellAll_set (pre : List (Op Query Ans)) (r : Rq) (old new : Avail) (os : List Obs) : Along SetOk pre (tellAll r old new os) := by
  induction os generalizing pre with
  | nil => trivial
  | cons o os ih =>
    simp only [tellAll, atom, ask_bind, along_ask]
    intro a
    refine ⟨trivial, ?_⟩
    cases a with
    | ok => exact Along.bind (ih _) fun _ _ _ => trivial
    | gone => exact ih _
    | throws => trivial

theorem changeStatus_set (pre : List (Op Query Ans)) (r : Rq) (old new : Avail) : Along SetOk pre (changeStatus r old new) := by
  have hfw : ∀ pre, Along SetOk pre (forward r old new) := by
    intro pre
    simp only [forward, atom, ask_bind, along_ask]
    exact fun os => ⟨trivial, Along.bind (tellAll_set _ r old new os) fun _ _ _ => fun _ => ⟨trivial, trivial⟩⟩
  simp only [changeStatus, atom, ask_bind, along_ask]
  refine fun cur => ⟨trivial, ?_⟩
  split
  · trivial
  · refine fun _ => ⟨trivial, ?_⟩
    split
    · exact fun _ => ⟨trivial, hfw _⟩
    · exact hfw _

theorem onServiceStatusChanged_set (pre : List (Op Query Ans)) (sid : Sid) (old new : Avail) : Along SetOk pre (onServiceStatusChanged sid old new) := by
  simp only [onServiceStatusChanged, atom, ask_bind, along_ask]
  refine fun _ => ⟨trivial, fun o => ⟨trivial, ?_⟩⟩
  cases o with
  | none => exact fun _ => ⟨trivial, trivial⟩
  | some r => exact Along.bind (changeStatus_set _ r old new) fun _ _ _ => fun _ => ⟨trivial, trivial⟩

theorem changeAll_set (pre : List (Op Query Ans)) (old new : Avail) (rs : List (Sid × Rq)) : Along SetOk pre (changeAll old new rs) := by
  induction rs generalizing pre with
  | nil => trivial
  | cons y rs ih => exact Along.bind (changeStatus_set _ y.2 old new) fun _ _ _ => ih _

theorem deinitReqs_set (pre : List (Op Query Ans)) (rs : List (Sid × Rq)) : Along SetOk pre (deinitReqs rs) := by
  induction rs generalizing pre with
  | nil => trivial
  | cons y rs ih => exact fun _ => ⟨trivial, ih _⟩

theorem unregisterAll_set (pre : List (Op Query Ans)) (ss : List Sid) : Along SetOk pre (unregisterAll ss) := by
  induction ss generalizing pre with
  | nil => trivial
  | cons y rs ih => exact fun _ => ⟨trivial, ih _⟩

theorem prog_set (c : Call) : Along SetOk [] (prog c) := by
  cases c with
  | getServiceRequester sid => exact fun _ => ⟨trivial, trivial⟩
  | hasServiceRequester sid => exact fun _ => ⟨trivial, trivial⟩
  | getServiceStatus sid => exact fun _ => ⟨trivial, trivial⟩
  | incoming m =>
    refine Along.bind (P := SetOk) ?_ fun _ _ _ => trivial
    cases m with
    | status sid st =>
      cases st with
      | available =>
        simp only [onIncomingMessage, atom, ask_bind, along_ask]
        exact fun _ => ⟨trivial, Along.bind (onServiceStatusChanged_set _ sid _ _) fun _ _ _ => trivial⟩
      | unavailable =>
        simp only [onIncomingMessage, atom, ask_bind, along_ask]
        exact fun _ => ⟨trivial, Along.bind (onServiceStatusChanged_set _ sid _ _) fun _ _ _ => trivial⟩
      | unknown => trivial
    | other sid tag =>
      simp only [onIncomingMessage, atom, ask_bind, along_ask]
      refine fun o => ⟨trivial, ?_⟩
      cases o with
      | none => trivial
      | some r => exact fun _ => ⟨trivial, trivial⟩
  | serviceChanged sid old new => exact Along.bind (onServiceStatusChanged_set _ sid old new) fun _ _ _ => trivial
  | monitor st =>
    refine Along.bind (P := SetOk) ?_ fun _ _ _ => trivial
    simp only [monitor, atom, ask_bind, along_ask]
    refine fun cur => ⟨trivial, ?_⟩
    split
    · trivial
    · next hne =>
      unfold onServerStatusChanged
      split
      · next hav =>
        subst hav
        simp only [atom, ask_bind, along_ask]
        refine fun b => ⟨⟨cur, hne, rfl⟩, ?_⟩
        split
        · next hb => subst hb; exact fun _ => ⟨⟨cur, hne, rfl⟩, trivial⟩
        · trivial
      · next hav =>
        have hset : ∀ pre u, SetOk pre ⟨.setServer st, u⟩ := by
          intro pre u
          cases st with
          | available => exact absurd rfl hav
          | _ => trivial
        refine Along.bind (P := SetOk) ?_ fun _ _ _ => fun _ => ⟨hset _ _, trivial⟩
        simp only [serverGone, atom, ask_bind, along_ask]
        exact fun _ => ⟨trivial, fun rs => ⟨trivial, Along.bind (changeAll_set _ cur st rs) fun _ _ _ => fun _ => ⟨trivial, trivial⟩⟩⟩
  | deinit =>
    refine Along.bind (P := SetOk) ?_ fun _ _ _ => trivial
    simp only [deinit, atom, ask_bind, along_ask]
    refine fun rs => ⟨trivial, Along.bind (deinitReqs_set _ rs) fun _ _ _ => ?_⟩
    exact fun _ => ⟨trivial, fun _ => ⟨trivial, fun ss => ⟨trivial, Along.bind (unregisterAll_set _ ss) fun _ _ _ => fun _ => ⟨trivial, trivial⟩⟩⟩⟩
  | serviceStatus r => exact fun _ => ⟨trivial, trivial⟩
  | registerObserver r o =>
    refine Along.bind (P := SetOk) ?_ fun _ _ _ => trivial
    simp only [registerObserver, atom, ask_bind, along_ask]
    refine fun cur => ⟨trivial, ?_⟩
    split
    · exact fun _ => ⟨trivial, trivial⟩
    · trivial
  | unregisterObserver r o => exact fun _ => ⟨trivial, trivial⟩

theorem own_ops {l : List Event} (h : Run l) {P : List (Op Query Ans) → Op Query Ans → Prop} (hp : ∀ c, Along P [] (prog c)) {a b : List Event} {n : Nat} {q : Query} {x : Ans q} (hl : l = a ++ .did n q x :: b) :
    P (opsOf n a) ⟨q, x⟩ := by
  obtain ⟨as, s, hr, rfl⟩ := h
  obtain ⟨c, pre, k, -, ht, hk⟩ := did_path hr hl
  have := (hp c).at hk x
  have e : opsOf n a = pre := by
    unfold opsOf
    rw [ht, ← List.singleton_append, allOps_append, allOps_evs]; rfl
  rw [e]; exact this

/-- C69: a client that takes its server to be available has told it so that it wants to know its services: the call that found the server available sent the registration with success, after the server was
not available, and since then the server was not found lost. -/
theorem available_registered {l : List Event} (h : Run l) (hs : serverIn l = .available) :
    ∃ a n u b, l = a ++ .did n (.setServer .available) u :: b ∧ (∀ k st u, .did k (.setServer st) u ∉ b) ∧ .did n .sendRegister true ∈ a ∧ ∃ cur, cur ≠ .available ∧ .did n .server cur ∈ a := by
  have key : ∀ l : List Event, serverIn l = .available → ∃ a n u b, l = a ++ .did n (.setServer .available) u :: b ∧ ∀ k st u, .did k (.setServer st) u ∉ b := by
    intro l
    refine snoc_induct (motive := fun l : List Event => serverIn l = .available → ∃ a n u b, l = a ++ .did n (.setServer .available) u :: b ∧ ∀ k st u, .did k (.setServer st) u ∉ b) (by intro h; cases h) ?_ l
    intro l e ih hs
    rw [serverIn_one] at hs
    have keep : serverIn l = .available → (∀ k st u, e ≠ .did k (.setServer st) u) → ∃ a n u b, l ++ [e] = a ++ .did n (.setServer .available) u :: b ∧ ∀ k st u, .did k (.setServer st) u ∉ b := by
      intro h1 h2
      obtain ⟨a, n, u, b, rfl, hb⟩ := ih h1
      refine ⟨a, n, u, b ++ [e], by simp, fun k st u hm => ?_⟩
      rcases List.mem_append.1 hm with hm | hm
      · exact hb k st u hm
      · simp at hm; exact h2 k st u hm.symm
    cases e with
    | did n q x =>
      cases q
      case setServer st =>
        have : st = .available := hs
        subst this
        exact ⟨l, n, x, [], rfl, by simp⟩
      all_goals exact keep hs (by simp)
    | _ => exact keep hs (by simp)
  obtain ⟨a, n, u, b, rfl, hb⟩ := key l hs
  obtain ⟨cur, hcur, hops⟩ := own_ops h prog_set rfl (q := .setServer .available)
  exact ⟨a, n, u, b, rfl, hb, mem_opsOf.1 (by rw [hops]; simp), cur, hcur, mem_opsOf.1 (by rw [hops]; simp)⟩

/-- C69: a failed registration is tried again: as long as the server is not taken to be available, every time it is found to be the registration is sent; and when it is taken to be, it is not sent again. -/
theorem registers_again {l : List Event} (h : Run l) {n : Nat} {x : Res} (hc : .called n (.monitor .available) ∈ l) (hx : .returned n x ∈ l) :
    ∃ a cur b, l = a ++ .did n .server cur :: b ∧ cur = serverIn a ∧ ((∃ ok, .did n .sendRegister ok ∈ l) ↔ serverIn a ≠ .available) ∧ ((∃ u, .did n (.setServer .available) u ∈ l) ↔ .did n .sendRegister true ∈ l) := by
  have hp := ops_path h hc hx
  simp only [prog, monitor, path_bind_ret, atom, ask_bind, path_ask_ret] at hp
  obtain ⟨l1, l2, u, h1, ⟨cur, l3, rfl, h3⟩, h4⟩ := hp
  simp only [path_pure] at h4
  obtain ⟨rfl, -⟩ := h4
  rw [List.append_nil] at h1
  obtain ⟨a, b, hl⟩ := List.append_of_mem (mem_opsOf.1 (show ⟨.server, cur⟩ ∈ opsOf n l by rw [h1]; simp))
  have hcur : cur = serverIn a := by rw [hl] at h; exact h.ok
  refine ⟨a, cur, b, hl, hcur, ?_⟩
  rw [← hcur]
  simp only [← mem_opsOf]
  rw [h1]
  split at h3
  · next hav =>
    subst hav
    simp only [path_pure] at h3
    obtain ⟨rfl, -⟩ := h3
    simp
  · next hav =>
    simp only [onServerStatusChanged, if_true, atom, ask_bind, path_ask_ret] at h3
    obtain ⟨ok, l5, rfl, h5⟩ := h3
    split at h5
    · next hok =>
      subst hok
      simp only [ask, path_ask_ret, path_ret] at h5
      obtain ⟨v, l6, rfl, rfl, -⟩ := h5
      simp [hav]
    · next hok =>
      have hok : ok = false := by simpa using hok
      subst hok
      simp only [path_pure] at h5
      obtain ⟨rfl, -⟩ := h5
      simp [hav]

/-- The hypotheses are met: the first registration fails, the second does not. -/
example : ∃ s, run (Calls.init sys) (.call (.monitor .available) :: go 0 1 ++ [.step 0 .gone, .step 0 .ok] ++ .call (.monitor .available) :: go 1 4 ++ .call (.monitor .available) :: go 2 2) = some s ∧
    serverIn s.log = .available ∧ .did 0 .sendRegister false ∈ s.log ∧ .did 1 .sendRegister true ∈ s.log ∧ .returned 2 .unit ∈ s.log := by
  refine ⟨_, rfl, by decide, by decide, by decide, by decide⟩

/-- `deinit` tells the server for each service it knows, and never that the client itself is no longer interested. -/
example : ∃ s, run (Calls.init sys) (.call (.monitor .available) :: go 0 4 ++ .call (.incoming (.status 1 .available)) :: go 1 5 ++ .call .deinit :: go 2 7) = some s ∧
    .did 2 (.sendUnregister 1) true ∈ s.log ∧ .returned 2 .unit ∈ s.log := by
  refine ⟨_, rfl, by decide, by decide⟩

end Maf.Cli
