import Verif.Lemmas.ProcessorSignals
namespace Maf.Proc

/-! ### The handler map -/

def Ev.isMap : Ev → Bool
  | .entry .. => true
  | .entryGone _ _ => true
  | _ => false

structure MapI (map : List (Ty × SigId)) (n : SigId) (l : List Ev) : Prop where
  ent : ∀ ty, entryOf ty l = map.lookup ty
  bound : ∀ ty g, Ev.entry ty g ∈ l → g < n
  mem : ∀ ty g, (ty, g) ∈ map → Ev.entry ty g ∈ l
  uniq : ∀ ty ty' g, Ev.entry ty g ∈ l → Ev.entry ty' g ∈ l → ty = ty'

theorem entryOf_nomap {ty : Ty} {es : List Ev} (he : ∀ e ∈ es, e.isMap = false) (o : Option SigId) :
    es.foldl (entryStep ty) o = o := by
  induction es generalizing o with
  | nil => rfl
  | cons e es ih =>
    have h0 := he e (by simp)
    rw [List.foldl_cons, ih (fun x hx => he x (by simp [hx]))]
    cases e <;> simp [Ev.isMap] at h0 <;> rfl

theorem MapI.app {map : List (Ty × SigId)} {n : Nat} {l es : List Ev} (h : MapI map n l) (he : ∀ e ∈ es, e.isMap = false) :
    MapI map n (l ++ es) := by
  have key : ∀ ty g, Ev.entry ty g ∈ l ++ es → Ev.entry ty g ∈ l := by
    intro ty g hm
    rcases List.mem_append.1 hm with hm | hm
    · exact hm
    · have := he _ hm; simp [Ev.isMap] at this
  exact ⟨fun ty => by rw [entryOf_append, entryOf_nomap he]; exact h.ent ty,
    fun ty g hm => h.bound ty g (key _ _ hm), fun ty g hm => List.mem_append_left _ (h.mem ty g hm),
    fun ty ty' g h1 h2 => h.uniq _ _ _ (key _ _ h1) (key _ _ h2)⟩

theorem MapI.rel {map : List (Ty × SigId)} {n : Nat} {s : State} {t g : Nat} (h : MapI map n s.log) :
    MapI map n (release s t g).log := by
  obtain ⟨f, u, es, he⟩ := release_eq s t g
  rw [he]; exact h.app (by simp [Ev.isMap])

theorem lookup_filter_ne {map : List (Ty × SigId)} {ty ty' : Ty} :
    (map.filter fun p => p.1 != ty).lookup ty' = if ty' = ty then none else map.lookup ty' := by
  induction map with
  | nil => simp
  | cons p map ih =>
    obtain ⟨a, b⟩ := p
    by_cases ha : a = ty
    · subst ha
      simp only [List.filter_cons, bne_self_eq_false, Bool.false_eq_true, if_false, ih]
      by_cases h : ty' = a
      · simp [h]
      · have : (ty' == a) = false := by simpa using h
        simp [h, List.lookup_cons, this]
    · simp only [List.filter_cons, bne_iff_ne, ne_eq, ha, not_false_eq_true, if_true, List.lookup_cons]
      by_cases h : ty' = a
      · subst h; simp [ha]
      · have : (ty' == a) = false := by simpa using h
        simp [this, ih]

theorem MapI.gone {map : List (Ty × SigId)} {n : Nat} {l : List Ev} {ty : Ty} {o : Option Tid} (h : MapI map n l) :
    MapI (map.filter fun p => p.1 != ty) n (l ++ [.entryGone o ty]) := by
  refine ⟨fun ty' => ?_, ?_, ?_, ?_⟩
  · rw [entryOf_append, lookup_filter_ne]
    simp only [List.foldl_cons, List.foldl_nil, entryStep, h.ent]
    by_cases e : ty = ty' <;> simp [e, eq_comm]
  · intro ty' g hm; simp at hm; exact h.bound _ _ hm
  · intro ty' g hm; exact List.mem_append_left _ (h.mem _ _ (List.mem_filter.1 hm).1)
  · intro a b g h1 h2; simp at h1 h2; exact h.uniq _ _ _ h1 h2

theorem lookup_snoc {map : List (Ty × SigId)} {ty ty' : Ty} {g : SigId} (h : map.lookup ty = none) :
    (map ++ [(ty, g)]).lookup ty' = if ty' = ty then some g else map.lookup ty' := by
  induction map with
  | nil => simp [List.lookup_cons]; split <;> simp_all
  | cons p map ih =>
    obtain ⟨a, b⟩ := p
    simp only [List.lookup_cons] at h
    split at h
    · cases h
    · next hne =>
      have hne' : ty ≠ a := by simpa using hne
      simp only [List.cons_append, List.lookup_cons, ih h]
      by_cases e : ty' = a
      · subst e; simp [Ne.symm hne']
      · have : (ty' == a) = false := by simpa using e
        simp [this]

theorem MapI.new {map : List (Ty × SigId)} {n : Nat} {l : List Ev} {ty t : Ty} (h : MapI map n l) (hn : map.lookup ty = none) :
    MapI (map ++ [(ty, n)]) (n + 1) (l ++ [.entry ty n, .connectedTo t ty n]) := by
  refine ⟨fun ty' => ?_, ?_, ?_, ?_⟩
  · rw [entryOf_append, lookup_snoc hn]
    simp only [List.foldl_cons, List.foldl_nil, entryStep, h.ent]
    by_cases e : ty = ty' <;> simp [e, eq_comm]
  · intro ty' g hm; simp at hm
    rcases hm with hm | ⟨rfl, rfl⟩
    · exact Nat.lt_succ_of_lt (h.bound _ _ hm)
    · exact Nat.lt_succ_self _
  · intro ty' g hm
    rcases List.mem_append.1 hm with hm | hm
    · exact List.mem_append_left _ (h.mem _ _ hm)
    · simp at hm; obtain ⟨rfl, rfl⟩ := hm; simp
  · intro a b g h1 h2
    simp at h1 h2
    rcases h1 with h1 | ⟨rfl, rfl⟩ <;> rcases h2 with h2 | ⟨rfl, h2⟩
    · exact h.uniq _ _ _ h1 h2
    · subst h2; exact absurd (h.bound _ _ h1) (Nat.lt_irrefl _)
    · exact absurd (h.bound _ _ h2) (Nat.lt_irrefl _)
    · rfl

theorem MapI_step {s s' : State} {a : Act} (h : MapI s.map s.nextSig s.log) (hs : step s a = some s') :
    MapI s'.map s'.nextSig s'.log := by
  replace hs := (step_body hs).2
  peel
  all_goals simp only [release_map, release_nextSig]
  all_goals
    repeat first
    | exact h
    | exact h.gone
    | exact h.new (by assumption)
    | apply MapI.rel
    | apply MapI.app
  all_goals first
    | (simp [Ev.isMap]; done)
    | (intro e he; split at he <;> simp at he; subst he; rfl)
    | (simp; intro e he; rcases he with ⟨_, _, rfl⟩ | rfl <;> rfl)

/-! ### What the activations know -/

/-- A frame that works on a message with a handlers object. -/
def Frame.mg : Frame → Option (Msg × SigId)
  | .post2 m g => some (m, g)
  | .willNotify _ m g => some (m, g)
  | .notifying _ m g => some (m, g)
  | .handler _ m g => some (m, g)
  | _ => none

def Known (stk : Tid → List Frame) (l : List Ev) : Prop :=
  ∀ t f m g, f ∈ stk t → f.mg = some (m, g) → Ev.entry m.ty g ∈ l

theorem step_grows {s s' : State} {a : Act} (hs : step s a = some s') : ∃ es, s'.log = s.log ++ es := by
  obtain ⟨-, es, h, -⟩ := step_other hs
  exact ⟨es, h⟩

theorem lookup_mem {map : List (Ty × SigId)} {ty : Ty} {g : SigId} (h : map.lookup ty = some g) : (ty, g) ∈ map := by
  induction map with
  | nil => cases h
  | cons p map ih =>
    obtain ⟨a, b⟩ := p
    simp only [List.lookup_cons] at h
    split at h
    · next e => cases h; simp only [beq_iff_eq] at e; subst e; simp
    · exact List.mem_cons_of_mem _ (ih h)

/-- Frames of a thread after a step: the ones before, or a new one found in the map. -/
theorem Known_step {s s' : State} {a : Act} (hm : MapI s.map s.nextSig s.log) (h : Known s.stk s.log) (hs : step s a = some s') :
    Known s'.stk s'.log := by
  obtain ⟨hoth, -⟩ := step_other hs
  obtain ⟨es, hes⟩ := step_grows hs
  intro t f m g hf hmg
  by_cases ht : t = a.tid
  · rw [hes]; refine List.mem_append_left _ ?_
    have hk := h a.tid
    subst ht
    clear hoth hes h
    replace hs := (step_body hs).2
    peel
    all_goals simp only [Act.tid] at hk hf
    all_goals try exact hk _ _ _ hf hmg
    all_goals simp only [release_stk, upd_same] at hf
    all_goals (try have hst := ‹s.stk _ = _›)
    all_goals (try rw [hst] at hk)
    all_goals (try rcases List.mem_cons.1 hf with rfl | hf)
    all_goals first
      | exact hk _ _ _ hf hmg
      | exact hk _ _ _ (List.mem_cons_of_mem _ hf) hmg
      | exact hk _ _ _ (List.mem_cons_self) hmg
      | (simp [Frame.mg] at hmg; done)
      | (simp only [Frame.mg, Option.some.injEq, Prod.mk.injEq] at hmg; obtain ⟨rfl, rfl⟩ := hmg; exact hm.mem _ _ (lookup_mem ‹_›))
      | (cases hmg; exact hk _ _ _ (List.mem_cons_self) rfl)
      | skip
    all_goals (simp at hf <;> (try rcases hf with rfl | hf) <;> first | (simp [Frame.mg] at hmg; done) | exact hk _ _ _ (List.mem_cons_of_mem _ ‹_›) hmg)
  · rw [(hoth t ht).1] at hf
    rw [hes]; exact List.mem_append_left _ (h t f m g hf hmg)

end Maf.Proc
