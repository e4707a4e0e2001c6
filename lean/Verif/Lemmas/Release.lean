import Verif.Spec.Release
import Verif.Lemmas.Hist
namespace Maf.Drop

def itemsOf (l : List Frame) : List Item := l.flatMap Frame.items

@[simp] theorem itemsOf_nil : itemsOf [] = [] := rfl
@[simp] theorem itemsOf_cons (f : Frame) (l : List Frame) : itemsOf (f :: l) = f.items ++ itemsOf l := rfl

@[simp] theorem upd_self {β : Type} (f : Nat → β) (i : Nat) (v : β) : upd f i v i = v := by simp [upd]
theorem upd_other {β : Type} (f : Nat → β) {i j : Nat} (v : β) (h : j ≠ i) : upd f i v j = f j := by simp [upd, h]

/-- The frame right below. -/
def Below (rest : List Frame) : Frame → Prop
  | .code x => ∃ k r, rest = .after k x :: r
  | .dtor _ => True
  | _ => ∀ g r, rest = g :: r → g.isUser = true

def WF : List Frame → Prop
  | [] => True
  | f :: rest => Below rest f ∧ WF rest

/-- A function that has been handed over and not been called yet. -/
def Frame.fresh : Frame → List Item
  | .swap _ x => [x]
  | .push1 x => [x]
  | .push2 x => [x]
  | .clearing xs => xs
  | _ => []

/-- One that is out of the queue. -/
def Frame.out : Frame → List Item
  | .swap _ x => [x]
  | .clearing xs => xs
  | _ => []

def freshOf (l : List Frame) : List Item := l.flatMap Frame.fresh
def outOf (l : List Frame) : List Item := l.flatMap Frame.out

@[simp] theorem freshOf_nil : freshOf [] = [] := rfl
@[simp] theorem freshOf_cons (f : Frame) (l : List Frame) : freshOf (f :: l) = f.fresh ++ freshOf l := rfl
@[simp] theorem outOf_nil : outOf [] = [] := rfl
@[simp] theorem outOf_cons (f : Frame) (l : List Frame) : outOf (f :: l) = f.out ++ outOf l := rfl

/-- Handed over and not destroyed. -/
def Live (log : List Ev) (x : Item) : Prop := (∃ t, Ev.made t x ∈ log) ∧ ∀ t, Ev.dropped t x ∉ log

structure Inv (s : State) : Prop where
  hist : Hist EvOk s.log
  nodup : ∀ t, (s.q ++ itemsOf (s.stk t)).Nodup
  disj : ∀ t u x, t ≠ u → x ∈ itemsOf (s.stk t) → x ∉ itemsOf (s.stk u)
  qlive : ∀ x ∈ s.q, Live s.log x ∧ Ev.entered x ∈ s.log ∧ ∀ t, Ev.began t x ∉ s.log
  flive : ∀ t, ∀ x ∈ itemsOf (s.stk t), Live s.log x
  lt : ∀ x, (∃ t, Ev.made t x ∈ s.log) → x < s.next
  mb : ∀ t x, Ev.began t x ∈ s.log ∨ Ev.dropped t x ∈ s.log → ∃ u, Ev.made u x ∈ s.log
  began : ∀ t x, Ev.began t x ∈ s.log → Ev.done t x ∈ s.log ∨ Frame.code x ∈ s.stk t
  code : ∀ t x, Frame.code x ∈ s.stk t → Ev.began t x ∈ s.log ∧ Ev.done t x ∉ s.log
  fresh : ∀ t, ∀ x ∈ freshOf (s.stk t), ∀ u, Ev.began u x ∉ s.log
  out : ∀ t, ∀ x ∈ outOf (s.stk t), Ev.entered x ∈ s.log
  all : ∀ x, (∃ t, Ev.made t x ∈ s.log) → (∃ u, Ev.dropped u x ∈ s.log) ∨ x ∈ s.q ∨ ∃ u, x ∈ itemsOf (s.stk u)
  wf : ∀ t, WF (s.stk t)

theorem Inv_init : Inv init := by
  constructor <;> simp [init, Hist.nil, WF, Live]

/-- A `code` frame is right above its `after` frame. -/
theorem code_items {l : List Frame} (h : WF l) {x : Item} (hc : .code x ∈ l) : x ∈ itemsOf l := by
  induction l with
  | nil => cases hc
  | cons f rest ih =>
    rcases List.mem_cons.1 hc with rfl | hc
    · obtain ⟨k, r, rfl⟩ := h.1
      simp [Frame.items]
    · simp [ih h.2 hc]

theorem fresh_items {f : Frame} {x : Item} (h : x ∈ f.fresh) : x ∈ f.items := by
  cases f <;> simp_all [Frame.fresh, Frame.items]

theorem freshOf_items {l : List Frame} {x : Item} (h : x ∈ freshOf l) : x ∈ itemsOf l := by
  obtain ⟨f, hf, hx⟩ := List.mem_flatMap.1 h
  exact List.mem_flatMap.2 ⟨f, hf, fresh_items hx⟩

theorem out_items {f : Frame} {x : Item} (h : x ∈ f.out) : x ∈ f.items := by
  cases f <;> simp_all [Frame.out, Frame.items]

theorem outOf_items {l : List Frame} {x : Item} (h : x ∈ outOf l) : x ∈ itemsOf l := by
  obtain ⟨f, hf, hx⟩ := List.mem_flatMap.1 h
  exact List.mem_flatMap.2 ⟨f, hf, out_items hx⟩

theorem code_once {x : Item} {rest : List Frame} (h : WF (.code x :: rest)) (hn : (itemsOf (.code x :: rest)).Nodup) : Frame.code x ∉ rest := by
  obtain ⟨⟨k, r, rfl⟩, _, hw⟩ := h
  intro hc
  have := code_items hw (x := x) (by simpa using hc)
  simp [Frame.items, this] at hn

theorem WF.tail {f : Frame} {l : List Frame} (h : WF (f :: l)) : WF l := h.2


theorem keep {s : State} {t : Tid} {l : List Frame} {es : List Ev} {c : Bool} {k : Option Tid} (hi : itemsOf l = itemsOf (s.stk t)) (hc : ∀ x, Frame.code x ∈ l ↔ Frame.code x ∈ s.stk t) (hf : freshOf l ⊆ freshOf (s.stk t)) (ho : outOf l ⊆ outOf (s.stk t)) (hw : WF l) (he : es = [] ∨ es = [.enters t] ∨ es = [.leaves t]) (h : Inv s) :
    Inv { go s t l es with closed := c, lock := k } := by
  obtain ⟨hist, nodup, disj, qlive, flive, lt, mb, began, code, fresh, out, all, wf⟩ := h
  constructor <;> (try simp only [go])
  · exact hist.free (by rcases he with rfl | rfl | rfl <;> simp [EvOk])
  · have := nodup; clear nodup flive began code fresh out; grind [upd, Live]
  · clear nodup flive began code fresh out; grind [upd, Live]
  · have := qlive; clear nodup flive began code fresh out; grind [upd, Live]
  · have := flive; clear nodup flive began code fresh out; grind [upd, Live]
  · have := lt; clear nodup flive began code fresh out; grind [upd, Live]
  · have := mb; clear nodup flive began code fresh out; grind [upd, Live]
  · have := began; clear nodup flive began code fresh out; grind [upd, Live]
  · have := code; clear nodup flive began code fresh out; grind [upd, Live]
  · have := fresh; clear nodup flive began code fresh out; grind [upd, Live]
  · have := out; clear nodup flive began code fresh out; grind [upd, Live]
  · intro x hx
    have hx' : ∃ t, Ev.made t x ∈ s.log := by obtain ⟨u, hu⟩ := hx; exact ⟨u, by rcases he with rfl | rfl | rfl <;> simpa using hu⟩
    rcases all x hx' with ⟨u, hu⟩ | hq' | ⟨u, hu⟩
    · exact .inl ⟨u, by simp [hu]⟩
    · exact .inr (.inl hq')
    · by_cases hut : u = t
      · subst hut
        exact .inr (.inr ⟨u, by rw [upd_self, hi]; exact hu⟩)
      · exact .inr (.inr ⟨u, by rw [upd_other _ _ hut]; exact hu⟩)
  · intro u; by_cases hu : u = t
    · subst hu; rw [upd_self]; exact hw
    · rw [upd_other _ _ hu]; exact wf u

theorem drop {s : State} {t : Tid} {l : List Frame} {y : Item} {c : Bool} {k : Option Tid} (hi : (itemsOf (s.stk t)).Perm (y :: itemsOf l)) (hc : ∀ x, Frame.code x ∈ l ↔ Frame.code x ∈ s.stk t) (hf : freshOf l ⊆ freshOf (s.stk t)) (ho : outOf l ⊆ outOf (s.stk t)) (hw : WF l) (h : Inv s) :
    Inv { go s t l [.dropped t y] with closed := c, lock := k } := by
  obtain ⟨hist, nodup, disj, qlive, flive, lt, mb, began, code, fresh, out, all, wf⟩ := h
  have hm : ∀ x, x ∈ itemsOf (s.stk t) ↔ x = y ∨ x ∈ itemsOf l := fun x => by rw [hi.mem_iff]; simp
  have hy : y ∈ itemsOf (s.stk t) := (hm y).2 (.inl rfl)
  have hn : (y :: itemsOf l).Nodup := hi.nodup_iff.1 (List.nodup_append.1 (nodup t)).2.1
  have hq : y ∉ s.q := fun hq => (List.nodup_append.1 (nodup t)).2.2 y hq y hy rfl
  have hyl : y ∉ itemsOf l := (List.nodup_cons.1 hn).1
  have hyo : ∀ u, u ≠ t → y ∉ itemsOf (s.stk u) := fun u hu h => disj u t y hu h hy
  have hcy : ∀ u, Frame.code y ∉ s.stk u := by
    intro u hu
    by_cases hut : u = t
    · subst hut; exact hyl (code_items hw ((hc y).2 hu))
    · exact hyo u hut (code_items (wf u) hu)
  constructor <;> (try simp only [go])
  · have h1 := flive t y hy
    refine hist.one ⟨h1.1, fun u => ⟨h1.2 u, fun hb => ?_⟩⟩
    exact (began u y hb).resolve_right (hcy u)
  · intro u; by_cases hu : u = t
    · subst hu; rw [upd_self]; have := nodup u; rw [List.nodup_append] at this ⊢; exact ⟨this.1, (List.nodup_cons.1 hn).2, fun a ha b hb => this.2.2 a ha b ((hm b).2 (.inr hb))⟩
    · rw [upd_other _ _ hu]; exact nodup u
  · clear nodup flive began code fresh out; grind [upd, Live]
  · have := qlive; clear nodup flive began code fresh out; grind [upd, Live]
  · intro u x hx
    have h1 : x ≠ y ∧ Live s.log x := by
      by_cases hu : u = t
      · subst hu; rw [upd_self] at hx; exact ⟨fun h => hyl (h ▸ hx), flive u x ((hm x).2 (.inr hx))⟩
      · rw [upd_other _ _ hu] at hx; exact ⟨fun h => hyo u hu (h ▸ hx), flive u x hx⟩
    clear nodup flive began code fresh out; grind [Live]
  · have := lt; clear nodup flive began code fresh out; grind [upd, Live]
  · have hv := (flive t y hy).1
    clear nodup flive began code fresh out
    intro u x hx
    by_cases hxy : x = y
    · subst hxy; obtain ⟨v, hv⟩ := hv; exact ⟨v, by simp [hv]⟩
    · obtain ⟨v, hv⟩ := mb u x (by grind)
      exact ⟨v, by simp [hv]⟩
  · have := began; clear nodup flive began code fresh out; grind [upd, Live]
  · have := code; clear nodup flive began code fresh out; grind [upd, Live]
  · have := fresh; clear nodup flive began code fresh out; grind [upd, Live]
  · have := out; clear nodup flive began code fresh out; grind [upd, Live]
  · intro x hx
    have hx' : ∃ t, Ev.made t x ∈ s.log := by obtain ⟨u, hu⟩ := hx; exact ⟨u, by simpa using hu⟩
    rcases all x hx' with ⟨u, hu⟩ | hq' | ⟨u, hu⟩
    · exact .inl ⟨u, by simp [hu]⟩
    · exact .inr (.inl hq')
    · by_cases hut : u = t
      · subst hut
        rcases (hm x).1 hu with rfl | hl
        · exact .inl ⟨u, by simp⟩
        · exact .inr (.inr ⟨u, by rw [upd_self]; exact hl⟩)
      · exact .inr (.inr ⟨u, by rw [upd_other _ _ hut]; exact hu⟩)
  · intro u; by_cases hu : u = t
    · subst hu; rw [upd_self]; exact hw
    · rw [upd_other _ _ hu]; exact wf u

theorem pull {s : State} {t : Tid} {l : List Frame} {y : Item} {q : List Item} {k : Option Tid} (hq : s.q = y :: q) (hi : itemsOf l = y :: itemsOf (s.stk t)) (hc : ∀ x, Frame.code x ∈ l ↔ Frame.code x ∈ s.stk t) (hf : freshOf l ⊆ y :: freshOf (s.stk t)) (ho : outOf l ⊆ y :: outOf (s.stk t)) (hw : WF l) (h : Inv s) :
    Inv { go s t l [] with q := q, lock := k } := by
  obtain ⟨hist, nodup, disj, qlive, flive, lt, mb, began, code, fresh, out, all, wf⟩ := h
  have hyo : ∀ u, y ∉ itemsOf (s.stk u) := fun u h => (List.nodup_append.1 (nodup u)).2.2 y (by simp [hq]) y h rfl
  have hyq : y ∉ q := by have := (List.nodup_append.1 (nodup t)).1; rw [hq, List.nodup_cons] at this; exact this.1
  have hl := qlive y (by simp [hq])
  have hqs : ∀ x ∈ q, x ∈ s.q := fun x hx => by simp [hq, hx]
  have hnq : ∀ u, (q ++ itemsOf (s.stk u)).Nodup := by
    intro u; have := nodup u; rw [hq, List.cons_append, List.nodup_cons] at this; exact this.2
  constructor <;> (try simp only [go])
  · simpa using hist
  · intro u; by_cases hu : u = t
    · subst hu; rw [upd_self, hi]
      have h1 := hnq u
      rw [List.perm_middle.nodup_iff, List.nodup_cons]
      exact ⟨by simp [hyq, hyo u], h1⟩
    · rw [upd_other _ _ hu]; exact hnq u
  · clear nodup flive began code fresh out; grind [upd, Live]
  · have := qlive; clear nodup flive began code fresh out; grind [upd, Live]
  · have := flive; clear nodup flive began code fresh out; grind [upd, Live]
  · have := lt; clear nodup flive began code fresh out; grind [upd, Live]
  · have := mb; clear nodup flive began code fresh out; grind [upd, Live]
  · have := began; clear nodup flive began code fresh out; grind [upd, Live]
  · have := code; clear nodup flive began code fresh out; grind [upd, Live]
  · have := fresh; clear nodup flive began code fresh out; grind [upd, Live]
  · have := out; clear nodup flive began code fresh out; grind [upd, Live]
  · intro x hx
    have hx' : ∃ t, Ev.made t x ∈ s.log := by obtain ⟨u, hu⟩ := hx; exact ⟨u, by simpa using hu⟩
    rcases all x hx' with ⟨u, hu⟩ | hq' | ⟨u, hu⟩
    · exact .inl ⟨u, by simp [hu]⟩
    · rw [hq] at hq'
      rcases List.mem_cons.1 hq' with rfl | hq'
      · exact .inr (.inr ⟨t, by rw [upd_self, hi]; simp⟩)
      · exact .inr (.inl hq')
    · by_cases hut : u = t
      · subst hut
        exact .inr (.inr ⟨u, by rw [upd_self, hi]; simp [hu]⟩)
      · exact .inr (.inr ⟨u, by rw [upd_other _ _ hut]; exact hu⟩)
  · intro u; by_cases hu : u = t
    · subst hu; rw [upd_self]; exact hw
    · rw [upd_other _ _ hu]; exact wf u

theorem put {s : State} {t : Tid} {l : List Frame} {y : Item} (hi : (itemsOf (s.stk t)).Perm (y :: itemsOf l)) (hy0 : y ∈ freshOf (s.stk t)) (hc : ∀ x, Frame.code x ∈ l ↔ Frame.code x ∈ s.stk t) (hf : freshOf l ⊆ freshOf (s.stk t)) (ho : outOf l ⊆ outOf (s.stk t)) (hw : WF l) (h : Inv s) :
    Inv { go s t l [.entered y] with q := s.q ++ [y] } := by
  obtain ⟨hist, nodup, disj, qlive, flive, lt, mb, began, code, fresh, out, all, wf⟩ := h
  have hm : ∀ x, x ∈ itemsOf (s.stk t) ↔ x = y ∨ x ∈ itemsOf l := fun x => by rw [hi.mem_iff]; simp
  have hy : y ∈ itemsOf (s.stk t) := (hm y).2 (.inl rfl)
  have hn : (y :: itemsOf l).Nodup := hi.nodup_iff.1 (List.nodup_append.1 (nodup t)).2.1
  have hq : y ∉ s.q := fun hq => (List.nodup_append.1 (nodup t)).2.2 y hq y hy rfl
  have hyl : y ∉ itemsOf l := (List.nodup_cons.1 hn).1
  have hyo : ∀ u, u ≠ t → y ∉ itemsOf (s.stk u) := fun u hu h => disj u t y hu h hy
  constructor <;> (try simp only [go])
  · exact hist.one (flive t y hy).1
  · intro u
    by_cases hu : u = t
    · subst hu; rw [upd_self]
      have := nodup u
      rw [List.append_assoc, List.singleton_append]
      exact (List.Perm.nodup_iff (List.Perm.append_left _ hi)).1 this
    · rw [upd_other _ _ hu, List.append_assoc, List.singleton_append, List.perm_middle.nodup_iff, List.nodup_cons]
      exact ⟨by simp [hq, hyo u hu], nodup u⟩
  · clear nodup flive began code fresh out; grind [upd, Live]
  · intro x hx
    have h1 : Live s.log x ∧ (∀ t, Ev.began t x ∉ s.log) ∧ (x = y ∨ Ev.entered x ∈ s.log) := by
      rcases List.mem_append.1 hx with hx | hx
      · exact ⟨(qlive x hx).1, (qlive x hx).2.2, .inr (qlive x hx).2.1⟩
      · simp at hx; subst hx; exact ⟨flive t x hy, fresh t x hy0, .inl rfl⟩
    clear nodup flive began code fresh out; grind [Live]
  · have := flive; clear nodup flive began code fresh out; grind [upd, Live]
  · have := lt; clear nodup flive began code fresh out; grind [upd, Live]
  · have := mb; clear nodup flive began code fresh out; grind [upd, Live]
  · have := began; clear nodup flive began code fresh out; grind [upd, Live]
  · have := code; clear nodup flive began code fresh out; grind [upd, Live]
  · have := fresh; clear nodup flive began code fresh out; grind [upd, Live]
  · have := out; clear nodup flive began code fresh out; grind [upd, Live]
  · intro x hx
    have hx' : ∃ t, Ev.made t x ∈ s.log := by obtain ⟨u, hu⟩ := hx; exact ⟨u, by simpa using hu⟩
    rcases all x hx' with ⟨u, hu⟩ | hq' | ⟨u, hu⟩
    · exact .inl ⟨u, by simp [hu]⟩
    · exact .inr (.inl (by simp [hq']))
    · by_cases hut : u = t
      · subst hut
        rcases (hm x).1 hu with rfl | hl
        · exact .inr (.inl (by simp))
        · exact .inr (.inr ⟨u, by rw [upd_self]; exact hl⟩)
      · exact .inr (.inr ⟨u, by rw [upd_other _ _ hut]; exact hu⟩)
  · intro u; by_cases hu : u = t
    · subst hu; rw [upd_self]; exact hw
    · rw [upd_other _ _ hu]; exact wf u

theorem take {s : State} {t : Tid} {l : List Frame} {k : Option Tid} (hi : itemsOf l = s.q ++ itemsOf (s.stk t)) (hc : ∀ x, Frame.code x ∈ l ↔ Frame.code x ∈ s.stk t) (hf : freshOf l ⊆ s.q ++ freshOf (s.stk t)) (ho : outOf l ⊆ s.q ++ outOf (s.stk t)) (hw : WF l) (h : Inv s) :
    Inv { go s t l [] with q := [], lock := k } := by
  obtain ⟨hist, nodup, disj, qlive, flive, lt, mb, began, code, fresh, out, all, wf⟩ := h
  have hqo : ∀ u, ∀ x ∈ s.q, x ∉ itemsOf (s.stk u) := fun u x hx h => (List.nodup_append.1 (nodup u)).2.2 x hx x h rfl
  constructor <;> (try simp only [go])
  · simpa using hist
  · intro u; by_cases hu : u = t
    · subst hu; rw [upd_self, hi]; simpa using nodup u
    · rw [upd_other _ _ hu]; simpa using (List.nodup_append.1 (nodup u)).2.1
  · clear nodup flive began code fresh out; grind [upd, Live]
  · have := qlive; clear nodup flive began code fresh out; grind [upd, Live]
  · have := flive; clear nodup flive began code fresh out; grind [upd, Live]
  · have := lt; clear nodup flive began code fresh out; grind [upd, Live]
  · have := mb; clear nodup flive began code fresh out; grind [upd, Live]
  · have := began; clear nodup flive began code fresh out; grind [upd, Live]
  · have := code; clear nodup flive began code fresh out; grind [upd, Live]
  · have := fresh; clear nodup flive began code fresh out; grind [upd, Live]
  · have := out; clear nodup flive began code fresh out; grind [upd, Live]
  · intro x hx
    have hx' : ∃ t, Ev.made t x ∈ s.log := by obtain ⟨u, hu⟩ := hx; exact ⟨u, by simpa using hu⟩
    rcases all x hx' with ⟨u, hu⟩ | hq' | ⟨u, hu⟩
    · exact .inl ⟨u, by simp [hu]⟩
    · exact .inr (.inr ⟨t, by rw [upd_self, hi]; simp [hq']⟩)
    · by_cases hut : u = t
      · subst hut
        exact .inr (.inr ⟨u, by rw [upd_self, hi]; simp [hu]⟩)
      · exact .inr (.inr ⟨u, by rw [upd_other _ _ hut]; exact hu⟩)
  · intro u; by_cases hu : u = t
    · subst hu; rw [upd_self]; exact hw
    · rw [upd_other _ _ hu]; exact wf u

theorem starts {s : State} {t : Tid} {l : List Frame} {y : Item} {k : Option Tid} (hi : itemsOf l = itemsOf (s.stk t)) (hyf : y ∈ freshOf (s.stk t)) (hyu : y ∈ outOf (s.stk t)) (hc : ∀ x, Frame.code x ∈ l ↔ x = y ∨ Frame.code x ∈ s.stk t) (hf : ∀ x ∈ freshOf l, x ∈ freshOf (s.stk t) ∧ x ≠ y) (ho : outOf l ⊆ outOf (s.stk t)) (hw : WF l) (h : Inv s) :
    Inv { go s t l [.began t y] with lock := k } := by
  obtain ⟨hist, nodup, disj, qlive, flive, lt, mb, began, code, fresh, out, all, wf⟩ := h
  have hy : y ∈ itemsOf (s.stk t) := freshOf_items hyf
  have hq : y ∉ s.q := fun hq => (List.nodup_append.1 (nodup t)).2.2 y hq y hy rfl
  have hyo : ∀ u, u ≠ t → y ∉ itemsOf (s.stk u) := fun u hu h => disj u t y hu h hy
  have hb := fresh t y hyf
  have hlv := flive t y hy
  have hnd : ∀ u, Ev.done u y ∉ s.log := by
    intro u hd
    obtain ⟨a, b, e⟩ := List.append_of_mem hd
    have := (hist.all a _ b e).1
    exact hb u (by rw [e]; simp [this])
  constructor <;> (try simp only [go])
  · exact hist.one ⟨out t y hyu, fun u => ⟨hb u, hlv.2 u⟩⟩
  · have := nodup; clear nodup flive began code fresh out; grind [upd, Live]
  · clear nodup flive began code fresh out; grind [upd, Live]
  · have := qlive; clear nodup flive began code fresh out; grind [upd, Live]
  · have := flive; clear nodup flive began code fresh out; grind [upd, Live]
  · have := lt; clear nodup flive began code fresh out; grind [upd, Live]
  · have := mb; clear nodup flive began code fresh out; grind [upd, Live]
  · have := began; clear nodup flive began code fresh out; grind [upd, Live]
  · clear nodup flive began fresh out; grind [upd, Live]
  · intro u x hx
    have h1 : x ≠ y ∧ ∀ u, Ev.began u x ∉ s.log := by
      by_cases hu : u = t
      · subst hu; rw [upd_self] at hx; exact ⟨(hf x hx).2, fresh u x (hf x hx).1⟩
      · rw [upd_other _ _ hu] at hx; exact ⟨fun h => hyo u hu (h ▸ freshOf_items hx), fresh u x hx⟩
    intro v; simp [h1.2 v, h1.1]
  · have := out; clear nodup flive began code fresh out; grind [upd, Live]
  · intro x hx
    have hx' : ∃ t, Ev.made t x ∈ s.log := by obtain ⟨u, hu⟩ := hx; exact ⟨u, by simpa using hu⟩
    rcases all x hx' with ⟨u, hu⟩ | hq' | ⟨u, hu⟩
    · exact .inl ⟨u, by simp [hu]⟩
    · exact .inr (.inl hq')
    · by_cases hut : u = t
      · subst hut
        exact .inr (.inr ⟨u, by rw [upd_self, hi]; exact hu⟩)
      · exact .inr (.inr ⟨u, by rw [upd_other _ _ hut]; exact hu⟩)
  · intro u; by_cases hu : u = t
    · subst hu; rw [upd_self]; exact hw
    · rw [upd_other _ _ hu]; exact wf u

theorem returns {s : State} {t : Tid} {l : List Frame} {y : Item} (hi : itemsOf l = itemsOf (s.stk t)) (hs : s.stk t = .code y :: l) (hf : freshOf l ⊆ freshOf (s.stk t)) (ho : outOf l ⊆ outOf (s.stk t)) (hw : WF l) (h : Inv s) :
    Inv (go s t l [.done t y]) := by
  obtain ⟨hist, nodup, disj, qlive, flive, lt, mb, began, code, fresh, out, all, wf⟩ := h
  have hyc : Frame.code y ∈ s.stk t := by simp [hs]
  have hc : ∀ x, Frame.code x ∈ s.stk t ↔ x = y ∨ Frame.code x ∈ l := by simp [hs]
  have hyl : Frame.code y ∉ l := by
    have hn := (List.nodup_append.1 (nodup t)).2.1
    have hw' := wf t
    rw [hs] at hw' hn
    exact code_once hw' hn
  constructor <;> (try simp only [go])
  · exact hist.one (code t y hyc)
  · have := nodup; clear nodup flive began code fresh out; grind [upd, Live]
  · clear nodup flive began code fresh out; grind [upd, Live]
  · have := qlive; clear nodup flive began code fresh out; grind [upd, Live]
  · have := flive; clear nodup flive began code fresh out; grind [upd, Live]
  · have := lt; clear nodup flive began code fresh out; grind [upd, Live]
  · have := mb; clear nodup flive began code fresh out; grind [upd, Live]
  · have := began; clear nodup flive began code fresh out; grind [upd, Live]
  · clear nodup flive began fresh out; grind [upd, Live]
  · have := fresh; clear nodup flive began code fresh out; grind [upd, Live]
  · have := out; clear nodup flive began code fresh out; grind [upd, Live]
  · intro x hx
    have hx' : ∃ t, Ev.made t x ∈ s.log := by obtain ⟨u, hu⟩ := hx; exact ⟨u, by simpa using hu⟩
    rcases all x hx' with ⟨u, hu⟩ | hq' | ⟨u, hu⟩
    · exact .inl ⟨u, by simp [hu]⟩
    · exact .inr (.inl hq')
    · by_cases hut : u = t
      · subst hut
        exact .inr (.inr ⟨u, by rw [upd_self, hi]; exact hu⟩)
      · exact .inr (.inr ⟨u, by rw [upd_other _ _ hut]; exact hu⟩)
  · intro u; by_cases hu : u = t
    · subst hu; rw [upd_self]; exact hw
    · rw [upd_other _ _ hu]; exact wf u

theorem make {s : State} {t : Tid} {l : List Frame} (hi : itemsOf l = s.next :: itemsOf (s.stk t)) (hc : ∀ x, Frame.code x ∈ l ↔ Frame.code x ∈ s.stk t) (hf : freshOf l ⊆ s.next :: freshOf (s.stk t)) (ho : outOf l ⊆ outOf (s.stk t)) (hw : WF l) (h : Inv s) :
    Inv { go s t l [.made t s.next] with next := s.next + 1 } := by
  obtain ⟨hist, nodup, disj, qlive, flive, lt, mb, began, code, fresh, out, all, wf⟩ := h
  have hnm : ∀ u, Ev.made u s.next ∉ s.log := fun u hu => Nat.lt_irrefl _ (lt _ ⟨u, hu⟩)
  have hnb : ∀ u, Ev.began u s.next ∉ s.log := fun u hu => by obtain ⟨v, hv⟩ := mb u _ (.inl hu); exact hnm v hv
  have hnd : ∀ u, Ev.dropped u s.next ∉ s.log := fun u hu => by obtain ⟨v, hv⟩ := mb u _ (.inr hu); exact hnm v hv
  have hno : ∀ u, s.next ∉ itemsOf (s.stk u) := fun u hu => by obtain ⟨v, hv⟩ := (flive u _ hu).1; exact hnm v hv
  have hnq : s.next ∉ s.q := fun hu => by obtain ⟨v, hv⟩ := (qlive _ hu).1.1; exact hnm v hv
  constructor <;> (try simp only [go])
  · exact hist.one hnm
  · intro u
    by_cases hu : u = t
    · subst hu; rw [upd_self, hi, List.perm_middle.nodup_iff, List.nodup_cons]
      exact ⟨by simp [hnq, hno u], nodup u⟩
    · rw [upd_other _ _ hu]; exact nodup u
  · clear nodup flive began code fresh out; grind [upd, Live]
  · have := qlive; clear nodup flive began code fresh out; grind [upd, Live]
  · have := flive; clear nodup flive began code fresh out; grind [upd, Live]
  · rintro x ⟨u, hu⟩
    rcases List.mem_append.1 hu with hu | hu
    · exact Nat.lt_succ_of_lt (lt x ⟨u, hu⟩)
    · simp at hu; rw [hu.2]; exact Nat.lt_succ_self _
  · have := mb; clear nodup flive began code fresh out; grind [upd, Live]
  · have := began; clear nodup flive began code fresh out; grind [upd, Live]
  · have := code; clear nodup flive began code fresh out; grind [upd, Live]
  · have := fresh; clear nodup flive began code fresh out; grind [upd, Live]
  · have := out; clear nodup flive began code fresh out; grind [upd, Live]
  · intro x hx
    have hx' : x = s.next ∨ ∃ t, Ev.made t x ∈ s.log := by
      obtain ⟨u, hu⟩ := hx
      rcases List.mem_append.1 hu with hu | hu
      · exact .inr ⟨u, hu⟩
      · simp at hu; exact .inl hu.2
    rcases hx' with rfl | hx'
    · exact .inr (.inr ⟨t, by rw [upd_self, hi]; simp⟩)
    rcases all x hx' with ⟨u, hu⟩ | hq' | ⟨u, hu⟩
    · exact .inl ⟨u, by simp [hu]⟩
    · exact .inr (.inl hq')
    · by_cases hut : u = t
      · subst hut
        exact .inr (.inr ⟨u, by rw [upd_self, hi]; simp [hu]⟩)
      · exact .inr (.inr ⟨u, by rw [upd_other _ _ hut]; exact hu⟩)
  · intro u; by_cases hu : u = t
    · subst hu; rw [upd_self]; exact hw
    · rw [upd_other _ _ hu]; exact wf u

macro "fr" : tactic => `(tactic| simp_all [Frame.items, Frame.fresh, Frame.out])

theorem go_go (s : State) (t : Tid) (l l' : List Frame) (es es' : List Ev) : go (go s t l es) t l' es' = go s t l' (es ++ es') := by
  simp only [go, List.append_assoc]
  congr 1
  funext u; by_cases h : u = t <;> simp [upd, h]

theorem stepFrame_inv {s s' : State} {t : Tid} {f : Frame} {rest : List Frame} (h : Inv s) (hs : s.stk t = f :: rest)
    (hr : stepFrame s t rest f = some s') : Inv s' := by
  obtain ⟨hb, hw⟩ : Below rest f ∧ WF rest := by have := h.wf t; rw [hs] at this; exact this
  cases f with
  | code x =>
    simp only [stepFrame, Option.some.injEq] at hr; subst hr
    exact returns (by fr) hs (by simp [hs]) (by simp [hs]) hw h
  | dtor x =>
    simp only [stepFrame, Option.some.injEq] at hr; subst hr
    exact keep (c := s.closed) (k := s.lock) (by fr) (by simp [hs]) (by simp [hs]) (by simp [hs]) hw (.inl rfl) h
  | loop k prev =>
    simp only [stepFrame] at hr
    split at hr
    · cases hr
    split at hr
    · simp only [Option.some.injEq] at hr; subst hr
      exact keep (c := s.closed) (k := s.lock) (by cases prev <;> fr) (by simp [hs]) (by simp [hs, Frame.fresh]) (by simp [hs, Frame.out]) ⟨hb, hw⟩ (.inl rfl) h
    split at hr
    · cases hr
    rename_i x q hq
    split at hr
    · simp only [Option.some.injEq] at hr; subst hr
      exact pull hq (by fr) (by simp [hs]) (by simp [hs, Frame.fresh]) (by simp [hs, Frame.out]) ⟨hb, hw⟩ h
    · rename_i y
      simp only [Option.some.injEq] at hr; subst hr
      have h1 := drop (t := t) (l := .loop k none :: rest) (y := y) (c := s.closed) (k := s.lock) (by fr) (by simp [hs]) (by simp [hs, Frame.fresh]) (by simp [hs, Frame.out]) ⟨hb, hw⟩ h
      have h2 := pull (s := { go s t (.loop k none :: rest) [.dropped t y] with closed := s.closed, lock := s.lock }) (t := t) (l := .swap k x :: rest) (y := x) (q := q) (k := some t) hq (by simp [go, Frame.items]) (by simp [go]) (by simp [go, Frame.fresh]) (by simp [go, Frame.out]) ⟨hb, hw⟩ h1
      have h3 := keep (t := t) (l := .dtor y :: .swap k x :: rest) (es := []) (c := s.closed) (k := some t) (by simp [go, Frame.items]) (by simp [go]) (by simp [go, Frame.fresh]) (by simp [go, Frame.out]) ⟨trivial, hb, hw⟩ (.inl rfl) h2
      have e : ∀ (s1 : State), s1 = { go s t (.dtor y :: .swap k x :: rest) [.dropped t y] with q := q, lock := some t } → Inv s1 → Inv { go s t (.dtor y :: .swap k x :: rest) [.dropped t y] with q := q, lock := some t } := fun _ e h => e ▸ h
      refine e _ ?_ h3
      simp only [go, List.append_nil]
      congr 1
      funext u; by_cases h : u = t <;> simp [upd, h]
  | swap k x =>
    simp only [stepFrame, Option.some.injEq] at hr; subst hr
    have hn := (List.nodup_append.1 (h.nodup t)).2.1
    rw [hs] at hn
    have hx : x ∉ freshOf rest := by
      intro hx
      simp only [itemsOf_cons, Frame.items, List.singleton_append, List.nodup_cons] at hn
      exact hn.1 (freshOf_items hx)
    refine starts (y := x) (by fr) (by simp [hs, Frame.fresh]) (by simp [hs, Frame.out]) (by simp [hs]) ?_ (by simp [hs, Frame.out]) ⟨⟨k, rest, rfl⟩, hb, hw⟩ h
    intro z hz
    simp [Frame.fresh] at hz
    exact ⟨by simp [hs, hz], fun e => hx (e ▸ hz)⟩
  | after k x =>
    simp only [stepFrame, Option.some.injEq] at hr; subst hr
    split
    · exact keep (c := s.closed) (k := s.lock) (by fr) (by simp [hs]) (by simp [hs, Frame.fresh]) (by simp [hs, Frame.out]) ⟨hb, hw⟩ (.inl rfl) h
    · exact keep (c := s.closed) (k := s.lock) (by fr) (by simp [hs]) (by simp [hs, Frame.fresh]) (by simp [hs, Frame.out]) ⟨hb, hw⟩ (.inl rfl) h
  | ending prev =>
    simp only [stepFrame] at hr
    split at hr
    · rename_i x
      simp only [Option.some.injEq] at hr; subst hr
      exact drop (y := x) (c := s.closed) (k := s.lock) (by fr) (by simp [hs]) (by simp [hs, Frame.fresh]) (by simp [hs, Frame.out]) ⟨trivial, hb, hw⟩ h
    · simp only [Option.some.injEq] at hr; subst hr
      exact keep (c := s.closed) (k := s.lock) (by fr) (by simp [hs]) (by simp [hs, Frame.fresh]) (by simp [hs, Frame.out]) hw (.inr (.inr rfl)) h
  | push1 x =>
    simp only [stepFrame] at hr
    split at hr
    · simp only [Option.some.injEq] at hr; subst hr
      exact drop (y := x) (c := s.closed) (k := s.lock) (by fr) (by simp [hs]) (by simp [hs, Frame.fresh]) (by simp [hs, Frame.out]) ⟨trivial, hw⟩ h
    · simp only [Option.some.injEq] at hr; subst hr
      exact keep (c := s.closed) (k := s.lock) (by fr) (by simp [hs]) (by simp [hs, Frame.fresh]) (by simp [hs, Frame.out]) ⟨hb, hw⟩ (.inl rfl) h
  | push2 x =>
    simp only [stepFrame] at hr
    split at hr
    · cases hr
    · simp only [Option.some.injEq] at hr; subst hr
      exact put (y := x) (by fr) (by simp [hs, Frame.fresh]) (by simp [hs]) (by simp [hs, Frame.fresh]) (by simp [hs, Frame.out]) hw h
  | size =>
    simp only [stepFrame] at hr
    split at hr
    · cases hr
    · simp only [Option.some.injEq] at hr; subst hr
      exact keep (c := s.closed) (k := s.lock) (by fr) (by simp [hs]) (by simp [hs, Frame.fresh]) (by simp [hs, Frame.out]) hw (.inl rfl) h
  | clear =>
    simp only [stepFrame] at hr
    split at hr
    · cases hr
    · simp only [Option.some.injEq] at hr; subst hr
      exact take (by fr) (by simp [hs]) (by simp [hs, Frame.fresh]) (by simp [hs, Frame.out]) ⟨hb, hw⟩ h
  | clearing xs =>
    simp only [stepFrame] at hr
    split at hr
    · rename_i x xs
      simp only [Option.some.injEq] at hr; subst hr
      exact drop (y := x) (c := s.closed) (k := s.lock) (by fr) (by simp [hs]) (by simp [hs, Frame.fresh]) (by simp [hs, Frame.out]) ⟨trivial, hb, hw⟩ h
    · simp only [Option.some.injEq] at hr; subst hr
      exact keep (c := s.closed) (k := none) (by fr) (by simp [hs]) (by simp [hs, Frame.fresh]) (by simp [hs, Frame.out]) hw (.inl rfl) h

theorem canCall_below {s : State} {t : Tid} (h : canCall s t = true) {f : Frame} (hf : f.isUser = false) : Below (s.stk t) f := by
  have hb : ∀ g r, s.stk t = g :: r → g.isUser = true := by
    intro g r e; rw [canCall, e] at h; exact h
  cases f <;> first | exact hb | cases hf

theorem callStep_inv {s : State} {t : Tid} (c : Call) (h : Inv s) (hc : canCall s t = true) : Inv (callStep s t c) := by
  have hw := h.wf t
  have hb := fun f hf => canCall_below (f := f) hc hf
  cases c with
  | async =>
    simp only [callStep]
    have h1 := make (t := t) (l := .push1 s.next :: s.stk t) (by simp [Frame.items]) (by simp) (by simp [Frame.fresh]) (by simp [Frame.out]) ⟨hb (.push1 s.next) rfl, hw⟩ h
    split
    · have h2 := drop (t := t) (l := .dtor s.next :: s.stk t) (y := s.next) (c := s.closed) (k := s.lock) (by simp [go, Frame.items]) (by simp [go]) (by simp [go, Frame.fresh]) (by simp [go, Frame.out]) ⟨trivial, hw⟩ h1
      have e : ∀ (s1 s2 : State), s1 = s2 → Inv s1 → Inv s2 := fun _ _ e h => e ▸ h
      refine e _ _ ?_ h2
      simp only [go, List.append_assoc]
      congr 1
      funext u; by_cases h : u = t <;> simp [upd, h]
    · exact h1
  | size =>
    exact keep (c := s.closed) (k := s.lock) (by simp [Frame.items]) (by simp) (by simp [Frame.fresh]) (by simp [Frame.out]) ⟨hb _ rfl, hw⟩ (.inl rfl) h
  | stop =>
    simp only [callStep]
    split
    · exact h
    · exact keep (c := true) (k := s.lock) (by simp [Frame.items]) (by simp) (by simp [Frame.fresh]) (by simp [Frame.out]) ⟨hb _ rfl, hw⟩ (.inl rfl) h
  | reuse =>
    obtain ⟨hist, nodup, disj, qlive, flive, lt, mb, began, code, fresh, out, all, wf⟩ := h
    exact ⟨hist, nodup, disj, qlive, flive, lt, mb, began, code, fresh, out, all, wf⟩
  | run k =>
    exact keep (c := s.closed) (k := s.lock) (by simp [Frame.items]) (by simp) (by simp [Frame.fresh]) (by simp [Frame.out]) ⟨hb _ rfl, hw⟩ (.inr (.inl rfl)) h

theorem step_inv {s s' : State} {a : Act} (h : Inv s) (hr : step s a = some s') : Inv s' := by
  cases a with
  | call t c =>
    simp only [step] at hr
    split at hr
    · rename_i hc; cases hr; exact callStep_inv c h hc
    · cases hr
  | step t =>
    simp only [step] at hr
    split at hr
    · cases hr
    · rename_i f rest hs; exact stepFrame_inv h hs hr
  | timeout t =>
    simp only [step] at hr
    split at hr
    · rename_i k prev rest hs
      have hw := h.wf t
      rw [hs] at hw
      split at hr
      · cases hr
      · cases hr
        exact keep (c := s.closed) (k := s.lock) (by cases prev <;> fr) (by simp [hs]) (by simp [hs, Frame.fresh]) (by simp [hs, Frame.out]) ⟨hw.1, hw.2⟩ (.inl rfl) h
    · cases hr

theorem run_ind {P : State → Prop} (hP : ∀ s a s', P s → step s a = some s' → P s') {as : List Act} : ∀ {s s' : State}, P s → run s as = some s' → P s' := by
  induction as with
  | nil => intro s s' h hr; cases hr; exact h
  | cons a as ih =>
    intro s s' h hr
    simp only [run, Option.bind_eq_some_iff] at hr
    obtain ⟨s1, h1, h2⟩ := hr
    exact ih (hP s a s1 h h1) h2

theorem run_inv {as : List Act} {s : State} (h : run init as = some s) : Inv s := run_ind (fun _ _ _ => step_inv) Inv_init h

end Maf.Drop
