import Verif.Props.StringBufSpec

namespace Maf.SBuf

/-- The buffer implements the file. -/
structure Rel (b : Buf) (f : File) : Prop where
  ub : b.ub = false
  cr : f.canRead = !b.mode.noread
  cw : f.canWrite = !b.mode.constant
  ate : f.ate = b.mode.atend
  al : b.alloc = !f.text.isEmpty
  gs : b.g.isSome = (f.canRead && !f.text.isEmpty)
  ps : b.p.isSome = (f.canWrite && !f.text.isEmpty)
  gv : f.g = b.g.getD 0
  pv : f.p = b.p.getD 0
  gl : f.g ≤ f.text.length
  pl : f.p ≤ f.text.length
  cells : b.cells.take f.text.length = f.text.map some
  len : f.text.length ≤ b.cells.length
  max : b.cells.length ≤ intMax
  none : f.text = [] → b.cells = []
  top : f.text.length = Nat.max f.p b.high
  gel : b.ge ≤ f.text.length
  ro : f.canWrite = false → b.ge = f.text.length ∧ b.cells.length = f.text.length
  nn : f.canRead = false → f.canWrite = false → f.text = []

theorem Rel.read {b : Buf} {f : File} (h : Rel b f) {i : Nat} (hi : i < f.text.length) : b.read i = (f.text[i], b) := by
  have h1 : (b.cells.take f.text.length)[i]? = (f.text.map some)[i]? := by rw [h.cells]
  rw [List.getElem?_take_of_lt hi] at h1
  simp only [List.getElem?_map, List.getElem?_eq_getElem hi, Option.map_some] at h1
  unfold Buf.read
  rw [h1]

theorem ge_some {b : Buf} {i : Nat} (h : b.g = some i) : b.g.getD 0 = i ∧ b.g.isSome = true := by rw [h]; simp

/-- a buffer without text -/
theorem rel_empty (m : Mode) : Rel (Buf.blank m) ⟨!m.noread, !m.constant, m.atend, [], 0, 0⟩ := by
  constructor <;> simp [Buf.blank]

theorem rel_fill {b : Buf} {f : File} (hm : f.canRead = !b.mode.noread ∧ f.canWrite = !b.mode.constant ∧ f.ate = b.mode.atend)
    (hb : b.alloc = false ∧ b.cells = [] ∧ b.g = Option.none ∧ b.ge = 0 ∧ b.p = Option.none ∧ b.ub = false) {s : List Nat} (hs : s.length ≤ intMax) :
    Rel (b.fill s b.mode) (f.fill s) := by
  obtain ⟨h1, h2, h3⟩ := hm
  obtain ⟨b1, b2, b3, b4, b5, b6⟩ := hb
  unfold Buf.fill File.fill
  cases hr : b.mode.noread <;> cases hc : b.mode.constant <;> cases ha : b.mode.atend <;> cases s with
    | nil => constructor <;> simp_all
    | cons x s =>
      constructor <;> simp_all
      try (rw [List.take_of_length_le]; simp)

theorem rel_tidy {b : Buf} {f : File} (h : Rel b f) :
    (b.tidy.alloc = false ∧ b.tidy.cells = [] ∧ b.tidy.g = Option.none ∧ b.tidy.ge = 0 ∧ b.tidy.p = Option.none ∧ b.tidy.ub = false) ∧ b.tidy.mode = b.mode := by
  refine ⟨⟨rfl, rfl, rfl, rfl, rfl, ?_⟩, rfl⟩
  show (b.ub || (b.alloc && (if b.p.isSome then b.cells.length else b.ge) != b.cells.length)) = false
  rw [h.ub, h.al, h.ps]
  cases he : f.text.isEmpty with
  | true => rfl
  | false =>
    cases hw : f.canWrite with
    | true => simp
    | false => have := h.ro hw; simp [this]

theorem rel_setStr {b : Buf} {f : File} (h : Rel b f) (s : List Nat) :
    (step b (.setStr s)).1 = (f.step (.setStr s)).1 ∧ Rel (step b (.setStr s)).2 (f.step (.setStr s)).2 := by
  obtain ⟨ht, hm⟩ := rel_tidy h
  have hmm : f.canRead = !b.tidy.mode.noread ∧ f.canWrite = !b.tidy.mode.constant ∧ f.ate = b.tidy.mode.atend := by
    rw [hm]; exact ⟨h.cr, h.cw, h.ate⟩
  simp only [step, File.step, setStr]
  by_cases hs : s.length > intMax
  · rw [if_pos hs, if_pos hs]
    refine ⟨rfl, ?_⟩
    have := rel_fill hmm ht (s := []) (by simp [intMax])
    have e : b.tidy.fill [] b.tidy.mode = b.tidy := by
      unfold Buf.fill; simp [Buf.tidy]
    rw [e] at this; exact this
  · rw [if_neg hs, if_neg hs]
    refine ⟨rfl, ?_⟩
    have := rel_fill hmm ht (s := s) (by omega)
    rw [hm] at this; exact this

theorem take_set_some {cells : List (Option Nat)} {t : List Nat} (h : cells.take t.length = t.map some) {i c : Nat} (hi : i ≤ t.length) (hl : i < cells.length)
    (hlen : t.length ≤ cells.length) :
    (cells.set i (some c)).take (overwrite t i c).length = (overwrite t i c).map some := by
  apply List.ext_getElem?
  intro j
  have hol : (overwrite t i c).length = Nat.max t.length (i + 1) := by
    simp [overwrite]; simp only [Nat.max_def]; split <;> omega
  have hget : (overwrite t i c)[j]? = if j = i then some c else t[j]? := by
    unfold overwrite
    rcases Nat.lt_trichotomy j i with hj | hj | hj
    · rw [List.getElem?_append_left (by simp; omega), List.getElem?_take_of_lt hj, if_neg (by omega)]
    · subst hj; rw [if_pos rfl, List.getElem?_append_right (by simp; omega)]; simp only [List.length_take, Nat.min_eq_left hi, Nat.sub_self, List.getElem?_cons_zero]
    · rw [if_neg (by omega), List.getElem?_append_right (by simp; omega)]
      simp only [List.length_take, Nat.min_eq_left hi]
      obtain ⟨k, rfl⟩ : ∃ k, j = i + 1 + k := ⟨j - i - 1, by omega⟩
      have : i + 1 + k - i = k + 1 := by omega
      rw [this, List.getElem?_cons_succ, List.getElem?_drop]
  rw [List.getElem?_map, hget, List.getElem?_take, hol]
  have hcell : ∀ k, k < t.length → cells[k]? = (t[k]?).map some := by
    intro k hk
    have : (cells.take t.length)[k]? = (t.map some)[k]? := by rw [h]
    rw [List.getElem?_take_of_lt hk, List.getElem?_map] at this; exact this
  by_cases hj : j = i
  · subst hj
    simp only [if_true, Option.map_some]
    rw [if_pos (by simp only [Nat.max_def]; split <;> omega), List.getElem?_set_self hl]
  · rw [if_neg hj, List.getElem?_set_ne (Ne.symm hj)]
    by_cases hjt : j < t.length
    · rw [if_pos (by simp only [Nat.max_def]; split <;> omega), hcell j hjt]
    · rw [if_neg (by simp only [Nat.max_def]; split <;> omega), List.getElem?_eq_none (by omega)]; rfl

theorem overwrite_length {t : List Nat} {i : Nat} (c : Nat) (hi : i ≤ t.length) : (overwrite t i c).length = Nat.max t.length (i + 1) := by
  simp [overwrite]; simp only [Nat.max_def]; split <;> omega

theorem overwrite_ne (t : List Nat) (i c : Nat) : overwrite t i c ≠ [] := by simp [overwrite]

theorem store_rel {b : Buf} {i c : Nat} (hi : i < b.cells.length) : b.store i c = { b with cells := b.cells.set i (some c) } := by
  unfold Buf.store; rw [if_pos hi]

theorem rel_put {b : Buf} {f : File} (h : Rel b f) (c : Nat) :
    (step b (.put c)).1 = (f.step (.put c)).1 ∧ Rel (step b (.put c)).2 (f.step (.put c)).2 := by
  simp only [step, File.step, sputc]
  rcases Bool.eq_false_or_eq_true f.canWrite with hw | hw
  rotate_left
  ·
    have hp : b.p.isSome = false := by rw [h.ps, hw]; rfl
    have hcst : b.mode.constant = true := by have := h.cw; rw [hw] at this; simpa using this
    rw [if_neg (by simp [hp]), if_neg (by simp [hw])]
    simp only [overflow, hcst, if_true]
    exact ⟨trivial, h⟩
  ·
    have hcst : b.mode.constant = false := by have := h.cw; rw [hw] at this; simpa using this
    have hpl := h.pl; have hlen := h.len; have hpv := h.pv; have hmax := h.max; have htop := h.top
    have hcr := h.cr
    by_cases hroom : b.p.isSome = true ∧ b.p.getD 0 < b.cells.length
    · have hlt : f.p < f.text.length ∨ f.text.length < intMax := by
        rcases Nat.lt_or_ge f.p f.text.length with h1 | h1
        · exact .inl h1
        · right; have := hroom.2; omega
      rw [if_pos hroom, if_pos ⟨hw, hlt⟩]
      refine ⟨rfl, ?_⟩
      rw [← hpv] at hroom ⊢
      rw [store_rel hroom.2]
      have hol := overwrite_length (t := f.text) c hpl
      have hne := overwrite_ne f.text f.p c
      have htne : f.text ≠ [] := by
        intro he; have := h.ps; rw [he] at this; rw [hroom.1] at this; simp at this
      have hie : f.text.isEmpty = false := by cases ht : f.text with | nil => exact absurd ht htne | cons => rfl
      have hie' : (overwrite f.text f.p c).isEmpty = false := by cases ht : overwrite f.text f.p c with | nil => exact absurd ht hne | cons => rfl
      constructor
      · exact h.ub
      · exact h.cr
      · exact h.cw
      · exact h.ate
      · have := h.al; rw [hie] at this; rw [hie']; exact this
      · have := h.gs; rw [hie] at this; rw [hie']; exact this
      · show true = (f.canWrite && !(overwrite f.text f.p c).isEmpty); rw [hie', hw]; rfl
      · exact h.gv
      · rfl
      · show f.g ≤ (overwrite f.text f.p c).length
        rw [hol]; have := h.gl; exact Nat.le_trans this (Nat.le_max_left _ _)
      · show f.p + 1 ≤ (overwrite f.text f.p c).length
        rw [hol]; exact Nat.le_max_right _ _
      · exact take_set_some h.cells hpl hroom.2 hlen
      · show (overwrite f.text f.p c).length ≤ (b.cells.set f.p (some c)).length
        rw [hol, List.length_set]; exact Nat.max_le.2 ⟨hlen, hroom.2⟩
      · show (b.cells.set f.p (some c)).length ≤ intMax
        rw [List.length_set]; exact hmax
      · exact fun he => absurd he hne
      · show (overwrite f.text f.p c).length = Nat.max (f.p + 1) b.high
        rw [hol, htop]; simp only [Nat.max_def]; split <;> split <;> split <;> omega
      · show b.ge ≤ (overwrite f.text f.p c).length
        rw [hol]; exact Nat.le_trans h.gel (Nat.le_max_left _ _)
      · intro hx; have : f.canWrite = false := hx; rw [hw] at this; cases this
      · intro _ hx; have : f.canWrite = false := hx; rw [hw] at this; cases this
    · rw [if_neg hroom]
      simp only [overflow, hcst, Bool.false_eq_true, if_false]
      rw [if_neg hroom]
      -- no room: writing at the end of a full array
      have hold : (if b.p.isSome = true then b.cells.length else 0) = b.cells.length ∧ f.p = b.cells.length ∧ f.text.length = b.cells.length := by
        cases hps : b.p.isSome with
        | true =>
          have : ¬ b.p.getD 0 < b.cells.length := fun hx => hroom ⟨hps, hx⟩
          rw [if_pos rfl]; omega
        | false =>
          have hte : f.text = [] := by
            have := h.ps; rw [hps, hw] at this; simpa using this.symm
          have hce := h.none hte
          rw [hte] at hpl
          simp [hce, hte] at hpl ⊢; exact hpl
      obtain ⟨ho, hp1, hp2⟩ := hold
      rw [ho]
      by_cases hfull : f.text.length < intMax
      · obtain ⟨n, hn, hn1, hn2⟩ : ∃ n, newSize b.cells.length = some n ∧ b.cells.length < n ∧ n ≤ intMax := by
          unfold newSize minSize
          rw [hp2] at hfull
          by_cases h1 : b.cells.length < 32
          · exact ⟨32, if_pos h1, h1, by simp [intMax]⟩
          · rw [if_neg h1]
            by_cases h2 : b.cells.length < intMax / 2
            · rw [if_pos h2]; exact ⟨_, rfl, by omega, by omega⟩
            · rw [if_neg h2, if_pos hfull]; exact ⟨_, rfl, hfull, Nat.le_refl _⟩
        rw [if_pos ⟨hw, .inr hfull⟩, hn]
        refine ⟨rfl, ?_⟩
        have hov : overwrite f.text f.p c = f.text ++ [c] := by
          unfold overwrite
          rw [hp1, ← hp2, List.take_of_length_le (Nat.le_refl _), List.drop_of_length_le (by omega)]
        have hcells : b.cells = f.text.map some := by
          have := h.cells; rw [hp2, List.take_of_length_le (Nat.le_refl _)] at this; exact this
        have htk : b.cells.take b.cells.length = f.text.map some := by rw [List.take_of_length_le (Nat.le_refl _)]; exact hcells
        simp only [hov]
        unfold Buf.grow
        have hie : (f.text ++ [c]).isEmpty = false := by cases f.text <;> rfl
        constructor
        · show (b.ub || (b.alloc && b.cells.length != b.cells.length)) = false
          rw [h.ub]; simp
        · exact h.cr
        · exact h.cw
        · exact h.ate
        · rw [hie]; rfl
        · rw [hie]
          show (if b.mode.noread = true then Option.none else some (b.g.getD 0)).isSome = (f.canRead && true)
          rw [hcr]; cases b.mode.noread <;> rfl
        · show true = (f.canWrite && !(f.text ++ [c]).isEmpty); rw [hie, hw]; rfl
        · show f.g = (if b.mode.noread = true then Option.none else some (b.g.getD 0)).getD 0
          have hgs := h.gs
          cases hnr : b.mode.noread with
          | false => exact h.gv
          | true =>
            rw [hcr, hnr] at hgs
            have hg0 : b.g = Option.none := by simpa using hgs
            rw [h.gv, hg0]; rfl
        · show f.p + 1 = b.cells.length + 1; omega
        · show f.g ≤ (f.text ++ [c]).length
          have := h.gl; simp; omega
        · show f.p + 1 ≤ (f.text ++ [c]).length
          simp; omega
        · show (b.cells.take b.cells.length ++ some c :: List.replicate (n - b.cells.length - 1) Option.none).take (f.text ++ [c]).length = (f.text ++ [c]).map some
          rw [htk]
          have : f.text.map some ++ some c :: List.replicate (n - b.cells.length - 1) Option.none = (f.text ++ [c]).map some ++ List.replicate (n - b.cells.length - 1) Option.none := by simp
          rw [this, List.take_append_of_le_length (by simp), List.take_of_length_le (by simp)]
        · show (f.text ++ [c]).length ≤ (b.cells.take b.cells.length ++ some c :: List.replicate (n - b.cells.length - 1) Option.none).length
          rw [htk]; simp
        · show (b.cells.take b.cells.length ++ some c :: List.replicate (n - b.cells.length - 1) Option.none).length ≤ intMax
          rw [htk]; simp; omega
        · intro he; exact absurd he (by simp)
        · show (f.text ++ [c]).length = Nat.max (f.p + 1) (b.cells.length + 1)
          simp only [List.length_append, List.length_singleton, Nat.max_def]; split <;> omega
        · show (if b.mode.noread = true then 0 else b.cells.length + 1) ≤ (f.text ++ [c]).length
          simp only [List.length_append, List.length_singleton]; split <;> omega
        · intro hx; have : f.canWrite = false := hx; rw [hw] at this; cases this
        · intro _ hx; have : f.canWrite = false := hx; rw [hw] at this; cases this
      · have hn : newSize b.cells.length = Option.none := by
          unfold newSize minSize
          rw [hp2] at hfull
          have h1 : ¬ b.cells.length < 32 := by simp only [intMax] at hfull; omega
          have h2 : ¬ b.cells.length < intMax / 2 := by simp only [intMax] at hfull ⊢; omega
          rw [if_neg h1, if_neg h2, if_neg hfull]
        rw [if_neg (by rintro ⟨-, h1 | h1⟩ <;> omega), hn]
        exact ⟨rfl, h⟩

theorem Rel.empty_iff {b : Buf} {f : File} (_ : Rel b f) : f.text.isEmpty = true ↔ f.text = [] := by simp

theorem g_none {b : Buf} {f : File} (h : Rel b f) (hg : b.g = Option.none) : f.g = 0 ∧ (f.canRead = true → f.text = []) := by
  refine ⟨by rw [h.gv, hg]; rfl, fun hr => ?_⟩
  have := h.gs; rw [hg, hr] at this; simpa using this.symm

theorem g_some {b : Buf} {f : File} (h : Rel b f) {i : Nat} (hg : b.g = some i) : f.g = i ∧ f.canRead = true ∧ f.text ≠ [] := by
  refine ⟨by rw [h.gv, hg]; rfl, ?_⟩
  have := h.gs; rw [hg] at this; simp at this
  exact ⟨this.1.symm ▸ rfl, this.2⟩

theorem peek_eq {b : Buf} {f : File} (h : Rel b f) {i : Nat} (hi : i < f.text.length) : b.peek i = (f.text[i]?, b) := by
  unfold Buf.peek; rw [h.read hi, List.getElem?_eq_getElem hi]

/-- raising the high-water mark and the end of the get area -/
theorem rel_raise {b : Buf} {f : File} (h : Rel b f) {n : Nat} (hn : n = f.text.length) (hp : b.p.isSome = true) : Rel { b with high := n, ge := n } f := by
  subst hn
  have hw : f.canWrite = true := by have := h.ps; rw [hp] at this; simp at this; exact this.1
  have := h.pl
  refine ⟨h.ub, h.cr, h.cw, h.ate, h.al, h.gs, h.ps, h.gv, h.pv, h.gl, h.pl, h.cells, h.len, h.max, h.none, ?_, Nat.le_refl _, ?_, ?_⟩
  · show f.text.length = Nat.max f.p f.text.length
    simp only [Nat.max_def]; split <;> omega
  · intro hx; rw [hw] at hx; cases hx
  · intro _ hx; rw [hw] at hx; cases hx

theorem sgetc_eq {b : Buf} {f : File} (h : Rel b f) :
    (sgetc b).1 = (if f.canRead = true then f.text[f.g]? else Option.none) ∧ Rel (sgetc b).2 f ∧ (sgetc b).2.g = b.g := by
  unfold sgetc
  cases hg : b.g with
  | none =>
    obtain ⟨h1, h2⟩ := g_none h hg
    simp only [underflow, hg]
    refine ⟨?_, h, trivial⟩
    by_cases hr : f.canRead = true
    · rw [if_pos hr, h2 hr]; rfl
    · rw [if_neg hr]
  | some i =>
    obtain ⟨rfl, hr, hne⟩ := g_some h hg
    rw [if_pos hr]
    have hgel := h.gel
    simp only [underflow, hg]
    by_cases hi : f.g < b.ge
    · rw [if_pos hi, peek_eq h (by omega)]; exact ⟨rfl, h, hg⟩
    · rw [if_neg hi, if_neg hi]
      cases hp : b.p with
      | none =>
        have hw : f.canWrite = false := by
          have := h.ps; rw [hp] at this; simp at this
          cases hc : f.canWrite with
          | false => rfl
          | true => exact absurd (this hc) hne
        have := (h.ro hw).1
        refine ⟨?_, h, hg⟩
        rw [List.getElem?_eq_none (by omega)]
      | some p =>
        have hnr : b.mode.noread = false := by have := h.cr; rw [hr] at this; simpa using this.symm
        have htop : b.top p = f.text.length := by
          have h1 := h.top; have h2 := h.pv; rw [hp] at h2; simp at h2; subst h2
          exact h1.symm
        simp only [hnr, Bool.false_eq_true, if_false, htop]
        by_cases hl : f.text.length ≤ f.g
        · rw [if_pos hl, List.getElem?_eq_none hl]; exact ⟨rfl, h, hg⟩
        · rw [if_neg hl]
          have hR := rel_raise h (n := f.text.length) rfl (by rw [hp]; rfl)
          simp only [hg, hp] at hR
          rw [peek_eq hR (by omega)]
          exact ⟨rfl, hR, rfl⟩

theorem rel_peek {b : Buf} {f : File} (h : Rel b f) :
    (step b .peek).1 = (f.step .peek).1 ∧ Rel (step b .peek).2 (f.step .peek).2 := by
  obtain ⟨h1, h2, -⟩ := sgetc_eq h
  exact ⟨by simp only [step, File.step, h1], h2⟩

/-- moving the read position -/
theorem rel_g {b : Buf} {f : File} (h : Rel b f) {i : Nat} (hg : b.g.isSome = true) (hi : i ≤ f.text.length) : Rel { b with g := some i } { f with g := i } := by
  refine ⟨h.ub, h.cr, h.cw, h.ate, h.al, ?_, h.ps, rfl, h.pv, hi, h.pl, h.cells, h.len, h.max, h.none, h.top, h.gel, h.ro, h.nn⟩
  have := h.gs; rw [hg] at this; exact this

theorem rel_get {b : Buf} {f : File} (h : Rel b f) :
    (step b .get).1 = (f.step .get).1 ∧ Rel (step b .get).2 (f.step .get).2 := by
  obtain ⟨h1, h2, h3⟩ := sgetc_eq h
  simp only [step, File.step, sbumpc]
  cases hs : sgetc b with
  | mk o b' =>
    rw [hs] at h1 h2 h3
    simp only at h1 h2 h3
    by_cases hc : f.canRead = true ∧ f.g < f.text.length
    · rw [if_pos hc]
      rw [if_pos hc.1, List.getElem?_eq_getElem hc.2] at h1
      subst h1
      have hgs : b'.g.isSome = true := by
        rw [h3, h.gs, hc.1]
        have : f.text ≠ [] := by intro he; rw [he] at hc; exact absurd hc.2 (by simp)
        cases ht : f.text with
        | nil => exact absurd ht this
        | cons => rfl
      obtain ⟨i, hi⟩ := Option.isSome_iff_exists.1 hgs
      obtain ⟨e1, -, -⟩ := g_some h2 hi
      refine ⟨by simp only [List.getElem?_eq_getElem hc.2], ?_⟩
      have := rel_g h2 hgs (i := f.g + 1) (by omega)
      simp only [hi, Option.map_some]
      rw [← e1]; exact this
    · rw [if_neg hc]
      have ho : o = Option.none := by
        rw [h1]
        by_cases hr : f.canRead = true
        · rw [if_pos hr, List.getElem?_eq_none (by
            rcases Nat.lt_or_ge f.g f.text.length with hx | hx
            · exact absurd ⟨hr, hx⟩ hc
            · exact hx)]
        · rw [if_neg hr]
      subst ho
      exact ⟨rfl, h2⟩

theorem rel_unget {b : Buf} {f : File} (h : Rel b f) :
    (step b .unget).1 = (f.step .unget).1 ∧ Rel (step b .unget).2 (f.step .unget).2 := by
  simp only [step, File.step, sungetc]
  have hgl := h.gl
  cases hg : b.g with
  | none =>
    obtain ⟨h1, h2⟩ := g_none h hg
    rw [if_neg (by rw [h1]; simp)]
    simp only [pbackfail, hg]
    exact ⟨trivial, h⟩
  | some i =>
    obtain ⟨rfl, hr, hne⟩ := g_some h hg
    cases hi : f.g with
    | zero =>
      rw [hi] at hg
      rw [if_neg (by simp)]
      simp only [pbackfail, hg]
      exact ⟨trivial, h⟩
    | succ i =>
      rw [if_pos ⟨hr, by omega⟩]
      have hR := rel_g h (i := i) (by rw [hg]; rfl) (by omega)
      simp only [Nat.add_sub_cancel]
      rw [peek_eq hR (show i < f.text.length by omega)]
      exact ⟨rfl, hR⟩

theorem overwrite_same {t : List Nat} {i c : Nat} (h : t[i]? = some c) : overwrite t i c = t := by
  unfold overwrite
  have hi : i < t.length := by
    rcases Nat.lt_or_ge i t.length with h1 | h1
    · exact h1
    · rw [List.getElem?_eq_none h1] at h; cases h
  rw [List.getElem?_eq_getElem hi] at h
  cases h
  rw [List.getElem_cons_drop, List.take_append_drop]

theorem rel_putback {b : Buf} {f : File} (h : Rel b f) (c : Nat) :
    (step b (.putback c)).1 = (f.step (.putback c)).1 ∧ Rel (step b (.putback c)).2 (f.step (.putback c)).2 := by
  simp only [step, File.step, sputbackc]
  have hgl := h.gl
  cases hg : b.g with
  | none =>
    obtain ⟨h1, h2⟩ := g_none h hg
    rw [if_neg (by rw [h1]; simp)]
    simp only [pbackfail, hg]
    exact ⟨trivial, h⟩
  | some i =>
    obtain ⟨rfl, hr, hne⟩ := g_some h hg
    cases hi : f.g with
    | zero =>
      rw [hi] at hg
      rw [if_neg (by simp)]
      simp only [pbackfail, hg]
      exact ⟨trivial, h⟩
    | succ i =>
      rw [hi] at hg hgl
      have hlt : i < f.text.length := by omega
      have hR := rel_g h (i := i) (by rw [hg]; rfl) (by omega)
      have hget : f.text[i]? = some f.text[i] := List.getElem?_eq_getElem hlt
      simp only [Nat.add_sub_cancel, h.read hlt]
      by_cases hsame : f.text[i] = c
      · rw [if_pos hsame, if_pos ⟨hr, by omega, .inr (by rw [hget, hsame])⟩]
        rw [overwrite_same (by rw [hget, hsame])]
        exact ⟨rfl, hR⟩
      · rw [if_neg hsame]
        simp only [pbackfail, hg, h.read hlt]
        have hb : (f.text[i] != c) = true := by simp [hsame]
        cases hcst : b.mode.constant with
        | true =>
          have hw : f.canWrite = false := by rw [h.cw, hcst]; rfl
          simp only [hb, Bool.and_self, if_true]
          rw [if_neg (by rw [hget]; simp [hw, hsame])]
          exact ⟨rfl, h⟩
        | false =>
          have hw : f.canWrite = true := by rw [h.cw, hcst]; rfl
          simp only [Bool.and_false, Bool.false_eq_true, if_false]
          rw [if_pos ⟨hr, by omega, .inl hw⟩]
          refine ⟨rfl, ?_⟩
          have hlc : i < b.cells.length := by have := h.len; omega
          rw [store_rel hlc]
          have hol := overwrite_length (t := f.text) c (Nat.le_of_lt hlt)
          have hol2 : (overwrite f.text i c).length = f.text.length := by
            rw [hol]; simp only [Nat.max_def]; split <;> omega
          have hie' : (overwrite f.text i c).isEmpty = f.text.isEmpty := by
            have := overwrite_ne f.text i c
            cases ht : overwrite f.text i c with
            | nil => exact absurd ht this
            | cons => cases hf : f.text with
              | nil => exact absurd hf hne
              | cons => rfl
          constructor
          · exact h.ub
          · exact h.cr
          · exact h.cw
          · exact h.ate
          · show b.alloc = !(overwrite f.text i c).isEmpty; rw [hie']; exact h.al
          · show true = (f.canRead && !(overwrite f.text i c).isEmpty); rw [hie', ← h.gs, hg]; rfl
          · show b.p.isSome = (f.canWrite && !(overwrite f.text i c).isEmpty); rw [hie']; exact h.ps
          · rfl
          · exact h.pv
          · show i ≤ (overwrite f.text i c).length; omega
          · show f.p ≤ (overwrite f.text i c).length; rw [hol2]; exact h.pl
          · exact take_set_some h.cells (Nat.le_of_lt hlt) hlc h.len
          · show (overwrite f.text i c).length ≤ (b.cells.set i (some c)).length
            rw [hol2, List.length_set]; exact h.len
          · show (b.cells.set i (some c)).length ≤ intMax
            rw [List.length_set]; exact h.max
          · exact fun he => absurd he (overwrite_ne f.text i c)
          · show (overwrite f.text i c).length = _; rw [hol2]; exact h.top
          · show b.ge ≤ (overwrite f.text i c).length; rw [hol2]; exact h.gel
          · intro hx; have : f.canWrite = false := hx; rw [hw] at this; cases this
          · intro _ hx; have : f.canWrite = false := hx; rw [hw] at this; cases this

theorem rel_str {b : Buf} {f : File} (h : Rel b f) :
    (step b .str).1 = (f.step .str).1 ∧ Rel (step b .str).2 (f.step .str).2 := by
  refine ⟨?_, h⟩
  simp only [step, File.step, getStr]
  congr 1
  cases he : f.text.isEmpty with
  | true =>
    have ht : f.text = [] := by simpa using he
    have h1 : b.p.isSome = false := by rw [h.ps, he]; simp
    have h2 : b.g.isSome = false := by rw [h.gs, he]; simp
    rw [h1, h2, ht]; simp
  | false =>
    have hne : f.text ≠ [] := by intro hx; rw [hx] at he; cases he
    have h1 := h.ps; have h2 := h.gs
    rw [he] at h1 h2
    cases hw : f.canWrite with
    | true =>
      have hc : b.mode.constant = false := by have := h.cw; rw [hw] at this; simpa using this.symm
      rw [hw] at h1
      rw [h1, hc]
      have htop : b.top (b.p.getD 0) = f.text.length := by
        rw [← h.pv]; exact h.top.symm
      simp only [Bool.not_false, Bool.and_self, if_true, htop]
      exact h.cells
    | false =>
      have hc : b.mode.constant = true := by have := h.cw; rw [hw] at this; simpa using this.symm
      have hr : f.canRead = true := by
        cases hr : f.canRead with
        | true => rfl
        | false => exact absurd (h.nn hr hw) hne
      have hn : b.mode.noread = false := by have := h.cr; rw [hr] at this; simpa using this.symm
      rw [hw] at h1; rw [hr] at h2
      rw [h2, hc, hn]
      simp only [Bool.not_true, Bool.false_and, Bool.false_eq_true, if_false, Bool.not_false, Bool.and_self, if_true, (h.ro hw).1]
      exact h.cells

theorem toU64_small {x : Int} (h0 : 0 ≤ x) (h1 : x < 18446744073709551616) : toU64 x = x.toNat := by
  unfold toU64; rw [Int.emod_eq_of_lt h0 h1]

theorem toU64_neg {x : Int} (h0 : x < 0) (h1 : -9223372036854775808 ≤ x) : 9223372036854775808 ≤ toU64 x := by
  unfold toU64; omega

theorem rel_high {b : Buf} {f : File} (h : Rel b f) : Rel b.raise f ∧ b.raise.high = f.text.length := by
  have htop := h.top; have hpv := h.pv
  unfold Buf.raise
  cases hp : b.p with
  | none =>
    rw [hp] at hpv; simp at hpv
    refine ⟨h, ?_⟩
    rw [hpv] at htop; simp at htop; exact htop.symm
  | some p =>
    rw [hp] at hpv; simp at hpv
    by_cases hh : b.high < p
    · simp only [hh, if_true]
      refine ⟨⟨h.ub, h.cr, h.cw, h.ate, h.al, h.gs, ?_, h.gv, ?_, h.gl, h.pl, h.cells, h.len, h.max, h.none, ?_, h.gel, h.ro, h.nn⟩, ?_⟩
      · have := h.ps; rw [hp] at this; simpa using this
      · rw [hpv]; simp
      · show f.text.length = Nat.max f.p p
        rw [htop]; simp only [Nat.max_def]; split <;> split <;> omega
      · show p = f.text.length
        rw [htop]; simp only [Nat.max_def]; split <;> omega
    · simp only [hh, if_false]
      refine ⟨h, ?_⟩
      rw [htop]; simp only [Nat.max_def]; split <;> omega

theorem goto_eq {b : Buf} {f : File} (h : Rel b f) (hh : b.high = f.text.length) {n : Int} {i o : Bool} (h0 : 0 ≤ n) (h1 : n ≤ f.text.length) :
    (goto b n.toNat i o).1 = (f.goto n i o).1 ∧ Rel (goto b n.toNat i o).2 (f.goto n i o).2 := by
  have hgs := h.gs; have hps := h.ps
  unfold goto File.goto
  have hte : n ≠ 0 → f.text.isEmpty = false := by
    intro hn
    cases he : f.text.isEmpty with
    | false => rfl
    | true =>
      have : f.text = [] := by simpa using he
      rw [this] at h1; simp at h1; omega
  have hgn : n ≠ 0 → (b.g = Option.none ↔ f.canRead = false) := by
    intro hn
    rw [hte hn] at hgs
    rw [← Option.isNone_iff_eq_none, ← Option.not_isSome, hgs]; cases f.canRead <;> simp
  have hpn : n ≠ 0 → (b.p = Option.none ↔ f.canWrite = false) := by
    intro hn
    rw [hte hn] at hps
    rw [← Option.isNone_iff_eq_none, ← Option.not_isSome, hps]; cases f.canWrite <;> simp
  by_cases hbad : n ≠ 0 ∧ ((i = true ∧ f.canRead = false) ∨ (o = true ∧ f.canWrite = false))
  · rw [if_pos ⟨by omega, by rw [hgn hbad.1, hpn hbad.1]; exact hbad.2⟩, if_neg]
    · exact ⟨rfl, h⟩
    · rintro ⟨-, -, h3 | ⟨h3, h4⟩⟩
      · exact hbad.1 h3
      · rcases hbad.2 with ⟨h5, h6⟩ | ⟨h5, h6⟩
        · rw [h3 h5] at h6; cases h6
        · rw [h4 h5] at h6; cases h6
  · have hok : n = 0 ∨ ((i = true → f.canRead = true) ∧ (o = true → f.canWrite = true)) := by
      by_cases hn : n = 0
      · exact .inl hn
      · refine .inr ⟨fun hi => ?_, fun ho => ?_⟩
        · cases hr : f.canRead with
          | true => rfl
          | false => exact absurd ⟨hn, .inl ⟨hi, hr⟩⟩ hbad
        · cases hr : f.canWrite with
          | true => rfl
          | false => exact absurd ⟨hn, .inr ⟨ho, hr⟩⟩ hbad
    have hneg : ¬ (n.toNat ≠ 0 ∧ ((i = true ∧ b.g = Option.none) ∨ (o = true ∧ b.p = Option.none))) := by
      rintro ⟨h3, h4⟩
      have hn : n ≠ 0 := by omega
      rw [hgn hn, hpn hn] at h4
      exact hbad ⟨hn, h4⟩
    have hpos : 0 ≤ n ∧ n ≤ f.text.length ∧ (n = 0 ∨ ((i = true → f.canRead = true) ∧ (o = true → f.canWrite = true))) := ⟨h0, h1, hok⟩
    rw [if_neg hneg, if_pos hpos]
    · refine ⟨rfl, ?_⟩
      have hz : f.text.isEmpty = true → n.toNat = 0 ∧ f.g = 0 ∧ f.p = 0 := by
        intro he
        have ht : f.text = [] := by simpa using he
        have hgl := h.gl; have hpl := h.pl
        rw [ht] at h1 hgl hpl; simp at h1 hgl hpl; omega
      have hgl := h.gl; have hpl := h.pl
      -- what the read position becomes
      have hg' : (if i && f.canRead then n.toNat else f.g) = (if i && b.g.isSome then some n.toNat else b.g).getD 0 := by
        rw [hgs]
        cases i <;> cases hr : f.canRead <;> cases he : f.text.isEmpty <;> simp [h.gv]
        · have := hz he; have := h.gv; omega
      have hp' : (if o && f.canWrite then n.toNat else f.p) = (if o && b.p.isSome then some n.toNat else b.p).getD 0 := by
        rw [hps]
        cases o <;> cases hr : f.canWrite <;> cases he : f.text.isEmpty <;> simp [h.pv]
        · have := hz he; have := h.pv; omega
      refine ⟨h.ub, h.cr, h.cw, h.ate, h.al, ?_, ?_, hg', hp', ?_, ?_, h.cells, h.len, h.max, h.none, ?_, ?_, ?_, h.nn⟩
      · show (if i && b.g.isSome then some n.toNat else b.g).isSome = (f.canRead && !f.text.isEmpty)
        rw [← hgs]; cases i <;> cases hx : b.g.isSome <;> simp [hx]
      · show (if o && b.p.isSome then some n.toNat else b.p).isSome = (f.canWrite && !f.text.isEmpty)
        rw [← hps]; cases o <;> cases hx : b.p.isSome <;> simp [hx]
      · show (if i && f.canRead then n.toNat else f.g) ≤ f.text.length
        split <;> omega
      · show (if o && f.canWrite then n.toNat else f.p) ≤ f.text.length
        split <;> omega
      · show f.text.length = Nat.max (if o && f.canWrite then n.toNat else f.p) b.high
        have hx : (if o && f.canWrite then n.toNat else f.p) ≤ b.high := by rw [hh]; split <;> omega
        rw [← hh]; exact (Nat.max_eq_right hx).symm
      · show (if i && b.g.isSome then b.high else b.ge) ≤ f.text.length
        have := h.gel; split <;> omega
      · intro hx
        have := h.ro hx
        refine ⟨?_, this.2⟩
        show (if i && b.g.isSome then b.high else b.ge) = f.text.length
        split
        · exact hh
        · exact this.1

theorem goto_fail {f : File} {n : Int} {i o : Bool} (h : ¬ (0 ≤ n ∧ n ≤ f.text.length)) : f.goto n i o = (Option.none, f) := by
  unfold File.goto; rw [if_neg]; rintro ⟨a, b, -⟩; exact h ⟨a, b⟩

/-- within 64 bits, the unsigned comparison is the one meant -/
theorem u64_iff {x : Int} {n : Nat} (hn : n ≤ intMax) (h1 : -9223372036854775808 ≤ x) (h2 : x < 9223372036854775808 + intMax + 1) :
    ¬ toU64 x > n ↔ 0 ≤ x ∧ x ≤ n := by
  simp only [intMax] at hn h2
  by_cases h0 : 0 ≤ x
  · rw [toU64_small h0 (by omega)]; omega
  · have := toU64_neg (x := x) (by omega) h1; omega

theorem rel_seekTo {b : Buf} {f : File} (h : Rel b f) {off : Int} {i o : Bool} (hf : (Op.seekTo off i o).fits) :
    (step b (.seekTo off i o)).1 = (f.step (.seekTo off i o)).1 ∧ Rel (step b (.seekTo off i o)).2 (f.step (.seekTo off i o)).2 := by
  obtain ⟨hR, hh⟩ := rel_high h
  have hl : f.text.length ≤ intMax := Nat.le_trans h.len h.max
  simp only [step, File.step, seekpos, hh]
  have hu := u64_iff (x := off) hl hf.1 (by have := hf.2; omega)
  by_cases hc : toU64 off > f.text.length
  · rw [if_pos hc, goto_fail (fun hx => hu.2 hx hc)]
    exact ⟨rfl, hR⟩
  · rw [if_neg hc]
    obtain ⟨h1, h2⟩ := hu.1 hc
    rw [toU64_small h1 (by have := hf.2; omega)]
    obtain ⟨h3, h4⟩ := goto_eq hR hh (i := i) (o := o) h1 h2
    exact ⟨by rw [h3], h4⟩

theorem origin_eq {b : Buf} {f : File} (h : Rel b f) (hh : b.high = f.text.length) (w : Way) (i o : Bool) : origin b w i o = f.origin w i o := by
  have hgs := h.gs; have hps := h.ps; have hal := h.al; have hgv := h.gv; have hpv := h.pv
  cases w with
  | beg => rfl
  | fin => simp [origin, File.origin, hh]
  | cur =>
    cases i <;> cases o <;> simp only [origin, File.origin, Bool.and_self, Bool.and_true, Bool.and_false, if_true, if_false, Bool.false_eq_true, hgs, hps, hal]
    · cases f.canWrite <;> cases f.text.isEmpty <;> simp [hpv]
    · cases f.canRead <;> cases f.text.isEmpty <;> simp [hgv]

theorem origin_le {f : File} {w : Way} {i o : Bool} {n : Nat} (hg : f.g ≤ f.text.length) (hp : f.p ≤ f.text.length) (h : f.origin w i o = some n) : n ≤ f.text.length := by
  have ite : ∀ {x : Bool} {m : Nat}, m ≤ f.text.length → (if x = true then some m else Option.none) = some n → n ≤ f.text.length := by
    intro x m hm hx
    cases x with
    | false => cases hx
    | true => cases hx; exact hm
  cases w with
  | beg => simp only [File.origin, Option.some.injEq] at h; omega
  | fin => simp only [File.origin, Option.some.injEq] at h; omega
  | cur =>
    cases i <;> cases o <;> simp only [File.origin] at h
    · cases h
    · exact ite hp h
    · exact ite hg h
    · cases h

theorem rel_seek {b : Buf} {f : File} (h : Rel b f) {off : Int} {w : Way} {i o : Bool} (hf : (Op.seek off w i o).fits) :
    (step b (.seek off w i o)).1 = (f.step (.seek off w i o)).1 ∧ Rel (step b (.seek off w i o)).2 (f.step (.seek off w i o)).2 := by
  obtain ⟨hR, hh⟩ := rel_high h
  have hl : f.text.length ≤ intMax := Nat.le_trans h.len h.max
  simp only [step, File.step, seekoff, hh, origin_eq hR hh]
  cases ho : f.origin w i o with
  | none => exact ⟨rfl, hR⟩
  | some n =>
    have hn := origin_le h.gl h.pl ho
    have h5 := hf.1; have h6 := hf.2
    have hu := u64_iff (x := off + n) hl (by omega) (by omega)
    simp only
    by_cases hc : toU64 (off + n) > f.text.length
    · rw [if_pos hc, goto_fail (fun hx => hu.2 hx hc)]
      exact ⟨rfl, hR⟩
    · rw [if_neg hc]
      obtain ⟨h1, h2⟩ := hu.1 hc
      rw [toU64_small h1 (by simp only [intMax] at hl; omega)]
      obtain ⟨h3, h4⟩ := goto_eq hR hh (i := i) (o := o) h1 h2
      exact ⟨by rw [h3], h4⟩

theorem rel_step {b : Buf} {f : File} (h : Rel b f) (op : Op) (hf : op.fits) : (step b op).1 = (f.step op).1 ∧ Rel (step b op).2 (f.step op).2 := by
  cases op with
  | put c => exact rel_put h c
  | peek => exact rel_peek h
  | get => exact rel_get h
  | unget => exact rel_unget h
  | putback c => exact rel_putback h c
  | seek off w i o => exact rel_seek h hf
  | seekTo off i o => exact rel_seekTo h hf
  | str => exact rel_str h
  | setStr s => exact rel_setStr h s

theorem rel_run {b : Buf} {f : File} (h : Rel b f) (ops : List Op) (hf : ∀ op ∈ ops, op.fits) : (run b ops).1 = (f.run ops).1 ∧ Rel (run b ops).2 (f.run ops).2 := by
  induction ops generalizing b f with
  | nil => exact ⟨rfl, h⟩
  | cons op ops ih =>
    obtain ⟨h1, h2⟩ := rel_step h op (hf op (by simp))
    obtain ⟨h3, h4⟩ := ih h2 fun o ho => hf o (by simp [ho])
    exact ⟨by simp only [run, File.run, h1, h3], h4⟩

end Maf.SBuf
