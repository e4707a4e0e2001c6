import Verif.Model.Receiver
import Verif.Lemmas.Hist
/-
Invariants of the listening thread.
-/
namespace Maf.Listen

/-! ### Vocabulary, about logs only -/

/-- `e` comes before `f`. -/
def Before (e f : Ev) (l : List Ev) : Prop := ∃ a b c, l = a ++ e :: (b ++ f :: c)

/-- The receiver has read `c` and closed it. -/
def Done (l : List Ev) (c : Nat) : Prop := (∃ m, .delivered c m ∈ l) ∨ .closed c ∈ l

/-- The receiver has a slot for `c`, and has not read it yet. -/
def Open (l : List Ev) (c : Nat) : Prop := .accepted c ∈ l ∧ ¬ Done l c

/-- The receiver will not look at `c` again. -/
def Gone (l : List Ev) (c : Nat) : Prop := Done l c ∨ .leaked c ∈ l

/-- What every event of a log obeys. -/
def EvOk (l : List Ev) : Ev → Prop
  | .connected c => ∀ d, .connected d ∈ l → d < c
  | .wrote c _ => (∀ m, .wrote c m ∉ l) ∧ .connected c ∈ l
  | .accepted c => .ended ∉ l ∧ .connected c ∈ l ∧ .accepted c ∉ l ∧ ¬ Gone l c
  | .leaked c => .ended ∉ l ∧ .accepted c ∉ l ∧ ¬ Gone l c ∧ ∃ cs : List Nat, cs.Nodup ∧ cs.length = maxClients ∧ ∀ d ∈ cs, Open l d
  | .delivered c m => .ended ∉ l ∧ .wrote c m ∈ l ∧ Open l c ∧ .leaked c ∉ l ∧
    ∀ d m', Before (.wrote d m') (.connected c) l → .delivered d m' ∈ l ∨ .leaked d ∈ l
  | .closed c => .ended ∉ l ∧ .hungUp c ∈ l ∧ Open l c
  | .started => .started ∉ l
  | .ended => .ended ∉ l ∧ .started ∈ l
  | .stopReturned n => .stopCalled n ∈ l ∧ .stopReturned n ∉ l ∧ (.started ∈ l → .ended ∈ l)
  | _ => True

theorem before_snoc {e f g : Ev} {l : List Ev} : Before e f (l ++ [g]) ↔ Before e f l ∨ (f = g ∧ e ∈ l) := by
  constructor
  · rintro ⟨a, b, c, h⟩
    rcases List.eq_nil_or_concat c with rfl | ⟨c', x, rfl⟩
    · have h' : l ++ [g] = (a ++ e :: b) ++ [f] := by rw [h]; simp
      obtain ⟨h1, h2⟩ := List.append_inj' h' rfl
      cases h2; exact .inr ⟨rfl, by rw [h1]; simp⟩
    · have h' : l ++ [g] = (a ++ e :: (b ++ f :: c')) ++ [x] := by rw [h]; simp
      obtain ⟨h1, h2⟩ := List.append_inj' h' rfl
      exact .inl ⟨a, b, c', h1⟩
  · rintro (⟨a, b, c, rfl⟩ | ⟨rfl, h⟩)
    · exact ⟨a, b, c ++ [g], by simp⟩
    · obtain ⟨a, b, rfl⟩ := List.append_of_mem h
      exact ⟨a, b, [], by simp⟩

theorem Before.mem {e f : Ev} {l : List Ev} (h : Before e f l) : e ∈ l ∧ f ∈ l := by
  obtain ⟨a, b, c, rfl⟩ := h; simp

/-! ### Places of connections -/

def Seen (s : State) (c : Nat) : Prop := (∃ i, s.slot i = some c) ∨ Gone s.log c

/-- What `select` returned in this round, before it is dealt with. -/
def fresh : Pc → Option (List Nat × Bool)
  | .woke r b | .accept r b => some (r, b)
  | _ => none

structure CInv (s : State) : Prop where
  con : ∀ c, .connected c ∈ s.log ↔ c < s.conns
  bl : s.backlog.Pairwise (· < ·)
  blLt : ∀ c ∈ s.backlog, c < s.conns ∧ .accepted c ∉ s.log
  fifo : ∀ c ∈ s.backlog, ∀ d, Seen s d → d < c
  sl : ∀ i c, s.slot i = some c → i < maxClients ∧ c < s.conns ∧ .accepted c ∈ s.log ∧ ¬ Gone s.log c
  inj : ∀ i j c, s.slot i = some c → s.slot j = some c → i = j
  acc : ∀ c, .accepted c ∈ s.log → Seen s c
  goneLt : ∀ c, Gone s.log c → c < s.conns
  there : ∀ c, c < s.conns → c ∈ s.backlog ∨ Seen s c
  dat : ∀ c m, s.data c = .msg m ↔ .wrote c m ∈ s.log
  datH : ∀ c, s.data c = .hungUp ↔ .hungUp c ∈ s.log
  new : ∀ c, s.conns ≤ c → s.data c = .nothing
  rdy : ∀ r b, fresh s.pc = some (r, b) → ∀ c ∈ r, s.data c ≠ .nothing ∧ ∃ i, s.slot i = some c
  rdy' : ∀ i r, s.pc = .slot i r → ∀ c ∈ r, s.data c ≠ .nothing ∧ ∀ j, s.slot j = some c → i ≤ j
  head : ∀ r, fresh s.pc = some (r, true) → ∃ h t, s.backlog = h :: t ∧ ∀ i c m, s.slot i = some c → Before (.wrote c m) (.connected h) s.log → c ∈ r
  ord : ∀ c m d, Before (.wrote c m) (.connected d) s.log → (∃ i, s.slot i = some d) ∨ Done s.log d → Gone s.log c ∨
    ∃ i r, s.pc = .slot i r ∧ c ∈ r ∧ (∃ j, s.slot j = some c) ∧ d ∉ r ∧ ∃ k, s.slot k = some d

structure TInv (s : State) : Prop where
  ending : s.pc = .ended ↔ .ended ∈ s.log
  starting : s.pc ≠ .off ↔ .started ∈ s.log
  call : ∀ n, s.spc n ≠ .none ↔ .stopCalled n ∈ s.log
  callLt : ∀ n, s.spc n ≠ .none → n < s.stops
  back : ∀ n, .stopReturned n ∈ s.log → s.spc n = .done

structure Inv (s : State) : Prop where
  c : CInv s
  t : TInv s
  hist : Hist EvOk s.log

theorem inv_init : Inv init := by
  refine ⟨?_, ?_, Hist.nil⟩ <;> constructor <;> simp [init, Seen, Gone, Done, fresh, Before]

/-- Events about stopping and starting, that say nothing about connections. -/
def quiet : Ev → Bool
  | .started | .ended | .stopCalled _ | .stopReturned _ => true
  | _ => false

theorem done_snoc {l : List Ev} {e : Ev} {c : Nat} : Done (l ++ [e]) c ↔ Done l c ∨ (∃ m, e = .delivered c m) ∨ e = .closed c := by
  simp only [Done, List.mem_append, List.mem_singleton]
  constructor
  · rintro (⟨m, h | h⟩ | h | h)
    · exact .inl (.inl ⟨m, h⟩)
    · exact .inr (.inl ⟨m, h.symm⟩)
    · exact .inl (.inr h)
    · exact .inr (.inr h.symm)
  · rintro ((⟨m, h⟩ | h) | ⟨m, h⟩ | h)
    · exact .inl ⟨m, .inl h⟩
    · exact .inr (.inl h)
    · exact .inl ⟨m, .inr h.symm⟩
    · exact .inr (.inr h.symm)

theorem gone_snoc {l : List Ev} {e : Ev} {c : Nat} : Gone (l ++ [e]) c ↔ Gone l c ∨ (∃ m, e = .delivered c m) ∨ e = .closed c ∨ e = .leaked c := by
  simp only [Gone, done_snoc, List.mem_append, List.mem_singleton]
  constructor
  · rintro ((h | h | h) | h | h)
    · exact .inl (.inl h)
    · exact .inr (.inl h)
    · exact .inr (.inr (.inl h))
    · exact .inl (.inr h)
    · exact .inr (.inr (.inr h.symm))
  · rintro ((h | h) | h | h | h)
    · exact .inl (.inl h)
    · exact .inr (.inl h)
    · exact .inl (.inr (.inl h))
    · exact .inl (.inr (.inr h))
    · exact .inr (.inr h.symm)

/-- Logs that say the same about connections. -/
structure SameLog (l l' : List Ev) : Prop where
  mem : ∀ e, quiet e = false → (e ∈ l' ↔ e ∈ l)
  bef : ∀ e f, quiet f = false → Before e f l' → Before e f l

theorem SameLog.refl (l : List Ev) : SameLog l l := ⟨fun _ _ => Iff.rfl, fun _ _ _ h => h⟩

theorem SameLog.snoc (l : List Ev) {e : Ev} (h : quiet e = true) : SameLog l (l ++ [e]) := by
  constructor
  · intro f hf; simp only [List.mem_append, List.mem_singleton]
    exact ⟨fun h' => h'.elim id (fun h'' => by rw [h'', h] at hf; cases hf), .inl⟩
  · intro f g hg hb
    rcases before_snoc.1 hb with h' | ⟨rfl, -⟩
    · exact h'
    · rw [h] at hg; cases hg

theorem SameLog.done {l l' : List Ev} (h : SameLog l l') (c : Nat) : Done l' c ↔ Done l c := by
  simp only [Done, h.mem (.closed c) rfl, fun m => h.mem (.delivered c m) rfl]

theorem SameLog.gone {l l' : List Ev} (h : SameLog l l') (c : Nat) : Gone l' c ↔ Gone l c := by
  simp only [Gone, h.done c, h.mem (.leaked c) rfl]

/-- A change of the state, of the calls of stop, and of where the thread is. -/
theorem CInv.same {s s' : State} (h : CInv s) (hb : s'.backlog = s.backlog) (hs : s'.slot = s.slot) (hd : s'.data = s.data) (hc : s'.conns = s.conns)
    (hl : SameLog s.log s'.log)
    (hr : ∀ r b, fresh s'.pc = some (r, b) → ∀ c ∈ r, s.data c ≠ .nothing ∧ ∃ i, s.slot i = some c)
    (hr' : ∀ i r, s'.pc = .slot i r → ∀ c ∈ r, s.data c ≠ .nothing ∧ ∀ j, s.slot j = some c → i ≤ j)
    (hh : ∀ r, fresh s'.pc = some (r, true) → ∃ h t, s.backlog = h :: t ∧ ∀ i c m, s.slot i = some c → Before (.wrote c m) (.connected h) s.log → c ∈ r)
    (ho : ∀ i r, s.pc = .slot i r → (∃ i', s'.pc = .slot i' r) ∨ ∀ c ∈ r, ∀ j, s.slot j ≠ some c) : CInv s' := by
  have hseen : ∀ d, Seen s' d ↔ Seen s d := fun d => by simp only [Seen, hs, hl.gone]
  constructor
  · intro c; rw [hl.mem _ rfl, hc]; exact h.con c
  · rw [hb]; exact h.bl
  · intro c; rw [hb, hc, hl.mem _ rfl]; exact h.blLt c
  · intro c; rw [hb]; intro hc d; rw [hseen]; exact h.fifo c hc d
  · intro i c; rw [hs, hc, hl.mem _ rfl, hl.gone]; exact h.sl i c
  · intro i j c; rw [hs]; exact h.inj i j c
  · intro c; rw [hl.mem _ rfl, hseen]; exact h.acc c
  · intro c; rw [hl.gone, hc]; exact h.goneLt c
  · intro c; rw [hc, hb, hseen]; exact h.there c
  · intro c m; rw [hd, hl.mem _ rfl]; exact h.dat c m
  · intro c; rw [hd, hl.mem _ rfl]; exact h.datH c
  · intro c; rw [hc, hd]; exact h.new c
  · rw [hd, hs]; exact hr
  · rw [hd, hs]; exact hr'
  · intro r hr
    obtain ⟨a, t, h1, h2⟩ := hh r hr
    exact ⟨a, t, by rw [hb]; exact h1, fun i c m hi hbf => h2 i c m (by rw [← hs]; exact hi) (hl.bef _ _ rfl hbf)⟩
  · intro c m d hbf hdd
    rw [hs, hl.done] at hdd
    rw [hl.gone, hs]
    rcases h.ord c m d (hl.bef _ _ rfl hbf) hdd with h1 | ⟨i, r, h1, h2, h3, h4, h5⟩
    · exact .inl h1
    · rcases ho i r h1 with ⟨i', h6⟩ | h6
      · exact .inr ⟨i', r, h6, h2, h3, h4, h5⟩
      · obtain ⟨j, hj⟩ := h3; exact absurd hj (h6 c h2 j)

/-- The thread stays where it is. -/
theorem CInv.stay {s s' : State} (h : CInv s) (hb : s'.backlog = s.backlog) (hs : s'.slot = s.slot) (hd : s'.data = s.data) (hc : s'.conns = s.conns)
    (hl : SameLog s.log s'.log) (hp : s'.pc = s.pc) : CInv s' :=
  h.same hb hs hd hc hl (by rw [hp]; exact h.rdy) (by rw [hp]; exact h.rdy') (by rw [hp]; exact h.head) (fun i r hi => .inl ⟨i, by rw [hp]; exact hi⟩)

/-- The thread goes from one place where nothing is expected to another. -/
theorem CInv.plain {s s' : State} (h : CInv s) (hb : s'.backlog = s.backlog) (hs : s'.slot = s.slot) (hd : s'.data = s.data) (hc : s'.conns = s.conns)
    (hl : SameLog s.log s'.log) (h1 : fresh s'.pc = none) (h2 : ∀ i r, s'.pc ≠ .slot i r) (h3 : ∀ i r, s.pc ≠ .slot i r) : CInv s' :=
  h.same hb hs hd hc hl (by rw [h1]; intro r b hc; cases hc) (fun i r hi => absurd hi (h2 i r)) (by rw [h1]; intro r hc; cases hc) (fun i r hi => absurd hi (h3 i r))

/-! ### Peers -/

theorem CInv.newConn {s : State} (h : CInv s) : CInv (newConn s) := by
  have hnot : ∀ d, Seen s d → d < s.conns := fun d hd => hd.elim (fun ⟨i, hi⟩ => (h.sl i d hi).2.1) (h.goneLt d)
  have hg : ∀ c, Gone (s.log ++ [.connected s.conns]) c ↔ Gone s.log c := fun c => by simp [gone_snoc]
  have hdn : ∀ c, Done (s.log ++ [.connected s.conns]) c ↔ Done s.log c := fun c => by simp [done_snoc]
  have hseen : ∀ d, Seen (Listen.newConn s) d ↔ Seen s d := fun d => by simp only [Seen, Listen.newConn, hg]
  constructor
  · intro c; simp only [Listen.newConn, List.mem_append, List.mem_singleton, h.con]
    constructor
    · rintro (h1 | h1)
      · omega
      · cases h1; omega
    · intro h1
      rcases Nat.lt_or_eq_of_le (Nat.le_of_lt_succ h1) with h2 | rfl
      · exact .inl h2
      · exact .inr rfl
  · simp only [Listen.newConn]; rw [List.pairwise_append]
    exact ⟨h.bl, by simp, fun a ha b hb => by simp at hb; subst hb; exact (h.blLt a ha).1⟩
  · intro c hc; simp only [Listen.newConn, List.mem_append, List.mem_singleton] at hc ⊢
    rcases hc with hc | rfl
    · exact ⟨Nat.lt_succ_of_lt (h.blLt c hc).1, fun h' => h'.elim (h.blLt c hc).2 fun h'' => by cases h''⟩
    · refine ⟨Nat.lt_succ_self _, ?_⟩
      rintro (h' | h')
      · exact absurd (hnot _ (h.acc _ h')) (Nat.lt_irrefl _)
      · cases h'
  · intro c hc d hd; rw [hseen] at hd
    simp only [Listen.newConn, List.mem_append, List.mem_singleton] at hc
    rcases hc with hc | rfl
    · exact h.fifo c hc d hd
    · exact hnot d hd
  · intro i c hi; obtain ⟨a, b, c', d⟩ := h.sl i c hi
    exact ⟨a, Nat.lt_succ_of_lt b, by simp [Listen.newConn, c'], by simp only [Listen.newConn, hg]; exact d⟩
  · exact h.inj
  · intro c hc; rw [hseen]; simp [Listen.newConn] at hc; exact h.acc c hc
  · intro c hc; simp only [Listen.newConn, hg] at hc; exact Nat.lt_succ_of_lt (h.goneLt c hc)
  · intro c hc; rw [hseen]; simp only [Listen.newConn, List.mem_append, List.mem_singleton] at hc ⊢
    rcases Nat.lt_or_eq_of_le (Nat.le_of_lt_succ hc) with h1 | rfl
    · exact (h.there c h1).imp .inl id
    · exact .inl (.inr rfl)
  · intro c m; simp only [Listen.newConn, List.mem_append, List.mem_singleton, h.dat, reduceCtorEq, or_false]
  · intro c; simp only [Listen.newConn, List.mem_append, List.mem_singleton, h.datH, reduceCtorEq, or_false]
  · intro c hc; exact h.new c (Nat.le_of_succ_le hc)
  · exact h.rdy
  · exact h.rdy'
  · intro r hr
    obtain ⟨a, t, h1, h2⟩ := h.head r hr
    refine ⟨a, t ++ [s.conns], by simp [Listen.newConn, h1], fun i c m hi hbf => ?_⟩
    rcases before_snoc.1 hbf with h3 | ⟨h3, -⟩
    · exact h2 i c m hi h3
    · cases h3; exact absurd (h.blLt s.conns (by rw [h1]; simp)).1 (Nat.lt_irrefl _)
  · intro c m d hbf hdd
    simp only [Listen.newConn, hg, hdn] at hbf hdd ⊢
    have hdlt : d < s.conns := hnot d (hdd.imp id .inl)
    rcases before_snoc.1 hbf with h3 | ⟨h3, -⟩
    · exact h.ord c m d h3 hdd
    · cases h3; exact absurd hdlt (Nat.lt_irrefl _)

/-- A peer writes on its connection, or hangs up. -/
theorem CInv.put {s : State} (h : CInv s) {c : Nat} {d : Data} {e : Ev} (hc : c < s.conns) (h0 : s.data c = .nothing)
    (hde : (∃ m, d = .msg m ∧ e = .wrote c m) ∨ (d = .hungUp ∧ e = .hungUp c)) :
    CInv { s with data := upd s.data c d, log := s.log ++ [e] } := by
  have hg : ∀ x, Gone (s.log ++ [e]) x ↔ Gone s.log x := fun x => by rcases hde with ⟨m, -, rfl⟩ | ⟨-, rfl⟩ <;> simp [gone_snoc]
  have hdn : ∀ x, Done (s.log ++ [e]) x ↔ Done s.log x := fun x => by rcases hde with ⟨m, -, rfl⟩ | ⟨-, rfl⟩ <;> simp [done_snoc]
  have hseen : ∀ x, Seen { s with data := upd s.data c d, log := s.log ++ [e] } x ↔ Seen s x := fun x => by simp only [Seen, hg]
  have hd : d ≠ .nothing := by rcases hde with ⟨m, rfl, -⟩ | ⟨rfl, -⟩ <;> simp
  have hbf : ∀ x m y, Before (.wrote x m) (.connected y) (s.log ++ [e]) → Before (.wrote x m) (.connected y) s.log := by
    intro x m y hb
    rcases before_snoc.1 hb with h3 | ⟨h3, -⟩
    · exact h3
    · rcases hde with ⟨m, -, rfl⟩ | ⟨-, rfl⟩ <;> cases h3
  have hcon : ∀ x, (.connected x ∈ s.log ++ [e]) ↔ .connected x ∈ s.log := fun x => by rcases hde with ⟨m, -, rfl⟩ | ⟨-, rfl⟩ <;> simp
  have hacc : ∀ x, (.accepted x ∈ s.log ++ [e]) ↔ .accepted x ∈ s.log := fun x => by rcases hde with ⟨m, -, rfl⟩ | ⟨-, rfl⟩ <;> simp
  constructor
  · intro x; simp only [hcon]; exact h.con x
  · exact h.bl
  · intro x; simp only [hacc]; exact h.blLt x
  · intro x hx y; rw [hseen]; exact h.fifo x hx y
  · intro i x; simp only [hacc, hg]; exact h.sl i x
  · exact h.inj
  · intro x; simp only [hacc]; rw [hseen]; exact h.acc x
  · intro x; simp only [hg]; exact h.goneLt x
  · intro x; rw [hseen]; exact h.there x
  · intro x m; simp only [upd, List.mem_append, List.mem_singleton]
    split
    · rename_i hx; subst hx
      have hn : Ev.wrote x m ∉ s.log := fun hn => by rw [(h.dat x m).2 hn] at h0; cases h0
      rcases hde with ⟨m', rfl, rfl⟩ | ⟨rfl, rfl⟩
      · simp [hn]; exact eq_comm
      · simp [hn]
    · rename_i hx
      rw [h.dat]
      exact ⟨.inl, fun h' => h'.elim id fun h'' => by rcases hde with ⟨m', rfl, rfl⟩ | ⟨rfl, rfl⟩ <;> cases h''; exact absurd rfl hx⟩
  · intro x; simp only [upd, List.mem_append, List.mem_singleton]
    split
    · rename_i hx; subst hx
      have hn : Ev.hungUp x ∉ s.log := fun hn => by rw [(h.datH x).2 hn] at h0; cases h0
      rcases hde with ⟨m', rfl, rfl⟩ | ⟨rfl, rfl⟩
      · simp [hn]
      · simp
    · rename_i hx
      rw [h.datH]
      exact ⟨.inl, fun h' => h'.elim id fun h'' => by rcases hde with ⟨m', rfl, rfl⟩ | ⟨rfl, rfl⟩ <;> cases h''; exact absurd rfl hx⟩
  · intro x hx; simp only [upd]; split
    · rename_i hx'; subst hx'; exact absurd hc (Nat.not_lt.2 hx)
    · exact h.new x hx
  · intro r b hr x hx; obtain ⟨a, b⟩ := h.rdy r b hr x hx
    refine ⟨?_, b⟩; simp only [upd]; split
    · exact hd
    · exact a
  · intro i r hr x hx; obtain ⟨a, b⟩ := h.rdy' i r hr x hx
    refine ⟨?_, b⟩; simp only [upd]; split
    · exact hd
    · exact a
  · intro r hr; obtain ⟨a, t, h1, h2⟩ := h.head r hr
    exact ⟨a, t, h1, fun i x m hi hb => h2 i x m hi (hbf _ _ _ hb)⟩
  · intro x m y hb; simp only [hg, hdn]; exact h.ord x m y (hbf _ _ _ hb)

/-! ### The listening thread -/

theorem wrote_lt {l : List Ev} (h : Hist EvOk l) {c d : Nat} {m : Msg} (hb : Before (.wrote c m) (.connected d) l) : c < d := by
  obtain ⟨a, b, r, rfl⟩ := hb
  have h1 := (h.all a (.wrote c m) _ rfl).2
  have h2 := h.all (a ++ .wrote c m :: b) (.connected d) r (by simp)
  exact h2 c (by simp [h1])

theorem freeSlot_some {s : State} {i : Nat} (h : freeSlot s = some i) : i < maxClients ∧ s.slot i = none := by
  have h1 := List.mem_of_find?_eq_some h
  have h2 := List.find?_some h
  exact ⟨List.mem_range.1 h1, by simpa using h2⟩

theorem freeSlot_none {s : State} (h : freeSlot s = none) (i : Nat) (hi : i < maxClients) : s.slot i ≠ none := by
  have := List.find?_eq_none.1 h i (List.mem_range.2 hi)
  intro hc; rw [hc] at this; simp at this

theorem not_slot {s : State} (h : CInv s) {c : Nat} (hc : c ∈ s.backlog) : ¬ Seen s c := fun hs => absurd (h.fifo c hc c hs) (Nat.lt_irrefl _)

theorem CInv.accepted {s : State} (h : CInv s) (hh : Hist EvOk s.log) {r : List Nat} {c : Nat} {cs : List Nat} {i : Nat} (hp : s.pc = .accept r true) (hb : s.backlog = c :: cs)
    (hf : freeSlot s = some i) : CInv { s with backlog := cs, slot := upd s.slot i (some c), pc := .slot 0 r, log := s.log ++ [.accepted c] } := by
  obtain ⟨hi, h0⟩ := freeSlot_some hf
  have hcb : c ∈ s.backlog := by rw [hb]; simp
  have hns := not_slot h hcb
  have hg : ∀ x, Gone (s.log ++ [.accepted c]) x ↔ Gone s.log x := fun x => by simp [gone_snoc]
  have hdn : ∀ x, Done (s.log ++ [.accepted c]) x ↔ Done s.log x := fun x => by simp [done_snoc]
  have hsl : ∀ j x, upd s.slot i (some c) j = some x ↔ (j = i ∧ x = c) ∨ s.slot j = some x := by
    intro j x; simp only [upd]; split
    · rename_i hj; subst hj; simp [h0, eq_comm]
    · rename_i hj; simp [hj]
  have hseen : ∀ x, Seen { s with backlog := cs, slot := upd s.slot i (some c), pc := .slot 0 r, log := s.log ++ [.accepted c] } x ↔ x = c ∨ Seen s x := by
    intro x; simp only [Seen, hg, hsl]
    constructor
    · rintro (⟨j, ⟨-, h1⟩ | h1⟩ | h1)
      · exact .inl h1
      · exact .inr (.inl ⟨j, h1⟩)
      · exact .inr (.inr h1)
    · rintro (h1 | ⟨j, h1⟩ | h1)
      · exact .inl ⟨i, .inl ⟨rfl, h1⟩⟩
      · exact .inl ⟨j, .inr h1⟩
      · exact .inr h1
  have hpw := h.bl; rw [hb, List.pairwise_cons] at hpw
  have hlt := (h.blLt c hcb).1
  constructor
  · intro x; simp only [List.mem_append, List.mem_singleton, reduceCtorEq, or_false]; exact h.con x
  · exact hpw.2
  · intro x hx; obtain ⟨a, b⟩ := h.blLt x (by rw [hb]; simp; exact .inr hx)
    refine ⟨a, ?_⟩
    simp only [List.mem_append, List.mem_singleton, Ev.accepted.injEq, not_or]
    exact ⟨b, Nat.ne_of_gt (hpw.1 x hx)⟩
  · intro x hx d hd; rw [hseen] at hd
    rcases hd with rfl | hd
    · exact hpw.1 x hx
    · exact h.fifo x (by rw [hb]; simp; exact .inr hx) d hd
  · intro j x hj; simp only [hg]
    rcases (hsl j x).1 hj with ⟨rfl, rfl⟩ | hj
    · exact ⟨hi, hlt, by simp, fun hc => hns (.inr hc)⟩
    · obtain ⟨a, b, c', d⟩ := h.sl j x hj; exact ⟨a, b, by simp [c'], d⟩
  · intro j k x hj hk
    rcases (hsl j x).1 hj with ⟨h1, h2⟩ | h1 <;> rcases (hsl k _).1 hk with ⟨h3, h4⟩ | h3
    · rw [h1, h3]
    · rw [h2] at h3; exact absurd (.inl ⟨k, h3⟩) hns
    · rw [h4] at h1; exact absurd (.inl ⟨j, h1⟩) hns
    · exact h.inj j k x h1 h3
  · intro x hx; rw [hseen]; simp only [List.mem_append, List.mem_singleton, Ev.accepted.injEq] at hx
    exact hx.elim (fun h' => .inr (h.acc x h')) .inl
  · intro x; simp only [hg]; exact h.goneLt x
  · intro x hx; rw [hseen]
    rcases h.there x hx with h1 | h1
    · rw [hb] at h1; simp at h1; exact h1.elim (fun h' => .inr (.inl h')) .inl
    · exact .inr (.inr h1)
  · intro x m; simp only [List.mem_append, List.mem_singleton, reduceCtorEq, or_false]; exact h.dat x m
  · intro x; simp only [List.mem_append, List.mem_singleton, reduceCtorEq, or_false]; exact h.datH x
  · exact h.new
  · intro r b hr; cases hr
  · intro k r' hr x hx; cases hr
    exact ⟨(h.rdy r true (by rw [hp]; rfl) x hx).1, fun _ _ => Nat.zero_le _⟩
  · intro r hr; cases hr
  · intro x m d hbf hdd
    simp only [hg, hdn] at hdd ⊢
    have hbf' : Before (.wrote x m) (.connected d) s.log := (before_snoc.1 hbf).elim id fun hc => by cases hc.1
    have hx : x < s.conns := by
      refine Nat.lt_of_not_le fun hc => ?_
      have := (h.dat x m).2 hbf'.mem.1; rw [h.new x hc] at this; cases this
    have hold : ((∃ i, s.slot i = some d) ∨ Done s.log d) → Gone s.log x := by
      intro h1
      rcases h.ord x m d hbf' h1 with h2 | ⟨k, r', h2, -⟩
      · exact h2
      · rw [hp] at h2; cases h2
    rcases hdd with ⟨k, hk⟩ | hdd
    · rcases (hsl k d).1 hk with ⟨rfl, rfl⟩ | hk
      · have hxd := wrote_lt hh hbf'
        rcases h.there x hx with h1 | ⟨j, hj⟩ | h1
        · rw [hb] at h1; simp at h1
          rcases h1 with rfl | h1
          · exact absurd hxd (Nat.lt_irrefl _)
          · exact absurd (hpw.1 x h1) (Nat.not_lt.2 (Nat.le_of_lt hxd))
        · obtain ⟨a, t, h2, h3⟩ := h.head r (by rw [hp]; rfl)
          rw [hb] at h2; cases h2
          refine .inr ⟨0, r, rfl, h3 j x m hj hbf', ⟨j, (hsl j x).2 (.inr hj)⟩, fun hc => ?_, k, hk⟩
          exact hns (.inl (h.rdy r true (by rw [hp]; rfl) d hc).2)
        · exact .inl h1
      · exact .inl (hold (.inl ⟨k, hk⟩))
    · exact .inl (hold (.inr hdd))

theorem CInv.leaked {s : State} (h : CInv s) {r : List Nat} {c : Nat} {cs : List Nat} (hp : s.pc = .accept r true) (hb : s.backlog = c :: cs) :
    CInv { s with backlog := cs, pc := .slot 0 r, log := s.log ++ [.leaked c] } := by
  have hcb : c ∈ s.backlog := by rw [hb]; simp
  have hns := not_slot h hcb
  have hg : ∀ x, Gone (s.log ++ [.leaked c]) x ↔ x = c ∨ Gone s.log x := fun x => by simp [gone_snoc, or_comm, eq_comm]
  have hdn : ∀ x, Done (s.log ++ [.leaked c]) x ↔ Done s.log x := fun x => by simp [done_snoc]
  have hseen : ∀ x, Seen { s with backlog := cs, pc := .slot 0 r, log := s.log ++ [.leaked c] } x ↔ x = c ∨ Seen s x := by
    intro x; simp only [Seen, hg]; exact ⟨fun h => h.elim (fun h => .inr (.inl h)) fun h => h.imp id .inr, fun h => h.elim (fun h => .inr (.inl h)) fun h => h.imp id .inr⟩
  have hpw := h.bl; rw [hb, List.pairwise_cons] at hpw
  have hlt := (h.blLt c hcb).1
  constructor
  · intro x; simp only [List.mem_append, List.mem_singleton, reduceCtorEq, or_false]; exact h.con x
  · exact hpw.2
  · intro x hx; obtain ⟨a, b⟩ := h.blLt x (by rw [hb]; simp; exact .inr hx)
    exact ⟨a, by simpa using b⟩
  · intro x hx d hd; rw [hseen] at hd
    rcases hd with rfl | hd
    · exact hpw.1 x hx
    · exact h.fifo x (by rw [hb]; simp; exact .inr hx) d hd
  · intro j x hj; simp only [hg]
    obtain ⟨a, b, c', d⟩ := h.sl j x hj
    refine ⟨a, b, by simp [c'], ?_⟩
    rintro (rfl | h1)
    · exact hns (.inl ⟨j, hj⟩)
    · exact d h1
  · exact h.inj
  · intro x hx; rw [hseen]; simp at hx; exact .inr (h.acc x hx)
  · intro x; simp only [hg]; rintro (rfl | hx)
    · exact hlt
    · exact h.goneLt x hx
  · intro x hx; rw [hseen]
    rcases h.there x hx with h1 | h1
    · rw [hb] at h1; simp at h1; exact h1.elim (fun h' => .inr (.inl h')) .inl
    · exact .inr (.inr h1)
  · intro x m; simp only [List.mem_append, List.mem_singleton, reduceCtorEq, or_false]; exact h.dat x m
  · intro x; simp only [List.mem_append, List.mem_singleton, reduceCtorEq, or_false]; exact h.datH x
  · exact h.new
  · intro r b hr; cases hr
  · intro k r' hr x hx; cases hr
    exact ⟨(h.rdy r true (by rw [hp]; rfl) x hx).1, fun _ _ => Nat.zero_le _⟩
  · intro r hr; cases hr
  · intro x m d hbf hdd
    simp only [hg, hdn] at hdd ⊢
    have hbf : Before (.wrote x m) (.connected d) s.log := (before_snoc.1 hbf).elim id fun hc => by cases hc.1
    rcases h.ord x m d hbf hdd with h2 | ⟨k, r', h2, -⟩
    · exact .inl (.inr h2)
    · rw [hp] at h2; cases h2

theorem CInv.read {s : State} (h : CInv s) {r : List Nat} {c i : Nat} {e : Ev} (hp : s.pc = .slot i r) (hi : s.slot i = some c) (hr : c ∈ r)
    (he : (∃ m, e = .delivered c m) ∨ e = .closed c) :
    CInv { s with slot := upd s.slot i none, pc := .slot (i + 1) r, log := s.log ++ [e] } := by
  have hg : ∀ x, Gone (s.log ++ [e]) x ↔ x = c ∨ Gone s.log x := fun x => by rcases he with ⟨m, rfl⟩ | rfl <;> simp [gone_snoc, or_comm, eq_comm]
  have hdn : ∀ x, Done (s.log ++ [e]) x ↔ x = c ∨ Done s.log x := fun x => by rcases he with ⟨m, rfl⟩ | rfl <;> simp [done_snoc, or_comm, eq_comm]
  have hsl : ∀ j x, upd s.slot i none j = some x ↔ j ≠ i ∧ s.slot j = some x := by
    intro j x; simp only [upd]; split
    · rename_i hj; simp [hj]
    · rename_i hj; simp [hj]
  have hsl' : ∀ j x, upd s.slot i none j = some x ↔ x ≠ c ∧ s.slot j = some x := by
    intro j x; rw [hsl]
    constructor
    · rintro ⟨a, b⟩; exact ⟨fun hc => a (h.inj j i x b (hc ▸ hi)), b⟩
    · rintro ⟨a, b⟩; exact ⟨fun hc => a (by subst hc; rw [hi] at b; cases b; rfl), b⟩
  have hseen : ∀ x, Seen { s with slot := upd s.slot i none, pc := .slot (i + 1) r, log := s.log ++ [e] } x ↔ Seen s x := by
    intro x; simp only [Seen, hg, hsl']
    constructor
    · rintro (⟨j, -, h1⟩ | rfl | h1)
      · exact .inl ⟨j, h1⟩
      · exact .inl ⟨i, hi⟩
      · exact .inr h1
    · rintro (⟨j, h1⟩ | h1)
      · by_cases hx : x = c
        · exact .inr (.inl hx)
        · exact .inl ⟨j, hx, h1⟩
      · exact .inr (.inr h1)
  have hmem : ∀ f, f ≠ e → (f ∈ s.log ++ [e] ↔ f ∈ s.log) := fun f hf => by simp [hf]
  have hbf : ∀ x m y, Before (.wrote x m) (.connected y) (s.log ++ [e]) → Before (.wrote x m) (.connected y) s.log := by
    intro x m y hb
    rcases before_snoc.1 hb with h3 | ⟨h3, -⟩
    · exact h3
    · rcases he with ⟨m, rfl⟩ | rfl <;> cases h3
  constructor
  · intro x; rw [hmem _ (by rcases he with ⟨m, rfl⟩ | rfl <;> simp)]; exact h.con x
  · exact h.bl
  · intro x; rw [hmem _ (by rcases he with ⟨m, rfl⟩ | rfl <;> simp)]; exact h.blLt x
  · intro x hx y; rw [hseen]; exact h.fifo x hx y
  · intro j x hj; obtain ⟨h1, h2⟩ := (hsl' j x).1 hj
    obtain ⟨a, b, c', d⟩ := h.sl j x h2
    exact ⟨a, b, by simp [c'], fun hc => ((hg x).1 hc).elim h1 d⟩
  · intro j k x hj hk; exact h.inj j k x ((hsl' j x).1 hj).2 ((hsl' k x).1 hk).2
  · intro x hx; rw [hseen]; rw [hmem _ (by rcases he with ⟨m, rfl⟩ | rfl <;> simp)] at hx; exact h.acc x hx
  · intro x hx; rcases (hg x).1 hx with rfl | h1
    · exact (h.sl i x hi).2.1
    · exact h.goneLt x h1
  · intro x; rw [hseen]; exact h.there x
  · intro x m; rw [hmem _ (by rcases he with ⟨m, rfl⟩ | rfl <;> simp)]; exact h.dat x m
  · intro x; rw [hmem _ (by rcases he with ⟨m, rfl⟩ | rfl <;> simp)]; exact h.datH x
  · exact h.new
  · intro r b hr; cases hr
  · intro k r' hr x hx; cases hr
    obtain ⟨a, b⟩ := h.rdy' i r hp x hx
    refine ⟨a, fun j hj => ?_⟩
    obtain ⟨h1, h2⟩ := (hsl j x).1 hj
    exact Nat.lt_of_le_of_ne (b j h2) (Ne.symm h1)
  · intro r hr; cases hr
  · intro x m d hb hdd
    simp only [hg, hdn, hsl'] at hdd ⊢
    have hold : ((∃ i, s.slot i = some d) ∨ Done s.log d) := by
      rcases hdd with ⟨k, -, hk⟩ | rfl | hdd
      · exact .inl ⟨k, hk⟩
      · exact .inl ⟨i, hi⟩
      · exact .inr hdd
    rcases h.ord x m d (hbf _ _ _ hb) hold with h2 | ⟨k, r', h2, h3, ⟨j, h4⟩, h5, k', h6⟩
    · exact .inl (.inr h2)
    · rw [hp] at h2; cases h2
      by_cases hx : x = c
      · exact .inl (.inl hx)
      · exact .inr ⟨i + 1, r, rfl, h3, ⟨j, hx, h4⟩, h5, k', fun hc => h5 (hc ▸ hr), h6⟩

theorem TInv.keep {s s' : State} (h : TInv s) (hs : s'.spc = s.spc) (hn : s'.stops = s.stops) (hl : ∀ e, quiet e = true → (e ∈ s'.log ↔ e ∈ s.log))
    (h1 : s'.pc = .ended ↔ s.pc = .ended) (h2 : s'.pc = .off ↔ s.pc = .off) : TInv s' := by
  constructor
  · rw [hl _ rfl, h1]; exact h.ending
  · rw [hl _ rfl]; exact (not_congr h2).trans h.starting
  · intro n; rw [hl _ rfl, hs]; exact h.call n
  · intro n; rw [hs, hn]; exact h.callLt n
  · intro n; rw [hl _ rfl, hs]; exact h.back n

theorem keep_log {l : List Ev} {e : Ev} (h : quiet e = false) (f : Ev) (hf : quiet f = true) : f ∈ l ++ [e] ↔ f ∈ l := by
  simp only [List.mem_append, List.mem_singleton]
  exact ⟨fun h' => h'.elim id (fun h'' => by rw [h'', h] at hf; cases hf), .inl⟩

theorem full_open {s : State} (h : CInv s) (hf : freeSlot s = none) : ∃ cs : List Nat, cs.Nodup ∧ cs.length = maxClients ∧ ∀ d ∈ cs, Open s.log d := by
  have hs : ∀ i, i < maxClients → ∃ c, s.slot i = some c := fun i hi => Option.ne_none_iff_exists'.1 (freeSlot_none hf i hi)
  have key : ∀ n, n ≤ maxClients → ∃ cs : List Nat, cs.Nodup ∧ cs.length = n ∧ ∀ d, d ∈ cs → ∃ i, i < n ∧ s.slot i = some d := by
    intro n
    induction n with
    | zero => intro _; exact ⟨[], by simp⟩
    | succ n ih =>
      intro hn
      obtain ⟨cs, h1, h2, h3⟩ := ih (Nat.le_of_succ_le hn)
      obtain ⟨c, hc⟩ := hs n hn
      refine ⟨c :: cs, List.nodup_cons.2 ⟨fun hm => ?_, h1⟩, by simp [h2], fun d hd => ?_⟩
      · obtain ⟨i, hi, hi'⟩ := h3 c hm
        exact absurd (h.inj i n c hi' hc) (Nat.ne_of_lt hi)
      · rcases List.mem_cons.1 hd with rfl | hd
        · exact ⟨n, Nat.lt_succ_self n, hc⟩
        · obtain ⟨i, hi, hi'⟩ := h3 d hd; exact ⟨i, Nat.lt_succ_of_lt hi, hi'⟩
  obtain ⟨cs, h1, h2, h3⟩ := key maxClients (Nat.le_refl _)
  refine ⟨cs, h1, h2, fun d hd => ?_⟩
  obtain ⟨i, -, hi⟩ := h3 d hd
  obtain ⟨-, -, a, b⟩ := h.sl i d hi
  exact ⟨a, fun hc => b (.inl hc)⟩

theorem mem_readySet {s : State} {c : Nat} : c ∈ readySet s ↔ (∃ i, i < maxClients ∧ s.slot i = some c) ∧ s.data c ≠ .nothing := by
  simp only [readySet, List.mem_filter, List.mem_filterMap, List.mem_range]
  constructor
  · rintro ⟨h1, h2⟩; exact ⟨h1, fun hc => by rw [hc] at h2; cases h2⟩
  · rintro ⟨h1, h2⟩; refine ⟨h1, ?_⟩
    cases hd : s.data c with
    | nothing => exact absurd hd h2
    | hungUp => rfl
    | msg m => rfl

/-! ### Every step -/

theorem gone_wrote {s : State} (h : Inv s) {c : Nat} {m : Msg} (hg : Gone s.log c) (hw : .wrote c m ∈ s.log) : .delivered c m ∈ s.log ∨ .leaked c ∈ s.log := by
  rcases hg with (⟨m', h1⟩ | h1) | h1
  · obtain ⟨a, b, hab⟩ := List.append_of_mem h1
    have h2 := (h.hist.all a _ b hab).2.1
    have h3 : .wrote c m' ∈ s.log := by rw [hab]; simp [h2]
    have h4 := (h.c.dat c m').2 h3; rw [(h.c.dat c m).2 hw] at h4; cases h4; exact .inl h1
  · obtain ⟨a, b, hab⟩ := List.append_of_mem h1
    have h2 := (h.hist.all a _ b hab).2.1
    have h3 : .hungUp c ∈ s.log := by rw [hab]; simp [h2]
    have h4 := (h.c.datH c).2 h3; rw [(h.c.dat c m).2 hw] at h4; cases h4
  · exact .inr h1

theorem inv_endThread {s : State} (h : Inv s) (h1 : s.pc ≠ .ended) (h2 : s.pc ≠ .off) (h3 : ∀ i r, s.pc ≠ .slot i r) : Inv (endThread s) := by
  refine ⟨h.c.plain rfl rfl rfl rfl (.snoc _ rfl) rfl (by simp [endThread]) h3, ?_, h.hist.one ⟨fun hc => h1 (h.t.ending.2 hc), h.t.starting.1 h2⟩⟩
  constructor
  · simp [endThread]
  · simpa [endThread] using h.t.starting.1 h2
  · intro n; simpa [endThread] using h.t.call n
  · exact h.t.callLt
  · intro n; simpa [endThread] using h.t.back n

theorem inv_plain {s s' : State} (h : Inv s) (hb : s'.backlog = s.backlog) (hs : s'.slot = s.slot) (hd : s'.data = s.data) (hc : s'.conns = s.conns) (hl : s'.log = s.log)
    (hs' : s'.spc = s.spc) (hn : s'.stops = s.stops) (h1 : fresh s'.pc = none) (h2 : ∀ i r, s'.pc ≠ .slot i r) (h3 : ∀ i r, s.pc ≠ .slot i r)
    (h4 : s'.pc ≠ .ended) (h5 : s'.pc ≠ .off) (h6 : s.pc ≠ .ended) (h7 : s.pc ≠ .off) : Inv s' :=
  ⟨h.c.plain hb hs hd hc (hl ▸ .refl _) h1 h2 h3, h.t.keep hs' hn (fun e _ => by rw [hl]) (by simp [h4, h6]) (by simp [h5, h7]), by rw [hl]; exact h.hist⟩

theorem inv_go {s s' : State} (h : Inv s) (hs : stepLoop s = some s') : Inv s' := by
  unfold stepLoop at hs
  cases hp : s.pc with
  | off => rw [hp] at hs; cases hs
  | ended => rw [hp] at hs; cases hs
  | check =>
    rw [hp] at hs; simp only at hs
    split at hs <;> cases hs
    · exact inv_plain h rfl rfl rfl rfl rfl rfl rfl rfl (by simp) (by simp [hp]) (by simp) (by simp) (by simp [hp]) (by simp [hp])
    · exact inv_endThread h (by simp [hp]) (by simp [hp]) (by simp [hp])
  | begin =>
    rw [hp] at hs; simp only at hs; cases hs
    exact inv_plain h rfl rfl rfl rfl rfl rfl rfl rfl (by simp) (by simp [hp]) (by simp) (by simp) (by simp [hp]) (by simp [hp])
  | top =>
    rw [hp] at hs; simp only at hs
    split at hs
    · cases hs; exact inv_plain h rfl rfl rfl rfl rfl rfl rfl rfl (by simp) (by simp [hp]) (by simp) (by simp) (by simp [hp]) (by simp [hp])
    split at hs <;> cases hs
    · exact inv_endThread h (by simp [hp]) (by simp [hp]) (by simp [hp])
    · exact inv_plain h rfl rfl rfl rfl rfl rfl rfl rfl (by simp) (by simp [hp]) (by simp) (by simp) (by simp [hp]) (by simp [hp])
  | select =>
    rw [hp] at hs; simp only at hs; cases hs
    refine ⟨h.c.same rfl rfl rfl rfl (.refl _) ?_ (by simp) ?_ (by simp [hp]), h.t.keep rfl rfl (fun _ _ => Iff.rfl) (by simp [hp]) (by simp [hp]), h.hist⟩
    · intro r b hr c hc
      simp only [fresh, Option.some.injEq, Prod.mk.injEq] at hr
      obtain ⟨rfl, -⟩ := hr
      obtain ⟨⟨i, -, hi⟩, hd⟩ := mem_readySet.1 hc
      exact ⟨hd, i, hi⟩
    · intro r hr
      simp only [fresh, Option.some.injEq, Prod.mk.injEq] at hr
      obtain ⟨rfl, hne⟩ := hr
      cases hb : s.backlog with
      | nil => rw [hb] at hne; cases hne
      | cons a t =>
        refine ⟨a, t, rfl, fun i c m hi hbf => mem_readySet.2 ⟨⟨i, (h.c.sl i c hi).1, hi⟩, ?_⟩⟩
        rw [(h.c.dat c m).2 hbf.mem.1]; simp
  | woke r b =>
    rw [hp] at hs; simp only at hs
    have e : (toRunning s).backlog = s.backlog ∧ (toRunning s).slot = s.slot ∧ (toRunning s).data = s.data ∧ (toRunning s).conns = s.conns ∧
        (toRunning s).log = s.log ∧ (toRunning s).spc = s.spc ∧ (toRunning s).stops = s.stops := by unfold toRunning; split <;> simp
    obtain ⟨e1, e2, e3, e4, e5, e6, e7⟩ := e
    split at hs
    · cases hs; exact inv_endThread h (by simp [hp]) (by simp [hp]) (by simp [hp])
    split at hs <;> cases hs
    · exact inv_plain h e1 e2 e3 e4 e5 e6 e7 rfl (by simp) (by simp [hp]) (by simp) (by simp) (by simp [hp]) (by simp [hp])
    · refine ⟨h.c.same e1 e2 e3 e4 (by rw [show ({ toRunning s with pc := .accept r b } : State).log = s.log from e5]; exact .refl _) ?_ (by simp) ?_ (by simp [hp]), h.t.keep e6 e7 (fun e _ => by simp only [e5]) (by simp [hp]) (by simp [hp]), by simp only [e5]; exact h.hist⟩
      · intro r' b' hr; exact h.c.rdy r' b' (by rw [hp]; exact hr)
      · intro r' hr; exact h.c.head r' (by rw [hp]; exact hr)
  | accept r b =>
    rw [hp] at hs; simp only at hs
    split at hs <;> cases hs
    · rename_i hb; subst hb
      unfold takeConn
      cases hb : s.backlog with
      | nil =>
        obtain ⟨a, t, h1, -⟩ := h.c.head r (by rw [hp]; rfl)
        rw [hb] at h1; cases h1
      | cons c cs =>
        have hcb : c ∈ s.backlog := by rw [hb]; simp
        have hns := not_slot h.c hcb
        have hne : Ev.ended ∉ s.log := fun hc => by have := h.t.ending.2 hc; rw [hp] at this; cases this
        cases hf : freeSlot s with
        | some i =>
          refine ⟨h.c.accepted h.hist hp hb hf, h.t.keep rfl rfl (keep_log rfl) (by simp [hp]) (by simp [hp]), h.hist.one ?_⟩
          exact ⟨hne, (h.c.con c).2 (h.c.blLt c hcb).1, (h.c.blLt c hcb).2, fun hc => hns (.inr hc)⟩
        | none =>
          refine ⟨h.c.leaked hp hb, h.t.keep rfl rfl (keep_log rfl) (by simp [hp]) (by simp [hp]), h.hist.one ?_⟩
          exact ⟨hne, (h.c.blLt c hcb).2, fun hc => hns (.inr hc), full_open h.c hf⟩
    · refine ⟨h.c.same rfl rfl rfl rfl (.refl _) (by simp [fresh]) ?_ (by simp [fresh]) (by simp [hp]), h.t.keep rfl rfl (fun _ _ => Iff.rfl) (by simp [hp]) (by simp [hp]), h.hist⟩
      intro i r' hr c hc; cases hr
      exact ⟨(h.c.rdy r b (by rw [hp]; rfl) c hc).1, fun _ _ => Nat.zero_le _⟩
  | slot i r =>
    rw [hp] at hs; simp only at hs
    have stay : (∀ c, s.slot i = some c → c ∉ r) → Inv { s with pc := .slot (i + 1) r } := by
      intro hno
      refine ⟨h.c.same rfl rfl rfl rfl (.refl _) (by simp [fresh]) ?_ (by simp [fresh]) ?_, h.t.keep rfl rfl (fun _ _ => Iff.rfl) (by simp [hp]) (by simp [hp]), h.hist⟩
      · intro k r' hr c hc; cases hr
        obtain ⟨a, b⟩ := h.c.rdy' i r hp c hc
        refine ⟨a, fun j hj => Nat.lt_of_le_of_ne (b j hj) fun hij => ?_⟩
        subst hij; exact hno c hj hc
      · intro k r' hr; rw [hp] at hr; cases hr; exact .inl ⟨_, rfl⟩
    split at hs <;> cases hs
    · unfold readSlot
      cases hi : s.slot i with
      | none => exact stay fun c hc => by rw [hi] at hc; cases hc
      | some c =>
        simp only
        by_cases hc : c ∈ r
        · rw [if_pos hc]
          obtain ⟨hd, -⟩ := h.c.rdy' i r hp c hc
          obtain ⟨-, -, h1, h2⟩ := h.c.sl i c hi
          have hne : Ev.ended ∉ s.log := fun hc => by have := h.t.ending.2 hc; rw [hp] at this; cases this
          have hopen : Open s.log c := ⟨h1, fun hc => h2 (.inl hc)⟩
          unfold readEv
          cases hdc : s.data c with
          | nothing => exact absurd hdc hd
          | hungUp => exact ⟨h.c.read hp hi hc (.inr rfl), h.t.keep rfl rfl (keep_log rfl) (by simp [hp]) (by simp [hp]), h.hist.one ⟨hne, (h.c.datH c).1 hdc, hopen⟩⟩
          | msg m =>
            refine ⟨h.c.read hp hi hc (.inl ⟨m, rfl⟩), h.t.keep rfl rfl (keep_log rfl) (by simp [hp]) (by simp [hp]), h.hist.one ⟨hne, (h.c.dat c m).1 hdc, hopen, fun hl => h2 (.inr hl), ?_⟩⟩
            intro d m' hbf
            rcases h.c.ord d m' c hbf (.inl ⟨i, hi⟩) with h3 | ⟨k, r', h3, -, -, h4, -⟩
            · exact gone_wrote h h3 hbf.mem.1
            · rw [hp] at h3; cases h3; exact absurd hc h4
        · rw [if_neg hc]; exact stay fun d hd => by rw [hi] at hd; cases hd; exact hc
    · refine ⟨h.c.same rfl rfl rfl rfl (.refl _) (by simp [fresh]) (by simp) (by simp [fresh]) ?_, h.t.keep rfl rfl (fun _ _ => Iff.rfl) (by simp [hp]) (by simp [hp]), h.hist⟩
      rename_i hlt
      intro k r' hr; rw [hp] at hr; cases hr
      refine .inr fun c hc j hj => ?_
      exact absurd (Nat.lt_of_le_of_lt ((h.c.rdy' i r hp c hc).2 j hj) (h.c.sl j c hj).1) hlt

theorem inv_newConn {s : State} (h : Inv s) : Inv (newConn s) :=
  ⟨h.c.newConn, h.t.keep rfl rfl (keep_log rfl) Iff.rfl Iff.rfl, h.hist.one fun d hd => (h.c.con d).1 hd⟩

theorem inv_hang {s : State} (h : Inv s) {c : Nat} (hc : c < s.conns) (h0 : s.data c = .nothing) : Inv (hang s c) :=
  ⟨h.c.put hc h0 (.inr ⟨rfl, rfl⟩), h.t.keep rfl rfl (keep_log rfl) Iff.rfl Iff.rfl, h.hist.one trivial⟩

/-- A call of stop goes on, without returning; the state may change. -/
theorem inv_setStop {s : State} (h : Inv s) {n : Nat} {p : SPc} {st : RState} (h1 : s.spc n ≠ .none) (h2 : s.spc n ≠ .done) (h3 : p ≠ .none) :
    Inv { setStop s n p with st := st } := by
  refine ⟨h.c.stay rfl rfl rfl rfl (.refl _) rfl, ?_, h.hist⟩
  constructor
  · exact h.t.ending
  · exact h.t.starting
  · intro m; simp only [setStop, upd]; split
    · rename_i hm; subst hm; exact ⟨fun _ => (h.t.call m).1 h1, fun _ => h3⟩
    · exact h.t.call m
  · intro m; simp only [setStop, upd]; split
    · rename_i hm; subst hm; exact fun _ => h.t.callLt m h1
    · exact h.t.callLt m
  · intro m hm; simp only [setStop, upd]; split
    · rename_i hm'; subst hm'; exact absurd (h.t.back m hm) h2
    · exact h.t.back m hm

theorem inv_stop {s s' : State} (h : Inv s) {n : Nat} (hs : stepStop s n = some s') : Inv s' := by
  unfold stepStop at hs
  have go : ∀ p, s.spc n ≠ .none → s.spc n ≠ .done → p ≠ .none → Inv (setStop s n p) := fun p h1 h2 h3 => inv_setStop (st := s.st) h h1 h2 h3
  cases hp : s.spc n with
  | none => rw [hp] at hs; cases hs
  | done => rw [hp] at hs; cases hs
  | ask => rw [hp] at hs; simp only at hs; split at hs <;> cases hs <;> exact go _ (by simp [hp]) (by simp [hp]) (by simp)
  | running => rw [hp] at hs; simp only at hs; split at hs <;> cases hs <;> exact go _ (by simp [hp]) (by simp [hp]) (by simp)
  | load => rw [hp] at hs; simp only at hs; cases hs; exact go _ (by simp [hp]) (by simp [hp]) (by simp)
  | store cur =>
    rw [hp] at hs; simp only at hs; cases hs
    exact inv_setStop (st := .stopped) h (by simp [hp]) (by simp [hp]) (by split <;> simp)
  | wake =>
    rw [hp] at hs; simp only at hs; split at hs <;> cases hs
    have h1 := inv_newConn h
    have h2 := inv_hang (c := s.conns) h1 (Nat.lt_succ_self _) (h.c.new _ (Nat.le_refl _))
    exact inv_setStop (st := s.st) h2 (show s.spc n ≠ .none by simp [hp]) (show s.spc n ≠ .done by simp [hp]) (by simp)
  | join =>
    rw [hp] at hs; simp only at hs; split at hs <;> cases hs
    rename_i he
    refine ⟨h.c.stay rfl rfl rfl rfl (.snoc _ rfl) rfl, ?_, h.hist.one ⟨(h.t.call n).1 (by simp [hp]), fun hc => ?_, fun hst => ?_⟩⟩
    · constructor
      · simpa [setStop] using h.t.ending
      · simpa [setStop] using h.t.starting
      · intro m
        simp only [setStop, upd, List.mem_append, List.mem_singleton, reduceCtorEq, or_false]; split
        · rename_i hm; subst hm; exact ⟨fun _ => (h.t.call m).1 (by simp [hp]), fun _ => by simp⟩
        · exact h.t.call m
      · intro m; simp only [setStop, upd]; split
        · rename_i hm; subst hm; exact fun _ => h.t.callLt m (by simp [hp])
        · exact h.t.callLt m
      · intro m hm; simp only [setStop, upd]; split
        · rfl
        · rename_i hm'
          simp only [List.mem_append, List.mem_singleton, Ev.stopReturned.injEq] at hm
          exact hm.elim (h.t.back m) fun h' => absurd h' hm'
    · have := h.t.back n hc; rw [hp] at this; cases this
    · exact h.t.ending.1 (he.resolve_left fun hc => h.t.starting.2 hst hc)

theorem inv_step {s s' : State} {a : Act} (h : Inv s) (hs : step s a = some s') : Inv s' := by
  cases a with
  | connect => simp only [step] at hs; split at hs <;> cases hs; exact inv_newConn h
  | write c m =>
    simp only [step] at hs; split at hs <;> cases hs
    rename_i hc
    refine ⟨h.c.put hc.1 hc.2 (.inl ⟨m, rfl, rfl⟩), h.t.keep rfl rfl (keep_log rfl) Iff.rfl Iff.rfl, h.hist.one ⟨fun m' hm => ?_, (h.c.con c).2 hc.1⟩⟩
    have := (h.c.dat c m').2 hm; rw [hc.2] at this; cases this
  | hangUp c => simp only [step] at hs; split at hs <;> cases hs; rename_i hc; exact inv_hang h hc.1 hc.2
  | start =>
    simp only [step] at hs; split at hs <;> cases hs
    rename_i hp
    refine ⟨h.c.plain rfl rfl rfl rfl (.snoc _ rfl) rfl (by simp) (by simp [hp]), ?_, h.hist.one fun hc => h.t.starting.2 hc hp⟩
    constructor
    · simp only [List.mem_append, List.mem_singleton, reduceCtorEq, or_false, false_iff]
      exact fun hc => by have := h.t.ending.2 hc; rw [hp] at this; cases this
    · simp
    · intro n; simpa using h.t.call n
    · exact h.t.callLt
    · intro n; simpa using h.t.back n
  | go => exact inv_go h hs
  | acceptFails =>
    simp only [step] at hs; split at hs <;> cases hs
    rename_i hp
    exact inv_endThread h (by simp [hp]) (by simp [hp]) (by simp [hp])
  | stop server =>
    simp only [step] at hs; cases hs
    refine ⟨h.c.stay rfl rfl rfl rfl (.snoc _ rfl) rfl, ?_, h.hist.one trivial⟩
    constructor
    · simpa [setStop] using h.t.ending
    · simpa [setStop] using h.t.starting
    · intro n
      simp only [setStop, upd, List.mem_append, List.mem_singleton, Ev.stopCalled.injEq]; split
      · rename_i hn; subst hn; exact ⟨fun _ => .inr rfl, fun _ => by split <;> simp⟩
      · rename_i hn; rw [h.t.call]; exact ⟨.inl, fun h' => h'.elim id fun h'' => absurd h'' hn⟩
    · intro n; simp only [setStop, upd]; split
      · rename_i hn; subst hn; exact fun _ => Nat.lt_succ_self _
      · exact fun hn => Nat.lt_succ_of_lt (h.t.callLt n hn)
    · intro n hn; simp only [setStop, upd]
      simp only [setStop, List.mem_append, List.mem_singleton, reduceCtorEq, or_false] at hn
      split
      · rename_i hn'; subst hn'
        have h1 := h.t.back _ hn
        exact absurd (h.t.callLt s.stops (by rw [h1]; simp)) (Nat.lt_irrefl _)
      · exact h.t.back n hn
  | goStop n => exact inv_stop h hs

theorem inv_run {as : List Act} {s s' : State} (h : Inv s) (hr : run s as = some s') : Inv s' := by
  induction as generalizing s with
  | nil => cases hr; exact h
  | cons a as ih =>
    simp only [run] at hr
    cases hs : step s a with
    | none => rw [hs] at hr; cases hr
    | some s1 => rw [hs] at hr; exact ih (inv_step h hs) hr

end Maf.Listen
