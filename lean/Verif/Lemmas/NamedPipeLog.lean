import Verif.Lemmas.NamedPipe

namespace Maf.Pipe

variable {logs : Bool}

theorem dec_enc {n : Nat} (h : n < word) : dec (enc n) = n := by
  unfold word at h
  simp only [enc, dec]; omega

theorem enc_length (n : Nat) : (enc n).length = 4 := rfl

theorem mod_word (n : Nat) : n % word < word := Nat.mod_lt _ (by decide)

theorem take_mod (b : List Nat) : (b.take (b.length % word)).length = b.length % word := by
  rw [List.length_take]; exact Nat.min_eq_left (Nat.mod_le _ _)

def Ev.isDel (c : Nat) : Ev → Bool
  | .delivered d _ => d == c
  | _ => false

def Ev.isRes (c : Nat) : Ev → Bool
  | .result d _ => d == c
  | _ => false

/-- the call an event belongs to -/
def Ev.call : Ev → Option Nat
  | .asked c _ => some c
  | .rogue c => some c
  | .result c _ => some c
  | .delivered c _ => some c
  | _ => none

theorem quiet_call {e : Ev} (h : e.quiet) : e.call = none := by cases e <;> first | rfl | cases h

theorem quiet_isDel {e : Ev} (h : e.quiet) (c : Nat) : e.isDel c = false := by cases e <;> first | rfl | cases h
theorem quiet_isRes {e : Ev} (h : e.quiet) (c : Nat) : e.isRes c = false := by cases e <;> first | rfl | cases h

theorem count_append (f : Ev → Bool) (a b : List Ev) : ((a ++ b).filter f).length = (a.filter f).length + (b.filter f).length := by
  rw [List.filter_append, List.length_append]

theorem count_zero {f : Ev → Bool} {l : List Ev} (h : ∀ e ∈ l, f e = false) : (l.filter f).length = 0 := by
  rw [List.length_eq_zero_iff, List.filter_eq_nil_iff]; intro e he; rw [h e he]; simp

theorem mem_of_count {f : Ev → Bool} {l : List Ev} (h : (l.filter f).length ≠ 0) : ∃ e ∈ l, f e = true := by
  cases hl : l.filter f with
  | nil => rw [hl] at h; exact absurd rfl h
  | cons e r =>
    have : e ∈ l.filter f := by rw [hl]; simp
    rw [List.mem_filter] at this; exact ⟨e, this⟩

/-- Where a call is whose message was delivered, and what is left of its connection. -/
def After (s : State) (c : Nat) : Prop :=
  (∃ x, s.snds c = some x ∧ ((∃ r i, x.pc = .writing r i 1 .taken) ∨ x.pc = .ended .success)) ∧
  ∀ i l, (s.insts i).side = .conn c l → 2 ≤ (s.insts i).nread

structure LogInv (s : State) : Prop where
  known : ∀ e ∈ s.log, ∀ c, e.call = some c → c < s.next
  asked : ∀ c b, .asked c b ∈ s.log → ∃ x, s.snds c = some x ∧ x.script = frame b
  kind : ∀ c x, s.snds c = some x → (∃ b, .asked c b ∈ s.log) ∨ .rogue c ∈ s.log
  once : ∀ c b b', .asked c b ∈ s.log → .asked c b' ∈ s.log → b = b'
  other : ∀ c b, .asked c b ∈ s.log → .rogue c ∉ s.log
  res : ∀ c r, .result c r ∈ s.log → ∃ x, s.snds c = some x ∧ x.pc = .ended r
  res1 : ∀ c, (s.log.filter (Ev.isRes c)).length ≤ 1
  del : ∀ c b m, .asked c b ∈ s.log → .delivered c m ∈ s.log → m = b.take (b.length % word)
  after : ∀ c b m, .asked c b ∈ s.log → b.length % word ≠ 0 → .delivered c m ∈ s.log → After s c
  del1 : ∀ c b, .asked c b ∈ s.log → b.length % word ≠ 0 → (s.log.filter (Ev.isDel c)).length ≤ 1

theorem logInv_start : LogInv State.start := by
  constructor <;> simp [State.start]

/-- no event of a call's making was added -/
def Mute (es : List Ev) : Prop := ∀ e ∈ es, e.quiet

theorem Mute.mem {es l : List Ev} (h : Mute es) {e : Ev} (he : ¬ e.quiet) (hm : e ∈ l ++ es) : e ∈ l := by
  rcases List.mem_append.mp hm with h1 | h1
  · exact h1
  · exact absurd (h e h1) he

/-- Steps that log nothing about calls: what is left to show. -/
theorem log_quiet {s s' : State} (hL : LogInv s) {es : List Ev} (he : Mute es) (h4 : s'.log = s.log ++ es) (h3 : s'.next = s.next)
    (hs : ∀ c x, s.snds c = some x → ∃ y, s'.snds c = some y ∧ y.script = x.script ∧ (∀ r, x.pc = .ended r → y.pc = .ended r))
    (hn : ∀ c, s.snds c = none → s'.snds c = none)
    (ha : ∀ c b, .asked c b ∈ s.log → After s c → After s' c) : LogInv s' := by
  have hm : ∀ {e : Ev}, ¬ e.quiet → (e ∈ s'.log ↔ e ∈ s.log) := by
    intro e hq; rw [h4]; exact ⟨he.mem hq, fun h => List.mem_append_left _ h⟩
  refine ⟨?_, ?_, ?_, ?_, ?_, ?_, ?_, ?_, ?_, ?_⟩
  · intro e hmem c hc
    rw [h3]
    rw [h4, List.mem_append] at hmem
    rcases hmem with h | h
    · exact hL.known e h c hc
    · rw [quiet_call (he e h)] at hc; cases hc
  · intro c b h
    rw [hm (by simp [Ev.quiet])] at h
    obtain ⟨x, hx, hsc⟩ := hL.asked c b h
    obtain ⟨y, hy, e, -⟩ := hs c x hx
    exact ⟨y, hy, e.trans hsc⟩
  · intro c y hy
    cases hx : s.snds c with
    | none => rw [hn c hx] at hy; cases hy
    | some x =>
      rcases hL.kind c x hx with ⟨b, h⟩ | h
      · exact .inl ⟨b, (hm (by simp [Ev.quiet])).mpr h⟩
      · exact .inr ((hm (by simp [Ev.quiet])).mpr h)
  · intro c b b' h h'
    rw [hm (by simp [Ev.quiet])] at h h'
    exact hL.once c b b' h h'
  · intro c b h h'
    rw [hm (by simp [Ev.quiet])] at h h'
    exact hL.other c b h h'
  · intro c r h
    rw [hm (by simp [Ev.quiet])] at h
    obtain ⟨x, hx, hp⟩ := hL.res c r h
    obtain ⟨y, hy, -, e⟩ := hs c x hx
    exact ⟨y, hy, e r hp⟩
  · intro c
    rw [h4, count_append, count_zero (fun e h => quiet_isRes (he e h) c)]; exact hL.res1 c
  · intro c b m h h'
    rw [hm (by simp [Ev.quiet])] at h h'
    exact hL.del c b m h h'
  · intro c b m h hb h'
    rw [hm (by simp [Ev.quiet])] at h h'
    exact ha c b h (hL.after c b m h hb h')
  · intro c b h hb
    rw [hm (by simp [Ev.quiet])] at h
    rw [h4, count_append, count_zero (fun e h => quiet_isDel (he e h) c)]; exact hL.del1 c b h hb

/-- A call ends. -/
theorem log_result {s s' : State} (hL : LogInv s) {q : List Ev} {c : Nat} {x : Snd} {r : Res} (he : Mute q) (h4 : s'.log = s.log ++ (q ++ [.result c r])) (h3 : s'.next = s.next)
    (hx : s.snds c = some x) (hnew : c < s.next) (hend : ∀ r, x.pc ≠ .ended r) (h2 : s'.snds = upd s.snds c (some { x with pc := .ended r }))
    (ha : ∀ c b, .asked c b ∈ s.log → After s c → After s' c) : LogInv s' := by
  have hm : ∀ {e : Ev}, ¬ e.quiet → e.isRes c = false → (e ∈ s'.log ↔ e ∈ s.log) := by
    intro e hq hr
    rw [h4]
    refine ⟨fun h => ?_, fun h => List.mem_append_left _ h⟩
    rw [← List.append_assoc, List.mem_append, List.mem_singleton] at h
    rcases h with h | h
    · exact he.mem hq h
    · rw [h] at hr; simp [Ev.isRes] at hr
  have hs : ∀ c' y, s.snds c' = some y → ∃ z, s'.snds c' = some z ∧ z.script = y.script := by
    intro c' y hy
    by_cases hc : c' = c
    · subst hc; rw [hx] at hy; cases hy; exact ⟨{ x with pc := .ended r }, by rw [h2, upd_same], rfl⟩
    · exact ⟨y, by rw [h2, upd_ne hc, hy], rfl⟩
  have hno : ∀ r', Ev.result c r' ∉ s.log := by
    intro r' h
    obtain ⟨y, hy, hp⟩ := hL.res c r' h
    rw [hx] at hy; cases hy; exact hend _ hp
  refine ⟨?_, ?_, ?_, ?_, ?_, ?_, ?_, ?_, ?_, ?_⟩
  · intro e hmem c' hc
    rw [h3]
    rw [h4, List.mem_append, List.mem_append, List.mem_singleton] at hmem
    rcases hmem with h | h | h
    · exact hL.known e h c' hc
    · rw [quiet_call (he e h)] at hc; cases hc
    · subst h; cases hc; exact hnew
  · intro c' b h
    rw [hm (by simp [Ev.quiet]) rfl] at h
    obtain ⟨y, hy, hsc⟩ := hL.asked c' b h
    obtain ⟨z, hz, e⟩ := hs c' y hy
    exact ⟨z, hz, e.trans hsc⟩
  · intro c' y hy
    have : ∃ z, s.snds c' = some z := by
      by_cases hc : c' = c
      · exact ⟨x, hc ▸ hx⟩
      · rw [h2, upd_ne hc] at hy; exact ⟨y, hy⟩
    obtain ⟨z, hz⟩ := this
    rcases hL.kind c' z hz with ⟨b, h⟩ | h
    · exact .inl ⟨b, (hm (by simp [Ev.quiet]) rfl).mpr h⟩
    · exact .inr ((hm (by simp [Ev.quiet]) rfl).mpr h)
  · intro c' b b' h h'
    rw [hm (by simp [Ev.quiet]) rfl] at h h'
    exact hL.once c' b b' h h'
  · intro c' b h h'
    rw [hm (by simp [Ev.quiet]) rfl] at h h'
    exact hL.other c' b h h'
  · intro c' r' h
    rw [h4, ← List.append_assoc, List.mem_append, List.mem_singleton] at h
    rcases h with h | h
    · have h := he.mem (by simp [Ev.quiet]) h
      obtain ⟨y, hy, hp⟩ := hL.res c' r' h
      have hc : c' ≠ c := by rintro rfl; exact hno r' h
      exact ⟨y, by rw [h2, upd_ne hc, hy], hp⟩
    · cases h; exact ⟨{ x with pc := .ended r }, by rw [h2, upd_same], rfl⟩
  · intro c'
    rw [h4, count_append, count_append, count_zero (fun e h => quiet_isRes (he e h) c')]
    by_cases hc : c' = c
    · subst hc
      have : (s.log.filter (Ev.isRes c')).length = 0 := by
        refine count_zero (fun e h => ?_)
        cases e with
        | result d r' =>
          cases hd : (Ev.result d r').isRes c' with
          | false => rfl
          | true => have : d = c' := by simpa [Ev.isRes] using hd
                    subst this; exact absurd h (hno r')
        | _ => rfl
      rw [this]; simp [Ev.isRes]
    · have := hL.res1 c'
      have h1 : ([Ev.result c r].filter (Ev.isRes c')).length = 0 := count_zero (fun e h => by
        rw [List.mem_singleton] at h; subst h; simp [Ev.isRes]; exact fun h => hc h.symm)
      omega
  · intro c' b m h h'
    rw [hm (by simp [Ev.quiet]) rfl] at h h'
    exact hL.del c' b m h h'
  · intro c' b m h hb h'
    rw [hm (by simp [Ev.quiet]) rfl] at h h'
    exact ha c' b h (hL.after c' b m h hb h')
  · intro c' b h hb
    rw [hm (by simp [Ev.quiet]) rfl] at h
    rw [h4, count_append, count_append, count_zero (fun e h => quiet_isDel (he e h) c'), count_zero (l := [Ev.result c r]) (fun e h => by
      rw [List.mem_singleton] at h; subst h; rfl)]
    exact hL.del1 c' b h hb

/-- A message is delivered. -/
theorem log_deliver {s s' : State} (hL : LogInv s) {c : Nat} {m : List Nat} (h4 : s'.log = s.log ++ [.delivered c m]) (h3 : s'.next = s.next) (hnew : c < s.next)
    (hs : ∀ c x, s.snds c = some x → ∃ y, s'.snds c = some y ∧ y.script = x.script ∧ (∀ r, x.pc = .ended r → y.pc = .ended r))
    (hn : ∀ c, s.snds c = none → s'.snds c = none)
    (ha : ∀ c b, .asked c b ∈ s.log → After s c → After s' c)
    (hm' : ∀ b, .asked c b ∈ s.log → m = b.take (b.length % word) ∧ (b.length % word ≠ 0 → ¬ After s c ∧ After s' c)) : LogInv s' := by
  have hm : ∀ {e : Ev}, e.isDel c = false → (e ∈ s'.log ↔ e ∈ s.log) := by
    intro e hr
    rw [h4]
    refine ⟨fun h => ?_, fun h => List.mem_append_left _ h⟩
    rw [List.mem_append, List.mem_singleton] at h
    rcases h with h | h
    · exact h
    · rw [h] at hr; simp [Ev.isDel] at hr
  refine ⟨?_, ?_, ?_, ?_, ?_, ?_, ?_, ?_, ?_, ?_⟩
  · intro e hmem c' hc
    rw [h3]
    rw [h4, List.mem_append, List.mem_singleton] at hmem
    rcases hmem with h | h
    · exact hL.known e h c' hc
    · subst h; cases hc; exact hnew
  · intro c' b h
    rw [hm rfl] at h
    obtain ⟨x, hx, hsc⟩ := hL.asked c' b h
    obtain ⟨y, hy, e, -⟩ := hs c' x hx
    exact ⟨y, hy, e.trans hsc⟩
  · intro c' y hy
    cases hx : s.snds c' with
    | none => rw [hn c' hx] at hy; cases hy
    | some x =>
      rcases hL.kind c' x hx with ⟨b, h⟩ | h
      · exact .inl ⟨b, (hm rfl).mpr h⟩
      · exact .inr ((hm rfl).mpr h)
  · intro c' b b' h h'
    rw [hm rfl] at h h'
    exact hL.once c' b b' h h'
  · intro c' b h h'
    rw [hm rfl] at h h'
    exact hL.other c' b h h'
  · intro c' r h
    rw [hm rfl] at h
    obtain ⟨x, hx, hp⟩ := hL.res c' r h
    obtain ⟨y, hy, -, e⟩ := hs c' x hx
    exact ⟨y, hy, e r hp⟩
  · intro c'
    rw [h4, count_append, count_zero (l := [Ev.delivered c m]) (fun e h => by rw [List.mem_singleton] at h; subst h; rfl)]; exact hL.res1 c'
  · intro c' b m' h h'
    rw [hm rfl] at h
    rw [h4, List.mem_append, List.mem_singleton] at h'
    rcases h' with h' | h'
    · exact hL.del c' b m' h h'
    · cases h'; exact (hm' b h).1
  · intro c' b m' h hb h'
    rw [hm rfl] at h
    rw [h4, List.mem_append, List.mem_singleton] at h'
    rcases h' with h' | h'
    · exact ha c' b h (hL.after c' b m' h hb h')
    · cases h'; exact ((hm' b h).2 hb).2
  · intro c' b h hb
    rw [hm rfl] at h
    rw [h4, count_append]
    by_cases hc : c' = c
    · subst hc
      have : (s.log.filter (Ev.isDel c')).length = 0 := by
        refine count_zero (fun e he => ?_)
        cases e with
        | delivered d m' =>
          cases hd : (Ev.delivered d m').isDel c' with
          | false => rfl
          | true =>
            have : d = c' := by simpa [Ev.isDel] using hd
            subst this
            exact absurd (hL.after d b m' h hb he) ((hm' b h).2 hb).1
        | _ => rfl
      rw [this]; simp [Ev.isDel]
    · have := hL.del1 c' b h hb
      have h1 : ([Ev.delivered c m].filter (Ev.isDel c')).length = 0 := count_zero (fun e h => by
        rw [List.mem_singleton] at h; subst h; simp [Ev.isDel]; exact fun h => hc h.symm)
      omega

theorem After.keep {s s' : State} {c : Nat} (h : After s c) (h2 : s'.snds c = s.snds c)
    (h1 : ∀ i l, (s'.insts i).side = .conn c l → (s.insts i).side = .conn c l ∧ (s.insts i).nread ≤ (s'.insts i).nread) : After s' c := by
  refine ⟨by rw [h2]; exact h.1, fun i l hi => ?_⟩
  obtain ⟨ho, hle⟩ := h1 i l hi
  exact Nat.le_trans (h.2 i l ho) hle

/-- `After` excludes the call from being anywhere else. -/
theorem After.pc {s : State} {c : Nat} {x : Snd} (h : After s c) (hx : s.snds c = some x) : (∃ r i, x.pc = .writing r i 1 .taken) ∨ x.pc = .ended .success := by
  obtain ⟨⟨y, hy, hp⟩, -⟩ := h
  rw [hx] at hy; cases hy; exact hp

/-- one call moves, not ended, nothing else -/
theorem keep_snds {s s' : State} {c : Nat} {x : Snd} {p : SPc} (hx : s.snds c = some x) (hend : ∀ r, x.pc ≠ .ended r)
    (h2 : s'.snds = upd s.snds c (some { x with pc := p })) :
    (∀ c x, s.snds c = some x → ∃ y, s'.snds c = some y ∧ y.script = x.script ∧ (∀ r, x.pc = .ended r → y.pc = .ended r)) ∧
    (∀ c, s.snds c = none → s'.snds c = none) := by
  refine ⟨fun c' y hy => ?_, fun c' hy => ?_⟩
  · by_cases hc : c' = c
    · subst hc; rw [hx] at hy; cases hy
      exact ⟨{ x with pc := p }, by rw [h2, upd_same], rfl, fun r h => absurd h (hend r)⟩
    · exact ⟨y, by rw [h2, upd_ne hc, hy], rfl, fun r h => h⟩
  · have hc : c' ≠ c := by rintro rfl; rw [hx] at hy; cases hy
    rw [h2, upd_ne hc, hy]

theorem keep_same {s s' : State} (h2 : s'.snds = s.snds) :
    (∀ c x, s.snds c = some x → ∃ y, s'.snds c = some y ∧ y.script = x.script ∧ (∀ r, x.pc = .ended r → y.pc = .ended r)) ∧
    (∀ c, s.snds c = none → s'.snds c = none) :=
  ⟨fun c x hx => ⟨x, by rw [h2, hx], rfl, fun r h => h⟩, fun c hc => by rw [h2, hc]⟩

theorem known_of {s : State} (hI : Inv s) {c : Nat} {x : Snd} (hx : s.snds c = some x) : c < s.next := by
  rcases Nat.lt_or_ge c s.next with h | h
  · exact h
  · rw [hI.new c h] at hx; cases hx

theorem frame_len (b : List Nat) : (frame b).length = 2 := rfl

theorem log_new {s s' : State} (hI : Inv s) (hL : LogInv s) {script : List (List Nat)} {e : Ev}
    (h : s' = newCall s script e) (he : (∃ b, e = .asked s.next b ∧ script = frame b) ∨ e = .rogue s.next) : LogInv s' := by
  subst h
  have hcall : e.call = some s.next := by rcases he with ⟨b, rfl, -⟩ | rfl <;> rfl
  have hdel : ∀ c, e.isDel c = false := by rcases he with ⟨b, rfl, -⟩ | rfl <;> (intro c; rfl)
  have hres : ∀ c, e.isRes c = false := by rcases he with ⟨b, rfl, -⟩ | rfl <;> (intro c; rfl)
  have hmem : ∀ {f : Ev} {c : Nat}, f.call = some c → f ∈ s.log ++ [e] → (c < s.next ∧ f ∈ s.log) ∨ (c = s.next ∧ f = e) := by
    intro f c hf hm
    rw [List.mem_append, List.mem_singleton] at hm
    rcases hm with h | h
    · exact .inl ⟨hL.known f h c hf, h⟩
    · subst h; rw [hcall] at hf; cases hf; exact .inr ⟨rfl, rfl⟩
  have hsn : ∀ c, c ≠ s.next → (newCall s script e).snds c = s.snds c := fun c hc => upd_ne hc
  have hself : (newCall s script e).snds s.next = some ⟨script, .probe 0⟩ := upd_same _ _ _
  have hlog : (newCall s script e).log = s.log ++ [e] := rfl
  refine ⟨?_, ?_, ?_, ?_, ?_, ?_, ?_, ?_, ?_, ?_⟩
  · intro f hf c hc
    rw [hlog] at hf
    rcases hmem hc hf with ⟨h, -⟩ | ⟨h, -⟩
    · exact Nat.lt_succ_of_lt h
    · rw [h]; exact Nat.lt_succ_self _
  · intro c b hb
    rcases hmem (c := c) rfl (hlog ▸ hb) with ⟨h, hm⟩ | ⟨h, hm⟩
    · obtain ⟨x, hx, hsc⟩ := hL.asked c b hm
      exact ⟨x, by rw [hsn c (by omega), hx], hsc⟩
    · subst h
      rcases he with ⟨b', rfl, rfl⟩ | rfl
      · cases hm; exact ⟨_, hself, rfl⟩
      · cases hm
  · intro c x hx
    by_cases hc : c = s.next
    · subst hc
      rcases he with ⟨b', rfl, rfl⟩ | rfl
      · exact .inl ⟨b', by rw [hlog]; simp⟩
      · exact .inr (by rw [hlog]; simp)
    · rw [hsn c hc] at hx
      rcases hL.kind c x hx with ⟨b, h⟩ | h
      · exact .inl ⟨b, by rw [hlog]; exact List.mem_append_left _ h⟩
      · exact .inr (by rw [hlog]; exact List.mem_append_left _ h)
  · intro c b b' h h'
    rcases hmem (c := c) rfl (hlog ▸ h) with ⟨hc, hm⟩ | ⟨hc, hm⟩ <;> rcases hmem (c := c) rfl (hlog ▸ h') with ⟨hc', hm'⟩ | ⟨hc', hm'⟩
    · exact hL.once c b b' hm hm'
    · omega
    · omega
    · rw [← hm'] at hm; cases hm; rfl
  · intro c b h h'
    rcases hmem (c := c) rfl (hlog ▸ h) with ⟨hc, hm⟩ | ⟨hc, hm⟩ <;> rcases hmem (c := c) rfl (hlog ▸ h') with ⟨hc', hm'⟩ | ⟨hc', hm'⟩
    · exact hL.other c b hm hm'
    · omega
    · omega
    · rw [← hm'] at hm; cases hm
  · intro c r h
    rcases hmem (c := c) rfl (hlog ▸ h) with ⟨hc, hm⟩ | ⟨hc, hm⟩
    · obtain ⟨x, hx, hp⟩ := hL.res c r hm
      exact ⟨x, by rw [hsn c (by omega), hx], hp⟩
    · have := hres c; rw [← hm] at this; simp [Ev.isRes] at this
  · intro c
    rw [hlog, count_append, count_zero (l := [e]) (fun f hf => by rw [List.mem_singleton] at hf; subst hf; exact hres c)]; exact hL.res1 c
  · intro c b m h h'
    rcases hmem (c := c) rfl (hlog ▸ h') with ⟨hc, hm'⟩ | ⟨hc, hm'⟩
    · rcases hmem (c := c) rfl (hlog ▸ h) with ⟨-, hm⟩ | ⟨hc', -⟩
      · exact hL.del c b m hm hm'
      · omega
    · have := hdel c; rw [← hm'] at this; simp [Ev.isDel] at this
  · intro c b m h hb h'
    rcases hmem (c := c) rfl (hlog ▸ h') with ⟨hc, hm'⟩ | ⟨hc, hm'⟩
    · rcases hmem (c := c) rfl (hlog ▸ h) with ⟨-, hm⟩ | ⟨hc', -⟩
      · exact (hL.after c b m hm hb hm').keep (hsn c (by omega)) (fun i l hi => ⟨hi, Nat.le_refl _⟩)
      · omega
    · have := hdel c; rw [← hm'] at this; simp [Ev.isDel] at this
  · intro c b h hb
    rw [hlog, count_append, count_zero (l := [e]) (fun f hf => by rw [List.mem_singleton] at hf; subst hf; exact hdel c)]
    rcases hmem (c := c) rfl (hlog ▸ h) with ⟨-, hm⟩ | ⟨hc', -⟩
    · exact hL.del1 c b hm hb
    · subst hc'
      refine Nat.le_trans (Nat.le_of_eq (count_zero (fun f hf => ?_))) (Nat.zero_le _)
      cases f with
      | delivered d m =>
        have hd := hL.known _ hf d rfl
        simp [Ev.isDel]; omega
      | _ => rfl

theorem log_case {s s' : State} (hI : Inv s) (hL : LogInv s) (h : Case s s') : LogInv s' := by
  cases h with
  | quiet es he h1 h2 h3 h4 hs =>
    exact log_quiet hL he h4 h3 (keep_same h2).1 (keep_same h2).2 (fun c b _ ha => ha.keep (by rw [h2]) (fun i l hi => by rw [h1] at hi ⊢; exact ⟨hi, Nat.le_refl _⟩))
  | free i sd hsd h1 h2 h3 h4 hs hst =>
    refine log_quiet (es := []) hL quiet_nil (by simp [h4]) h3 (keep_same h2).1 (keep_same h2).2 (fun c b _ ha => ha.keep (by rw [h2]) (fun j l hi => ?_))
    by_cases hji : j = i
    · subst hji; rw [h1, upd_same] at hi; rcases hsd with rfl | rfl <;> cases hi
    · rw [h1, upd_ne hji] at hi ⊢; exact ⟨hi, Nat.le_refl _⟩
  | stop es he h1 h2 h3 h4 =>
    exact log_quiet hL he h4 h3 (keep_same h2).1 (keep_same h2).2 (fun c b _ ha => ha.keep (by rw [h2]) (fun i l hi => by rw [h1] at hi; cases hi))
  | send b h => exact log_new hI hL h (.inl ⟨b, rfl, rfl⟩)
  | rogue ms h => exact log_new hI hL h (.inr rfl)
  | move c x p es hx hn he hj hp h1 h2 h3 h4 h5 =>
    have ha : ∀ c' b, .asked c' b ∈ s.log → After s c' → After s' c' := by
      intro c' b _ ha
      have hc : c' ≠ c := by
        rintro rfl
        rcases ha.pc hx with ⟨r, i, h⟩ | h
        · exact hn _ _ _ h
        · exact he _ h
      exact ha.keep (by rw [h2, upd_ne hc]) (fun i l hi => by rw [h1] at hi ⊢; exact ⟨hi, Nat.le_refl _⟩)
    rcases hp with ⟨hq, -⟩ | ⟨q, r, -, rfl, hq, rfl⟩
    · exact log_quiet hL hq h4 h3 (keep_snds hx he h2).1 (keep_snds hx he h2).2 ha
    · exact log_result hL hq h4 h3 hx (known_of hI hx) he h2 ha
  | opened c i x r hx hp hi h =>
    subst h
    have hend : ∀ r, x.pc ≠ .ended r := by rw [hp]; intro r h; cases h
    refine log_quiet (es := []) hL quiet_nil (by simp [State.setPc, State.setInst]) rfl (keep_snds hx hend rfl).1 (keep_snds hx hend rfl).2 (fun c' b _ ha => ?_)
    have hc : c' ≠ c := by
      rintro rfl
      rcases ha.pc hx with ⟨r, i, h⟩ | h <;> (rw [hp] at h; cases h)
    refine ha.keep (upd_ne hc) (fun j l hj => ?_)
    have hj : (upd s.insts i ⟨.conn c true, [], none, 0⟩ j).side = .conn c' l := hj
    show _ ∧ _ ≤ (upd s.insts i ⟨.conn c true, [], none, 0⟩ j).nread
    by_cases hji : j = i
    · subst hji; rw [upd_same] at hj; cases hj; exact absurd rfl hc
    · rw [upd_ne hji] at hj ⊢; exact ⟨hj, Nat.le_refl _⟩
  | posted c i x r k hx hp hi hd h =>
    subst h
    have hend : ∀ r, x.pc ≠ .ended r := by rw [hp]; intro r h; cases h
    refine log_quiet (es := []) hL quiet_nil (by simp [State.setPc, State.setInst]) rfl (keep_snds hx hend rfl).1 (keep_snds hx hend rfl).2 (fun c' b _ ha => ?_)
    have hc : c' ≠ c := by
      rintro rfl
      rcases ha.pc hx with ⟨r, i, h⟩ | h <;> (rw [hp] at h; cases h)
    refine ha.keep (upd_ne hc) (fun j l hj => ?_)
    have hj : (upd s.insts i { s.insts i with box := (s.insts i).box ++ [(k, x.script.getD k [])] } j).side = .conn c' l := hj
    show _ ∧ _ ≤ (upd s.insts i { s.insts i with box := (s.insts i).box ++ [(k, x.script.getD k [])] } j).nread
    by_cases hji : j = i
    · subst hji; rw [upd_same] at hj ⊢; exact ⟨hj, Nat.le_refl _⟩
    · rw [upd_ne hji] at hj ⊢; exact ⟨hj, Nat.le_refl _⟩
  | late c i x r k es hx hp hi hd he h1 h2 h3 h4 h5 =>
    have hend : ∀ r, x.pc ≠ .ended r := by rw [hp]; intro r h; cases h
    refine log_quiet hL he h4 h3 (keep_snds hx hend h2).1 (keep_snds hx hend h2).2 (fun c' b _ ha => ?_)
    have hc : c' ≠ c := by
      rintro rfl
      rcases ha.pc hx with ⟨r, i, h⟩ | h <;> (rw [hp] at h; cases h)
    refine ha.keep (by rw [h2]; exact upd_ne hc) (fun j l hj => ?_)
    rw [h1] at hj ⊢
    by_cases hji : j = i
    · subst hji; rw [upd_same] at hj ⊢; exact ⟨hj, Nat.le_succ _⟩
    · rw [upd_ne hji] at hj ⊢; exact ⟨hj, Nat.le_refl _⟩
  | advanced c i x r k w hx hp hw hk h =>
    subst h
    have hend : ∀ r, x.pc ≠ .ended r := by rw [hp]; intro r h; cases h
    refine log_quiet (es := []) hL quiet_nil (by simp [State.setPc]) rfl (keep_snds hx hend rfl).1 (keep_snds hx hend rfl).2 (fun c' b hb ha => ?_)
    have hc : c' ≠ c := by
      rintro rfl
      obtain ⟨y, hy, hsc⟩ := hL.asked c' b hb
      rw [hx] at hy; cases hy
      rw [hsc, frame_len] at hk
      rcases ha.pc hx with ⟨r, i, h⟩ | h
      · rw [hp] at h; cases h; omega
      · rw [hp] at h; cases h
    exact ha.keep (upd_ne hc) (fun j l hj => ⟨hj, Nat.le_refl _⟩)
  | finished c i x r k w hx hp hw hj hk h =>
    subst h
    have hend : ∀ r, x.pc ≠ .ended r := by rw [hp]; intro r h; cases h
    have hcl : (s.close c i).log = s.log ∧ (s.close c i).snds = s.snds ∧ (s.close c i).next = s.next ∧
        ∀ j c' l, ((s.close c i).insts j).side = .conn c' l → (∃ l0, (s.insts j).side = .conn c' l0) ∧ (s.insts j).nread ≤ ((s.close c i).insts j).nread := by
      unfold State.close
      split
      · next hjn =>
        have hi : (s.insts i).side = .conn c true := by unfold State.joined at hjn; exact eq_of_beq hjn
        refine ⟨rfl, rfl, rfl, fun j c' l h => ?_⟩
        have h : (upd s.insts i { s.insts i with side := .conn c false } j).side = .conn c' l := h
        show _ ∧ _ ≤ (upd s.insts i { s.insts i with side := .conn c false } j).nread
        by_cases hji : j = i
        · subst hji; rw [upd_same] at h ⊢; cases h; exact ⟨⟨true, hi⟩, Nat.le_refl _⟩
        · rw [upd_ne hji] at h ⊢; exact ⟨⟨l, h⟩, Nat.le_refl _⟩
      · exact ⟨rfl, rfl, rfl, fun j c' l h => ⟨⟨l, h⟩, Nat.le_refl _⟩⟩
    refine log_result (q := []) (r := .success) hL quiet_nil (by show (s.close c i).log ++ [.result c .success] = _; rw [hcl.1]; rfl) hcl.2.2.1 hx (known_of hI hx) hend
      (by show upd (s.close c i).snds c _ = _; rw [hcl.2.1]) (fun c' b hb ha => ?_)
    refine ⟨?_, fun j l hj => ?_⟩
    · by_cases hc : c' = c
      · subst hc
        exact ⟨{ x with pc := .ended .success }, upd_same _ _ _, .inr rfl⟩
      · obtain ⟨y, hy, hp'⟩ := ha.1
        refine ⟨y, ?_, hp'⟩
        show upd (s.close c i).snds c _ c' = _
        rw [upd_ne hc, hcl.2.1, hy]
    · obtain ⟨⟨l0, h0⟩, hle⟩ := hcl.2.2.2 j c' l hj
      exact Nat.le_trans (ha.2 j l0 h0) hle
  | read i c l k m rest es hi hb h1 h2 h3 h4 hs hs' =>
    obtain ⟨x, n, hx, hJ, ho⟩ := hI.link i c l hi
    obtain ⟨hka, hm, hlt, -⟩ := items_cons (hJ.box.symm.trans hb)
    have hsn : ∀ c', c' ≠ c → s'.snds c' = s.snds c' := fun c' hc => by rw [h2]; exact upd_ne hc
    have hsnd : s'.snds c = some (x.take k) := by
      rw [h2]; show upd s.snds c _ c = _; rw [upd_same, hx]; rfl
    have hk1 : (∀ c x, s.snds c = some x → ∃ y, s'.snds c = some y ∧ y.script = x.script ∧ (∀ r, x.pc = .ended r → y.pc = .ended r)) := by
      intro c' y hy
      by_cases hc : c' = c
      · subst hc; rw [hx] at hy; cases hy
        refine ⟨_, hsnd, take_script _ _, fun r hr => ?_⟩
        unfold Snd.take; rw [hr]; exact hr
      · exact ⟨y, by rw [hsn c' hc, hy], rfl, fun r h => h⟩
    have hk2 : ∀ c, s.snds c = none → s'.snds c = none := by
      intro c' hy
      have hc : c' ≠ c := by rintro rfl; rw [hx] at hy; cases hy
      rw [hsn c' hc, hy]
    have hsd : ∀ j c' l', (s'.insts j).side = .conn c' l' → (s.insts j).side = .conn c' l' ∧ (s.insts j).nread ≤ (s'.insts j).nread := by
      intro j c' l' hj
      rw [h1] at hj ⊢
      by_cases hji : j = i
      · subst hji; rw [upd_same] at hj ⊢; exact ⟨hj, Nat.le_succ _⟩
      · rw [upd_ne hji] at hj ⊢; exact ⟨hj, Nat.le_refl _⟩
    have ha : ∀ c' b, .asked c' b ∈ s.log → After s c' → After s' c' := by
      intro c' b _ ha
      refine ⟨?_, fun j l' hj => Nat.le_trans (ha.2 j l' (hsd j c' l' hj).1) (hsd j c' l' hj).2⟩
      by_cases hc : c' = c
      · subst hc
        refine ⟨_, hsnd, ?_⟩
        rcases ha.pc hx with ⟨r, i, h⟩ | h
        · left; refine ⟨r, i, ?_⟩; unfold Snd.take; rw [h]; exact h
        · right; unfold Snd.take; rw [h]; exact h
      · rw [hsn c' hc]; exact ha.1
    rcases hs with ⟨rfl, -⟩ | ⟨rfl, -⟩ | ⟨rfl, hst, hl⟩
    · exact log_quiet hL quiet_nil h4 h3 hk1 hk2 ha
    · exact log_quiet hL quiet_nil h4 h3 hk1 hk2 ha
    · refine log_deliver hL h4 h3 (known_of hI hx) hk1 hk2 ha (fun b hask => ?_)
      rw [hst] at ho
      obtain ⟨hn1, -, hdec, -⟩ := ho
      obtain ⟨y, hy, hsc⟩ := hL.asked c b hask
      rw [hx] at hy; cases hy
      refine ⟨by rw [hm, hn1, hsc]; rfl, fun hb0 => ⟨fun hA => ?_, ?_⟩⟩
      · have := hA.2 i l hi; omega
      · refine ⟨⟨_, hsnd, ?_⟩, fun j l' hj => ?_⟩
        · cases l with
          | false =>
            right; have := (hJ.shut rfl).1
            unfold Snd.take; rw [this]; exact this
          | true =>
            left
            obtain ⟨r, k0, w, hp, hn, hw, hk0⟩ := hJ.open_ rfl
            rw [hsc, frame_len] at hk0
            have hk0' : k0 < 2 := hk0
            have : k0 = 1 ∧ w = .posted := by
              cases w with
              | todo => have : n = k0 := hn; omega
              | posted => have : n = k0 + 1 := hn; exact ⟨by omega, rfl⟩
              | taken => have := hw rfl; omega
            obtain ⟨rfl, rfl⟩ := this
            refine ⟨r, i, ?_⟩
            rw [hka, hn1]; unfold Snd.take; rw [hp]; rfl
        · have hjo := (hsd j c l' hj).1
          have hji : j = i := hI.uniq j i c l' l hjo hi
          subst hji; rw [h1, upd_same]; show 2 ≤ (s.insts j).nread + 1; omega
  | pend i c l p es hi hb h1 h2 h3 h4 hs hl hs' =>
    obtain ⟨x, n, hx, hJ, ho⟩ := hI.link i c l hi
    have hsd : ∀ j c' l', (s'.insts j).side = .conn c' l' → (s.insts j).side = .conn c' l' ∧ (s.insts j).nread ≤ (s'.insts j).nread := by
      intro j c' l' hj
      rw [h1] at hj ⊢
      by_cases hji : j = i
      · subst hji; rw [upd_same] at hj ⊢; exact ⟨hj, Nat.le_refl _⟩
      · rw [upd_ne hji] at hj ⊢; exact ⟨hj, Nat.le_refl _⟩
    have ha : ∀ c' b, .asked c' b ∈ s.log → After s c' → After s' c' := fun c' b _ ha => ha.keep (by rw [h2]) (fun j l' hj => hsd j c' l' hj)
    rcases hs with rfl | ⟨rfl, hst⟩
    · exact log_quiet hL quiet_nil h4 h3 (keep_same h2).1 (keep_same h2).2 ha
    · refine log_deliver hL h4 h3 (known_of hI hx) (keep_same h2).1 (keep_same h2).2 ha (fun b hask => ?_)
      rw [hst] at ho
      obtain ⟨-, -, hdec, -⟩ := ho
      obtain ⟨y, hy, hsc⟩ := hL.asked c b hask
      rw [hx] at hy; cases hy
      have h0 : b.length % word = 0 := by
        rw [hsc] at hdec
        have : dec (enc (b.length % word)) = 0 := hdec.symm
        rw [dec_enc (mod_word _)] at this; exact this
      exact ⟨by rw [h0]; rfl, fun h => absurd h0 h⟩

/-! ### Runs -/

theorem runs_induct {P : State → Prop} (h : ∀ s s' a, P s → step logs s a = some s' → P s') {as : List Act} {s t : State} (hs : P s) (hr : runs logs s as = some t) : P t := by
  induction as generalizing s with
  | nil => cases hr; exact hs
  | cons a as ih =>
    unfold runs at hr
    cases hst : step logs s a with
    | none => rw [hst] at hr; cases hr
    | some u => rw [hst] at hr; exact ih (h s u a hs hst) hr

theorem bare_of {s : State} (hI : Inv s) (i : Nat) : Bare s i := ⟨fun h => (hI.bare i h).1⟩

theorem reach_inv {as : List Act} {t : State} (hr : runs logs State.start as = some t) : Inv t ∧ LogInv t := by
  refine runs_induct (P := fun s => Inv s ∧ LogInv s) ?_ ⟨inv_start, logInv_start⟩ hr
  intro s s' a hs h
  have hc := step_case (bare_of hs.1) h
  exact ⟨inv_case hs.1 hc, log_case hs.1 hs.2 hc⟩

end Maf.Pipe
