import Verif.Lemmas.NamedPipeLog

namespace Maf.Pipe

variable {logs : Bool}

def Act.ofSender : Act → Bool
  | .send _ => true
  | .rogue _ => true
  | .probe _ => true
  | .openAt _ _ => true
  | .openFail _ => true
  | .post _ => true
  | .done _ => true
  | .fail _ => true
  | .ask => true
  | _ => false

/-- Events of senders. -/
def Ev.ofSender : Ev → Prop
  | .initDone _ => False
  | .stopped => False
  | .raced => False
  | .delivered _ _ => False
  | _ => True

theorem step_live {s s' : State} {a : Act} (h : step logs s a = some s') : s.ub = false ∧ live logs s a = some s' := by
  unfold step at h
  split at h
  · cases h
  · next hu => exact ⟨by simpa using hu, h⟩

/-- What senders do does not move the receiver. -/
theorem sender_frame {s s' : State} {a : Act} (ha : a.ofSender = true) (h : live logs s a = some s') :
    s'.pc = s.pc ∧ s'.stopped = s.stopped ∧ ∃ es, s'.log = s.log ++ es ∧ ∀ e ∈ es, e.ofSender := by
  cases a with
  | send b => cases h; exact ⟨rfl, rfl, [_], rfl, by intro e he; rw [List.mem_singleton] at he; subst he; trivial⟩
  | rogue ms => cases h; exact ⟨rfl, rfl, [_], rfl, by intro e he; rw [List.mem_singleton] at he; subst he; trivial⟩
  | ask => cases h; exact ⟨rfl, rfl, [_], rfl, by intro e he; rw [List.mem_singleton] at he; subst he; trivial⟩
  | probe c =>
    simp only [live, probe] at h
    split at h
    next x hx =>
      split at h
      next t hp =>
        split at h
        · cases h; exact ⟨rfl, rfl, [], by simp [State.setPc], by simp⟩
        · split at h
          · split at h
            · cases h; exact ⟨rfl, rfl, [.busyProbe c, .result c .busy], by simp [State.finish, State.setPc, State.note], by simp [Ev.ofSender]⟩
            · cases h; exact ⟨rfl, rfl, [.busyProbe c], rfl, by simp [Ev.ofSender]⟩
          · cases h; exact ⟨rfl, rfl, [.result c .unavailable], rfl, by simp [Ev.ofSender]⟩
      next => cases h
    next => cases h
  | openAt c i =>
    simp only [live, openAt] at h
    split at h
    next x hx =>
      split at h
      next r hp =>
        split at h
        · cases h; exact ⟨rfl, rfl, [], by simp [State.setPc, State.setInst], by simp⟩
        · cases h
      next => cases h
    next => cases h
  | openFail c =>
    simp only [live, openFail] at h
    split at h
    next x hx =>
      split at h
      next r hp =>
        split at h
        · cases h
        · split at h
          · split at h
            · cases h; exact ⟨rfl, rfl, [.busyOpen c], rfl, by simp [Ev.ofSender]⟩
            · cases h; exact ⟨rfl, rfl, [.busyOpen c, .result c .busy], by simp [State.finish, State.setPc, State.note], by simp [Ev.ofSender]⟩
          · cases h; exact ⟨rfl, rfl, [.result c .unavailable], rfl, by simp [Ev.ofSender]⟩
      next => cases h
    next => cases h
  | post c =>
    simp only [live, post] at h
    split at h
    next x hx =>
      split at h
      next r i k hp =>
        split at h
        · split at h
          · cases h; exact ⟨rfl, rfl, [], by simp [State.setPc, State.setInst], by simp⟩
          · cases h; exact ⟨rfl, rfl, [.smashed c], rfl, by simp [Ev.ofSender]⟩
          · cases h; exact ⟨rfl, rfl, [], by simp [State.setPc, State.setInst], by simp⟩
        · cases h
      next => cases h
    next => cases h
  | done c =>
    simp only [live, done] at h
    have key : ∀ x r i k, s' = s.advance c x r i k → s'.pc = s.pc ∧ s'.stopped = s.stopped ∧ ∃ es, s'.log = s.log ++ es ∧ ∀ e ∈ es, e.ofSender := by
      intro x r i k h
      subst h
      unfold State.advance State.close
      split
      · exact ⟨rfl, rfl, [], by simp [State.setPc], by simp⟩
      · split <;> exact ⟨rfl, rfl, [.result c .success], rfl, by simp [Ev.ofSender]⟩
    split at h
    next x hx =>
      split at h
      next =>
        split at h
        · cases h; exact key _ _ _ _ rfl
        · cases h
      next => cases h; exact key _ _ _ _ rfl
      next => cases h
    next => cases h
  | fail c =>
    simp only [live, fail] at h
    split at h
    next x hx =>
      split at h
      next => cases h
      next =>
        split at h
        · cases h
        · cases h; exact ⟨rfl, rfl, [], by simp [State.setPc], by simp⟩
      next => cases h
    next => cases h
  | _ => cases ha

/-! ### Where the receiver is -/

theorem fill_stopped {s : State} {i size : Nat} {p : Pend} {good : State → List Nat → State} {poor : State → State}
    (hg : ∀ t b, (good t b).stopped = t.stopped) (hp : ∀ t, (poor t).stopped = t.stopped) : (s.fill i size p good poor).stopped = s.stopped := by
  have hpop : (s.pop i).stopped = s.stopped := by
    unfold State.pop; split
    · rfl
    · unfold State.takeFrom; split <;> rfl
  unfold State.fill
  split
  · rfl
  · split
    · rw [hg]; rfl
    · rw [hp]; rfl
  · split
    · rw [hg, hpop]
    · rw [hp, hpop]

theorem deliver_stopped (s : State) (i : Nat) (b : List Nat) : (s.deliver i b).stopped = s.stopped := by
  unfold State.deliver; split <;> rfl

theorem pop_log (s : State) (i : Nat) : (s.pop i).log = s.log := by
  unfold State.pop; split
  · rfl
  · unfold State.takeFrom; split <;> rfl

/-- Events and places that only `stop` brings about. -/
structure StopInv (s : State) : Prop where
  st : s.stopped = true → .stopped ∈ s.log
  ended : s.pc = .ended → s.stopped = true
  raced : .raced ∈ s.log → .stopped ∈ s.log
  ub : s.ub = true → .raced ∈ s.log ∨ ∃ c, .smashed c ∈ s.log

theorem fill_log {s : State} {i size : Nat} {p : Pend} {good : State → List Nat → State} {poor : State → State}
    (hg : ∀ t b, ∃ es, (good t b).log = t.log ++ es ∧ ∀ e ∈ es, ∃ c m, e = .delivered c m) (hp : ∀ t, (poor t).log = t.log) :
    ∃ es, (s.fill i size p good poor).log = s.log ++ es ∧ ∀ e ∈ es, ∃ c m, e = .delivered c m := by
  unfold State.fill
  split
  · exact ⟨[], by simp, by simp⟩
  · split
    · exact hg _ _
    · rw [hp]; exact ⟨[], by simp [State.setInst], by simp⟩
  · split
    · next e got rest hne heq hl =>
      obtain ⟨es, h, he⟩ := hg (s.pop i) got
      exact ⟨es, by rw [h, pop_log], he⟩
    · rw [hp, pop_log]; exact ⟨[], by simp, by simp⟩

theorem deliver_log (s : State) (i : Nat) (b : List Nat) : ∃ es, (s.deliver i b).log = s.log ++ es ∧ ∀ e ∈ es, ∃ c m, e = .delivered c m := by
  unfold State.deliver; split
  · next c l _ => exact ⟨[.delivered c b], rfl, by intro e he; rw [List.mem_singleton] at he; exact ⟨c, b, he⟩⟩
  · exact ⟨[], by simp, by simp⟩

theorem deliver_pc (s : State) (i : Nat) (b : List Nat) : (s.deliver i b).pc = .leave i := by
  unfold State.deliver; split <;> rfl

theorem fill_pc {s : State} {i size : Nat} {p : Pend} {good : State → List Nat → State} {poor : State → State}
    (hg : ∀ t b, (good t b).pc ≠ .ended) (hp : ∀ t, (poor t).pc ≠ .ended) : (s.fill i size p good poor).pc ≠ .ended := by
  unfold State.fill
  split
  · simp
  · split
    · exact hg _ _
    · exact hp _
  · split
    · exact hg _ _
    · exact hp _

theorem pop_ub (s : State) (i : Nat) : (s.pop i).ub = s.ub := by
  unfold State.pop; split
  · rfl
  · unfold State.takeFrom; split <;> rfl

theorem fill_ub {s : State} {i size : Nat} {p : Pend} {good : State → List Nat → State} {poor : State → State}
    (hg : ∀ t b, (good t b).ub = t.ub) (hp : ∀ t, (poor t).ub = t.ub) : (s.fill i size p good poor).ub = s.ub := by
  unfold State.fill
  split
  · rfl
  · split
    · rw [hg]; rfl
    · rw [hp]; rfl
  · split
    · rw [hg, pop_ub]
    · rw [hp, pop_ub]

theorem sender_ub {s s' : State} {a : Act} (ha : a.ofSender = true) (h : live logs s a = some s') : s'.ub = s.ub ∨ ∃ c, .smashed c ∈ s'.log := by
  cases a with
  | send b => cases h; exact .inl rfl
  | rogue ms => cases h; exact .inl rfl
  | ask => cases h; exact .inl rfl
  | probe c =>
    simp only [live, probe] at h
    repeat' split at h
    all_goals first | (cases h; exact .inl rfl) | cases h
  | openAt c i =>
    simp only [live, openAt] at h
    repeat' split at h
    all_goals first | (cases h; exact .inl rfl) | cases h
  | openFail c =>
    simp only [live, openFail] at h
    repeat' split at h
    all_goals first | (cases h; exact .inl rfl) | cases h
  | post c =>
    simp only [live, post] at h
    repeat' split at h
    all_goals first | (cases h; exact .inl rfl) | (cases h; exact .inr ⟨c, by simp [State.bad]⟩) | cases h
  | done c =>
    have key : ∀ x r i k, (s.advance c x r i k).ub = s.ub := by
      intro x r i k; unfold State.advance State.close
      repeat' split
      all_goals rfl
    simp only [live, done] at h
    repeat' split at h
    all_goals first | (cases h; exact .inl (key _ _ _ _)) | cases h
  | fail c =>
    simp only [live, fail] at h
    repeat' split at h
    all_goals first | (cases h; exact .inl rfl) | cases h
  | _ => cases ha

theorem stop_step {s s' : State} {a : Act} (hS : StopInv s) (h : step logs s a = some s') : StopInv s' := by
  obtain ⟨hub, h⟩ := step_live h
  have hbad : s.stopped = true → StopInv (s.bad [.raced]) := fun hst =>
    ⟨fun _ => List.mem_append_left _ (hS.st hst), fun hp => hS.ended hp, fun _ => List.mem_append_left _ (hS.st hst), fun _ => .inl (by simp [State.bad])⟩
  have hplain : ∀ t : State, t.stopped = s.stopped → t.pc ≠ .ended → t.ub = s.ub → (∃ es, t.log = s.log ++ es ∧ .raced ∉ es) → StopInv t := by
    rintro t h1 h2 h3 ⟨es, h4, h5⟩
    refine ⟨fun h => by rw [h4]; exact List.mem_append_left _ (hS.st (h1 ▸ h)), fun h => absurd h h2, fun h => ?_, fun h => by rw [h3, hub] at h; cases h⟩
    rw [h4, List.mem_append] at h
    rcases h with h | h
    · rw [h4]; exact List.mem_append_left _ (hS.raced h)
    · exact absurd h h5
  cases ha : a.ofSender with
  | true =>
    obtain ⟨h1, h2, es, h3, h4⟩ := sender_frame ha h
    refine ⟨fun h => by rw [h3]; exact List.mem_append_left _ (hS.st (h2 ▸ h)), fun h => by rw [h2]; exact hS.ended (h1 ▸ h), fun hr => ?_, fun hu => ?_⟩
    · rw [h3, List.mem_append] at hr
      rcases hr with hr | hr
      · rw [h3]; exact List.mem_append_left _ (hS.raced hr)
      · exact absurd (h4 _ hr) (by simp [Ev.ofSender])
    · rcases sender_ub ha h with h | h
      · rw [h, hub] at hu; cases hu
      · exact .inr h
  | false =>
    cases a with
    | create =>
      simp only [live, create] at h
      split at h
      · cases h; exact hplain _ rfl (by simp) rfl ⟨[], by simp, by simp⟩
      · cases h
    | connect =>
      simp only [live, connect] at h
      split at h
      · split at h
        · split at h
          · cases h; exact hplain _ rfl (by simp) rfl ⟨[.initDone true], rfl, by simp⟩
          · cases h; exact hplain _ rfl (by simp) rfl ⟨[], by simp, by simp⟩
        · cases h; exact hplain _ rfl (by simp) rfl ⟨[.initDone false], rfl, by simp⟩
      · cases h
    | start =>
      simp only [live, start] at h
      split at h
      · split at h
        · next hst => cases h; exact hbad hst
        · cases h; exact hplain _ rfl (by simp) rfl ⟨[], by simp, by simp⟩
      · next hp => cases h; exact hbad (hS.ended hp)
      · cases h
    | check =>
      simp only [live, check] at h
      split at h
      · cases h
        refine ⟨hS.st, fun hp => ?_, hS.raced, hS.ub⟩
        dsimp only at hp
        split at hp
        · next h => exact h
        · cases hp
      · cases h
    | enter =>
      simp only [live, enter] at h
      split at h
      · split at h
        · next hst => cases h; exact hbad hst
        · cases h; exact hplain _ rfl (by simp) rfl ⟨[], by simp, by simp⟩
      · cases h
    | wake i =>
      simp only [live, wake] at h
      split at h
      · split at h
        · next hst => cases h; exact ⟨hS.st, fun _ => hst, hS.raced, hS.ub⟩
        · split at h
          · split at h
            · cases h; exact hplain _ rfl (by simp) rfl ⟨[], by simp, by simp⟩
            · cases h
          · cases h
      · cases h
    | readHeader =>
      simp only [live, readHeader] at h
      split at h
      · split at h
        · next hst => cases h; exact hbad hst
        · cases h
          obtain ⟨es, h1, h2⟩ := fill_log (s := s) (i := _) (size := 4) (p := .header) (good := fun s got => { s with pc := .readBody _ (dec got) })
            (poor := fun s => { s with pc := .leave _ }) (fun t b => ⟨[], by simp, by simp⟩) (fun t => rfl)
          refine hplain _ (fill_stopped (fun _ _ => rfl) (fun _ => rfl)) (fill_pc (fun _ _ => by simp) (fun _ => by simp)) (fill_ub (fun _ _ => rfl) (fun _ => rfl)) ⟨es, h1, ?_⟩
          intro hr; obtain ⟨c, m, h⟩ := h2 _ hr; cases h
      · cases h
    | readBody =>
      simp only [live, readBody] at h
      split at h
      · split at h
        · next hst => cases h; exact hbad hst
        · next i n _ _ =>
          cases h
          obtain ⟨es, h1, h2⟩ := fill_log (s := s) (i := i) (size := n) (p := .body) (good := fun s got => s.deliver i got)
            (poor := fun s => { s with pc := .leave i }) (fun t b => deliver_log t i b) (fun t => rfl)
          refine hplain _ (fill_stopped (fun t b => deliver_stopped t i b) (fun _ => rfl)) (fill_pc (fun t b => by rw [deliver_pc]; simp) (fun _ => by simp))
            (fill_ub (fun t b => by unfold State.deliver; split <;> rfl) (fun _ => rfl)) ⟨es, h1, ?_⟩
          intro hr; obtain ⟨c, m, h⟩ := h2 _ hr; cases h
      · split at h
        · next hst => cases h; exact hbad hst
        · cases h
      · cases h
    | disconnect =>
      simp only [live, disconnect] at h
      split at h
      · split at h
        · next hst => cases h; exact hbad hst
        · cases h; exact hplain _ rfl (by simp) rfl ⟨[], by simp, by simp⟩
      · cases h
    | rearm =>
      simp only [live, rearm] at h
      split at h
      · split at h
        · next hst => cases h; exact hbad hst
        · cases h; exact hplain _ rfl (by simp) rfl ⟨[], by simp, by simp⟩
      · cases h
    | stop =>
      simp only [live, stop] at h
      have key : StopInv { s with stopped := true, insts := fun _ => .blank, log := s.log ++ [.stopped] } :=
        ⟨fun _ => by simp, fun _ => rfl, fun _ => by simp, fun h => by rw [show s.ub = true from h] at hub; cases hub⟩
      split at h
      · cases h
      · cases h
      · cases h; exact key
    | _ => cases ha

theorem stop_start : StopInv State.start := by
  constructor <;> simp [State.start]

theorem reach_stop {as : List Act} {t : State} (hr : runs logs State.start as = some t) : StopInv t :=
  runs_induct (fun _ _ _ hs h => stop_step hs h) stop_start hr

/-! ### The loop that does not end -/

theorem fill_spin {s : State} {i j size : Nat} {p : Pend} {good : State → List Nat → State} {poor : State → State}
    (hg : ∀ t b, (good t b).pc ≠ .spin j) (hp : ∀ t, (poor t).pc ≠ .spin j) (h : (s.fill i size p good poor).pc = .spin j) :
    ∃ k m rest, (s.insts i).box = (k, m) :: rest ∧ size < m.length := by
  rcases fill_cases (s := s) (i := i) (size := size) (p := p) (good := good) (poor := poor) rfl with
    ⟨k, m, rest, hb, ⟨hl, -⟩ | ⟨-, e⟩ | ⟨-, e⟩⟩ | ⟨-, -, ⟨-, e⟩ | ⟨-, e⟩⟩ | ⟨-, -, ⟨-, e⟩ | ⟨-, e⟩⟩
  · exact ⟨k, m, rest, hb, hl⟩
  all_goals (rw [e] at h; first | exact absurd h (hg _ _) | exact absurd h (hp _))

/-- which receiver actions change to which place -/
theorem recv_pc {s s' : State} {a : Act} (h : live logs s a = some s') (ha : a ≠ .readHeader) (hb : a ≠ .readBody) (j : Nat) : s'.pc = .spin j → s.pc = .spin j := by
  intro hp
  cases hs : a.ofSender with
  | true => rw [← (sender_frame hs h).1]; exact hp
  | false =>
    cases a with
    | create =>
      simp only [live, create] at h
      repeat' split at h
      all_goals first | (cases h; exact absurd hp (by simp)) | cases h
    | connect =>
      simp only [live, connect] at h
      repeat' split at h
      all_goals first | (cases h; exact absurd hp (by simp)) | cases h
    | start =>
      simp only [live, start] at h
      repeat' split at h
      all_goals first | (cases h; exact hp) | (cases h; exact absurd hp (by simp)) | cases h
    | check =>
      simp only [live, check] at h
      split at h
      · cases h; dsimp only at hp; split at hp <;> cases hp
      · cases h
    | enter =>
      simp only [live, enter] at h
      repeat' split at h
      all_goals first | (cases h; exact hp) | (cases h; exact absurd hp (by simp)) | cases h
    | wake i =>
      simp only [live, wake] at h
      repeat' split at h
      all_goals first | (cases h; exact hp) | (cases h; exact absurd hp (by simp)) | cases h
    | readHeader => exact absurd rfl ha
    | readBody => exact absurd rfl hb
    | disconnect =>
      simp only [live, disconnect] at h
      repeat' split at h
      all_goals first | (cases h; exact hp) | (cases h; exact absurd hp (by simp)) | cases h
    | rearm =>
      simp only [live, rearm] at h
      repeat' split at h
      all_goals first | (cases h; exact hp) | (cases h; exact absurd hp (by simp)) | cases h
    | stop =>
      simp only [live, stop] at h
      repeat' split at h
      all_goals first | (cases h; exact hp) | cases h
    | _ => cases hs

/-- An instance whose head does not fit was opened by another program. -/
theorem misfit_rogue {s : State} (hI : Inv s) (hL : LogInv s) {i k : Nat} {m : List Nat} {rest : List (Nat × List Nat)} (hb : (s.insts i).box = (k, m) :: rest)
    (h : (stage s.pc i = .header ∧ 4 < m.length) ∨ ∃ n, stage s.pc i = .body n ∧ n < m.length) : ∃ c, .rogue c ∈ s.log := by
  have hconn : ∃ c l, (s.insts i).side = .conn c l := by
    rcases side_cases (s.insts i) with h | ⟨h, -⟩
    · exact h
    · rw [(hI.bare i h).1] at hb; cases hb
  obtain ⟨c, l, hi⟩ := hconn
  obtain ⟨x, n, hx, hJ, ho⟩ := hI.link i c l hi
  obtain ⟨-, hm, -, -⟩ := items_cons (hJ.box.symm.trans hb)
  rcases hL.kind c x hx with ⟨b, hask⟩ | hr
  · exfalso
    obtain ⟨y, hy, hsc⟩ := hL.asked c b hask
    rw [hx] at hy; cases hy
    rcases h with ⟨hst, hlen⟩ | ⟨n', hst, hlen⟩
    · rw [hst] at ho
      rw [ho.1, hsc] at hm
      have : m.length = 4 := by rw [hm]; rfl
      omega
    · rw [hst] at ho
      obtain ⟨h1, -, h2, -⟩ := ho
      rw [h1, hsc] at hm
      have hm : m = b.take (b.length % word) := hm
      rw [hsc] at h2
      have h2 : n' = dec (enc (b.length % word)) := h2
      rw [dec_enc (mod_word _)] at h2
      have := take_mod b
      rw [← hm] at this; omega
  · exact ⟨c, hr⟩

theorem log_grows {s s' : State} {a : Act} (hI : Inv s) (h : step logs s a = some s') : ∃ es, s'.log = s.log ++ es := by
  have hc := step_case (bare_of hI) h
  cases hc with
  | quiet es he h1 h2 h3 h4 hs => exact ⟨es, h4⟩
  | free i sd hsd h1 h2 h3 h4 hs hst => exact ⟨[], by rw [h4]; simp⟩
  | stop es he h1 h2 h3 h4 => exact ⟨es, h4⟩
  | send b h => exact ⟨[_], by rw [h]; rfl⟩
  | rogue ms h => exact ⟨[_], by rw [h]; rfl⟩
  | move c x p es hx hn he hj hp h1 h2 h3 h4 h5 => exact ⟨es, h4⟩
  | opened c i x r hx hp hi h => exact ⟨[], by rw [h]; simp [State.setPc, State.setInst]⟩
  | posted c i x r k hx hp hi hd h => exact ⟨[], by rw [h]; simp [State.setPc, State.setInst]⟩
  | late c i x r k es hx hp hi hd he h1 h2 h3 h4 h5 => exact ⟨es, h4⟩
  | advanced c i x r k w hx hp hw hk h => exact ⟨[], by rw [h]; simp [State.setPc]⟩
  | finished c i x r k w hx hp hw hj hk h => 
    refine ⟨[.result c .success], ?_⟩
    rw [h]; show (s.close c i).log ++ _ = _
    unfold State.close; split <;> rfl
  | read i c l k m rest es hi hb h1 h2 h3 h4 hs hs' => exact ⟨es, h4⟩
  | pend i c l p es hi hb h1 h2 h3 h4 hs hl hs' => exact ⟨es, h4⟩

theorem spin_step {s s' : State} {a : Act} (hI : Inv s) (hL : LogInv s) (hS : ∀ i, s.pc = .spin i → ∃ c, .rogue c ∈ s.log) (h : step logs s a = some s') :
    ∀ i, s'.pc = .spin i → ∃ c, .rogue c ∈ s'.log := by
  intro j hp
  obtain ⟨es, hes⟩ := log_grows hI h
  obtain ⟨-, hl⟩ := step_live h
  have hold : (∃ c, Ev.rogue c ∈ s.log) → ∃ c, Ev.rogue c ∈ s'.log := fun ⟨c, hc⟩ => ⟨c, by rw [hes]; exact List.mem_append_left _ hc⟩
  by_cases ha : a = .readHeader
  · subst ha
    simp only [live, readHeader] at hl
    split at hl
    · next i hpc =>
      split at hl
      · cases hl; exact hold (hS j hp)
      · cases hl
        obtain ⟨k, m, rest, hb, hlen⟩ := fill_spin (fun t b => by simp) (fun t => by simp) hp
        exact hold (misfit_rogue hI hL hb (.inl ⟨by rw [hpc]; exact (stage_self i 0).1, hlen⟩))
    · cases hl
  · by_cases hb : a = .readBody
    · subst hb
      simp only [live, readBody] at hl
      split at hl
      · next i n hpc =>
        split at hl
        · cases hl; exact hold (hS j hp)
        · cases hl
          obtain ⟨k, m, rest, hb, hlen⟩ := fill_spin (fun t b => by rw [deliver_pc]; simp) (fun t => by simp) hp
          exact hold (misfit_rogue hI hL hb (.inr ⟨n, by rw [hpc]; exact (stage_self i n).2.1, hlen⟩))
      · split at hl
        · cases hl; exact hold (hS j hp)
        · cases hl
      · cases hl
    · exact hold (hS j (recv_pc hl ha hb j hp))

/-- From there on nothing is delivered. -/
theorem stuck_step {s s' : State} {a : Act} {i : Nat} (hp : s.pc = .spin i) (h : step logs s a = some s') :
    s'.pc = .spin i ∧ ∀ c, (s'.log.filter (Ev.isDel c)).length = (s.log.filter (Ev.isDel c)).length := by
  obtain ⟨-, hl⟩ := step_live h
  cases hs : a.ofSender with
  | true =>
    obtain ⟨h1, -, es, h3, h4⟩ := sender_frame hs hl
    refine ⟨by rw [h1, hp], fun c => ?_⟩
    rw [h3, count_append, count_zero (l := es) (fun e he => by
      have := h4 e he
      cases e <;> first | rfl | cases this)]; rfl
  | false =>
    cases a with
    | stop =>
      simp only [live, stop, hp] at hl
      cases hl
      refine ⟨rfl, fun c => ?_⟩
      dsimp only
      rw [count_append]; rfl
    | readBody =>
      simp only [live, readBody, hp] at hl
      split at hl
      · cases hl
        refine ⟨hp, fun c => ?_⟩
        show ((s.log ++ [Ev.raced]).filter _).length = _
        rw [count_append]; rfl
      · cases hl
    | create => simp [live, create, hp] at hl
    | connect => simp [live, connect, hp] at hl
    | start => simp [live, start, hp] at hl
    | check => simp [live, check, hp] at hl
    | enter => simp [live, enter, hp] at hl
    | wake j => simp [live, wake, hp] at hl
    | readHeader => simp [live, readHeader, hp] at hl
    | disconnect => simp [live, disconnect, hp] at hl
    | rearm => simp [live, rearm, hp] at hl
    | _ => cases hs

/-! ### Initialisation -/

/-- may be opened, or was -/
def Occ (s : State) (k : Nat) : Prop := (s.insts k).side = .listen ∨ ∃ c l, (s.insts k).side = .conn c l

theorem occ_same {s : State} {i k : Nat} {x : Inst} {t : State} (ht : t.insts = upd s.insts i x) (hx : x.side = (s.insts i).side ∨ ∃ c l, x.side = .conn c l) (h : Occ s k) : Occ t k := by
  unfold Occ at *
  rw [ht]
  by_cases hk : k = i
  · subst hk; rw [upd_same]
    rcases hx with hx | hx
    · rw [hx]; exact h
    · exact .inr hx
  · rw [upd_ne hk]; exact h

theorem sender_occ {s s' : State} {a : Act} (ha : a.ofSender = true) (h : live logs s a = some s') (k : Nat) (ho : Occ s k) : Occ s' k := by
  cases a with
  | send b => cases h; exact ho
  | rogue ms => cases h; exact ho
  | ask => cases h; exact ho
  | probe c =>
    simp only [live, probe] at h
    repeat' split at h
    all_goals first | (cases h; exact ho) | cases h
  | openAt c i =>
    simp only [live, openAt] at h
    repeat' split at h
    all_goals first | (cases h; exact occ_same rfl (.inr ⟨c, true, rfl⟩) ho) | cases h
  | openFail c =>
    simp only [live, openFail] at h
    repeat' split at h
    all_goals first | (cases h; exact ho) | cases h
  | post c =>
    simp only [live, post] at h
    repeat' split at h
    all_goals first | (cases h; exact occ_same rfl (.inl rfl) ho) | cases h
  | done c =>
    have key : ∀ x r i k', Occ (s.advance c x r i k') k := by
      intro x r i k'; unfold State.advance State.close
      repeat' split
      · exact ho
      · exact occ_same rfl (.inr ⟨c, false, rfl⟩) ho
      · exact ho
    simp only [live, done] at h
    repeat' split at h
    all_goals first | (cases h; exact key _ _ _ _) | cases h
  | fail c =>
    simp only [live, fail] at h
    repeat' split at h
    all_goals first | (cases h; exact ho) | cases h
  | _ => cases ha

structure InitInv (s : State) : Prop where
  made : ∀ k, s.pc = .made k → Occ s k
  fails : .initDone false ∈ s.log → ∃ c, (∃ b, .asked c b ∈ s.log) ∨ .rogue c ∈ s.log

theorem init_step {s s' : State} {a : Act} (hI : Inv s) (hL : LogInv s) (hM : InitInv s) (h : step logs s a = some s') : InitInv s' := by
  obtain ⟨es, hes⟩ := log_grows hI h
  obtain ⟨-, hl⟩ := step_live h
  have hold : (∃ c, (∃ b, Ev.asked c b ∈ s.log) ∨ Ev.rogue c ∈ s.log) → ∃ c, (∃ b, .asked c b ∈ s'.log) ∨ .rogue c ∈ s'.log := by
    rintro ⟨c, ⟨b, h⟩ | h⟩
    · exact ⟨c, .inl ⟨b, by rw [hes]; exact List.mem_append_left _ h⟩⟩
    · exact ⟨c, .inr (by rw [hes]; exact List.mem_append_left _ h)⟩
  have hquiet : (∀ e ∈ es, e ≠ .initDone false) → .initDone false ∈ s'.log → ∃ c, (∃ b, .asked c b ∈ s'.log) ∨ .rogue c ∈ s'.log := by
    intro h hm
    rw [hes, List.mem_append] at hm
    rcases hm with hm | hm
    · exact hold (hM.fails hm)
    · exact absurd rfl (h _ hm)
  cases hs : a.ofSender with
  | true =>
    obtain ⟨h1, -, es', h3, h4⟩ := sender_frame hs hl
    have : es' = es := List.append_cancel_left (h3.symm.trans hes)
    subst this
    exact ⟨fun k hk => sender_occ hs hl k (hM.made k (h1 ▸ hk)), hquiet (fun e he hee => by have := h4 e he; rw [hee] at this; exact this)⟩
  | false =>
    -- all receiver actions but `create` and `connect` lead to no `made` and report no failure
    have hrest : (∀ k, s'.pc ≠ .made k) ∨ (s'.pc = s.pc ∧ s'.insts = s.insts) → (∀ e ∈ es, e ≠ .initDone false) → InitInv s' := by
      intro hp he
      refine ⟨fun k hk => ?_, hquiet he⟩
      rcases hp with hp | ⟨hp, hi⟩
      · exact absurd hk (hp k)
      · unfold Occ; rw [hi]; exact hM.made k (hp ▸ hk)
    have hes' : ∀ es', s'.log = s.log ++ es' → es' = es := fun es' h => List.append_cancel_left (h.symm.trans hes)
    have hbad : s' = s.bad [.raced] → InitInv s' := by
      intro e
      refine hrest (.inr ⟨by rw [e]; rfl, by rw [e]; rfl⟩) ?_
      rw [← hes' [.raced] (by rw [e]; rfl)]; simp
    have hplain : s'.log = s.log → (∀ k, s'.pc ≠ .made k) → InitInv s' := by
      intro e hp
      refine hrest (.inl hp) ?_
      rw [← hes' [] (by rw [e]; simp)]; simp
    cases a with
    | create =>
      simp only [live, create] at hl
      split at hl
      · next k hpc =>
        cases hl
        refine ⟨fun k' hk => ?_, hquiet ?_⟩
        · cases hk; left; show (upd s.insts k _ k).side = _; rw [upd_same]
        · rw [← hes' [] (by simp)]; simp
      · cases hl
    | connect =>
      simp only [live, connect] at hl
      split at hl
      · next k hpc =>
        split at hl
        · split at hl
          · cases hl
            refine hrest (.inl (by simp)) ?_
            rw [← hes' [.initDone true] rfl]; simp
          · cases hl; exact hplain rfl (by simp)
        · next hnl =>
          cases hl
          refine ⟨fun k' hk => (by cases hk), fun _ => ?_⟩
          rcases hM.made k hpc with h | ⟨c, l, h⟩
          · exact absurd h hnl
          · obtain ⟨x, n, hx, -⟩ := hI.link k c l h
            exact hold ⟨c, hL.kind c x hx⟩
      · cases hl
    | start =>
      simp only [live, start] at hl
      repeat' split at hl
      all_goals first | (have hl := (Option.some.inj hl).symm; exact hbad hl) | (cases hl; exact hplain rfl (by simp)) | cases hl
    | check =>
      simp only [live, check] at hl
      split at hl
      · cases hl; exact hplain rfl (by intro k; dsimp only; split <;> simp)
      · cases hl
    | enter =>
      simp only [live, enter] at hl
      repeat' split at hl
      all_goals first | (have hl := (Option.some.inj hl).symm; exact hbad hl) | (cases hl; exact hplain rfl (by simp)) | cases hl
    | wake i =>
      simp only [live, wake] at hl
      repeat' split at hl
      all_goals first | (cases hl; exact hplain rfl (by simp)) | cases hl
    | readHeader =>
      simp only [live, readHeader] at hl
      split at hl
      · next i hpc =>
        split at hl
        · exact hbad (Option.some.inj hl).symm
        · have hl := (Option.some.inj hl).symm
          obtain ⟨es', h1, h2⟩ := fill_log (s := s) (i := i) (size := 4) (p := .header) (good := fun s got => { s with pc := .readBody i (dec got) })
            (poor := fun s => { s with pc := .leave i }) (fun t b => ⟨[], by simp, by simp⟩) (fun t => rfl)
          refine hrest (.inl (fun k hk => ?_)) ?_
          · rw [hl] at hk
            rcases fill_cases (s := s) (i := i) (size := 4) (p := .header) (good := fun s got => { s with pc := .readBody i (dec got) })
                (poor := fun s => { s with pc := .leave i }) rfl with
              ⟨k', m, rest, hb, ⟨-, e⟩ | ⟨-, e⟩ | ⟨-, e⟩⟩ | ⟨-, -, ⟨-, e⟩ | ⟨-, e⟩⟩ | ⟨-, -, ⟨-, e⟩ | ⟨-, e⟩⟩ <;> (rw [e] at hk; cases hk)
          · rw [← hes' es' (by rw [hl]; exact h1)]
            intro e he hee; obtain ⟨c, m, h⟩ := h2 e he; rw [hee] at h; cases h
      · cases hl
    | readBody =>
      simp only [live, readBody] at hl
      split at hl
      · next i n hpc =>
        split at hl
        · exact hbad (Option.some.inj hl).symm
        · have hl := (Option.some.inj hl).symm
          obtain ⟨es', h1, h2⟩ := fill_log (s := s) (i := i) (size := n) (p := .body) (good := fun s got => s.deliver i got)
            (poor := fun s => { s with pc := .leave i }) (fun t b => deliver_log t i b) (fun t => rfl)
          refine hrest (.inl (fun k hk => ?_)) ?_
          · rw [hl] at hk
            rcases fill_cases (s := s) (i := i) (size := n) (p := .body) (good := fun s got => s.deliver i got)
                (poor := fun s => { s with pc := .leave i }) rfl with
              ⟨k', m, rest, hb, ⟨-, e⟩ | ⟨-, e⟩ | ⟨-, e⟩⟩ | ⟨-, -, ⟨-, e⟩ | ⟨-, e⟩⟩ | ⟨-, -, ⟨-, e⟩ | ⟨-, e⟩⟩ <;>
              (rw [e] at hk; first | (rw [deliver_pc] at hk; cases hk) | cases hk)
          · rw [← hes' es' (by rw [hl]; exact h1)]
            intro e he hee; obtain ⟨c, m, h⟩ := h2 e he; rw [hee] at h; cases h
      · split at hl
        · exact hbad (Option.some.inj hl).symm
        · cases hl
      · cases hl
    | disconnect =>
      simp only [live, disconnect] at hl
      repeat' split at hl
      all_goals first | (have hl := (Option.some.inj hl).symm; exact hbad hl) | (cases hl; exact hplain rfl (by simp)) | cases hl
    | rearm =>
      simp only [live, rearm] at hl
      repeat' split at hl
      all_goals first | (have hl := (Option.some.inj hl).symm; exact hbad hl) | (cases hl; exact hplain rfl (by simp)) | cases hl
    | stop =>
      simp only [live, stop] at hl
      split at hl
      · cases hl
      · cases hl
      · next h1 h2 =>
        cases hl
        refine hrest (.inl (fun k hk => h2 k hk)) ?_
        rw [← hes' [.stopped] rfl]; simp
    | _ => cases hs

theorem init_start : InitInv State.start := by
  constructor <;> simp [State.start]

theorem reach_init {as : List Act} {t : State} (hr : runs logs State.start as = some t) : InitInv t := by
  refine (runs_induct (P := fun s => Inv s ∧ LogInv s ∧ InitInv s) ?_ ⟨inv_start, logInv_start, init_start⟩ hr).2.2
  intro s s' a ⟨h1, h2, h3⟩ h
  have hc := step_case (bare_of h1) h
  exact ⟨inv_case h1 hc, log_case h1 h2 hc, init_step h1 h2 h3 h⟩

theorem reach_spin {as : List Act} {t : State} (hr : runs logs State.start as = some t) : ∀ i, t.pc = .spin i → ∃ c, .rogue c ∈ t.log := by
  refine (runs_induct (P := fun s => Inv s ∧ LogInv s ∧ ∀ i, s.pc = .spin i → ∃ c, .rogue c ∈ s.log) ?_ ⟨inv_start, logInv_start, fun _ h => by cases h⟩ hr).2.2
  intro s s' a ⟨h1, h2, h3⟩ h
  have hc := step_case (bare_of h1) h
  exact ⟨inv_case h1 hc, log_case h1 h2 hc, spin_step h1 h2 h3 h⟩

/-! ### How often a sender tries -/

def Ev.isProbe (c : Nat) : Ev → Bool
  | .busyProbe d => d == c
  | _ => false

def Ev.isOpen (c : Nat) : Ev → Bool
  | .busyOpen d => d == c
  | _ => false

def State.probes (s : State) (c : Nat) : Nat := (s.log.filter (Ev.isProbe c)).length
def State.opens (s : State) (c : Nat) : Nat := (s.log.filter (Ev.isOpen c)).length

/-- What a call has tried, by where it is; the second number only counts if warnings are logged. -/
def tried (logs : Bool) (p : SPc) (n m : Nat) : Prop :=
  match p with
  | .probe t => n ≤ t ∧ t < maxTry ∧ m = 0
  | .opening r => n ≤ maxTry ∧ r < maxTry ∧ (logs = true → m ≤ r)
  | .writing r _ _ _ => n ≤ maxTry ∧ r < maxTry ∧ (logs = true → m ≤ r)
  | .ended _ => n ≤ maxTry ∧ (logs = true → m ≤ maxTry)

structure TryInv (logs : Bool) (s : State) : Prop where
  tried : ∀ c x, s.snds c = some x → tried logs x.pc (s.probes c) (s.opens c)
  new : ∀ c, s.snds c = none → s.probes c = 0 ∧ s.opens c = 0

/-- Events of the receiver. -/
def Ev.ofRecv : Ev → Prop
  | .initDone _ => True
  | .stopped => True
  | .raced => True
  | .delivered _ _ => True
  | _ => False

/-- calls are where they were, but for messages that were read -/
def Sim (s t : State) : Prop :=
  ∀ c, t.snds c = s.snds c ∨ ∃ x y r i k, s.snds c = some x ∧ t.snds c = some y ∧ x.pc = .writing r i k .posted ∧ y.pc = .writing r i k .taken

theorem Sim.same {s t : State} (h : t.snds = s.snds) : Sim s t := fun c => .inl (by rw [h])

theorem pop_sim (s : State) (i : Nat) : Sim s (s.pop i) := by
  unfold State.pop
  split
  · exact .same rfl
  · next k m rest hb =>
    unfold State.takeFrom
    split
    · next d l hi =>
      intro c
      by_cases hc : c = d
      · subst hc
        show upd s.snds c ((s.snds c).map (·.take k)) c = s.snds c ∨ _
        cases hx : s.snds c with
        | none => left; rw [upd_same]; rfl
        | some x =>
          rcases take_pc x k with e | ⟨r, i', e1, e2⟩
          · left; rw [upd_same]
            show some (x.take k) = some x
            have : x.take k = x := by
              have h1 := take_script x k
              cases hxx : x.take k; cases x; rw [hxx] at e h1; cases e; cases h1; rfl
            rw [this]
          · right
            refine ⟨x, x.take k, r, i', k, rfl, ?_, e1, e2⟩
            show upd s.snds c ((s.snds c).map (·.take k)) c = _
            rw [upd_same, hx]; rfl
      · left; exact upd_ne hc
    · exact .same rfl

theorem fill_sim {s : State} {i size : Nat} {p : Pend} {good : State → List Nat → State} {poor : State → State}
    (hg : ∀ t b, (good t b).snds = t.snds) (hp : ∀ t, (poor t).snds = t.snds) : Sim s (s.fill i size p good poor) := by
  have hpop := pop_sim s i
  unfold State.fill
  split
  · exact .same rfl
  · split
    · exact .same (by rw [hg]; rfl)
    · exact .same (by rw [hp]; rfl)
  · split
    · intro c; rw [hg]; exact hpop c
    · intro c; rw [hp]; exact hpop c

theorem recv_frame {s s' : State} {a : Act} (ha : a.ofSender = false) (h : live logs s a = some s') :
    (∃ es, s'.log = s.log ++ es ∧ ∀ e ∈ es, e.ofRecv) ∧ Sim s s' := by
  have hbad : s' = s.bad [.raced] → (∃ es, s'.log = s.log ++ es ∧ ∀ e ∈ es, e.ofRecv) ∧ Sim s s' := by
    intro e; subst e; exact ⟨⟨[.raced], rfl, by simp [Ev.ofRecv]⟩, .same rfl⟩
  have hplain : s'.log = s.log → s'.snds = s.snds → (∃ es, s'.log = s.log ++ es ∧ ∀ e ∈ es, e.ofRecv) ∧ Sim s s' :=
    fun e h => ⟨⟨[], by rw [e]; simp, by simp⟩, .same h⟩
  cases a with
  | create =>
    simp only [live, create] at h
    repeat' split at h
    all_goals first | (cases h; exact hplain rfl rfl) | cases h
  | connect =>
    simp only [live, connect] at h
    repeat' split at h
    all_goals first | (cases h; exact hplain rfl rfl) | (cases h; exact ⟨⟨[.initDone _], rfl, by simp [Ev.ofRecv]⟩, .same rfl⟩) | cases h
  | start =>
    simp only [live, start] at h
    repeat' split at h
    all_goals first | (cases h; exact hplain rfl rfl) | (exact hbad (Option.some.inj h).symm) | cases h
  | check =>
    simp only [live, check] at h
    repeat' split at h
    all_goals first | (cases h; exact hplain rfl rfl) | cases h
  | enter =>
    simp only [live, enter] at h
    repeat' split at h
    all_goals first | (cases h; exact hplain rfl rfl) | (exact hbad (Option.some.inj h).symm) | cases h
  | wake i =>
    simp only [live, wake] at h
    repeat' split at h
    all_goals first | (cases h; exact hplain rfl rfl) | cases h
  | readHeader =>
    simp only [live, readHeader] at h
    split at h
    · split at h
      · exact hbad (Option.some.inj h).symm
      · cases h
        obtain ⟨es', h1, h2⟩ := fill_log (s := s) (i := _) (size := 4) (p := .header) (good := fun s got => { s with pc := .readBody _ (dec got) })
          (poor := fun s => { s with pc := .leave _ }) (fun t b => ⟨[], by simp, by simp⟩) (fun t => rfl)
        exact ⟨⟨es', h1, fun e he => by obtain ⟨c, m, h⟩ := h2 e he; subst h; trivial⟩, fill_sim (fun _ _ => rfl) (fun _ => rfl)⟩
    · cases h
  | readBody =>
    simp only [live, readBody] at h
    split at h
    · split at h
      · exact hbad (Option.some.inj h).symm
      · next i n _ _ =>
        cases h
        obtain ⟨es', h1, h2⟩ := fill_log (s := s) (i := i) (size := n) (p := .body) (good := fun s got => s.deliver i got)
          (poor := fun s => { s with pc := .leave i }) (fun t b => deliver_log t i b) (fun t => rfl)
        exact ⟨⟨es', h1, fun e he => by obtain ⟨c, m, h⟩ := h2 e he; subst h; trivial⟩,
          fill_sim (fun t b => by unfold State.deliver; split <;> rfl) (fun _ => rfl)⟩
    · split at h
      · exact hbad (Option.some.inj h).symm
      · cases h
    · cases h
  | disconnect =>
    simp only [live, disconnect] at h
    repeat' split at h
    all_goals first | (cases h; exact hplain rfl rfl) | (exact hbad (Option.some.inj h).symm) | cases h
  | rearm =>
    simp only [live, rearm] at h
    repeat' split at h
    all_goals first | (cases h; exact hplain rfl rfl) | (exact hbad (Option.some.inj h).symm) | cases h
  | stop =>
    simp only [live, stop] at h
    split at h
    · cases h
    · cases h
    · cases h; exact ⟨⟨[.stopped], rfl, by simp [Ev.ofRecv]⟩, .same rfl⟩
  | _ => cases ha

/-- one call moves on -/
theorem try_move {s s' : State} (hT : TryInv logs s) {c : Nat} {x : Snd} {p : SPc} {es : List Ev} (hx : s.snds c = some x)
    (h2 : s'.snds = upd s.snds c (some { x with pc := p })) (h4 : s'.log = s.log ++ es)
    (ho : ∀ d, d ≠ c → ∀ e ∈ es, e.isProbe d = false ∧ e.isOpen d = false)
    (hp : tried logs p (s.probes c + (es.filter (Ev.isProbe c)).length) (s.opens c + (es.filter (Ev.isOpen c)).length)) : TryInv logs s' := by
  have hcount : ∀ d, d ≠ c → s'.probes d = s.probes d ∧ s'.opens d = s.opens d := by
    intro d hd
    unfold State.probes State.opens
    rw [h4, count_append, count_append, count_zero (fun e he => (ho d hd e he).1), count_zero (fun e he => (ho d hd e he).2)]
    exact ⟨rfl, rfl⟩
  refine ⟨fun d y hy => ?_, fun d hd => ?_⟩
  · by_cases hc : d = c
    · subst hc
      rw [h2, upd_same] at hy; cases hy
      unfold State.probes State.opens at *
      rw [h4, count_append, count_append]; exact hp
    · rw [h2, upd_ne hc] at hy
      rw [(hcount d hc).1, (hcount d hc).2]; exact hT.tried d y hy
  · have hc : d ≠ c := by rintro rfl; rw [h2, upd_same] at hd; cases hd
    rw [h2, upd_ne hc] at hd
    rw [(hcount d hc).1, (hcount d hc).2]; exact hT.new d hd

/-- counts stay -/
theorem counts_same {s s' : State} {es : List Ev} (h4 : s'.log = s.log ++ es) (ho : ∀ d, ∀ e ∈ es, e.isProbe d = false ∧ e.isOpen d = false) (d : Nat) :
    s'.probes d = s.probes d ∧ s'.opens d = s.opens d := by
  unfold State.probes State.opens
  rw [h4, count_append, count_append, count_zero (fun e he => (ho d e he).1), count_zero (fun e he => (ho d e he).2)]
  exact ⟨rfl, rfl⟩

theorem try_new {s s' : State} (hI : Inv s) (hT : TryInv logs s) {script : List (List Nat)} {e : Ev} (he : ∀ d, e.isProbe d = false ∧ e.isOpen d = false)
    (h : s' = newCall s script e) : TryInv logs s' := by
  subst h
  have hc := counts_same (s := s) (s' := newCall s script e) (es := [e]) rfl (fun d f hf => by rw [List.mem_singleton] at hf; subst hf; exact he d)
  have h0 := hT.new s.next (hI.new s.next (Nat.le_refl _))
  refine ⟨fun d y hy => ?_, fun d hd => ?_⟩
  · rw [(hc d).1, (hc d).2]
    by_cases hds : d = s.next
    · subst hds
      have : some (⟨script, .probe 0⟩ : Snd) = some y := (upd_same s.snds s.next (some ⟨script, .probe 0⟩)).symm.trans hy
      cases this
      exact ⟨Nat.le_of_eq h0.1, by decide, h0.2⟩
    · exact hT.tried d y ((upd_ne hds).symm.trans hy)
  · rw [(hc d).1, (hc d).2]
    have hds : d ≠ s.next := by
      rintro rfl
      have := (upd_same s.snds s.next (some ⟨script, .probe 0⟩)).symm.trans hd
      cases this
    exact hT.new d ((upd_ne hds).symm.trans hd)

theorem try_step {s s' : State} {a : Act} (hI : Inv s) (hT : TryInv logs s) (h : step logs s a = some s') : TryInv logs s' := by
  obtain ⟨-, h⟩ := step_live h
  cases hs : a.ofSender with
  | false =>
    obtain ⟨⟨es, h4, he⟩, hsim⟩ := recv_frame hs h
    have hc := counts_same h4 (fun d e hm => by have := he e hm; cases e <;> first | exact ⟨rfl, rfl⟩ | cases this)
    refine ⟨fun d y hy => ?_, fun d hd => ?_⟩
    · rw [(hc d).1, (hc d).2]
      rcases hsim d with e | ⟨x, y', r, i, k, hx, hy', h1, h2⟩
      · exact hT.tried d y (e ▸ hy)
      · rw [hy] at hy'; cases hy'
        have := hT.tried d x hx
        rw [h1] at this; rw [h2]; exact this
    · rw [(hc d).1, (hc d).2]
      rcases hsim d with e | ⟨x, y', r, i, k, hx, hy', h1, h2⟩
      · exact hT.new d (e ▸ hd)
      · rw [hd] at hy'; cases hy'
  | true =>
    cases a with
    | send b => cases h; exact try_new hI hT (fun _ => ⟨rfl, rfl⟩) rfl
    | rogue ms => cases h; exact try_new hI hT (fun _ => ⟨rfl, rfl⟩) rfl
    | ask =>
      cases h
      have hc := counts_same (s := s) (s' := s.note [.avail s.listening]) (es := [.avail s.listening]) rfl
        (fun d f hf => by rw [List.mem_singleton] at hf; subst hf; exact ⟨rfl, rfl⟩)
      exact ⟨fun d y hy => by rw [(hc d).1, (hc d).2]; exact hT.tried d y hy, fun d hd => by rw [(hc d).1, (hc d).2]; exact hT.new d hd⟩
    | probe c =>
      simp only [live, probe] at h
      split at h
      next x hx =>
        split at h
        next t hp =>
          have ht := hT.tried c x hx
          rw [hp] at ht
          obtain ⟨h1, h2, h3⟩ := ht
          split at h
          · cases h
            refine try_move (es := []) hT hx rfl (by simp [State.setPc]) (by simp) ?_
            exact ⟨by simp; omega, by decide, fun _ => by simp; omega⟩
          · split at h
            · split at h
              · cases h
                refine try_move (es := [.busyProbe c, .result c .busy]) hT hx rfl (by simp [State.finish, State.setPc, State.note]) ?_ ?_
                · intro d hd; simp [Ev.isProbe, Ev.isOpen]; exact fun h => hd h.symm
                · refine ⟨?_, fun _ => ?_⟩ <;> simp [Ev.isProbe, Ev.isOpen] <;> omega
              · next hlt =>
                cases h
                refine try_move (es := [.busyProbe c]) hT hx rfl rfl ?_ ?_
                · intro d hd; simp [Ev.isProbe, Ev.isOpen]; exact fun h => hd h.symm
                · refine ⟨?_, by omega, ?_⟩ <;> simp [Ev.isProbe, Ev.isOpen] <;> omega
            · cases h
              refine try_move (es := [.result c .unavailable]) hT hx rfl rfl (by simp [Ev.isProbe, Ev.isOpen]) ?_
              refine ⟨?_, fun _ => ?_⟩ <;> simp [Ev.isProbe, Ev.isOpen] <;> omega
        next => cases h
      next => cases h
    | openAt c i =>
      simp only [live, openAt] at h
      split at h
      next x hx =>
        split at h
        next r hp =>
          have ht := hT.tried c x hx
          rw [hp] at ht
          split at h
          · cases h
            exact try_move (es := []) hT hx rfl (by simp [State.setPc, State.setInst]) (by simp) ht
          · cases h
        next => cases h
      next => cases h
    | openFail c =>
      simp only [live, openFail] at h
      split at h
      next x hx =>
        split at h
        next r hp =>
          have ht := hT.tried c x hx
          rw [hp] at ht
          obtain ⟨h1, h2, h3⟩ := ht
          split at h
          · cases h
          · split at h
            · split at h
              · next hlt =>
                cases h
                refine try_move (es := [.busyOpen c]) hT hx rfl rfl ?_ ?_
                · intro d hd; simp [Ev.isProbe, Ev.isOpen]; exact fun h => hd h.symm
                · refine ⟨?_, hlt, fun hl => ?_⟩
                  · simp [Ev.isProbe]; omega
                  · have := h3 hl
                    subst hl
                    simp [Ev.isOpen, retry]; omega
              · cases h
                refine try_move (es := [.busyOpen c, .result c .busy]) hT hx rfl (by simp [State.finish, State.setPc, State.note]) ?_ ?_
                · intro d hd; simp [Ev.isProbe, Ev.isOpen]; exact fun h => hd h.symm
                · refine ⟨?_, fun hl => ?_⟩
                  · simp [Ev.isProbe]; omega
                  · have := h3 hl
                    simp [Ev.isOpen]; omega
            · cases h
              refine try_move (es := [.result c .unavailable]) hT hx rfl rfl (by simp [Ev.isProbe, Ev.isOpen]) ?_
              refine ⟨?_, fun hl => ?_⟩
              · simp [Ev.isProbe]; omega
              · have := h3 hl
                simp [Ev.isOpen]; omega
        next => cases h
      next => cases h
    | post c =>
      simp only [live, post] at h
      split at h
      next x hx =>
        split at h
        next r i k hp =>
          have ht := hT.tried c x hx
          rw [hp] at ht
          split at h
          · split at h
            · cases h; exact try_move (es := []) hT hx rfl (by simp [State.setPc, State.setInst]) (by simp) ht
            · cases h; exact try_move (es := [.smashed c]) hT hx rfl rfl (by simp [Ev.isProbe, Ev.isOpen]) ht
            · cases h; exact try_move (es := []) hT hx rfl (by simp [State.setPc, State.setInst]) (by simp) ht
          · cases h
        next => cases h
      next => cases h
    | done c =>
      simp only [live, done] at h
      split at h
      next x hx =>
        have key : ∀ r i k w, x.pc = .writing r i k w → TryInv logs (s.advance c x r i k) := by
          intro r i k w hp
          have ht := hT.tried c x hx
          rw [hp] at ht
          obtain ⟨h1, h2, h3⟩ := ht
          have hend : tried logs (.ended .success) (s.probes c + ([Ev.result c .success].filter (Ev.isProbe c)).length) (s.opens c + ([Ev.result c .success].filter (Ev.isOpen c)).length) := by
            refine ⟨?_, fun hl => ?_⟩
            · simp [Ev.isProbe]; omega
            · have := h3 hl
              simp [Ev.isOpen]; omega
          unfold State.advance State.close
          split
          · exact try_move (es := []) hT hx rfl (by simp [State.setPc]) (by simp) ⟨h1, h2, h3⟩
          · split <;> exact try_move (es := [.result c .success]) hT hx rfl rfl (by simp [Ev.isProbe, Ev.isOpen]) hend
        split at h
        next r i k hp =>
          split at h
          · cases h; exact key _ _ _ _ hp
          · cases h
        next r i k hp => cases h; exact key _ _ _ _ hp
        next => cases h
      next => cases h
    | fail c =>
      simp only [live, fail] at h
      split at h
      next x hx =>
        split at h
        next => cases h
        next r i k w hw hp =>
          have ht := hT.tried c x hx
          rw [hp] at ht
          split at h
          · cases h
          · cases h; exact try_move (es := []) hT hx rfl (by simp [State.setPc]) (by simp) ht
        next => cases h
      next => cases h
    | _ => cases hs

theorem reach_try {as : List Act} {t : State} (hr : runs logs State.start as = some t) : TryInv logs t := by
  refine (runs_induct (P := fun s => Inv s ∧ LogInv s ∧ TryInv logs s) ?_ ⟨inv_start, logInv_start, ?_⟩ hr).2.2
  · intro s s' a ⟨h1, h2, h3⟩ h
    have hc := step_case (bare_of h1) h
    exact ⟨inv_case h1 hc, log_case h1 h2 hc, try_step h1 h3 h⟩
  · exact ⟨fun c x h => (by cases h), fun c _ => ⟨rfl, rfl⟩⟩

end Maf.Pipe
