import Verif.Lemmas.NamedPipeRun

/-!
C94: on Windows, what the receiver hands on is what was sent, at most once, and
not at all if `send` reported a failure.

C95: on Windows, what may keep `send` and the receiver from getting anywhere.

`runs logs State.start as = some t`: the receiver, any number of sending calls, and
other programs that write to the pipe act in the order `as`, and `t.log` is what
could be observed. `logs`: are warnings logged?
-/

namespace Maf.Pipe

variable {logs : Bool}

/-! ### C94 -/

/-- **C94.** Whatever is delivered was sent by somebody; if by a call of `send` with a buffer below
4 GiB, it is that buffer. Other programs that write to the pipe
cannot change that. -/
theorem delivered_is_sent {as : List Act} {t : State} (hr : runs logs State.start as = some t) {c : Nat} {m : List Nat} (hd : .delivered c m ∈ t.log) :
    ((∃ b, .asked c b ∈ t.log) ∨ .rogue c ∈ t.log) ∧ ∀ b, .asked c b ∈ t.log → b.length < word → m = b := by
  obtain ⟨hI, hL⟩ := reach_inv hr
  constructor
  · cases hx : t.snds c with
    | none =>
      exfalso
      have hc := hL.known _ hd c rfl
      -- every number below `next` is taken
      have : ∀ as s, runs logs State.start as = some s → ∀ c, c < s.next → s.snds c ≠ none := by
        intro as s hs
        refine (runs_induct (P := fun s => Inv s ∧ ∀ c, c < s.next → s.snds c ≠ none) ?_ ⟨inv_start, fun c h => by cases h⟩ hs).2
        intro s s' a ⟨hI, h⟩ hst
        have hc := step_case (bare_of hI) hst
        refine ⟨inv_case hI hc, fun c hlt => ?_⟩
        have hupd : ∀ {d : Nat} {x : Snd}, c < s.next → upd s.snds d (some x) c ≠ none := by
          intro d x hlt; unfold upd; split
          · simp
          · exact h c hlt
        cases hc with
        | quiet es he h1 h2 h3 h4 hs => rw [h2]; exact h c (h3 ▸ hlt)
        | free i sd hsd h1 h2 h3 h4 hs hst => rw [h2]; exact h c (h3 ▸ hlt)
        | stop es he h1 h2 h3 h4 => rw [h2]; exact h c (h3 ▸ hlt)
        | send b e =>
          subst e
          show upd s.snds s.next _ c ≠ none
          have hlt : c < s.next + 1 := hlt
          unfold upd; split
          · simp
          · exact h c (by omega)
        | rogue ms e =>
          subst e
          show upd s.snds s.next _ c ≠ none
          have hlt : c < s.next + 1 := hlt
          unfold upd; split
          · simp
          · exact h c (by omega)
        | move d x p es hx hn he hj hp h1 h2 h3 h4 h5 => rw [h2]; exact hupd (h3 ▸ hlt)
        | opened d i x r hx hp hi e => subst e; exact hupd hlt
        | posted d i x r k hx hp hi hd e => subst e; exact hupd hlt
        | late d i x r k es hx hp hi hd he h1 h2 h3 h4 h5 => rw [h2]; exact hupd (h3 ▸ hlt)
        | advanced d i x r k w hx hp hw hk e => subst e; exact hupd hlt
        | finished d i x r k w hx hp hw hj hk e =>
          subst e
          have h1 : (s.close d i).snds = s.snds ∧ (s.close d i).next = s.next := by unfold State.close; split <;> exact ⟨rfl, rfl⟩
          show upd (s.close d i).snds d _ c ≠ none
          have hlt : c < (s.close d i).next := hlt
          rw [h1.1]; exact hupd (h1.2 ▸ hlt)
        | read i d l k m rest es hi hb h1 h2 h3 h4 hs hs' =>
          rw [h2]; show upd s.snds d _ c ≠ none
          have := h c (h3 ▸ hlt)
          unfold upd; split
          · next e =>
            subst e
            cases hx : s.snds c with
            | none => exact absurd hx this
            | some x => simp
          · exact this
        | pend i d l p es hi hb h1 h2 h3 h4 hs hl hs' => rw [h2]; exact h c (h3 ▸ hlt)
      exact this as t hr c hc hx
    | some x => exact hL.kind c x hx
  · intro b hb hlt
    have := hL.del c b m hb hd
    rw [Nat.mod_eq_of_lt hlt, List.take_of_length_le (Nat.le_refl _)] at this
    exact this

/-- **C94, in part.** A buffer is delivered at most once (missing: empty buffers, `empty_twice`). -/
theorem at_most_once_partial {as : List Act} {t : State} (hr : runs logs State.start as = some t) {c : Nat} {b : List Nat} (ha : .asked c b ∈ t.log)
    (h0 : 0 < b.length) (h1 : b.length < word) : (t.log.filter (Ev.isDel c)).length ≤ 1 := by
  obtain ⟨hI, hL⟩ := reach_inv hr
  exact hL.del1 c b ha (by rw [Nat.mod_eq_of_lt h1]; omega)

/-- **C94.** A call whose `send` did not return `Success` delivered nothing, and `send` returns once. -/
theorem failure_not_delivered {as : List Act} {t : State} (hr : runs logs State.start as = some t) {c : Nat} {b : List Nat} {r : Res} (ha : .asked c b ∈ t.log)
    (h0 : 0 < b.length) (h1 : b.length < word) (hres : .result c r ∈ t.log) (hf : r ≠ .success) : ∀ m, .delivered c m ∉ t.log := by
  obtain ⟨hI, hL⟩ := reach_inv hr
  intro m hd
  obtain ⟨x, hx, hp⟩ := hL.res c r hres
  rcases (hL.after c b m ha (by rw [Nat.mod_eq_of_lt h1]; omega) hd).pc hx with ⟨r', i, h⟩ | h
  · rw [hp] at h; cases h
  · rw [hp] at h; cases h; exact hf rfl

theorem one_result {as : List Act} {t : State} (hr : runs logs State.start as = some t) (c : Nat) : (t.log.filter (Ev.isRes c)).length ≤ 1 :=
  (reach_inv hr).2.res1 c

/-- **C94.** If `send` returned `Success` and the receiver has not yet looked at that connection, it will deliver the buffer as soon
as it does. -/
theorem read_after_success {as : List Act} {t : State} (hr : runs logs State.start as = some t) (hub : t.ub = false) {c i : Nat} {b : List Nat} (ha : .asked c b ∈ t.log) (h1 : b.length < word)
    (hw : t.pc = .waiting) (hst : t.stopped = false) (hi : i < maxInst) (hs : (t.insts i).side = .conn c false) :
    .result c .success ∈ t.log → ∃ u, runs logs t [.wake i, .readHeader, .readBody] = some u ∧ u.log = t.log ++ [.delivered c b] := by
  intro _
  obtain ⟨hI, hL⟩ := reach_inv hr
  obtain ⟨x, n, hx, hJ, ho⟩ := hI.link i c false hs
  rw [hw] at ho
  obtain ⟨hn0, hp0⟩ : (t.insts i).nread = 0 ∧ (t.insts i).pend = none := ho
  obtain ⟨y, hy, hsc⟩ := hL.asked c b ha
  rw [hx] at hy; cases hy
  have hn : n = 2 := by rw [(hJ.shut rfl).2, hsc]; rfl
  have hbox : (t.insts i).box = [(0, enc (b.length % word)), (1, b.take (b.length % word))] := by
    rw [hJ.box, hn0, hn, hsc]; rfl
  rw [Nat.mod_eq_of_lt h1, List.take_of_length_le (Nat.le_refl _)] at hbox
  -- wake
  let t1 : State := { t with pc := .readHeader i }
  have s1 : step logs t (.wake i) = some t1 := by
    unfold step; rw [hub]; simp only [Bool.false_eq_true, if_false, live, wake]
    rw [hw]; dsimp only
    rw [if_neg (by rw [hst]; decide), hs]; dsimp only
    rw [if_pos hi]
  -- header
  let t2 : State := { t1.pop i with pc := .readBody i b.length }
  have s2 : step logs t1 .readHeader = some t2 := by
    unfold step; rw [show t1.ub = false from hub]; simp only [Bool.false_eq_true, if_false, live, readHeader]
    rw [show t1.pc = .readHeader i from rfl]; dsimp only
    rw [show t1.stopped = false from hst]; simp only [Bool.false_eq_true, if_false, Option.some.injEq]
    unfold State.fill
    rw [show (t1.insts i).box = _ from hbox]
    simp only [List.map_cons, List.map_nil, fill_one, enc_length, Nat.le_refl, if_true]
    show ({ t1.pop i with pc := .readBody i (dec (enc b.length)) } : State) = _
    rw [dec_enc h1]
  have hp := pop_eq (s := t1) (i := i) (show (t1.insts i).side = .conn c false from hs) (show (t1.insts i).box = _ from hbox)
  have hbox2 : (t2.insts i).box = [(1, b)] := by show ((t1.pop i).insts i).box = _; rw [hp.1, upd_same]
  have hs2 : (t2.insts i).side = .conn c false := by show ((t1.pop i).insts i).side = _; rw [hp.1, upd_same]; exact hs
  have hub2 : t2.ub = false := (pop_ub t1 i).trans hub
  have hst2 : t2.stopped = false := by
    show (t1.pop i).stopped = false
    have : (t1.pop i).stopped = t1.stopped := by
      unfold State.pop; split
      · rfl
      · unfold State.takeFrom; split <;> rfl
    rw [this]; exact hst
  have s3 : step logs t2 .readBody = some ((t2.pop i).deliver i b) := by
    unfold step; rw [hub2]; simp only [Bool.false_eq_true, if_false, live, readBody]
    rw [show t2.pc = .readBody i b.length from rfl]; dsimp only
    rw [hst2]; simp only [Bool.false_eq_true, if_false, Option.some.injEq]
    unfold State.fill
    rw [hbox2]
    simp only [List.map_cons, List.map_nil, fill_one, Nat.le_refl, if_true]
  refine ⟨(t2.pop i).deliver i b, ?_, ?_⟩
  · simp only [runs, s1, Option.bind_some, s2, s3]
  · have hp2 := pop_eq (s := t2) (i := i) hs2 hbox2
    have : ((t2.pop i).insts i).side = .conn c false := by rw [hp2.1, upd_same]; exact hs2
    rw [deliver_conn this]
    show (t2.pop i).log ++ _ = _
    rw [hp2.2.2.2.1]
    show (t1.pop i).log ++ _ = _
    rw [hp.2.2.2.1]

/-- the receiver is initialised and started -/
def setup : List Act := (List.replicate maxInst [Act.create, .connect]).flatten ++ [.start, .check, .enter]

/-- call `c` writes everything to instance `i` -/
def whole (c i : Nat) : List Act := [.probe c, .openAt c i, .post c, .done c, .post c, .done c]

/-- a buffer of any length below 4 GiB meets the hypotheses of `read_after_success` -/
example (b : List Nat) : ∃ t, runs true State.start (setup ++ [.send b] ++ whole 0 0) = some t ∧ t.ub = false ∧ .asked 0 b ∈ t.log ∧
    t.pc = .waiting ∧ t.stopped = false ∧ (t.insts 0).side = .conn 0 false ∧ .result 0 .success ∈ t.log :=
  have h : ∃ t, runs true State.start (setup ++ [.send b] ++ whole 0 0) = some t ∧ t.ub = false ∧ t.pc = .waiting ∧ t.stopped = false ∧ (t.insts 0).side = .conn 0 false ∧
      t.log = [.initDone true, .asked 0 b, .result 0 .success] := ⟨_, rfl, rfl, rfl, rfl, rfl, rfl⟩
  let ⟨t, h1, h2, h3, h4, h5, h6⟩ := h
  ⟨t, h1, h2, by rw [h6]; simp, h3, h4, h5, by rw [h6]; simp⟩

/-- Two senders and another program, the second delivered first; a failure. -/
example : (runs true State.start ([.send [9]] ++ [.probe 0] ++ setup ++ [.send [1, 2], .send [3], .rogue [[4, 0, 0, 0], [7]]] ++ whole 1 4 ++ whole 2 0 ++ whole 3 2 ++
    [.wake 2, .readHeader, .readBody, .disconnect, .rearm, .check, .enter, .wake 0, .readHeader, .readBody, .disconnect, .rearm, .check, .enter,
     .wake 4, .readHeader, .readBody])).map (·.log) =
    some [.asked 0 [9], .result 0 .unavailable, .initDone true, .asked 1 [1, 2], .asked 2 [3], .rogue 3, .result 1 .success, .result 2 .success, .result 3 .success,
      .delivered 2 [3], .delivered 1 [1, 2]] := by decide +kernel

/-- **C94, refuted.** `send` returns `Success`, the receiver runs and is not stopped, and the message is lost: it read before the
message was there and did not wait. -/
theorem lost_though_success : (runs true State.start (setup ++ [.send [7], .probe 0, .openAt 0 0, .post 0, .done 0, .wake 0, .readHeader, .readBody,
    .post 0, .done 0, .disconnect, .rearm, .check, .enter])).map (fun t => (t.log, t.pc, (t.insts 0).side, t.ub)) =
    some ([.initDone true, .asked 0 [7], .result 0 .success], .waiting, .listen, false) := by decide +kernel

/-- **C94, refuted.** A client that is a little slow to write makes the operating system write into a variable of a function that
has returned. -/
theorem slow_client_corrupts : (runs true State.start (setup ++ [.send [7], .probe 0, .openAt 0 0, .wake 0, .readHeader, .post 0])).map (fun t => (t.log, t.ub)) =
    some ([.initDone true, .asked 0 [7], .smashed 0], true) := by decide +kernel

/-- **C94, refuted for empty buffers.** An empty buffer may be delivered twice by one call, which then returns `Success`. -/
theorem empty_twice : (runs true State.start (setup ++ [.send [], .probe 0, .openAt 0 0, .post 0, .done 0, .wake 0, .readHeader, .readBody, .disconnect, .rearm, .check, .enter, .fail 0] ++
    (whole 0 0).tail ++ [.wake 0, .readHeader, .readBody])).map (·.log) =
    some [.initDone true, .asked 0 [], .delivered 0 [], .result 0 .success, .delivered 0 []] := by decide +kernel

/-- **C94, refuted for 4 GiB and more.** What is delivered of such a buffer is never the buffer. -/
theorem huge_is_cut {as : List Act} {t : State} (hr : runs logs State.start as = some t) {c : Nat} {b m : List Nat} (ha : .asked c b ∈ t.log) (hd : .delivered c m ∈ t.log)
    (h1 : word ≤ b.length) : m ≠ b := by
  have h := (reach_inv hr).2.del c b m ha hd
  have hlen := take_mod b
  intro e
  rw [← h, e] at hlen
  have := mod_word b.length
  omega

/-! ### C95 -/

/-- **C95, in part.** If warnings are logged, a call finds the pipe busy at most 100 times while probing and 100 times while opening
(missing: without logging, and failed writes). -/
theorem gives_up_partial {as : List Act} {t : State} (hr : runs true State.start as = some t) (c : Nat) :
    (t.log.filter (Ev.isProbe c)).length ≤ 100 ∧ (t.log.filter (Ev.isOpen c)).length ≤ 100 := by
  have hT := reach_try hr
  cases hx : t.snds c with
  | none =>
    have := hT.new c hx
    unfold State.probes State.opens at this; omega
  | some x =>
    have := hT.tried c x hx
    unfold State.probes State.opens at this
    unfold tried maxTry at this
    split at this
    · omega
    · have := this.2.2 rfl; omega
    · have := this.2.2 rfl; omega
    · have := this.2 rfl; omega

/-- ten clients that connect and do nothing, and an eleventh that has seen a free instance -/
def crowd : List Act := setup ++ List.replicate 11 (.send [1]) ++ (List.range 11).map .probe ++ (List.range 10).map fun c => .openAt c c

theorem busy_forever {s : State} {x : Snd} (hub : s.ub = false) (hx : s.snds 10 = some x) (hp : x.pc = .opening 0) (hl : s.listening = false) (he : s.existing = true) (n : Nat) :
    ∃ t, runs false s (List.replicate n (.openFail 10)) = some t ∧ t.log = s.log ++ List.replicate n (.busyOpen 10) := by
  induction n generalizing s x with
  | zero => exact ⟨s, rfl, by simp⟩
  | succ n ih =>
    let s1 : State := (s.setPc 10 x (.opening 0)).note [.busyOpen 10]
    have h1 : step false s (.openFail 10) = some s1 := by
      unfold step; rw [hub]; simp only [Bool.false_eq_true, if_false, live, openFail, hx, hp, hl, he, if_true]
      rw [if_pos (show retry false 0 < maxTry by decide)]
      rfl
    obtain ⟨t, ht, hlog⟩ := ih (s := s1) (x := { x with pc := .opening 0 }) hub (upd_same s.snds 10 _) rfl hl he
    refine ⟨t, ?_, ?_⟩
    · rw [List.replicate_succ]; simp only [runs, h1, Option.bind_some, ht]
    · rw [hlog, List.replicate_succ]; show (s.log ++ [.busyOpen 10]) ++ _ = _; simp

/-- **C95, refuted.** If warnings are not logged (the default), a call may find the pipe busy any number of times and still go on: the
retries are counted in the arguments of the log macro. -/
theorem never_gives_up (n : Nat) : ∃ t, runs false State.start (crowd ++ List.replicate n (.openFail 10)) = some t ∧
    n ≤ (t.log.filter (Ev.isOpen 10)).length ∧ ∀ r, .result 10 r ∉ t.log := by
  have h0 : ∃ s x, runs false State.start crowd = some s ∧ s.ub = false ∧ s.snds 10 = some x ∧ x.pc = .opening 0 ∧ s.listening = false ∧ s.existing = true ∧
      (s.log.filter (Ev.isRes 10)) = [] := ⟨_, _, rfl, rfl, rfl, rfl, by decide +kernel, by decide +kernel, by decide +kernel⟩
  obtain ⟨s, x, hr, hub, hx, hp, hl, he, hres⟩ := h0
  obtain ⟨t, ht, hlog⟩ := busy_forever hub hx hp hl he n
  refine ⟨t, ?_, ?_, fun r hm => ?_⟩
  · have happ : ∀ as bs (s : State), runs false s (as ++ bs) = (runs false s as).bind fun u => runs false u bs := by
      intro as bs
      induction as with
      | nil => intro s; rfl
      | cons a as ih =>
        intro s
        show ((step false s a).bind fun u => runs false u (as ++ bs)) = ((step false s a).bind fun u => runs false u as).bind fun u => runs false u bs
        cases step false s a with
        | none => rfl
        | some u => exact ih u
    rw [happ, hr]; exact ht
  · have hrep : ((List.replicate n (Ev.busyOpen 10)).filter (Ev.isOpen 10)).length = n := by
      clear hlog ht
      induction n with
      | zero => rfl
      | succ n ih => rw [List.replicate_succ]; show ((List.replicate n (Ev.busyOpen 10)).filter (Ev.isOpen 10)).length + 1 = _; rw [ih]
    rw [hlog, count_append, hrep]; omega
  · rw [hlog, List.mem_append] at hm
    rcases hm with hm | hm
    · have : Ev.result 10 r ∈ s.log.filter (Ev.isRes 10) := List.mem_filter.mpr ⟨hm, rfl⟩
      rw [hres] at this; cases this
    · have := List.eq_of_mem_replicate hm; cases this

/-- one more round in which the receiver was too early: connected, dropped, tried again -/
def round : List Act := [.openAt 0 0, .wake 0, .readHeader, .disconnect, .rearm, .check, .enter, .fail 0]

structure Ripe (s : State) : Prop where
  ub : s.ub = false
  st : s.stopped = false
  pc : s.pc = .waiting
  snd : ∃ x, s.snds 0 = some x ∧ x.pc = .opening 0
  inst : (s.insts 0).side = .listen

theorem round_ripe {s : State} (h : Ripe s) : ∃ t, runs true s round = some t ∧ Ripe t ∧ t.log = s.log := by
  obtain ⟨hub, hst, hpc, ⟨x, hx, hp⟩, hin⟩ := h
  have live_step : ∀ {s : State} {a : Act}, s.ub = false → step true s a = live true s a := by
    intro s a h; unfold step; rw [h]; rfl
  let s1 : State := (s.setInst 0 ⟨.conn 0 true, [], none, 0⟩).setPc 0 x (.writing 0 0 0 .todo)
  have h1 : step true s (.openAt 0 0) = some s1 := by
    rw [live_step hub]; simp only [live, openAt, hx, hp]; rw [if_pos ⟨by decide, hin⟩]
  have i1 : s1.insts 0 = ⟨.conn 0 true, [], none, 0⟩ := upd_same s.insts 0 _
  let s2 : State := { s1 with pc := .readHeader 0 }
  have h2 : step true s1 (.wake 0) = some s2 := by
    rw [live_step (s := s1) hub]; simp only [live, wake]
    rw [show s1.pc = .waiting from hpc]; dsimp only
    rw [if_neg (by rw [show s1.stopped = false from hst]; decide), i1]; rfl
  let s3 : State := { s2.setInst 0 { s2.insts 0 with pend := some .header } with pc := .leave 0 }
  have h3 : step true s2 .readHeader = some s3 := by
    rw [live_step (s := s2) hub]; simp only [live, readHeader]
    rw [show s2.pc = .readHeader 0 from rfl]; dsimp only
    rw [show s2.stopped = false from hst]; simp only [Bool.false_eq_true, if_false, Option.some.injEq]
    unfold State.fill
    rw [show s2.insts 0 = ⟨.conn 0 true, [], none, 0⟩ from i1]
    rfl
  let s4 : State := { s3 with pc := .rearm 0, insts := upd s3.insts 0 ⟨.off, [], none, 0⟩ }
  have h4 : step true s3 .disconnect = some s4 := by
    rw [live_step (s := s3) hub]; simp only [live, disconnect]
    rw [show s3.pc = .leave 0 from rfl]; dsimp only
    rw [if_neg (by rw [show s3.stopped = false from hst]; decide)]
  let s5 : State := { s4 with pc := .check, insts := upd s4.insts 0 ⟨.listen, [], none, 0⟩ }
  have h5 : step true s4 .rearm = some s5 := by
    rw [live_step (s := s4) hub]; simp only [live, rearm]
    rw [show s4.pc = .rearm 0 from rfl]; dsimp only
    rw [if_neg (by rw [show s4.stopped = false from hst]; decide)]
  let s6 : State := { s5 with pc := .entering }
  have h6 : step true s5 .check = some s6 := by
    rw [live_step (s := s5) hub]; simp only [live, check]
    rw [show s5.pc = .check from rfl]; dsimp only
    rw [if_neg (by rw [show s5.stopped = false from hst]; decide)]
  let s7 : State := { s6 with pc := .waiting }
  have h7 : step true s6 .enter = some s7 := by
    rw [live_step (s := s6) hub]; simp only [live, enter]
    rw [show s6.pc = .entering from rfl]; dsimp only
    rw [if_neg (by rw [show s6.stopped = false from hst]; decide)]
  have x7 : s7.snds 0 = some { x with pc := .writing 0 0 0 .todo } := upd_same s.snds 0 _
  have i7 : s7.insts 0 = ⟨.listen, [], none, 0⟩ := upd_same s4.insts 0 _
  let s8 : State := s7.setPc 0 { x with pc := .writing 0 0 0 .todo } (.opening 0)
  have h8 : step true s7 (.fail 0) = some s8 := by
    rw [live_step (s := s7) hub]; simp only [live, fail, x7, State.joined, i7]; rfl
  refine ⟨s8, ?_, ⟨hub, hst, rfl, ⟨_, upd_same s7.snds 0 _, rfl⟩, by show (s7.insts 0).side = _; rw [i7]⟩, rfl⟩
  simp only [round, runs, h1, h2, h3, h4, h5, h6, h7, h8, Option.bind_some]

/-- **C95, refuted.** A failed write is not counted at all: a receiver that is early each time keeps `send` busy for ever, whatever is logged. -/
theorem retries_for_ever (n : Nat) : ∃ t, runs true State.start (setup ++ [.send [1], .probe 0] ++ (List.replicate n round).flatten) = some t ∧ Ripe t ∧
    ∀ r, .result 0 r ∉ t.log := by
  have happ : ∀ as bs (s : State), runs true s (as ++ bs) = (runs true s as).bind fun u => runs true u bs := by
    intro as bs
    induction as with
    | nil => intro s; rfl
    | cons a as ih =>
      intro s
      show ((step true s a).bind fun u => runs true u (as ++ bs)) = ((step true s a).bind fun u => runs true u as).bind fun u => runs true u bs
      cases step true s a with
      | none => rfl
      | some u => exact ih u
  have h0 : ∃ s, runs true State.start (setup ++ [.send [1], .probe 0]) = some s ∧ Ripe s ∧ s.log = [.initDone true, .asked 0 [1]] :=
    ⟨_, rfl, ⟨rfl, rfl, rfl, ⟨_, rfl, rfl⟩, rfl⟩, by decide +kernel⟩
  obtain ⟨s, hr, hR, hl⟩ := h0
  have key : ∀ n (s : State), Ripe s → ∃ t, runs true s (List.replicate n round).flatten = some t ∧ Ripe t ∧ t.log = s.log := by
    intro n
    induction n with
    | zero => exact fun s h => ⟨s, rfl, h, rfl⟩
    | succ n ih =>
      intro s h
      obtain ⟨u, h1, h2, h3⟩ := round_ripe h
      obtain ⟨t, h4, h5, h6⟩ := ih u h2
      exact ⟨t, by rw [List.replicate_succ, List.flatten_cons, happ, h1]; exact h4, h5, h6.trans h3⟩
  obtain ⟨t, h1, h2, h3⟩ := key n s hR
  refine ⟨t, by rw [happ, hr]; exact h1, h2, fun r hm => ?_⟩
  rw [h3, hl] at hm; simp at hm

/-- `fillbuffer` ends after one round or never. -/
theorem fill_rounds (size : Nat) (lv : Bool) (box : List (List Nat)) :
    (∀ fuel, fillbuffer size lv (fuel + 1) [] box = fillbuffer size lv 1 [] box) := by
  intro fuel
  cases box with
  | nil => cases lv <;> rfl
  | cons m rest =>
    rw [fill_one]
    by_cases h : m.length ≤ size
    · rw [if_pos h]
      show (match readFile (size - ([] : List Nat).length) lv (m :: rest) with | (.ok, m, rest) => _ | (.more, m, rest) => _ | (e, _, rest) => _ : Option _) = _
      simp only [readFile, List.length_nil, Nat.sub_zero]
      rw [if_pos h]; rfl
    · rw [if_neg h]
      -- the room is used up, the rest stays
      have key : ∀ fuel (got rest' : List Nat), size ≤ got.length → rest' ≠ [] → fillbuffer size lv fuel got (rest' :: rest) = none := by
        intro fuel
        induction fuel with
        | zero => intros; rfl
        | succ fuel ih =>
          intro got rest' hg hne
          have hz : size - got.length = 0 := by omega
          unfold fillbuffer
          simp only [readFile, hz]
          rw [if_neg (by cases rest' with | nil => exact absurd rfl hne | cons a l => simp)]
          dsimp only
          simp only [List.take_zero, List.append_nil, List.drop_zero]
          exact ih got rest' hg hne
      unfold fillbuffer
      simp only [readFile, List.length_nil, Nat.sub_zero]
      rw [if_neg h]
      dsimp only
      rw [List.nil_append]
      refine key fuel _ _ ?_ ?_
      · rw [List.length_take]; omega
      · intro e; have := congrArg List.length e; simp at this; omega

/-- **C95.** Senders of this library never get the receiver into the loop that does not end. -/
theorem stuck_by_others {as : List Act} {t : State} (hr : runs logs State.start as = some t) {i : Nat} (h : t.pc = .spin i) : ∃ c, .rogue c ∈ t.log :=
  reach_spin hr i h

/-- **C95.** Once it is there, nothing is ever delivered again. -/
theorem stuck_for_ever {s t : State} {as : List Act} {i : Nat} (h : s.pc = .spin i) (hr : runs logs s as = some t) :
    t.pc = .spin i ∧ ∀ c, (t.log.filter (Ev.isDel c)).length = (s.log.filter (Ev.isDel c)).length := by
  refine runs_induct (P := fun t => t.pc = .spin i ∧ ∀ c, (t.log.filter (Ev.isDel c)).length = (s.log.filter (Ev.isDel c)).length) ?_ ⟨h, fun _ => rfl⟩ hr
  intro u v a ⟨h1, h2⟩ hs
  obtain ⟨h3, h4⟩ := stuck_step h1 hs
  exact ⟨h3, fun c => (h4 c).trans (h2 c)⟩

/-- **C95, refuted.** Any program that writes five bytes to the pipe puts an end to the receiver. -/
theorem five_bytes : (runs true State.start (setup ++ [.rogue [[1, 2, 3, 4, 5]], .probe 0, .openAt 0 3, .post 0, .wake 3, .readHeader])).map (·.pc) = some (.spin 3) := by
  decide +kernel

/-- **C95.** Initialisation fails only if somebody was already sending. -/
theorem init_fails_only {as : List Act} {t : State} (hr : runs logs State.start as = some t) (h : .initDone false ∈ t.log) : ∃ c, (∃ b, .asked c b ∈ t.log) ∨ .rogue c ∈ t.log :=
  (reach_init hr).fails h

/-- **C95, refuted.** It does fail when a client connects in time, and then that client's message is accepted with `Success`
by a receiver nobody will start. -/
theorem init_fails : (runs true State.start ([.send [7], .create] ++ (whole 0 0).take 2 ++ [.connect] ++ (whole 0 0).drop 2)).map (fun t => (t.log, t.pc)) =
    some ([.asked 0 [7], .initDone false, .result 0 .success], .failed) := by decide +kernel

/-- **C95.** What `stop` destroys is used only after `stop`; undefined behaviour is that or a late write (C94). -/
theorem raced_after_stop {as : List Act} {t : State} (hr : runs logs State.start as = some t) : (.raced ∈ t.log → .stopped ∈ t.log) ∧ (t.ub = true → .raced ∈ t.log ∨ ∃ c, .smashed c ∈ t.log) :=
  ⟨(reach_stop hr).raced, (reach_stop hr).ub⟩

/-- **C95, refuted.** `stop` while the listening thread is at work, or on its way into waiting; starting again after `stop`. -/
theorem stop_races : (runs true State.start (setup ++ [.send [7]] ++ whole 0 0 ++ [.wake 0, .stop, .readHeader])).map (fun t => (t.log, t.ub)) =
      some ([.initDone true, .asked 0 [7], .result 0 .success, .stopped, .raced], true) ∧
    (runs true State.start (setup.dropLast ++ [.stop, .enter])).map (fun t => (t.log, t.ub)) = some ([.initDone true, .stopped, .raced], true) ∧
    (runs true State.start (setup ++ [.stop, .wake 0, .start])).map (fun t => (t.log, t.ub)) = some ([.initDone true, .stopped, .raced], true) := by
  decide +kernel

/-- **C95, refuted.** A receiver with ten clients connected is reported unavailable. -/
theorem busy_is_unavailable : (runs true State.start (crowd ++ [.ask])).map (fun t => (t.log.getLast?, t.pc, t.stopped)) = some (some (.avail false), .waiting, false) := by
  decide +kernel

end Maf.Pipe
