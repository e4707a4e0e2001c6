import Verif.Model.StreamObj

/-! # Input streams as objects; the recipients of a payload -/

namespace Maf
namespace Strm

/-! ## C106 -/

/-- Specification: what the reads through object `i` returned, put together; refused reads give nothing. -/
def received (i : Nat) : List (Nat × Option Bytes) → Bytes
  | [] => []
  | (j, r) :: l => if j = i then r.getD [] ++ received i l else received i l

/-- Specification: the number of bytes asked of object `i`. -/
def asked (i : Nat) : List Op → Nat
  | [] => 0
  | .read j n :: ops => if j = i then n + asked i ops else asked i ops
  | _ :: ops => asked i ops

/-- The calls made on `i` are reads. -/
def OnlyReads (i : Nat) (ops : List Op) : Prop := ∀ op ∈ ops, op.target = some i → ∃ n, op = .read i n

/-- A stream between its ends. -/
def Within (s : IStream) : Prop := s.pos ≤ s.buf.length

/-- How reading goes on from `a` to `b`: the same bytes, a position that does not go back. -/
structure Goes (a b : IStream) (got : Bytes) (n : Nat) : Prop where
  buf : b.buf = a.buf
  le : a.pos ≤ b.pos
  within : Within b
  got_eq : got = (a.buf.drop a.pos).take (b.pos - a.pos)
  all : a.good = true → a.pos + n ≤ a.buf.length → b.good = true ∧ b.pos = a.pos + n
  over : a.buf.length < a.pos + n → b.good = false
  bad : a.good = false → b.good = false ∧ b.pos = a.pos

theorem Goes.refl {a : IStream} (h : Within a) : Goes a a [] 0 :=
  ⟨rfl, Nat.le_refl _, h, by simp, fun hg _ => ⟨hg, rfl⟩, fun ho => absurd h (by unfold Within; omega), fun hb => ⟨hb, rfl⟩⟩

theorem read_goes {a : IStream} (h : Within a) (n : Nat) : Goes a (a.read n).2 ((a.read n).1.getD []) n := by
  unfold IStream.read
  unfold Within at h
  by_cases hg : a.good = true
  · rw [if_pos hg]
    by_cases ho : a.pos + n > a.buf.length
    · rw [if_pos ho]
      exact ⟨rfl, Nat.le_refl _, h, by simp, fun _ hn => absurd hn (by omega), fun _ => rfl, fun hb => by simp [hb] at hg⟩
    · rw [if_neg ho]
      refine ⟨rfl, by simp, ?_, by simp, fun _ _ => ⟨hg, rfl⟩, fun hn => absurd hn (by omega), fun hb => by simp [hb] at hg⟩
      simp only [Within]; omega
  · rw [if_neg hg]
    exact ⟨rfl, Nat.le_refl _, h, by simp, fun hb => absurd hb hg, fun _ => rfl, fun _ => ⟨rfl, rfl⟩⟩

theorem Goes.trans {a b c : IStream} {x y : Bytes} {m n : Nat} (h : Goes a b x m) (g : Goes b c y n) :
    Goes a c (x ++ y) (m + n) := by
  have hb := h.within
  have hc := g.within
  unfold Within at hb hc
  rw [h.buf] at hb
  rw [g.buf, h.buf] at hc
  refine ⟨g.buf.trans h.buf, Nat.le_trans h.le g.le, g.within, ?_, ?_, ?_, ?_⟩
  · rw [h.got_eq, g.got_eq, h.buf]
    have hle := h.le
    have gle := g.le
    have e1 : c.pos - a.pos = (b.pos - a.pos) + (c.pos - b.pos) := by omega
    have e2 : b.pos = a.pos + (b.pos - a.pos) := by omega
    rw [e1, List.take_add, List.drop_drop]
    rw [← e2]
  · intro hg hn
    obtain ⟨h1, h2⟩ := h.all hg (by omega)
    obtain ⟨g1, g2⟩ := g.all h1 (by rw [h.buf, h2]; omega)
    exact ⟨g1, by omega⟩
  · intro ho
    cases hbg : b.good with
    | false => exact (g.bad hbg).1
    | true =>
      by_cases hm : a.buf.length < a.pos + m
      · rw [h.over hm] at hbg; cases hbg
      · cases hag : a.good with
        | false => rw [(h.bad hag).1] at hbg; cases hbg
        | true =>
          have := (h.all hag (by omega)).2
          exact g.over (by rw [h.buf]; omega)
  · intro hb'
    obtain ⟨h1, h2⟩ := h.bad hb'
    obtain ⟨g1, g2⟩ := g.bad h1
    exact ⟨g1, by omega⟩

/-- Objects that no call of `op` is made on keep what they are. -/
theorem step_other {s s' : State} {op : Op} {r : Option (Nat × Option Bytes)} (h : step s op = some (s', r)) {i : Nat}
    (hi : i < s.length) (ht : op.target ≠ some i) : s'[i]? = s[i]? ∧ i < s'.length := by
  have app : ∀ o : Obj, (s ++ [o])[i]? = s[i]? ∧ i < (s ++ [o]).length := fun o => by
    rw [List.getElem?_append_left hi]; simp; omega
  have upd : ∀ (j : Nat) (o : Obj), j ≠ i → (s.set j o)[i]? = s[i]? ∧ i < (s.set j o).length := fun j o hj => by
    rw [List.getElem?_set_ne hj]; simpa using hi
  have pt : ∀ (j : Nat) (st : IStream), j ≠ i → (put s j st)[i]? = s[i]? ∧ i < (put s j st).length := fun j st hj => by
    unfold put
    split
    · exact upd j _ hj
    · exact upd j _ hj
    · exact ⟨rfl, hi⟩
  cases op with
  | make b => simp only [step, Option.some.injEq, Prod.mk.injEq] at h; rw [← h.1]; exact app _
  | copy j =>
    simp only [step] at h; split at h
    · simp only [Option.some.injEq, Prod.mk.injEq] at h; rw [← h.1]; exact app _
    · cases h
  | view j =>
    simp only [step] at h; split at h
    · simp only [Option.some.injEq, Prod.mk.injEq] at h; rw [← h.1]; exact app _
    · cases h
  | read j n =>
    have hj : j ≠ i := fun e => ht (by rw [e]; rfl)
    simp only [step] at h; split at h
    · simp only [Option.some.injEq, Prod.mk.injEq] at h; rw [← h.1]; exact pt j _ hj
    · cases h
  | reset j =>
    have hj : j ≠ i := fun e => ht (by rw [e]; rfl)
    simp only [step] at h; split at h
    · simp only [Option.some.injEq, Prod.mk.injEq] at h; rw [← h.1]; exact upd j _ hj
    · cases h
  | clear j g f e =>
    have hj : j ≠ i := fun e => ht (by rw [e]; rfl)
    simp only [step] at h; split at h
    · simp only [Option.some.injEq, Prod.mk.injEq] at h; rw [← h.1]; exact pt j _ hj
    · cases h
  | setBytes j b =>
    have hj : j ≠ i := fun e => ht (by rw [e]; rfl)
    simp only [step] at h; split at h
    · simp only [Option.some.injEq, Prod.mk.injEq] at h; rw [← h.1]; exact upd j _ hj
    · cases h
  | destroy j =>
    have hj : j ≠ i := fun e => ht (by rw [e]; rfl)
    simp only [step] at h; split at h
    · cases h
    · simp only [Option.some.injEq, Prod.mk.injEq] at h; rw [← h.1]; exact upd j _ hj
    · cases h

/-- A step's read, if any, is through the object called. -/
theorem step_read {s s' : State} {op : Op} {r : Option (Nat × Option Bytes)} (h : step s op = some (s', r)) :
    ∀ j x, r = some (j, x) → ∃ n, op = .read j n := by
  intro j x hr
  cases op with
  | read k n =>
    simp only [step] at h
    split at h
    · simp only [Option.some.injEq, Prod.mk.injEq] at h
      rw [hr] at h
      simp only [Option.some.injEq, Prod.mk.injEq] at h
      exact ⟨n, by rw [h.2.1]⟩
    · cases h
  | make b => simp only [step, Option.some.injEq, Prod.mk.injEq] at h; rw [hr] at h; cases h.2
  | copy k =>
    simp only [step] at h; split at h
    · simp only [Option.some.injEq, Prod.mk.injEq] at h; rw [hr] at h; cases h.2
    · cases h
  | view k =>
    simp only [step] at h; split at h
    · simp only [Option.some.injEq, Prod.mk.injEq] at h; rw [hr] at h; cases h.2
    · cases h
  | reset k =>
    simp only [step] at h; split at h
    · simp only [Option.some.injEq, Prod.mk.injEq] at h; rw [hr] at h; cases h.2
    · cases h
  | clear k g f e =>
    simp only [step] at h; split at h
    · simp only [Option.some.injEq, Prod.mk.injEq] at h; rw [hr] at h; cases h.2
    · cases h
  | setBytes k b =>
    simp only [step] at h; split at h
    · simp only [Option.some.injEq, Prod.mk.injEq] at h; rw [hr] at h; cases h.2
    · cases h
  | destroy k =>
    simp only [step] at h; split at h
    · cases h
    · simp only [Option.some.injEq, Prod.mk.injEq] at h; rw [hr] at h; cases h.2
    · cases h

theorem received_other {i : Nat} {r : Option (Nat × Option Bytes)} (h : ∀ j x, r = some (j, x) → j ≠ i)
    (l : List (Nat × Option Bytes)) : received i (r.toList ++ l) = received i l := by
  cases r with
  | none => rfl
  | some p =>
    obtain ⟨j, x⟩ := p
    have hj := h j x rfl
    show received i ((j, x) :: l) = _
    rw [received, if_neg hj]

theorem asked_other {i : Nat} {op : Op} (h : op.target ≠ some i) (ops : List Op) : asked i (op :: ops) = asked i ops := by
  cases op with
  | read j n => rw [asked, if_neg (fun e => h (by rw [e]; rfl))]
  | make b => rfl
  | copy j => rfl
  | view j => rfl
  | reset j => rfl
  | clear j g f e => rfl
  | setBytes j b => rfl
  | destroy j => rfl

/-- The calls made on `i` are reads, and `clear`s that leave the bit `Good` alone. -/
def ReadsAndClears (i : Nat) (ops : List Op) : Prop :=
  ∀ op ∈ ops, op.target = some i → (∃ n, op = .read i n) ∨ ∃ f e, op = .clear i false f e

/-- **C106, streams.**  Whatever is done with other objects meanwhile — copies of the stream, views of it, streams it
was copied from — and whatever bits but `Good` are cleared, the reads through a stream return the bytes it holds, from where it stands, in order and without
gaps; as long as no more is asked than there is, every read succeeds; once more is asked, that read and all later ones
are refused. -/
theorem stream_reads_its_bytes {s s' : State} {ops : List Op} {log : List (Nat × Option Bytes)}
    (h : run s ops = some (s', log)) {i : Nat} {st : IStream} (hi : s[i]? = some (.own st)) (hw : Within st)
    (ho : ReadsAndClears i ops) :
    ∃ st', s'[i]? = some (.own st') ∧ Goes st st' (received i log) (asked i ops) := by
  induction ops generalizing s st log with
  | nil =>
    simp only [run, Option.some.injEq, Prod.mk.injEq] at h
    rw [← h.1, ← h.2]
    exact ⟨st, hi, Goes.refl hw⟩
  | cons op ops ih =>
    have ho' : ReadsAndClears i ops := fun o hm ht => ho o (List.mem_cons_of_mem _ hm) ht
    have hlt : i < s.length := by
      rw [List.getElem?_eq_some_iff] at hi; exact hi.1
    simp only [run] at h
    cases hs : step s op with
    | none => simp [hs] at h
    | some p =>
      obtain ⟨s1, r⟩ := p
      cases hr : run s1 ops with
      | none => simp [hs, hr] at h
      | some q =>
        obtain ⟨t, l⟩ := q
        simp only [hs, hr, Option.map_some, Option.some.injEq, Prod.mk.injEq] at h
        obtain ⟨rfl, rfl⟩ := h
        by_cases ht : op.target = some i
        · have hc : cursor s i = some st := by simp [cursor, hi]
          rcases ho op List.mem_cons_self ht with ⟨n, rfl⟩ | ⟨f, ef, rfl⟩
          · simp only [step, hc, Option.some.injEq, Prod.mk.injEq] at hs
            obtain ⟨e1, e2⟩ := hs
            have h1 : s1[i]? = some (.own (st.read n).2) := by
              rw [← e1]; simp only [put, hi]; exact List.getElem?_set_self hlt
            have hg := read_goes hw n
            obtain ⟨st', hst', hgo⟩ := ih hr h1 hg.within ho'
            refine ⟨st', hst', ?_⟩
            have := hg.trans hgo
            rw [← e2]
            show Goes st st' (received i ((i, (st.read n).1) :: l)) (asked i (.read i n :: ops))
            rw [received, if_pos rfl, asked, if_pos rfl]
            exact this
          · simp only [step, hc, Option.some.injEq, Prod.mk.injEq] at hs
            obtain ⟨e1, e2⟩ := hs
            have h1 : s1[i]? = some (.own (st.clear false f ef)) := by
              rw [← e1]; simp only [put, hi]; exact List.getElem?_set_self hlt
            obtain ⟨st', hst', hgo⟩ := ih hr h1 hw ho'
            refine ⟨st', hst', ?_⟩
            have hle : st.pos ≤ st.buf.length := hw
            have hg : Goes st (st.clear false f ef) [] 0 :=
              ⟨rfl, Nat.le_refl _, hw, by simp [IStream.clear], fun hgo _ => by simp [IStream.clear, hgo], fun ho => by omega, fun hb => by simp [IStream.clear, hb]⟩
            have := hg.trans hgo
            rw [← e2]
            simpa [received, asked] using this
        · obtain ⟨e, _⟩ := step_other hs hlt ht
          obtain ⟨st', hst', hgo⟩ := ih hr (e.trans hi) hw ho'
          refine ⟨st', hst', ?_⟩
          rw [asked_other ht, received_other]
          · exact hgo
          · intro j x hrx hj
            obtain ⟨n, hop⟩ := step_read hs j x hrx
            exact ht (by rw [hop, hj]; rfl)

/-- The calls made on `i` are reads and `clear`s. -/
def ReadsOrClears (i : Nat) (ops : List Op) : Prop := ∀ op ∈ ops, op.target = some i → (∃ n, op = .read i n) ∨ ∃ g f e, op = .clear i g f e

/-- C106: a stream that is not good — it has refused a read, or `Good` has been cleared — refuses every read; no `clear` changes that, only `reset`. -/
theorem refuses_for_good {s s' : State} {ops : List Op} {log : List (Nat × Option Bytes)}
    (h : run s ops = some (s', log)) {i : Nat} {st : IStream} (hi : s[i]? = some (.own st)) (hg : st.good = false)
    (ho : ReadsOrClears i ops) : ∀ x, (i, x) ∈ log → x = none := by
  induction ops generalizing s st log with
  | nil =>
    simp only [run, Option.some.injEq, Prod.mk.injEq] at h
    rw [← h.2]; simp
  | cons op ops ih =>
    have ho' : ReadsOrClears i ops := fun o hm ht => ho o (List.mem_cons_of_mem _ hm) ht
    have hlt : i < s.length := by
      rw [List.getElem?_eq_some_iff] at hi; exact hi.1
    simp only [run] at h
    cases hs : step s op with
    | none => simp [hs] at h
    | some p =>
      obtain ⟨s1, r⟩ := p
      cases hr : run s1 ops with
      | none => simp [hs, hr] at h
      | some q =>
        obtain ⟨t, l⟩ := q
        simp only [hs, hr, Option.map_some, Option.some.injEq, Prod.mk.injEq] at h
        obtain ⟨rfl, rfl⟩ := h
        by_cases ht : op.target = some i
        · have hc : cursor s i = some st := by simp [cursor, hi]
          rcases ho op List.mem_cons_self ht with ⟨n, rfl⟩ | ⟨g, f, ef, rfl⟩
          · simp only [step, hc, Option.some.injEq, Prod.mk.injEq] at hs
            obtain ⟨e1, e2⟩ := hs
            have h1 : s1[i]? = some (.own (st.read n).2) := by
              rw [← e1]; simp only [put, hi]; exact List.getElem?_set_self hlt
            have hx := ih hr h1 (by simp [IStream.read, hg]) ho'
            intro x hm
            rw [← e2] at hm
            simp only [List.mem_cons, Prod.mk.injEq, true_and, List.cons_append, List.nil_append, Option.toList_some] at hm
            rcases hm with hm | hm
            · rw [hm]; simp [IStream.read, hg]
            · exact hx x hm
          · simp only [step, hc, Option.some.injEq, Prod.mk.injEq] at hs
            obtain ⟨e1, e2⟩ := hs
            have h1 : s1[i]? = some (.own (st.clear g f ef)) := by
              rw [← e1]; simp only [put, hi]; exact List.getElem?_set_self hlt
            have hx := ih hr h1 (by simp [IStream.clear, hg]) ho'
            intro x hm
            rw [← e2] at hm
            exact hx x (by simpa using hm)
        · obtain ⟨e, _⟩ := step_other hs hlt ht
          have hx := ih hr (e.trans hi) hg ho'
          intro x hm
          cases hrx : r with
          | none => rw [hrx] at hm; exact hx x (by simpa using hm)
          | some jx =>
            obtain ⟨j, y⟩ := jx
            rw [hrx] at hm
            simp only [List.mem_cons, Prod.mk.injEq, List.cons_append, List.nil_append, Option.toList_some] at hm
            rcases hm with ⟨hij, -⟩ | hm
            · obtain ⟨n, hop⟩ := step_read hs j y hrx
              exact absurd (by rw [hop, hij]; rfl) ht
            · exact hx x hm

/-- C106: clearing `Good` makes a stream refuse all reads that follow. -/
theorem cleared_good {s s' : State} {ops : List Op} {log : List (Nat × Option Bytes)} {i : Nat} {st : IStream} {f e : Bool} (hi : s[i]? = some (.own st))
    (h : run s (.clear i true f e :: ops) = some (s', log)) (ho : ReadsOrClears i ops) : ∀ x, (i, x) ∈ log → x = none := by
  have hlt : i < s.length := by rw [List.getElem?_eq_some_iff] at hi; exact hi.1
  have hc : cursor s i = some st := by simp [cursor, hi]
  simp only [run, step, hc] at h
  cases hr : run (put s i (st.clear true f e)) ops with
  | none => simp [hr] at h
  | some q =>
    obtain ⟨t, l⟩ := q
    simp [hr] at h
    obtain ⟨rfl, rfl⟩ := h
    exact refuses_for_good (st := st.clear true f e) hr (by simp only [put, hi]; exact List.getElem?_set_self hlt) (by simp [IStream.clear]) ho

example : (run [] [.make [1, 2, 3], .read 0 1, .clear 0 false true true, .read 0 1, .clear 0 true false false, .read 0 1, .clear 0 false true true, .read 0 1]).map (·.2) =
    some [(0, some [1]), (0, some [2]), (0, none), (0, none)] := by decide +kernel

/-- The calls on the stream a view was made from are reads only (no `reset`, `bytes() = …`, no destruction). -/
def Undisturbed (o : Nat) (ops : List Op) : Prop := OnlyReads o ops

/-- **C106, views.**  The same holds of a view while the stream it was made from is only read: reading the stream or
other views of it does not move the view. -/
theorem view_reads_its_bytes_partial {s s' : State} {ops : List Op} {log : List (Nat × Option Bytes)}
    (h : run s ops = some (s', log)) {i o : Nat} {cur st : IStream} (hi : s[i]? = some (.view o cur))
    (hso : s[o]? = some (.own st)) (hw : cur.pos ≤ st.buf.length) (ho : OnlyReads i ops) (hu : Undisturbed o ops) :
    ∃ cur', s'[i]? = some (.view o cur') ∧
      Goes { cur with buf := st.buf } { cur' with buf := st.buf } (received i log) (asked i ops) := by
  induction ops generalizing s st cur log with
  | nil =>
    simp only [run, Option.some.injEq, Prod.mk.injEq] at h
    rw [← h.1, ← h.2]
    exact ⟨cur, hi, Goes.refl hw⟩
  | cons op ops ih =>
    have ho' : OnlyReads i ops := fun p hm ht => ho p (List.mem_cons_of_mem _ hm) ht
    have hu' : Undisturbed o ops := fun p hm ht => hu p (List.mem_cons_of_mem _ hm) ht
    have hlt : i < s.length := by
      rw [List.getElem?_eq_some_iff] at hi; exact hi.1
    have hlo : o < s.length := by
      rw [List.getElem?_eq_some_iff] at hso; exact hso.1
    have hne : i ≠ o := by
      intro e; rw [e, hso] at hi; cases hi
    simp only [run] at h
    cases hs : step s op with
    | none => simp [hs] at h
    | some p =>
      obtain ⟨s1, r⟩ := p
      cases hr : run s1 ops with
      | none => simp [hs, hr] at h
      | some q =>
        obtain ⟨t, l⟩ := q
        simp only [hs, hr, Option.map_some, Option.some.injEq, Prod.mk.injEq] at h
        obtain ⟨rfl, rfl⟩ := h
        by_cases ht : op.target = some i
        · obtain ⟨n, rfl⟩ := ho op List.mem_cons_self ht
          have hc : cursor s i = some { cur with buf := st.buf } := by simp [cursor, hi, hso]
          simp only [step, hc, Option.some.injEq, Prod.mk.injEq] at hs
          obtain ⟨e1, e2⟩ := hs
          have h1 : s1[i]? = some (.view o (IStream.read { cur with buf := st.buf } n).2) := by
            rw [← e1]; simp only [put, hi]; exact List.getElem?_set_self hlt
          have h2 : s1[o]? = some (.own st) := by
            rw [← e1]; simp only [put, hi]; rw [List.getElem?_set_ne hne]; exact hso
          have hg := read_goes (a := { cur with buf := st.buf }) hw n
          have hb := hg.buf
          have hw' : (IStream.read { cur with buf := st.buf } n).2.pos ≤ st.buf.length := by
            have := hg.within; unfold Within at this; rw [hb] at this; exact this
          obtain ⟨cur', hst', hgo⟩ := ih hr h1 h2 hw' ho' hu'
          refine ⟨cur', hst', ?_⟩
          have eb : { (IStream.read { cur with buf := st.buf } n).2 with buf := st.buf } =
              (IStream.read { cur with buf := st.buf } n).2 := by
            generalize IStream.read { cur with buf := st.buf } n = z at hb
            obtain ⟨z1, z2⟩ := z
            cases z2; simp only at hb; rw [hb]
          rw [eb] at hgo
          have := hg.trans hgo
          rw [← e2]
          show Goes _ _ (received i ((i, (IStream.read { cur with buf := st.buf } n).1) :: l)) (asked i (.read i n :: ops))
          rw [received, if_pos rfl, asked, if_pos rfl]
          exact this
        · obtain ⟨e, _⟩ := step_other hs hlt ht
          have hnext : ∃ st1, s1[o]? = some (.own st1) ∧ st1.buf = st.buf := by
            by_cases hto : op.target = some o
            · obtain ⟨n, rfl⟩ := hu op List.mem_cons_self hto
              have hc : cursor s o = some st := by simp [cursor, hso]
              simp only [step, hc, Option.some.injEq, Prod.mk.injEq] at hs
              refine ⟨(st.read n).2, ?_, ?_⟩
              · rw [← hs.1]; simp only [put, hso]; exact List.getElem?_set_self hlo
              · unfold IStream.read; split
                · split <;> rfl
                · rfl
            · exact ⟨st, (step_other hs hlo hto).1.trans hso, rfl⟩
          obtain ⟨st1, hst1, hbuf⟩ := hnext
          obtain ⟨cur', hst', hgo⟩ := ih hr (e.trans hi) hst1 (by rw [hbuf]; exact hw) ho' hu'
          refine ⟨cur', hst', ?_⟩
          rw [hbuf] at hgo
          rw [asked_other ht, received_other]
          · exact hgo
          · intro j x hrx hj
            obtain ⟨n, hop⟩ := step_read hs j x hrx
            exact ht (by rw [hop, hj]; rfl)

/-- A new stream is at its beginning, good; a copy stands where its source stands, in the same state, and so does a
view; the source is left as it was — also when it was "moved". -/
theorem made_like_source (s : State) (b : Bytes) (i : Nat) (st : IStream) (hi : s[i]? = some (.own st)) :
    step s (.make b) = some (s ++ [.own ⟨b, 0, true, false, false⟩], none) ∧
    step s (.copy i) = some (s ++ [.own st], none) ∧
    ∃ cur, step s (.view i) = some (s ++ [.view i cur], none) ∧ cur = st := by
  refine ⟨rfl, by simp [step, hi], st.view, by simp [step, hi], by cases st; rfl⟩

/-- **C106 is refuted for views** of a stream that does not stay as it was: destroying the stream leaves a view whose
next read is undefined behaviour, `reset` makes the view's reads fail, and assigning `bytes()` makes the view read the
new bytes. -/
theorem view_of_changed_stream :
    run [] [.make [1, 2, 3, 4], .view 0, .destroy 0, .read 1 1] = none ∧
    (run [] [.make [1, 2, 3, 4], .view 0, .reset 0, .read 1 1]).map (·.2) = some [(1, none)] ∧
    (run [] [.make [1, 2, 3, 4], .view 0, .setBytes 0 [9, 9], .read 1 1]).map (·.2) = some [(1, some [9])] := by
  decide

/-- Interleaved reads through a stream, a copy and a view. -/
example : (run [] [.make [1, 2, 3, 4], .read 0 1, .copy 0, .view 0, .read 0 2, .read 1 1, .read 2 3, .read 0 2, .read 1 1,
    .destroy 1, .read 0 1]).map (fun r => (received 0 r.2, received 1 r.2, received 2 r.2)) =
    some ([1, 2, 3], [2, 3], [2, 3, 4]) := by decide
example : ∃ s' log, run [.own (IStream.ofBytes [1, 2, 3]), .view 0 (IStream.ofBytes [1, 2, 3])]
    [.read 0 2, .read 1 1, .read 0 1, .read 1 1] = some (s', log) ∧ received 1 log = [1, 2] ∧
    OnlyReads 1 [.read 0 2, .read 1 1, .read 0 1, .read 1 1] ∧ Undisturbed 0 [.read 0 2, .read 1 1, .read 0 1, .read 1 1] := by
  refine ⟨_, _, rfl, by decide, ?_, ?_⟩ <;>
  · intro op hm ht
    simp only [List.mem_cons, List.not_mem_nil, or_false] at hm
    rcases hm with rfl | rfl | rfl | rfl <;> first | exact ⟨_, rfl⟩ | (exfalso; revert ht; decide)

/-! ## C107 -/

variable {α : Type}

/-- The decoders that were started, in order. -/
def started : List (PStep α) → List (Dec α)
  | [] => []
  | .start d :: l => d :: started l
  | .advance _ :: l => started l

/-- What a recipient still has to do ends as its decoder alone, on the stream as it was, ends. -/
def OnTrack (st : IStream) (d : Dec α) (r : Recipient α) : Prop :=
  r.dec.exec { r.cur with buf := st.buf } = d.exec st

theorem onTrack_next {st : IStream} {d : Dec α} {r : Recipient α} (h : OnTrack st d r) :
    OnTrack st d (r.next st.buf) := by
  unfold OnTrack at h ⊢
  rw [← h]
  unfold Recipient.next
  cases hd : r.dec with
  | done a => simp [hd]
  | read n k =>
    simp only [Dec.exec]
    have hb : (IStream.read { r.cur with buf := st.buf } n).2.buf = st.buf := by
      unfold IStream.read; split
      · split <;> rfl
      · rfl
    generalize IStream.read { r.cur with buf := st.buf } n = z at hb
    obtain ⟨z1, z2⟩ := z
    cases z2; simp only at hb ⊢; rw [hb]

/-- Pairing of the decoders started with the recipients there are. -/
theorem track (st : IStream) (ps : List (PStep α)) :
    ∀ (p : Payload α) (ds : List (Dec α)), p.stream = st → p.recips.length = ds.length →
      (∀ (i : Nat) (d : Dec α) (r : Recipient α), ds[i]? = some d → p.recips[i]? = some r → OnTrack st d r) →
      (ps.foldl Payload.step p).stream = st ∧
      (ps.foldl Payload.step p).recips.length = (ds ++ started ps).length ∧
      ∀ (i : Nat) (d : Dec α) (r : Recipient α), (ds ++ started ps)[i]? = some d → (ps.foldl Payload.step p).recips[i]? = some r → OnTrack st d r := by
  induction ps with
  | nil => intro p ds h1 h2 h3; simpa [started] using ⟨h1, h2, h3⟩
  | cons a ps ih =>
    intro p ds h1 h2 h3
    cases a with
    | start d =>
      have := ih (p.step (.start d)) (ds ++ [d]) h1 (by simp [Payload.step, h2]) (by
        intro i d' r hd hr
        simp only [Payload.step] at hr
        by_cases hl : i < ds.length
        · rw [List.getElem?_append_left hl] at hd
          rw [List.getElem?_append_left (by omega)] at hr
          exact h3 i d' r hd hr
        · have hi : i = ds.length := by
            rw [List.getElem?_eq_some_iff] at hd
            have := hd.1; simp at this; omega
          subst hi
          rw [List.getElem?_concat_length] at hd
          rw [← h2, List.getElem?_concat_length] at hr
          simp only [Option.some.injEq] at hd hr
          subst hd hr
          unfold OnTrack
          rw [h1]
          cases st; rfl)
      simpa [started, List.append_assoc] using this
    | advance k =>
      have := ih (p.step (.advance k)) ds h1 (by simp [Payload.step, h2]) (by
        intro i d r hd hr
        simp only [Payload.step, List.getElem?_modify] at hr
        cases hpr : p.recips[i]? with
        | none => rw [hpr] at hr; simp at hr
        | some r0 =>
          rw [hpr] at hr
          have h0 := h3 i d r0 hd hpr
          simp only [Option.map_eq_map, Option.map_some, Option.some.injEq] at hr
          by_cases hk : k = i
          · simp only [hk, if_true] at hr
            rw [← hr, h1]
            exact onTrack_next h0
          · simp only [hk, if_false] at hr
            rw [← hr]; exact h0)
      simpa [started] using this

/-- **C107.**  However many recipients an incoming payload has, in whatever order and however interleaved they read: the
`i`-th recipient, when it has finished, has the result its decoder gives alone on the payload as it came in — whatever
the others do — and the payload is as it came in. -/
theorem every_recipient_decodes_alone (st : IStream) (ps : List (PStep α)) :
    let p := ps.foldl Payload.step ⟨st, []⟩
    p.stream = st ∧
    p.recips.length = (started ps).length ∧
    ∀ (i : Nat) (d : Dec α) (a : α) (cur : IStream), (started ps)[i]? = some d → p.recips[i]? = some ⟨.done a, cur⟩ →
      a = (d.exec st).1 := by
  obtain ⟨h1, h2, h3⟩ := track st ps ⟨st, []⟩ [] rfl rfl (by intro i d r h; simp at h)
  simp only [List.nil_append] at h2 h3
  refine ⟨h1, h2, ?_⟩
  intro i d a cur hd hr
  have := h3 i d _ hd hr
  unfold OnTrack at this
  simp only [Dec.exec] at this
  rw [← this]

/-- A recipient that gets to make enough reads finishes. -/
theorem recipient_finishes (st : IStream) (d : Dec α) : ∃ n cur, 
    (Nat.repeat (Recipient.next st.buf) n ⟨d, st.view⟩) = ⟨.done (d.exec st).1, cur⟩ := by
  have key : ∀ (d : Dec α) (c : IStream), ∃ n cur, (Nat.repeat (Recipient.next st.buf) n ⟨d, c⟩) =
      ⟨.done (d.exec { c with buf := st.buf }).1, cur⟩ := by
    intro d
    induction d with
    | done a => intro c; exact ⟨0, c, rfl⟩
    | read n k ih =>
      intro c
      obtain ⟨m, cur, hm⟩ := ih (IStream.read { c with buf := st.buf } n).1 (IStream.read { c with buf := st.buf } n).2
      refine ⟨m + 1, cur, ?_⟩
      have hb : (IStream.read { c with buf := st.buf } n).2.buf = st.buf := by
        unfold IStream.read; split
        · split <;> rfl
        · rfl
      have comm : ∀ (f : Recipient α → Recipient α) (j : Nat) (x : Recipient α), Nat.repeat f (j + 1) x = Nat.repeat f j (f x) := by
        intro f j
        induction j with
        | zero => intro x; rfl
        | succ j ihj => intro x; show f (Nat.repeat f (j + 1) x) = f (Nat.repeat f j (f x)); rw [ihj]
      rw [comm]
      show Nat.repeat (Recipient.next st.buf) m ⟨k (IStream.read { c with buf := st.buf } n).1, (IStream.read { c with buf := st.buf } n).2⟩ = _
      rw [hm]
      simp only [Dec.exec]
      congr 2
      generalize IStream.read { c with buf := st.buf } n = z at hb
      obtain ⟨z1, z2⟩ := z
      cases z2; simp only at hb ⊢; rw [hb]
  obtain ⟨n, cur, h⟩ := key d st.view
  refine ⟨n, cur, ?_⟩
  rw [h]
  cases st; rfl

/-- Two recipients read a length-prefixed block from a payload that starts at position 1, interleaved. -/
def block : Dec (Option Bytes) := .read 1 fun n => .read ((n.getD [0]).headD 0).toNat fun x => .done x
example : ((([.start block, .start block, .advance 0, .advance 1, .advance 1, .advance 0] : List (PStep _)).foldl Payload.step
    ⟨⟨[7, 2, 5, 6], 1, true, false, false⟩, []⟩).recips.map fun r => match r.dec with
      | .done a => some a
      | _ => none) = [some (some [5, 6]), some (some [5, 6])] := by decide

end Strm
end Maf
