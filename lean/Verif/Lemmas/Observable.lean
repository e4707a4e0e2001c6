import Verif.Model.Observable
import Verif.Props.Signal
namespace Maf.Sig
variable {A : Type}

theorem run_snoc (as : List (Act A)) (a : Act A) (s0 s s' : State A) (h : run s0 as = some s) (hs : step s a = some s') :
    run s0 (as ++ [a]) = some s' := by
  induction as generalizing s0 with
  | nil => cases h; simp [run, hs]
  | cons b as ih =>
    simp only [run, List.cons_append] at h ⊢
    cases hb : step s0 b with
    | none => simp [hb] at h
    | some s1 =>
      simp only [hb, Option.bind_some] at h ⊢
      exact ih s1 h

theorem callsIn_append (l m : List (Ev A)) : callsIn (l ++ m) = callsIn l ++ callsIn m := by
  simp [callsIn]

theorem callsIn_removed (es : List Entry) :
    callsIn (es.filterMap fun e => e.slot.map fun sl => (Ev.removed e.ticket sl : Ev A)) = [] := by
  induction es with
  | nil => rfl
  | cons x es ih =>
    rcases x with ⟨t, o⟩
    cases o with
    | none => exact ih
    | some sl => exact ih

theorem dropHandle_log (s : State A) (h : Nat) : (dropHandle s h).log = s.log ∧ (dropHandle s h).slots = s.slots := by
  unfold dropHandle; split <;> exact ⟨rfl, rfl⟩

/-- What `disconnect` does to the list: at most it takes one entry away. -/
theorem disconnect_log (s : State A) (h : Nat) :
    ∃ new, (disconnect s h).1.log = s.log ++ new ∧ callsIn new = [] ∧ ∀ a, Ev.emitted a ∉ new := by
  unfold disconnect
  split
  · next sl hsl =>
    have : ∃ new, (remove s sl).1.log = s.log ++ new ∧ callsIn new = [] ∧ ∀ a, Ev.emitted a ∉ new := by
      unfold remove
      split
      · exact ⟨[], by simp, rfl, by simp⟩
      · split
        · exact ⟨[], by simp, rfl, by simp⟩
        · split
          · exact ⟨_, rfl, rfl, by simp⟩
          · exact ⟨_, rfl, rfl, by simp⟩
    split
    · split
      · next s1 he => rw [he] at this; exact this
      · next s1 he => rw [he] at this; exact this
    · exact ⟨[], by simp, rfl, by simp⟩
  · exact ⟨[], by simp, rfl, by simp⟩

theorem reconnect_log (s : State A) (h : Nat) :
    ∃ new, (reconnect s h).1.log = s.log ++ new ∧ callsIn new = [] ∧ ∀ a, Ev.emitted a ∉ new := by
  unfold reconnect
  split
  · next sl hsl =>
    split
    · have : ∃ new, (addUnique s sl).1.log = s.log ++ new ∧ callsIn new = [] ∧ ∀ a, Ev.emitted a ∉ new := by
        unfold addUnique
        split
        · exact ⟨[], by simp, rfl, by simp⟩
        · exact ⟨_, rfl, rfl, by simp⟩
      split
      · next s1 he => rw [he] at this; exact this
      · next s1 he => rw [he] at this; exact this
    · exact ⟨[], by simp, rfl, by simp⟩
  · exact ⟨[], by simp, rfl, by simp⟩

/-- The call in progress. -/
def callNow (s : State A) : List (Nat × SlotId × A) :=
  match s.emission with
  | some ⟨a, _, some ⟨t, some sl⟩⟩ => [(t, sl, a)]
  | _ => []

/-- The slot called by an action that led to state `s`. -/
def calledBy (a : Act A) (s : State A) : List (Nat × SlotId × A) :=
  match a with
  | .iter => callNow s
  | _ => []

/-- The history only grows; only `iter` calls slots, only `emit` starts emissions. -/
theorem log_step {s s' : State A} {a : Act A} (hs : step s a = some s') :
    ∃ new, s'.log = s.log ++ new ∧
      callsIn new = calledBy a s' ∧
      (∀ b, Ev.emitted b ∈ new → a = .emit b) := by
  simp only [step] at hs
  split at hs
  · cases hs
  cases a <;> simp only [body] at hs
  case connect =>
    split at hs <;> cases hs
    exact ⟨_, rfl, rfl, by simp⟩
  case connectAware =>
    split at hs <;> cases hs
    exact ⟨_, rfl, rfl, by simp⟩
  case keep =>
    split at hs <;> cases hs
    exact ⟨[], by simp, rfl, by simp⟩
  case disconnect n =>
    split at hs <;> cases hs
    obtain ⟨new, h1, h2, h3⟩ := disconnect_log s n
    exact ⟨new, h1, h2, fun b hb => absurd hb (h3 b)⟩
  case reconnect n =>
    split at hs <;> cases hs
    obtain ⟨new, h1, h2, h3⟩ := reconnect_log s n
    exact ⟨new, h1, h2, fun b hb => absurd hb (h3 b)⟩
  case drop n =>
    split at hs <;> cases hs
    exact ⟨[], by simp [(dropHandle_log s n).1], rfl, by simp⟩
  case scopeEnd n =>
    split at hs <;> cases hs
    split
    · obtain ⟨new, h1, h2, h3⟩ := disconnect_log s n
      exact ⟨new, by rw [(dropHandle_log _ n).1, h1], h2, fun b hb => absurd hb (h3 b)⟩
    · exact ⟨[], by simp [(dropHandle_log s n).1], rfl, by simp⟩
  case clear =>
    split at hs
    · split at hs <;> cases hs
      · exact ⟨[], by simp, rfl, by simp⟩
      · refine ⟨_, rfl, callsIn_removed _, ?_⟩
        intro b hb
        simp only [List.mem_filterMap, Option.map_eq_some_iff] at hb
        obtain ⟨_, _, _, _, h⟩ := hb
        cases h
    · cases hs
  case destroy =>
    split at hs
    · split at hs <;> cases hs
      · exact ⟨[], by simp, rfl, by simp⟩
      · refine ⟨_, rfl, callsIn_removed _, ?_⟩
        intro b hb
        simp only [List.mem_filterMap, Option.map_eq_some_iff] at hb
        obtain ⟨_, _, _, _, h⟩ := hb
        cases h
    · cases hs
  case emit b =>
    split at hs
    · split at hs
      · cases hs; exact ⟨[], by simp, rfl, by simp⟩
      · split at hs <;> cases hs
        · exact ⟨[], by simp, rfl, by simp⟩
        · refine ⟨_, rfl, rfl, ?_⟩
          intro c hc
          simp at hc; rw [hc]
    · cases hs
  case iter =>
    split at hs
    · next a i hem =>
      split at hs <;> cases hs
      · exact ⟨_, rfl, rfl, by simp⟩
      · exact ⟨[], by simp, by simp [calledBy, callNow, hem, callsIn], by simp⟩
      · exact ⟨_, rfl, rfl, by simp⟩
    · cases hs
  case ret =>
    split at hs <;> cases hs
    exact ⟨_, rfl, rfl, by simp⟩

end Maf.Sig

namespace Maf.Obs
open Maf
variable {X : Type} [DecidableEq X]

/-- The signal inside an observable takes at most one step. -/
theorem sig_step {s s' : State X} {a : Act X} (hs : step s a = some s') :
    s'.sig = s.sig ∨ ∃ b, Sig.step s.sig b = some s'.sig := by
  have hch : ∀ (x : State X) v, x.sig = s.sig → change x v = some s' → ∃ b, Sig.step s.sig b = some s'.sig := by
    intro x v hx hc
    simp only [change, Option.map_eq_some_iff] at hc
    obtain ⟨sg, h1, rfl⟩ := hc
    exact ⟨_, hx ▸ h1⟩
  cases a <;> simp only [step] at hs
  case set vs =>
    split at hs
    · split at hs
      · exact .inr (hch s _ rfl hs)
      · cases hs; exact .inl rfl
    · cases hs
  case setAt ivs =>
    split at hs
    · split at hs
      · exact .inr (hch s _ rfl hs)
      · cases hs; exact .inl rfl
    · cases hs
  case silentSet vs =>
    split at hs <;> cases hs
    exact .inl rfl
  case refOpen =>
    split at hs <;> cases hs
    exact .inl rfl
  case refWrite vs =>
    split at hs <;> cases hs
    exact .inl rfl
  case refClose =>
    split at hs
    · split at hs
      · cases hs
      · next old rest _ =>
        split at hs
        · exact .inr (hch { s with refs := rest } s.val rfl hs)
        · cases hs; exact .inl rfl
    · cases hs
  case connect =>
    simp only [Option.map_eq_some_iff] at hs
    obtain ⟨sg, h1, rfl⟩ := hs
    exact .inr ⟨_, h1⟩
  case notifyOne sl =>
    split at hs <;> cases hs
    exact .inl rfl
  case silentlyConnect =>
    simp only [Option.map_eq_some_iff] at hs
    obtain ⟨sg, h1, rfl⟩ := hs
    exact .inr ⟨_, h1⟩
  case sig b =>
    split at hs
    · simp only [Option.map_eq_some_iff] at hs
      obtain ⟨sg, h1, rfl⟩ := hs
      exact .inr ⟨_, h1⟩
    · cases hs

theorem run_induct {P : State X → Prop} (acts : List (Act X)) (s0 s : State X) (h : run s0 acts = some s)
    (h0 : P s0) (hstep : ∀ s a s', P s → step s a = some s' → P s') : P s := by
  induction acts generalizing s0 with
  | nil => cases h; exact h0
  | cons a as ih =>
    simp only [run] at h
    cases hs : step s0 a with
    | none => simp [hs] at h
    | some s1 =>
      simp only [hs, Option.bind_some] at h
      exact ih s1 h (hstep _ _ _ h0 hs)

/-- The signal inside an observable is a reachable signal. -/
theorem sig_reach (v0 : List X) (acts : List (Act X)) (s : State X) (h : run (init v0) acts = some s) :
    ∃ as, Sig.run (Sig.init (List X)) as = some s.sig := by
  refine run_induct (P := fun s => ∃ as, Sig.run (Sig.init (List X)) as = some s.sig) acts _ s h ⟨[], rfl⟩ ?_
  rintro s a s' ⟨as, has⟩ hs
  rcases sig_step hs with e | ⟨b, hb⟩
  · exact ⟨as, e ▸ has⟩
  · exact ⟨as ++ [b], Sig.run_snoc as b _ _ _ has hb⟩

theorem log_run (acts : List (Act X)) (s0 s : State X) (h : run s0 acts = some s) :
    ∃ new, s.sig.log = s0.sig.log ++ new := by
  refine run_induct (P := fun s => ∃ new, s.sig.log = s0.sig.log ++ new) acts s0 s h ⟨[], by simp⟩ ?_
  rintro s a s' ⟨new, hn⟩ hs
  rcases sig_step hs with e | ⟨b, hb⟩
  · exact ⟨new, e ▸ hn⟩
  · obtain ⟨n2, h2, _⟩ := Sig.log_step hb
    exact ⟨new ++ n2, by rw [h2, hn, List.append_assoc]⟩

omit [DecidableEq X] in
theorem usable_free {s : State X} (h : usable s = true) : s.sig.alive = true ∧ Sig.free s.sig = true ∧ s.sig.ub = false := by
  simp [usable] at h; exact ⟨h.1.1, h.1.2, h.2⟩

omit [DecidableEq X] in
/-- Starting an emission. -/
theorem emit_cases {g : Sig.State (List X)} {v : List X} {g' : Sig.State (List X)}
    (hs : Sig.step g (.emit v) = some g') :
    (g.slots = [] ∧ g' = g) ∨ (g.slots ≠ [] ∧ g.emission.isSome = true ∧ g'.ub = true) ∨
    (g.slots ≠ [] ∧ g.emission = none ∧
      g' = { g with emission := some ⟨v, 0, none⟩, log := g.log ++ [.emitted v] }) := by
  simp only [Sig.step, Sig.body] at hs
  split at hs
  · cases hs
  split at hs
  · split at hs
    · next h => cases hs; exact .inl ⟨h, rfl⟩
    · next h =>
      split at hs
      · next he => cases hs; exact .inr (.inl ⟨h, he, rfl⟩)
      · next he => cases hs; exact .inr (.inr ⟨h, by simpa using he, rfl⟩)
  · cases hs

omit [DecidableEq X] in
theorem no_emission_of_empty {g : Sig.State (List X)} (hi : Sig.Inv g) (hf : Sig.free g = true) (he : g.slots = []) :
    g.emission = none := by
  cases hem : g.emission with
  | none => rfl
  | some e =>
    have := hi.pos e hem
    simp only [Sig.free, hem] at hf
    simp [he, Sig.Emission.count, hf] at this

end Maf.Obs
