import Verif.Lemmas.Client
import Verif.Lemmas.Section
/-
Changes of a service's status are worked off one after the other, under the lock of the requesters.
-/
namespace Maf.Cli
open Maf.Calls

/-- Where the work on the requesters is. -/
inductive Fw where
  | free
  | idle
  /-- the status of `r` has been looked at -/
  | read (r : Rq) (cur : Avail)
  /-- it has been changed from `cur` to `st`; whether what depended on the service was dropped -/
  | set (r : Rq) (cur st : Avail) (dropped : Bool)
  /-- the observers are told: those left, and those that stay -/
  | telling (r : Rq) (cur st : Avail) (queue kept : List Obs)
deriving DecidableEq

def keepIf (o : Obs) (ks : List Obs) : Out → List Obs
  | .ok => ks ++ [o]
  | _ => ks

def fwLock (os : List Obs) : Fw → Fw
  | .set r cur st _ => .telling r cur st os []
  | x => x

def fwTell (o : Obs) (a : Out) : Fw → Fw
  | .telling r cur st (_ :: q) ks => .telling r cur st q (keepIf o ks a)
  | x => x

def fwSet (st : Avail) : Fw → Fw
  | .read r cur => .set r cur st false
  | x => x

def fwDrop : Fw → Fw
  | .set r cur st _ => .set r cur st true
  | x => x

def fwStep (x : Fw) : (o : Op Query Ans) → Fw
  | ⟨.lockReq _, _⟩ => .idle
  | ⟨.lockReqs, _⟩ => .idle
  | ⟨.unlockReqs, _⟩ => .free
  | ⟨.check r, a⟩ => .read r a
  | ⟨.setStatus _ st, _⟩ => fwSet st x
  | ⟨.drop _, _⟩ => fwDrop x
  | ⟨.lockObs _, os⟩ => fwLock os x
  | ⟨.tell _ o _ _, a⟩ => fwTell o a x
  | ⟨.unlockObs .., _⟩ => .idle
  | _ => x

def fwOk (x : Fw) : (o : Op Query Ans) → Prop
  | ⟨.lockReq _, _⟩ => x = .free
  | ⟨.lockReqs, _⟩ => x = .free
  | ⟨.unlockReqs, _⟩ => x = .idle ∨ ∃ r cur, x = .read r cur
  | ⟨.forgetReqs, _⟩ => x = .idle
  | ⟨.dropReqs _, _⟩ => x = .idle
  | ⟨.check _, _⟩ => x = .idle ∨ ∃ r cur, x = .read r cur
  | ⟨.setStatus r st, _⟩ => ∃ cur, x = .read r cur ∧ st ≠ cur
  | ⟨.drop r, _⟩ => ∃ cur, x = .set r cur .unavailable false
  | ⟨.lockObs r, _⟩ => ∃ cur st d, x = .set r cur st d ∧ (st = .unavailable → d = true)
  | ⟨.tell r o _ new, _⟩ => ∃ cur q ks, x = .telling r cur new (o :: q) ks
  | ⟨.unlockObs r ks, _⟩ => ∃ cur st, x = .telling r cur st [] ks
  | _ => True

def fwNeutral : Op Query Ans → Prop
  | ⟨.lockReq _, _⟩ | ⟨.lockReqs, _⟩ | ⟨.unlockReqs, _⟩ | ⟨.forgetReqs, _⟩ | ⟨.dropReqs _, _⟩ | ⟨.check _, _⟩ | ⟨.setStatus .., _⟩ | ⟨.drop _, _⟩ | ⟨.lockObs _, _⟩ | ⟨.tell .., _⟩
  | ⟨.unlockObs .., _⟩ => False
  | _ => True

@[reducible] def fw : Mon Query Ans := { σ := Fw, free := .free, step := fwStep, ok := fwOk, neutral := fwNeutral }

theorem fw_locked : fw.Locked (S := sys) reqLockIn := by
  refine ⟨rfl, ?_, ?_, ?_, ?_⟩
  · intro l e he
    rw [reqLockIn_one]
    cases e with
    | did n q a => exact absurd rfl (he n q a)
    | _ => rfl
  · intro l n q a hn
    rw [reqLockIn_one]
    cases q <;> first | exact ⟨fun _ => rfl, rfl⟩ | exact hn.elim
  · intro l n q a hn ho
    rw [reqLockIn_one]
    cases q <;> first | exact absurd trivial hn | exact ⟨by simp [fwStep], rfl⟩ | (exfalso; revert ho; simp [fwOk])
  · intro l n q a x hn hx ho
    rw [reqLockIn_one]
    cases q
    case lockReq => exact absurd ho hx
    case lockReqs => exact absurd ho hx
    case unlockReqs => exact .inr ⟨rfl, rfl⟩
    case forgetReqs => exact .inl ⟨hx, rfl⟩
    case dropReqs => exact .inl ⟨hx, rfl⟩
    case check => exact .inl ⟨by simp [fwStep], rfl⟩
    case setStatus => obtain ⟨cur, rfl, -⟩ := ho; exact .inl ⟨by simp [fwStep, fwSet], rfl⟩
    case drop => obtain ⟨cur, rfl⟩ := ho; exact .inl ⟨by simp [fwStep, fwDrop], rfl⟩
    case lockObs => obtain ⟨cur, st, d, rfl, -⟩ := ho; exact .inl ⟨by simp [fwStep, fwLock], rfl⟩
    case tell => obtain ⟨cur, q, ks, rfl⟩ := ho; exact .inl ⟨by simp [fwStep, fwTell], rfl⟩
    case unlockObs => exact .inl ⟨by simp [fwStep], rfl⟩
    all_goals exact absurd trivial hn

theorem fw_take {as : List (Act sys)} {s : St} {l r : List Event} {n : Nat} {q : Query} {a : Ans q} (hr : run (Calls.init sys) as = some s) (h : s.log = l ++ .did n q a :: r) (hn : ¬fwNeutral ⟨q, a⟩)
    (ho : fwOk .free ⟨q, a⟩) : reqLockIn l = none := by
  have h1 := (good_run hr).hist.all l _ r h
  cases q
  case lockReq => exact h1.2
  case lockReqs => exact h1.2.2
  all_goals first | exact absurd trivial hn | (exfalso; revert ho; simp [fwOk])

/-! ### The programs -/

theorem tellAll_keeps (r : Rq) (old new cur : Avail) (os ks : List Obs) : fw.Keeps (.telling r cur new os ks) (fun x ks' => x = .telling r cur new [] (ks ++ ks')) (tellAll r old new os) := by
  induction os generalizing ks with
  | nil => simp [tellAll]
  | cons o os ih =>
    simp only [tellAll, atom, ask_bind, keeps_ask]
    intro a
    refine ⟨⟨cur, os, ks, rfl⟩, ?_⟩
    cases a with
    | ok =>
      refine Mon.Keeps.bind ((ih (ks ++ [o])).mono ?_)
      intro x ks' hx
      simpa using hx
    | gone => exact (ih ks).mono fun x ks' hx => hx
    | throws => trivial

theorem forward_keeps (r : Rq) (old new cur : Avail) (d : Bool) (hd : new = .unavailable → d = true) : fw.Keeps (.set r cur new d) (fun x _ => x = .idle) (forward r old new) := by
  simp only [forward, atom, ask_bind, keeps_ask]
  intro os
  refine ⟨⟨cur, new, d, rfl, hd⟩, Mon.Keeps.bind ((tellAll_keeps r old new cur os []).mono ?_)⟩
  rintro x ks rfl
  intro a
  exact ⟨⟨cur, new, rfl⟩, rfl⟩

/-- Nothing is being changed. -/
def FwQuiet (x : Fw) : Prop := x = .idle ∨ ∃ r cur, x = .read r cur

theorem changeStatus_keeps (r : Rq) (old new : Avail) (x : Fw) (hx : FwQuiet x) : fw.Keeps x (fun x _ => FwQuiet x) (changeStatus r old new) := by
  simp only [changeStatus, atom, ask_bind, keeps_ask]
  intro cur
  refine ⟨hx, ?_⟩
  split
  · exact .inr ⟨r, cur, rfl⟩
  · next hn =>
    intro a
    refine ⟨⟨cur, rfl, hn⟩, ?_⟩
    split
    · next hu =>
      subst hu
      intro b
      exact ⟨⟨cur, rfl⟩, (forward_keeps r old .unavailable cur true fun _ => rfl).mono fun x _ h => .inl h⟩
    · next hu => exact (forward_keeps r old new cur false (absurd · hu)).mono fun x _ h => .inl h

theorem unlock_keeps {R : Type} (x : Fw) (hx : FwQuiet x) (v : R) : fw.Keeps x (fun x _ => x = .free) (atom .unlockReqs >>= fun _ => (pure v : P R)) := fun _ => ⟨hx, rfl⟩

theorem onServiceStatusChanged_keeps (sid : Sid) (old new : Avail) : fw.Keeps .free (fun x _ => x = .free) (onServiceStatusChanged sid old new) := by
  simp only [onServiceStatusChanged, atom, ask_bind, keeps_ask]
  intro a
  refine ⟨trivial, fun o => ⟨rfl, ?_⟩⟩
  cases o with
  | none => exact fun _ => ⟨.inl rfl, rfl⟩
  | some r => exact Mon.Keeps.bind ((changeStatus_keeps r old new .idle (.inl rfl)).mono fun x _ hx _ => ⟨hx, rfl⟩)

theorem changeAll_keeps (old new : Avail) (rs : List (Sid × Rq)) (x : Fw) (hx : FwQuiet x) : fw.Keeps x (fun x _ => FwQuiet x) (changeAll old new rs) := by
  induction rs generalizing x with
  | nil => exact hx
  | cons y rs ih => exact Mon.Keeps.bind ((changeStatus_keeps y.2 old new x hx).mono fun x _ hx => ih x hx)

theorem serverGone_keeps (old new : Avail) : fw.Keeps .free (fun x _ => x = .free) (serverGone old new) := by
  simp only [serverGone, atom, ask_bind, keeps_ask]
  intro a
  refine ⟨trivial, fun rs => ⟨rfl, ?_⟩⟩
  exact Mon.Keeps.bind ((changeAll_keeps old new rs .idle (.inl rfl)).mono fun x _ hx _ => ⟨hx, rfl⟩)

theorem onServerStatusChanged_keeps (old new : Avail) : fw.Keeps .free (fun x _ => x = .free) (onServerStatusChanged old new) := by
  unfold onServerStatusChanged
  split
  · simp only [atom, ask_bind, keeps_ask]
    intro b
    refine ⟨trivial, ?_⟩
    split
    · exact fun _ => ⟨trivial, rfl⟩
    · exact rfl
  · exact Mon.Keeps.bind ((serverGone_keeps old new).mono fun x _ hx _ => ⟨trivial, hx⟩)

theorem deinitReqs_keeps (rs : List (Sid × Rq)) : fw.Keeps .idle (fun x _ => x = .idle) (deinitReqs rs) := by
  induction rs with
  | nil => rfl
  | cons y rs ih => exact fun _ => ⟨rfl, ih⟩

theorem unregisterAll_keeps (ss : List Sid) (x : Fw) : fw.Keeps x (fun y _ => y = x) (unregisterAll ss) := by
  induction ss with
  | nil => rfl
  | cons y rs ih => exact fun _ => ⟨trivial, ih⟩

theorem deinit_keeps : fw.Keeps .free (fun x _ => x = .free) deinit := by
  simp only [deinit, atom, ask_bind, keeps_ask]
  intro rs
  refine ⟨rfl, Mon.Keeps.bind ((deinitReqs_keeps rs).mono ?_)⟩
  rintro x _ rfl
  refine fun _ => ⟨rfl, fun _ => ⟨.inl rfl, fun ss => ⟨trivial, ?_⟩⟩⟩
  refine Mon.Keeps.bind ((unregisterAll_keeps ss _).mono ?_)
  rintro x _ rfl
  exact fun _ => ⟨trivial, rfl⟩

theorem onIncomingMessage_keeps (m : Msg) : fw.Keeps .free (fun x _ => x = .free) (onIncomingMessage m) := by
  cases m with
  | status sid st =>
    cases st with
    | available =>
      simp only [onIncomingMessage, atom, ask_bind, keeps_ask]
      exact fun _ => ⟨trivial, Mon.Keeps.bind ((onServiceStatusChanged_keeps sid .unavailable .available).mono fun x _ hx => hx)⟩
    | unavailable =>
      simp only [onIncomingMessage, atom, ask_bind, keeps_ask]
      exact fun _ => ⟨trivial, Mon.Keeps.bind ((onServiceStatusChanged_keeps sid .available .unavailable).mono fun x _ hx => hx)⟩
    | unknown => exact rfl
  | other sid tag =>
    simp only [onIncomingMessage, atom, ask_bind, keeps_ask]
    refine fun o => ⟨trivial, ?_⟩
    cases o with
    | none => exact rfl
    | some r => exact fun _ => ⟨trivial, rfl⟩

theorem monitor_keeps (st : Avail) : fw.Keeps .free (fun x _ => x = .free) (monitor st) := by
  simp only [monitor, atom, ask_bind, keeps_ask]
  refine fun cur => ⟨trivial, ?_⟩
  split
  · exact rfl
  · exact onServerStatusChanged_keeps cur st

theorem registerObserver_keeps (r : Rq) (o : Obs) : fw.Keeps .free (fun x _ => x = .free) (registerObserver r o) := by
  simp only [registerObserver, atom, ask_bind, keeps_ask]
  refine fun cur => ⟨trivial, ?_⟩
  split
  · exact fun _ => ⟨trivial, rfl⟩
  · exact rfl

theorem prog_keeps (c : Call) : fw.Keeps .free (fun x _ => x = .free) (prog c) := by
  cases c with
  | getServiceRequester sid => exact fun _ => ⟨trivial, rfl⟩
  | hasServiceRequester sid => exact fun _ => ⟨trivial, rfl⟩
  | getServiceStatus sid => exact fun _ => ⟨trivial, rfl⟩
  | incoming m => exact Mon.Keeps.bind ((onIncomingMessage_keeps m).mono fun x _ hx => hx)
  | serviceChanged sid old new => exact Mon.Keeps.bind ((onServiceStatusChanged_keeps sid old new).mono fun x _ hx => hx)
  | monitor st => exact Mon.Keeps.bind ((monitor_keeps st).mono fun x _ hx => hx)
  | deinit => exact Mon.Keeps.bind (deinit_keeps.mono fun x _ hx => hx)
  | serviceStatus r => exact fun _ => ⟨trivial, rfl⟩
  | registerObserver r o => exact Mon.Keeps.bind ((registerObserver_keeps r o).mono fun x _ hx => hx)
  | unregisterObserver r o => exact fun _ => ⟨trivial, rfl⟩

/-- Where the work on the requesters is, after a history. -/
abbrev work (l : List Event) : Fw := fw.all (S := sys) l

theorem work_ok {l r : List Event} {n : Nat} {q : Query} {a : Ans q} (h : Run (l ++ .did n q a :: r)) (hn : ¬fwNeutral ⟨q, a⟩) : fwOk (work l) ⟨q, a⟩ := by
  obtain ⟨as, s, hr, hl⟩ := h
  exact (Mon.all_ok (S := sys) (M := fw) fw_locked prog_keeps (fun as s l r n q a hr h hn ho _ => fw_take hr h hn ho) hr hl hn).1

theorem work_free {l : List Event} (h : Run l) : reqLockIn l = none ↔ work l = .free := by
  obtain ⟨as, s, hr, hl⟩ := h
  have := Mon.sync (S := sys) (M := fw) fw_locked prog_keeps (fun as s l r n q a hr h hn ho _ => fw_take hr h hn ho) hr (l := l) (r := []) (by simp [hl])
  constructor
  · exact this.out
  · intro hf
    cases hc : reqLockIn l with
    | none => rfl
    | some n => obtain ⟨h1, h2⟩ := this.has n hc; exact absurd (h1 ▸ hf) h2

theorem work_one (l : List Event) (n : Nat) (q : Query) (a : Ans q) : work (l ++ [.did n q a]) = fwStep (work l) ⟨q, a⟩ := Mon.all_one (S := sys) (M := fw) l n q a
theorem work_skip (l : List Event) (e : Event) (h : ∀ n q a, e ≠ .did n q a) : work (l ++ [e]) = work l := Mon.all_skip (S := sys) (M := fw) l e h

end Maf.Cli
