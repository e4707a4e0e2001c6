import Verif.Lemmas.ClientForward
/-
What an observer is told.
-/
namespace Maf.Cli
open Maf.Calls

theorem toldIn_append (r : Rq) (o : Obs) (l m : List Event) : toldIn r o (l ++ m) = toldIn r o l ++ toldIn r o m := by simp [toldIn]
theorem changesIn_append (r : Rq) (l m : List Event) : changesIn r (l ++ m) = changesIn r l ++ changesIn r m := by simp [changesIn]

/-- What is known while the requesters are worked on. -/
def WInv (l : List Event) : Fw → Prop
  | .free => ∀ r, obsLockIn l r = none
  | .idle => ∀ r, obsLockIn l r = none
  | .read r cur => statusIn l r = cur ∧ ∀ r', obsLockIn l r' = none
  | .set r cur st _ => statusIn l r = st ∧ st ≠ cur ∧ ∀ r', obsLockIn l r' = none
  | .telling r cur st _ _ => statusIn l r = st ∧ st ≠ cur ∧ obsLockIn l r ≠ none ∧ ∀ r', r' ≠ r → obsLockIn l r' = none

theorem WInv.none {l : List Event} {x : Fw} (h : WInv l x) (hx : ∀ r cur st q ks, x ≠ .telling r cur st q ks) (r : Rq) : obsLockIn l r = none := by
  cases x with
  | free => exact h r
  | idle => exact h r
  | read r' cur => exact h.2 r
  | set r' cur st d => exact h.2.2 r
  | telling r' cur st q ks => exact absurd rfl (hx r' cur st q ks)

theorem WInv.same {l l' : List Event} {x : Fw} (h : WInv l x) (hs : ∀ r, statusIn l' r = statusIn l r) (ho : ∀ r, obsLockIn l' r = obsLockIn l r) : WInv l' x := by
  cases x <;> simp only [WInv, hs, ho] at h ⊢ <;> exact h

theorem winv {l r : List Event} (h : Run (l ++ r)) : WInv l (work l) := by
  revert r
  refine snoc_induct (motive := fun l => ∀ {r}, Run (l ++ r) → WInv l (work l)) ?_ ?_ l
  · intro r _; exact fun _ => rfl
  · intro l e ih r h
    have h' : Run (l ++ e :: r) := by simpa using h
    have ih := ih h'
    cases e with
    | did n q a =>
      rw [work_one]
      by_cases hn : fwNeutral ⟨q, a⟩
      · cases q
        case getReq sid =>
          obtain ⟨x, y⟩ := a
          cases y with
          | none => exact ih.same (fun r => by rw [statusIn_one]; rfl) (fun r => by rw [obsLockIn_one]; rfl)
          | some st =>
            have hk := h'.ok
            have hf : work l = .free := (work_free h'.left).1 hk.2.2.2
            rw [hf] at ih ⊢
            intro r
            rw [obsLockIn_one]; exact ih r
        all_goals first
          | exact ih.same (fun r => by rw [statusIn_one]; rfl) (fun r => by rw [obsLockIn_one]; rfl)
          | exact hn.elim
      · have ho := work_ok h' hn
        have hk := h'.ok
        cases q
        case lockReq => rw [show work l = .free from ho] at ih; exact fun r => by rw [obsLockIn_one]; exact ih r
        case lockReqs => rw [show work l = .free from ho] at ih; exact fun r => by rw [obsLockIn_one]; exact ih r
        case unlockReqs =>
          intro r
          rw [obsLockIn_one]
          refine ih.none ?_ r
          rcases ho with ho | ⟨r', cur, ho⟩ <;> rw [ho] <;> simp
        case forgetReqs => exact ih.same (fun r => by rw [statusIn_one]; rfl) (fun r => by rw [obsLockIn_one]; rfl)
        case dropReqs => exact ih.same (fun r => by rw [statusIn_one]; rfl) (fun r => by rw [obsLockIn_one]; rfl)
        case check r =>
          refine ⟨by rw [statusIn_one]; exact hk.symm, fun r' => ?_⟩
          rw [obsLockIn_one]
          refine ih.none ?_ r'
          rcases ho with ho | ⟨r', cur, ho⟩ <;> rw [ho] <;> simp
        case setStatus r st =>
          obtain ⟨cur, ho, hne⟩ := ho
          rw [ho] at ih ⊢
          refine ⟨by rw [statusIn_one]; simp [statusStep], hne, fun r' => ?_⟩
          rw [obsLockIn_one]; exact ih.2 r'
        case drop =>
          obtain ⟨cur, ho⟩ := ho
          rw [ho] at ih ⊢
          exact ⟨by rw [statusIn_one]; exact ih.1, ih.2.1, fun r' => by rw [obsLockIn_one]; exact ih.2.2 r'⟩
        case lockObs r =>
          obtain ⟨cur, st, d, ho, -⟩ := ho
          rw [ho] at ih ⊢
          refine ⟨by rw [statusIn_one]; exact ih.1, ih.2.1, ?_, fun r' hr' => ?_⟩
          · rw [obsLockIn_one]; simp [obsLockStep]
          · rw [obsLockIn_one]; simp only [obsLockStep, if_neg (Ne.symm hr')]; exact ih.2.2 r'
        case tell r o old new =>
          obtain ⟨cur, q, ks, ho⟩ := ho
          rw [ho] at ih ⊢
          exact ⟨by rw [statusIn_one]; exact ih.1, ih.2.1, by rw [obsLockIn_one]; exact ih.2.2.1, fun r' hr' => by rw [obsLockIn_one]; exact ih.2.2.2 r' hr'⟩
        case unlockObs r ks =>
          obtain ⟨cur, st, ho⟩ := ho
          rw [ho] at ih
          intro r'
          rw [obsLockIn_one]
          simp only [obsLockStep]
          split
          · rfl
          · next hr => exact ih.2.2.2 r' (Ne.symm hr)
        all_goals exact absurd trivial hn
    | _ =>
      rw [work_skip _ _ (by simp)]
      exact ih.same (fun r => by rw [statusIn_one]; rfl) (fun r => by rw [obsLockIn_one]; rfl)

/-- The change that observer `o` of `r` has not yet been told. -/
def owed (r : Rq) (o : Obs) : Fw → List Avail
  | .set r' _ st _ => if r' = r then [st] else []
  | .telling r' _ st q _ => if r' = r ∧ o ∈ q then [st] else []
  | _ => []

/-- How often `o` is among the observers of `r`. -/
def times (r : Rq) (o : Obs) (l : List Event) : Fw → Nat
  | .telling r' _ _ q ks => if r' = r then q.count o + ks.count o else (obsIn l r).count o
  | _ => (obsIn l r).count o

theorem owed_short (r : Rq) (o : Obs) (x : Fw) : (owed r o x).length ≤ 1 := by
  cases x <;> simp only [owed] <;> (try split) <;> simp

theorem times_same {r : Rq} {o : Obs} {l l' : List Event} (h : (obsIn l' r).count o = (obsIn l r).count o) (x : Fw) : times r o l' x = times r o l x := by
  cases x <;> simp only [times, h]

theorem told_rest {l m z : List Event} {n : Nat} {r : Rq} {o : Obs} {a : Avail} (hrun : Run (l ++ .did n (.addObs r o) a :: (m ++ z))) (hnew : o ∉ obsIn l r)
    (hadd : ∀ n a, .did n (.addObs r o) a ∉ m) (hrem : ∀ n a, .did n (.removeObs r o) a ∉ m) (hok : ∀ n old new a, .did n (.tell r o old new) a ∈ m → a = .ok) :
    toldIn r o m ++ owed r o (work (l ++ .did n (.addObs r o) a :: m)) = owed r o (work l) ++ changesIn r m ∧ times r o (l ++ .did n (.addObs r o) a :: m) (work (l ++ .did n (.addObs r o) a :: m)) = 1 := by
  revert z
  refine snoc_induct (motive := fun m => (∀ n a, .did n (.addObs r o) a ∉ m) → (∀ n a, .did n (.removeObs r o) a ∉ m) → (∀ n old new a, .did n (.tell r o old new) a ∈ m → a = .ok) →
    ∀ {z}, Run (l ++ .did n (.addObs r o) a :: (m ++ z)) → toldIn r o m ++ owed r o (work (l ++ .did n (.addObs r o) a :: m)) = owed r o (work l) ++ changesIn r m ∧
      times r o (l ++ .did n (.addObs r o) a :: m) (work (l ++ .did n (.addObs r o) a :: m)) = 1) ?_ ?_ m hadd hrem hok
  · intro _ _ _ z hrun
    have h1 : work (l ++ [.did n (.addObs r o) a]) = work l := work_one ..
    rw [h1]
    refine ⟨by simp [toldIn, changesIn], ?_⟩
    have hw := winv (r := _) hrun
    have hk : obsLockIn l r = none := hrun.ok.2.1
    have h2 : (obsIn (l ++ [.did n (.addObs r o) a]) r).count o = 1 := by
      rw [obsIn_one]; simp [obsStep, List.count_append, List.count_eq_zero.2 hnew]
    cases hx : work l with
    | telling r' cur st q ks =>
      rw [hx] at hw
      by_cases hr : r' = r
      · subst hr; exact absurd hk hw.2.2.1
      · simp only [times, if_neg hr]; exact h2
    | _ => exact h2
  · intro m e ih hadd hrem hok z hrun
    have hrun' : Run ((l ++ .did n (.addObs r o) a :: m) ++ e :: z) := by simpa using hrun
    have ih := ih (fun n a h => hadd n a (by simp [h])) (fun n a h => hrem n a (by simp [h])) (fun n old new a h => hok n old new a (by simp [h])) (z := e :: z) (by simpa using hrun)
    rw [← List.cons_append, ← List.append_assoc]
    generalize l ++ .did n (.addObs r o) a :: m = L at hrun' ih ⊢
    rw [toldIn_append, changesIn_append, ← List.append_assoc]
    obtain ⟨i1, i2⟩ := ih
    have skip : toldIn r o [e] = [] → changesIn r [e] = [] → (owed r o (work (L ++ [e])) = owed r o (work L)) → (times r o (L ++ [e]) (work (L ++ [e])) = times r o L (work L)) →
        toldIn r o m ++ toldIn r o [e] ++ owed r o (work (L ++ [e])) = owed r o (work l) ++ changesIn r m ++ changesIn r [e] ∧ times r o (L ++ [e]) (work (L ++ [e])) = 1 := by
      intro h1 h2 h3 h4
      rw [h1, h2, h3, h4]; simpa using ⟨i1, i2⟩
    cases e with
    | did n' q b =>
      by_cases hn : fwNeutral ⟨q, b⟩
      · have hw : work (L ++ [.did n' q b]) = work L := by rw [work_one]; exact (fw_locked.idle [] n' q b hn).1 _
        have hc : (obsIn (L ++ [.did n' q b]) r).count o = (obsIn L r).count o := by
          rw [obsIn_one]
          cases q
          case addObs r' o' =>
            simp only [obsStep]
            split
            · next hr =>
              subst hr
              have : o' ≠ o := fun h => hadd n' b (by subst h; simp)
              simp [List.count_append, List.count_singleton, this]
            · rfl
          case removeObs r' o' =>
            simp only [obsStep]
            split
            · next hr =>
              subst hr
              have : o' ≠ o := fun h => hrem n' b (by subst h; simp)
              rw [List.count_filter (by simpa using Ne.symm this)]
            · rfl
          all_goals first | rfl | exact hn.elim
        refine skip ?_ ?_ (by rw [hw]) (by rw [hw]; exact times_same hc _)
        · cases q <;> first | rfl | exact hn.elim
        · cases q <;> first | rfl | exact hn.elim
      · have ho := work_ok hrun' hn
        have hk := hrun'.ok
        have hobs : (∀ r' ks, q ≠ .unlockObs r' ks) → obsIn (L ++ [.did n' q b]) r = obsIn L r := by
          intro hq
          rw [obsIn_one]
          cases q <;> first | rfl | exact absurd rfl (hq _ _) | exact absurd trivial hn
        cases q
        case lockReq =>
          have hw : work L = .free := ho
          refine skip rfl rfl ?_ ?_
          · rw [work_one, hw]; rfl
          · rw [work_one, hw]; simp only [times, fwStep, hobs (by simp)]
        case lockReqs =>
          have hw : work L = .free := ho
          refine skip rfl rfl ?_ ?_
          · rw [work_one, hw]; rfl
          · rw [work_one, hw]; simp only [times, fwStep, hobs (by simp)]
        case unlockReqs =>
          rcases ho with hw | ⟨r', cur, hw⟩
          · refine skip rfl rfl ?_ ?_
            · rw [work_one, hw]; rfl
            · rw [work_one, hw]; simp only [times, fwStep, hobs (by simp)]
          · refine skip rfl rfl ?_ ?_
            · rw [work_one, hw]; rfl
            · rw [work_one, hw]; simp only [times, fwStep, hobs (by simp)]
        case forgetReqs => 
          have hw : work L = .idle := ho
          refine skip rfl rfl ?_ ?_
          · rw [work_one, hw]; rfl
          · rw [work_one, hw]; simp only [times, fwStep, hobs (by simp)]
        case dropReqs => 
          have hw : work L = .idle := ho
          refine skip rfl rfl ?_ ?_
          · rw [work_one, hw]; rfl
          · rw [work_one, hw]; simp only [times, fwStep, hobs (by simp)]
        case check r' =>
          rcases ho with hw | ⟨r', cur, hw⟩
          · refine skip rfl rfl ?_ ?_
            · rw [work_one, hw]; rfl
            · rw [work_one, hw]; simp only [times, fwStep, hobs (by simp)]
          · refine skip rfl rfl ?_ ?_
            · rw [work_one, hw]; rfl
            · rw [work_one, hw]; simp only [times, fwStep, hobs (by simp)]
        case setStatus r' st =>
          obtain ⟨cur, hw, hne⟩ := ho
          rw [hw] at i1 i2
          refine ⟨?_, ?_⟩
          · rw [work_one, hw]
            simp only [fwStep, fwSet, owed, toldIn, changesIn, List.filterMap_cons, List.filterMap_nil, List.append_nil] at i1 ⊢
            rw [i1]
            by_cases hr : r' = r
            · simp [hr]
            · simp [hr]
          · rw [work_one, hw]
            simp only [fwStep, fwSet, times, hobs (by simp)] at i2 ⊢; exact i2
        case drop r' =>
          obtain ⟨cur, hw⟩ := ho
          refine skip rfl rfl ?_ ?_
          · rw [work_one, hw]; rfl
          · rw [work_one, hw]; simp only [times, fwStep, fwDrop, hobs (by simp)]
        case lockObs r' =>
          obtain ⟨cur, st, d, hw, -⟩ := ho
          rw [hw] at i1 i2
          have hos : b = obsIn L r' := hk.1
          refine ⟨?_, ?_⟩
          · rw [work_one, hw]
            simp only [fwStep, fwLock, owed, toldIn, changesIn, List.filterMap_cons, List.filterMap_nil, List.append_nil] at i1 ⊢
            rw [← i1]
            by_cases hr : r' = r
            · subst hr
              have : o ∈ b := by
                rw [hos]
                simp only [times] at i2
                exact List.count_pos_iff.1 (by rw [i2]; exact Nat.one_pos)
              simp [this]
            · simp [hr]
          · rw [work_one, hw]
            simp only [fwStep, fwLock, times, hobs (by simp)] at i2 ⊢
            split
            · next hr => subst hr; rw [hos]; simpa using i2
            · exact i2
        case tell r' o' old new =>
          obtain ⟨cur, q, ks, hw⟩ := ho
          rw [hw] at i1 i2
          by_cases hr : r' = r
          · subst hr
            by_cases hoo : o' = o
            · subst hoo
              have hb : b = .ok := hok n' old new b (by simp)
              subst hb
              simp only [times, if_true, List.count_cons_self] at i2
              have hq : q.count o' = 0 := by omega
              have hnq : o' ∉ q := List.count_eq_zero.1 hq
              refine ⟨?_, ?_⟩
              · rw [work_one, hw]
                simp only [fwStep, fwTell, owed, hnq, and_false, if_false, List.mem_cons, true_or, and_true, if_true] at i1 ⊢
                simpa [toldIn, changesIn] using i1
              · rw [work_one, hw]
                simp only [fwStep, fwTell, times, if_true, keepIf, List.count_append, List.count_singleton_self]
                omega
            · refine skip (by simp [toldIn, hoo]) rfl ?_ ?_
              · rw [work_one, hw]
                simp only [fwStep, fwTell, owed, List.mem_cons, Ne.symm hoo, false_or]
              · rw [work_one, hw]
                simp only [fwStep, fwTell, times, if_true]
                rw [List.count_cons_of_ne hoo]
                congr 1
                cases b <;> simp [keepIf, List.count_append, List.count_singleton, hoo]
          · refine skip (by simp [toldIn, hr]) rfl ?_ ?_
            · rw [work_one, hw]; simp [fwStep, fwTell, owed, hr]
            · rw [work_one, hw]; simp only [fwStep, fwTell, times, if_neg hr, hobs (by simp)]
        case unlockObs r' ks =>
          obtain ⟨cur, st, hw⟩ := ho
          refine skip rfl rfl ?_ ?_
          · rw [work_one, hw]; simp [fwStep, owed]
          · rw [work_one, hw]
            simp only [fwStep, times, obsIn_one, obsStep]
            split
            · simp
            · rfl
        all_goals exact absurd trivial hn
    | called | returned | crashed =>
      refine skip rfl rfl ?_ ?_
      · rw [work_skip _ _ (by simp)]
      · rw [work_skip _ _ (by simp)]; exact times_same (by rw [obsIn_one]; rfl) _

end Maf.Cli
