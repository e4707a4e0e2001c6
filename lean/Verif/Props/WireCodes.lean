import Verif.Model.WireCodes
import Verif.Props.Typed
/-
C102: a message from another process does what its operation code names, at the service it names, and nothing else, whatever its bytes are.
-/
namespace Maf.Wire

open Maf.IPC

/-! ### Specification -/

/-- The operation code a provider acts on in this way, by name. -/
def Action.name : Action → String
  | .statusRegister => "StatusRegister"
  | .signalRegister => "SignalRegister"
  | .unregister => "Unregister"
  | .clientOff => "UnregisterServiceStatus"
  | .request => "Request"
  | .statusGet => "StatusGet"
  | .abort => "Abort"

/-- This effect is what the message asks of a server with these services. -/
def Asked (provs : List Str) (m : Msg) : Effect → Prop
  | .greet x => x = m.sourceAddress ∧ print opCodes m.operationCode = some "RegisterServiceStatus"
  | .forget x => x = m.sourceAddress ∧ m.serviceID = [] ∧ print opCodes m.operationCode = some "UnregisterServiceStatus"
  | .act sid a => sid ∈ provs ∧ print opCodes m.operationCode = some a.name ∧ (sid = m.serviceID ∨ m.serviceID = [] ∧ a = .clientOff)

/-- This news is what the message tells a client with requesters for these services. -/
def Told (reqs : List Str) (m : Msg) : News → Prop
  | .available x => x = m.serviceID ∧ x ≠ [] ∧ m.operationID = opAvailable ∧ print opCodes m.operationCode = some "ServiceStatusUpdate"
  | .unavailable x => x = m.serviceID ∧ x ≠ [] ∧ m.operationID = opUnavailable ∧ print opCodes m.operationCode = some "ServiceStatusUpdate"
  | .signal x => x = m.serviceID ∧ x ∈ reqs ∧ print opCodes m.operationCode = some "SignalRegister"
  | .status x => x = m.serviceID ∧ x ∈ reqs ∧ print opCodes m.operationCode = some "StatusRegister"
  | .answer x => x = m.serviceID ∧ x ∈ reqs ∧
      (print opCodes m.operationCode = some "Request" ∨ print opCodes m.operationCode = some "PartialRequestUpdate" ∨ print opCodes m.operationCode = some "StatusGet")

/-! ### Printing enumerations -/

theorem byte_lt (c : Byte) : c.val < 256 := c.isLt

/-- The enumerators print as their names. -/
theorem print_name (names : List String) (hn : names.length < 128) (i : Nat) (hi : i < names.length) :
    print names ⟨i, Nat.lt_trans hi (Nat.lt_trans hn (by decide))⟩ = some names[i] := by
  have h128 : i < 128 := Nat.lt_trans hi hn
  simp only [print, index, table, if_pos h128, List.getElem?_append_left hi, List.getElem?_eq_getElem hi]

/-- Any other value than an enumerator's or the end marker's is undefined behaviour to print. -/
theorem print_iff (names : List String) (hn : names.length < 128) (c : Byte) : (print names c).isSome ↔ c.val ≤ names.length := by
  have hc := byte_lt c
  have hi : (print names c).isSome ↔ index c < (table names).length := by
    unfold print
    by_cases h : index c < (table names).length
    · simp [h]
    · rw [List.getElem?_eq_none (by omega)]; simp [h]
  rw [hi]
  simp only [table, List.length_append, List.length_cons, List.length_nil, index]
  split <;> omega

/-- No two values print alike. -/
theorem print_inj (names : List String) (hn : names.length < 128) (hd : names.Nodup) (hu : "_" ∉ names) (c d : Byte) (hc : (print names c).isSome)
    (h : print names c = print names d) : c = d := by
  have h1 : c.val ≤ names.length := (print_iff names hn c).mp hc
  have h2 : d.val ≤ names.length := (print_iff names hn d).mp (h ▸ hc)
  have hcl : c.val < 128 := by omega
  have hdl : d.val < 128 := by omega
  have hnd : (table names).Nodup := by
    refine List.nodup_append.mpr ⟨hd, by simp, ?_⟩
    intro a ha b hb
    simp only [List.mem_singleton] at hb
    rintro rfl
    exact hu (hb ▸ ha)
  simp only [print, index, if_pos hcl, if_pos hdl] at h
  have hl : c.val < (table names).length := by simp [table]; omega
  exact Fin.ext ((List.getElem?_inj hl hnd).mp h)

/-- The enumerations of the library are of this kind. -/
theorem library_enums : ∀ names ∈ [opCodes, errorCodes, availabilities, callStatuses, translationStatuses], names.length < 128 ∧ names.Nodup ∧ "_" ∉ names := by
  decide

/-! ### What the codes are -/

theorem known (c : Byte) (s : String) (n : Nat) (hn : n < 128) (h : print opCodes ⟨n, Nat.lt_trans hn (by decide)⟩ = some s) :
    print opCodes c = some s ↔ c.val = n := by
  constructor
  · intro hc
    have hx := print_inj opCodes (by decide) (by decide) (by decide) c ⟨n, Nat.lt_trans hn (by decide)⟩ (by rw [hc]; rfl) (hc.trans h.symm)
    exact congrArg Fin.val hx
  · intro hc
    have hx : c = ⟨n, Nat.lt_trans hn (by decide)⟩ := Fin.ext hc
    rw [hx]; exact h

theorem action_name (c : Byte) (a : Action) : action c = some a ↔ print opCodes c = some a.name := by
  unfold action
  cases a <;> simp only [Action.name]
  · rw [known c _ 0 (by decide) (by rfl)]
    repeat' split
    all_goals simp_all
  · rw [known c _ 1 (by decide) (by rfl)]
    repeat' split
    all_goals simp_all
  · rw [known c _ 2 (by decide) (by rfl)]
    repeat' split
    all_goals simp_all
  · rw [known c _ 8 (by decide) (by rfl)]
    repeat' split
    all_goals simp_all
  · rw [known c _ 4 (by decide) (by rfl)]
    repeat' split
    all_goals simp_all
  · rw [known c _ 3 (by decide) (by rfl)]
    repeat' split
    all_goals simp_all
  · rw [known c _ 6 (by decide) (by rfl)]
    repeat' split
    all_goals simp_all

theorem action_small {c : Byte} {a : Action} (h : action c = some a) : c.val ≤ 11 := by
  have := (print_iff opCodes (by decide) c).mp (by rw [(action_name c a).mp h]; rfl)
  exact Nat.le_trans this (by decide)

theorem logs_false (lv : BitVec 8) (l : Log.Level) (c : Byte) : logs lv l c = false ↔ Log.allowed lv (Log.bit l) = true ∧ 11 < c.val := by
  have h := print_iff opCodes (by decide) c
  have hl : opCodes.length = 11 := rfl
  rw [hl] at h
  unfold logs
  cases hp : (print opCodes c).isSome <;> cases Log.allowed lv (Log.bit l) <;> simp [hp] at h ⊢ <;> omega

theorem provider_ub (lv : BitVec 8) (c : Byte) : provider lv c = .ub ↔ 11 < c.val ∧ (Log.allowed lv (Log.bit .info) = true ∨ Log.allowed lv (Log.bit .warn) = true) := by
  unfold provider
  cases hi : logs lv .info c with
  | false =>
    have := (logs_false lv .info c).mp hi
    simp [this]
  | true =>
    have hi' : ¬ (Log.allowed lv (Log.bit .info) = true ∧ 11 < c.val) := fun h => by rw [(logs_false lv .info c).mpr h] at hi; cases hi
    simp only [if_true]
    cases ha : action c with
    | some a =>
      have := action_small ha
      simp only [reduceCtorEq, false_iff]
      omega
    | none =>
      simp only []
      cases hw : logs lv .warn c with
      | false =>
        have := (logs_false lv .warn c).mp hw
        simp [this]
      | true =>
        have hw' : ¬ (Log.allowed lv (Log.bit .warn) = true ∧ 11 < c.val) := fun h => by rw [(logs_false lv .warn c).mpr h] at hw; cases hw
        simp only [if_true, reduceCtorEq, false_iff]
        rintro ⟨h1, h2 | h2⟩
        · exact hi' ⟨h2, h1⟩
        · exact hw' ⟨h2, h1⟩

theorem provider_done {lv : BitVec 8} {c : Byte} {a : Option Action} {h : Bool} (hp : provider lv c = .done a h) : a = action c ∧ h = (action c).isSome := by
  unfold provider at hp
  split at hp
  · cases ha : action c with
    | some x =>
      rw [ha] at hp
      simp only [Out.done.injEq] at hp
      exact ⟨hp.1.symm, hp.2.symm⟩
    | none =>
      rw [ha] at hp
      simp only [] at hp
      split at hp
      · simp only [Out.done.injEq] at hp
        exact ⟨hp.1.symm, hp.2.symm⟩
      · cases hp
  · cases hp

theorem forwardAll_done {lv : BitVec 8} {c : Byte} : ∀ {provs : List Str} {es : List Effect} {h : Bool}, forwardAll lv c provs = .done es h →
    es = provs.flatMap fun sid => (action c).toList.map (Effect.act sid)
  | [], es, h, hf => by
    simp only [forwardAll, Out.done.injEq] at hf
    simp [← hf.1]
  | sid :: rest, es, h, hf => by
    rw [forwardAll] at hf
    cases hp : provider lv c with
    | ub => rw [hp] at hf; cases hf
    | done a hh =>
      rw [hp] at hf
      simp only [] at hf
      cases hr : forwardAll lv c rest with
      | ub => rw [hr] at hf; cases hf
      | done es' h' =>
        rw [hr] at hf
        simp only [Out.done.injEq] at hf
        rw [List.flatMap_cons, ← forwardAll_done hr, ← hf.1, (provider_done hp).1]

theorem forwardAll_ub {lv : BitVec 8} {c : Byte} (hc : c.val ≤ 11) : ∀ provs : List Str, forwardAll lv c provs ≠ .ub
  | [] => by simp [forwardAll]
  | sid :: rest => by
    rw [forwardAll]
    cases hp : provider lv c with
    | ub =>
      have := (provider_ub lv c).mp hp
      omega
    | done a h =>
      simp only []
      cases hr : forwardAll lv c rest with
      | ub => exact absurd hr (forwardAll_ub hc rest)
      | done es h => simp

theorem flat_one : ∀ provs : List Str, (provs.flatMap fun sid => (some Action.clientOff).toList.map (Effect.act sid)) = provs.map fun sid => Effect.act sid .clientOff
  | [] => rfl
  | p :: ps => by rw [List.flatMap_cons, flat_one ps]; rfl

/-! ### The server -/

/-- When the receipt of a message is undefined behaviour: just when its code is none that is declared, its service is provided here, and information or
warnings are logged. -/
theorem server_ub (lv : BitVec 8) (provs : List Str) (m : Msg) :
    server lv provs m = .ub ↔ m.serviceID ∈ provs ∧ 11 < m.operationCode.val ∧ (Log.allowed lv (Log.bit .info) = true ∨ Log.allowed lv (Log.bit .warn) = true) := by
  unfold server
  split
  · simp only [reduceCtorEq, false_iff]; omega
  · split
    · rename_i h7 h8
      cases hf : forwardAll lv m.operationCode provs with
      | ub => exact absurd hf (forwardAll_ub (by omega) provs)
      | done es h => simp only [reduceCtorEq, false_iff]; omega
    · unfold baseServer
      split
      · rename_i hm
        cases hp : provider lv m.operationCode with
        | ub => simp only [true_iff]; exact ⟨hm, (provider_ub _ _).mp hp⟩
        | done a h =>
          simp only [reduceCtorEq, false_iff]
          rintro ⟨-, h2⟩
          rw [(provider_ub _ _).mpr h2] at hp
          cases hp
      · rename_i hm
        simp [hm]

/-- A message does what its code names at the service it names, and nothing else; the result says whether it did anything. -/
theorem server_does_partial {lv : BitVec 8} {provs : List Str} {m : Msg} {es : List Effect} {h : Bool} (hs : server lv provs m = .done es h) :
    (∀ e, e ∈ es ↔ Asked provs m e) ∧ (h = true ↔ es ≠ []) ∧ (provs.Nodup → es.Nodup) := by
  have k7 := known m.operationCode "RegisterServiceStatus" 7 (by decide) (by rfl)
  have k8 := known m.operationCode "UnregisterServiceStatus" 8 (by decide) (by rfl)
  unfold server at hs
  split at hs
  · rename_i h7
    simp only [Out.done.injEq] at hs
    obtain ⟨rfl, rfl⟩ := hs
    refine ⟨fun e => ?_, by simp, fun _ => by simp⟩
    have ha : action m.operationCode = none := by simp [action, h7]
    cases e with
    | greet x => simp [Asked, k7, h7]
    | forget x => simp [Asked, k8, h7]
    | act sid a =>
      simp only [List.mem_singleton, reduceCtorEq, Asked, false_iff, ← action_name, ha]
      simp
  · rename_i h7
    split at hs
    · rename_i h8
      cases hf : forwardAll lv m.operationCode provs with
      | ub => rw [hf] at hs; cases hs
      | done es' h' =>
        rw [hf] at hs
        simp only [Out.done.injEq] at hs
        obtain ⟨rfl, rfl⟩ := hs
        have ha : action m.operationCode = some .clientOff := (action_name _ _).mpr (k8.mpr h8.1)
        have hx := forwardAll_done hf
        rw [ha] at hx
        have hx' : es' = provs.map fun sid => Effect.act sid .clientOff := by
          rw [hx]
          exact flat_one provs
        refine ⟨fun e => ?_, by simp, fun hnd => ?_⟩
        · cases e with
          | greet x => simp [Asked, k7, h7, hx']
          | forget x => simp [Asked, k8, h8.1, h8.2, hx']
          | act sid a =>
            simp only [Asked, ← action_name, ha, hx', List.mem_cons, reduceCtorEq, false_or, List.mem_map, Effect.act.injEq, Option.some.injEq]
            constructor
            · rintro ⟨x, h1, rfl, rfl⟩
              exact ⟨h1, rfl, Or.inr ⟨h8.2, rfl⟩⟩
            · rintro ⟨h1, rfl, -⟩
              exact ⟨sid, h1, rfl, rfl⟩
        · rw [hx']
          refine List.nodup_cons.mpr ⟨by simp, ?_⟩
          refine List.pairwise_map.mpr (hnd.imp ?_)
          intro a b hab h
          cases h
          exact hab rfl
    · rename_i h8
      unfold baseServer at hs
      split at hs
      · rename_i hm
        cases hp : provider lv m.operationCode with
        | ub => rw [hp] at hs; cases hs
        | done a h' =>
          rw [hp] at hs
          simp only [Out.done.injEq] at hs
          obtain ⟨rfl, rfl⟩ := hs
          obtain ⟨rfl, rfl⟩ := provider_done hp
          refine ⟨fun e => ?_, ?_, fun _ => ?_⟩
          · cases e with
            | greet x => simp [Asked, k7, h7]
            | forget x =>
              simp only [Asked, k8]
              constructor
              · simp
              · rintro ⟨-, h1, h2⟩
                exact absurd ⟨h2, h1⟩ h8
            | act sid a =>
              simp only [Asked, ← action_name, List.mem_map, Option.mem_toList, Effect.act.injEq]
              constructor
              · rintro ⟨x, h1, rfl, rfl⟩
                exact ⟨hm, h1, Or.inl rfl⟩
              · rintro ⟨h1, h2, rfl | ⟨h3, rfl⟩⟩
                · exact ⟨a, h2, rfl, rfl⟩
                · exact absurd ⟨k8.mp ((action_name _ _).mp h2), h3⟩ h8
          · cases action m.operationCode <;> simp
          · cases action m.operationCode <;> simp
      · rename_i hm
        simp only [Out.done.injEq] at hs
        obtain ⟨rfl, rfl⟩ := hs
        refine ⟨fun e => ?_, by simp, fun _ => by simp⟩
        cases e with
        | greet x => simp [Asked, k7, h7]
        | forget x =>
          simp only [Asked, k8, List.not_mem_nil, false_iff]
          rintro ⟨-, h1, h2⟩
          exact h8 ⟨h2, h1⟩
        | act sid a =>
          simp only [Asked, ← action_name, List.not_mem_nil, false_iff]
          rintro ⟨h1, h2, rfl | ⟨h3, rfl⟩⟩
          · exact hm h1
          · exact h8 ⟨k8.mp ((action_name _ _).mp h2), h3⟩

/-- Bytes that are no message do nothing; all others do what `server_does_partial` says. -/
theorem server_bytes (lt : Orders) (lv : BitVec 8) (provs : List Str) (b : Bytes) :
    (fromBytes lt b = none → serverBytes lt lv provs b = .done [] false) ∧
    ∀ m, fromBytes lt b = some m → serverBytes lt lv provs b = server lv provs m := by
  refine ⟨fun h => ?_, fun m h => ?_⟩ <;> simp [serverBytes, h]

/-- Without logging, nothing that comes in is undefined behaviour. -/
theorem server_silent (lt : Orders) (provs : List Str) (b : Bytes) : ∃ es h, serverBytes lt 0 provs b = .done es h := by
  cases hf : serverBytes lt 0 provs b with
  | done es h => exact ⟨es, h, rfl⟩
  | ub =>
    cases hm : fromBytes lt b with
    | none => simp [serverBytes, hm] at hf
    | some m =>
      rw [(server_bytes lt 0 provs b).2 m hm] at hf
      have := ((server_ub 0 provs m).mp hf).2.2
      simp [Log.allowed] at this

/-! ### The client -/

theorem requester_ub (lv : BitVec 8) (m : Msg) :
    requester lv m = .ub ↔ 11 < m.operationCode.val ∧ (Log.allowed lv (Log.bit .info) = true ∨ Log.allowed lv (Log.bit .error) = true) := by
  unfold requester
  cases hi : logs lv .info m.operationCode with
  | false =>
    have := (logs_false lv .info m.operationCode).mp hi
    simp [this]
  | true =>
    have hi' : ¬ (Log.allowed lv (Log.bit .info) = true ∧ 11 < m.operationCode.val) := fun h => by rw [(logs_false _ _ _).mpr h] at hi; cases hi
    simp only [if_true]
    repeat' split
    · simp only [reduceCtorEq, false_iff]; omega
    · simp only [reduceCtorEq, false_iff]; omega
    · simp only [reduceCtorEq, false_iff]; omega
    · rename_i hw
      have hw' : ¬ (Log.allowed lv (Log.bit .error) = true ∧ 11 < m.operationCode.val) := fun h => by rw [(logs_false _ _ _).mpr h] at hw; cases hw
      simp only [reduceCtorEq, false_iff]
      rintro ⟨h1, h2 | h2⟩
      · exact hi' ⟨h2, h1⟩
      · exact hw' ⟨h2, h1⟩
    · rename_i hw
      have := (logs_false lv .error m.operationCode).mp (by simpa using hw)
      simp [this]

/-- When the receipt of a message is undefined behaviour at a client: its code is none that is declared, its service has a requester, and information or
errors are logged. -/
theorem client_ub (lv : BitVec 8) (reqs : List Str) (m : Msg) :
    client lv reqs m = .ub ↔ m.serviceID ∈ reqs ∧ 11 < m.operationCode.val ∧ (Log.allowed lv (Log.bit .info) = true ∨ Log.allowed lv (Log.bit .error) = true) := by
  unfold client
  split
  · repeat' split
    all_goals (simp only [reduceCtorEq, false_iff]; omega)
  · split
    · rename_i hm
      rw [requester_ub]
      simp [hm]
    · rename_i hm
      simp [hm]

/-- A message tells a client what its code names, about the service it names, and nothing else. -/
theorem client_hears_partial {lv : BitVec 8} {reqs : List Str} {m : Msg} {es : List News} {h : Bool} (hs : client lv reqs m = .done es h) :
    (∀ e, e ∈ es ↔ Told reqs m e) ∧ es.length ≤ 1 := by
  have k0 := known m.operationCode "StatusRegister" 0 (by decide) (by rfl)
  have k1 := known m.operationCode "SignalRegister" 1 (by decide) (by rfl)
  have k3 := known m.operationCode "StatusGet" 3 (by decide) (by rfl)
  have k4 := known m.operationCode "Request" 4 (by decide) (by rfl)
  have k5 := known m.operationCode "PartialRequestUpdate" 5 (by decide) (by rfl)
  have k9 := known m.operationCode "ServiceStatusUpdate" 9 (by decide) (by rfl)
  have hne : opAvailable ≠ opUnavailable := by decide +kernel
  unfold client at hs
  split at hs
  · rename_i h9
    have h90 := h9.1
    repeat' split at hs
    · rename_i ha
      simp only [Out.done.injEq] at hs
      obtain ⟨rfl, rfl⟩ := hs
      refine ⟨fun e => ?_, Nat.le_refl _⟩
      cases e <;> simp only [Told, k0, k1, k3, k4, k5, k9, List.mem_singleton, News.available.injEq, reduceCtorEq, false_iff]
      · constructor
        · rintro rfl; exact ⟨rfl, h9.2, ha, h9.1⟩
        · rintro ⟨h1, -⟩; exact h1
      · rintro ⟨-, -, h1, -⟩; exact hne (ha.symm.trans h1)
      all_goals omega
    · rename_i ha hu
      simp only [Out.done.injEq] at hs
      obtain ⟨rfl, rfl⟩ := hs
      refine ⟨fun e => ?_, Nat.le_refl _⟩
      cases e <;> simp only [Told, k0, k1, k3, k4, k5, k9, List.mem_singleton, News.unavailable.injEq, reduceCtorEq, false_iff]
      · rintro ⟨-, -, h1, -⟩; exact ha h1
      · constructor
        · rintro rfl; exact ⟨rfl, h9.2, hu, h9.1⟩
        · rintro ⟨h1, -⟩; exact h1
      all_goals omega
    · rename_i ha hu
      simp only [Out.done.injEq] at hs
      obtain ⟨rfl, rfl⟩ := hs
      refine ⟨fun e => ?_, Nat.zero_le _⟩
      cases e <;> simp only [Told, k0, k1, k3, k4, k5, k9, List.not_mem_nil, false_iff]
      · rintro ⟨-, -, h1, -⟩; exact ha h1
      · rintro ⟨-, -, h1, -⟩; exact hu h1
      all_goals omega
  · rename_i h9
    have h9' : ∀ x : Str, x = m.serviceID → x ≠ [] → m.operationCode.val ≠ 9 := fun x hx hn h => h9 ⟨h, hx ▸ hn⟩
    split at hs
    · rename_i hm
      unfold requester at hs
      split at hs
      · repeat' split at hs
        · rename_i hc
          simp only [Out.done.injEq] at hs
          obtain ⟨rfl, rfl⟩ := hs
          refine ⟨fun e => ?_, Nat.le_refl _⟩
          cases e <;> simp only [Told, k0, k1, k3, k4, k5, k9, List.mem_singleton, News.signal.injEq, reduceCtorEq, false_iff]
          case signal x =>
            constructor
            · rintro rfl; exact ⟨rfl, hm, hc⟩
            · rintro ⟨h1, -⟩; exact h1
          all_goals omega
        · rename_i hc
          simp only [Out.done.injEq] at hs
          obtain ⟨rfl, rfl⟩ := hs
          refine ⟨fun e => ?_, Nat.le_refl _⟩
          cases e <;> simp only [Told, k0, k1, k3, k4, k5, k9, List.mem_singleton, News.status.injEq, reduceCtorEq, false_iff]
          case status x =>
            constructor
            · rintro rfl; exact ⟨rfl, hm, hc⟩
            · rintro ⟨h1, -⟩; exact h1
          all_goals omega
        · rename_i hc
          simp only [Out.done.injEq] at hs
          obtain ⟨rfl, rfl⟩ := hs
          refine ⟨fun e => ?_, Nat.le_refl _⟩
          cases e <;> simp only [Told, k0, k1, k3, k4, k5, k9, List.mem_singleton, News.answer.injEq, reduceCtorEq, false_iff]
          case answer x =>
            constructor
            · rintro rfl; exact ⟨rfl, hm, by omega⟩
            · rintro ⟨h1, -⟩; exact h1
          all_goals omega
        · simp only [Out.done.injEq] at hs
          obtain ⟨rfl, rfl⟩ := hs
          refine ⟨fun e => ?_, Nat.zero_le _⟩
          cases e <;> simp only [Told, k0, k1, k3, k4, k5, k9, List.not_mem_nil, false_iff]
          · rintro ⟨h1, h2, -, h3⟩; exact h9' _ h1 h2 h3
          · rintro ⟨h1, h2, -, h3⟩; exact h9' _ h1 h2 h3
          all_goals omega
        · cases hs
      · cases hs
    · rename_i hm
      simp only [Out.done.injEq] at hs
      obtain ⟨rfl, rfl⟩ := hs
      refine ⟨fun e => ?_, Nat.zero_le _⟩
      cases e <;> simp only [Told, k0, k1, k3, k4, k5, k9, List.not_mem_nil, false_iff]
      · rintro ⟨h1, h2, -, h3⟩; exact h9' _ h1 h2 h3
      · rintro ⟨h1, h2, -, h3⟩; exact h9' _ h1 h2 h3
      all_goals (rintro ⟨h1, h2, -⟩; exact hm (h1 ▸ h2))

/-- The message counts as handled exactly when it told something, or was a service's status. -/
theorem client_handled {lv : BitVec 8} {reqs : List Str} {m : Msg} {es : List News} {h : Bool} (hs : client lv reqs m = .done es h) :
    h = true ↔ es ≠ [] ∨ (m.operationCode.val = 9 ∧ m.serviceID ≠ []) := by
  unfold client at hs
  split at hs
  · rename_i h9
    split at hs
    · cases hs; simp [h9]
    · split at hs <;> cases hs <;> simp [h9]
  · rename_i h9
    split at hs
    · unfold requester at hs
      split at hs
      · split at hs
        · cases hs; simp
        · split at hs
          · cases hs; simp
          · split at hs
            · cases hs; simp
            · split at hs
              · cases hs; simp only [Bool.false_eq_true, false_iff]; rintro (h | h); exact h rfl; exact h9 h
              · cases hs
      · cases hs
    · cases hs; simp only [Bool.false_eq_true, false_iff]; rintro (h | h); exact h rfl; exact h9 h

/-- Bytes that are no message tell nothing; all others what `client_hears_partial` says. -/
theorem client_bytes (lt : Orders) (lv : BitVec 8) (reqs : List Str) (b : Bytes) :
    (fromBytes lt b = none → clientBytes lt lv reqs b = .done [] false) ∧
    ∀ m, fromBytes lt b = some m → clientBytes lt lv reqs b = client lv reqs m := by
  refine ⟨fun h => ?_, fun m h => ?_⟩ <;> simp [clientBytes, h]

/-- Without logging, nothing that comes in is undefined behaviour. -/
theorem client_silent (lt : Orders) (reqs : List Str) (b : Bytes) : ∃ es h, clientBytes lt 0 reqs b = .done es h := by
  cases hf : clientBytes lt 0 reqs b with
  | done es h => exact ⟨es, h, rfl⟩
  | ub =>
    cases hm : fromBytes lt b with
    | none => simp [clientBytes, hm] at hf
    | some m =>
      rw [(client_bytes lt 0 reqs b).2 m hm] at hf
      have := ((client_ub 0 reqs m).mp hf).2.2
      simp [Log.allowed] at this

/-! ### Peers and strangers -/

/-- What a peer sends with one of the declared codes is never undefined behaviour to receive, at any log level. -/
theorem peer_safe {lt : Orders} (hlt : lt.Asymm) {m : Msg} (hm : m.Fits lt) (hc : m.operationCode.val ≤ 11) {b : Bytes} (hb : toBytes m = some b) (lv : BitVec 8) (provs reqs : List Str) :
    (∃ es h, serverBytes lt lv provs b = .done es h) ∧ ∃ es h, clientBytes lt lv reqs b = .done es h := by
  obtain ⟨bytes, m', h1, h2, h3, h4, h5, -⟩ := message_roundtrip lt hlt m hm
  obtain rfl : bytes = b := Option.some.inj (h1.symm.trans hb)
  rw [(server_bytes lt lv provs bytes).2 m' h2, (client_bytes lt lv reqs bytes).2 m' h2]
  constructor
  · cases hs : server lv provs m' with
    | done es h => exact ⟨es, h, rfl⟩
    | ub =>
      have hx := ((server_ub lv provs m').mp hs).2.1
      rw [h5] at hx
      omega
  · cases hs : client lv reqs m' with
    | done es h => exact ⟨es, h, rfl⟩
    | ub =>
      have hx := ((client_ub lv reqs m').mp hs).2.1
      rw [h5] at hx
      omega

/-- The content of a message that came in is an error or unread bytes. -/
theorem incoming_payload {lt : Orders} {b : Bytes} {m : Msg} (h : fromBytes lt b = some m) : (∃ d c, m.payload = some (.error d c)) ∨ ∃ s, m.payload = some (.incoming s) := by
  unfold fromBytes at h
  simp only [Option.bind_eq_bind] at h
  obtain ⟨r1, -, h⟩ := Option.bind_eq_some_iff.mp h
  obtain ⟨r2, -, h⟩ := Option.bind_eq_some_iff.mp h
  obtain ⟨r3, -, h⟩ := Option.bind_eq_some_iff.mp h
  obtain ⟨r4, -, h⟩ := Option.bind_eq_some_iff.mp h
  obtain ⟨r5, -, h⟩ := Option.bind_eq_some_iff.mp h
  obtain ⟨r6, -, h⟩ := Option.bind_eq_some_iff.mp h
  split at h
  · obtain ⟨r7, -, h⟩ := Option.bind_eq_some_iff.mp h
    obtain ⟨r8, -, h⟩ := Option.bind_eq_some_iff.mp h
    rw [← Option.some.inj h]
    exact Or.inl ⟨_, _, rfl⟩
  · rw [← Option.some.inj h]
    exact Or.inr ⟨_, rfl⟩

/-- Asking a request for its input is undefined behaviour just if the request came with an error. -/
theorem input_ub {lt : Orders} {b : Bytes} {m : Msg} (h : fromBytes lt b = some m) (t : Ty) :
    Typed.getInput lt true t m.payload = .ub ↔ ∃ d c, m.payload = some (.error d c) := by
  rcases incoming_payload h with ⟨d, c, hp⟩ | ⟨s, hp⟩ <;> rw [hp] <;> simp [Typed.getInput]

/-- A message whose code is none that is declared. -/
def strange : Msg := { sampleMsg with operationCode := ⟨200, by decide⟩ }

/-- Refuted as a whole: a stranger's message crashes a server that logs. -/
theorem stranger_crashes : ∃ b, toBytes strange = some b ∧ serverBytes numOrders (Log.bit .warn) [sampleMsg.serviceID] b = .ub ∧
    clientBytes numOrders (Log.bit .error) [sampleMsg.serviceID] b = .ub := by
  obtain ⟨bytes, m', h1, h2, h3, h4, h5, -⟩ := message_roundtrip numOrders numOrders_asymm strange (by obtain ⟨h1, h2, h3, h4⟩ := sampleMsg_fits; exact ⟨h1, h2, h3, h4⟩)
  refine ⟨bytes, h1, ?_, ?_⟩
  · rw [(server_bytes _ _ _ _).2 m' h2, server_ub, h3, h5]
    exact ⟨by simp [strange], by decide, Or.inr (by decide)⟩
  · rw [(client_bytes _ _ _ _).2 m' h2, client_ub, h3, h5]
    exact ⟨by simp [strange], by decide, Or.inr (by decide)⟩

/-! ### Examples -/

example : print opCodes ⟨6, by decide⟩ = some "Abort" ∧ print opCodes ⟨11, by decide⟩ = some "_" ∧ print opCodes ⟨12, by decide⟩ = none ∧ print opCodes ⟨255, by decide⟩ = none := by decide

/-- A request for a provided service. -/
example : server Log.fromInfo [[1], [2]] { sampleMsg with serviceID := [2], operationCode := ⟨4, by decide⟩ } = .done [.act [2] .request] true := by rfl

/-- A client that leaves. -/
example : server Log.fromInfo [[1], [2]] { sampleMsg with serviceID := [], operationCode := ⟨8, by decide⟩ } =
    .done [.forget sampleMsg.sourceAddress, .act [1] .clientOff, .act [2] .clientOff] true := by rfl

/-- An answer, seen by a server. -/
example : server Log.fromInfo [[1], [2]] { sampleMsg with serviceID := [2], operationCode := ⟨5, by decide⟩ } = .done [] false := by rfl

example : client Log.fromInfo [[2]] { sampleMsg with serviceID := [7], operationID := opAvailable, operationCode := ⟨9, by decide⟩ } = .done [.available [7]] true := by rfl

end Maf.Wire
