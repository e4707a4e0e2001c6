import Verif.Model.TimerThrow

/-!
# Running timers are called
-/
namespace Maf.Tth

/-- What happens by itself: functions return, what is queued is executed, time passes.  Nobody starts or stops timers, nothing throws, no further functions come. -/
def Act.calm : Act → Bool
  | .runJob | .ret | .leave | .doze | .wake | .expire _ => true
  | _ => false

/-- Timer `t` will be called if only time passes: there is a way to its next call. -/
def CanFire (cyc : Tid → Bool) (s : State) (t : Tid) : Prop :=
  ∃ as s', (∀ a ∈ as, a.calm = true) ∧ run cyc s as = some s' ∧ s'.fired = s.fired ++ [t]

/-- In this history, exceptions come out only while no timer is running. -/
def Careful (cyc : Tid → Bool) (s : State) : List Act → Prop
  | [] => True
  | a :: as => (a = .throw → s.recs = []) ∧ ∀ s', step cyc s a = some s' → Careful cyc s' as

end Maf.Tth
