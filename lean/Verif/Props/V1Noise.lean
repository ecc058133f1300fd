import Verif.Props.Delays
import Verif.Props.Wires
/-!
# C91 and C92 on the v1 server
-/
namespace Godis.V1
open Godis.Event NoiseSpec

/-- C91, v1 server: noise is mute. -/
theorem C91_v1_mute {ext rng L v} (hr : VRun ext rng L v) : Mute (visible (sysLabels L)) := Event.C91_mute hr.run

/-- C91, v1 server: what happens with the noise could happen without it, at the sockets of a v2 server. -/
theorem C91_v1_removed {ext rng L v h'} (hr : VRun ext rng L v) (hw : Without (visible (sysLabels L)) h') :
    Possible ext 1 rng h' v.sys.log v.sys.store v.sys.crashed :=
  Event.C91_removed ⟨_, _, hr.run, rfl, rfl, rfl, rfl⟩ hw

/-- C92, v1 server: every request is answered on the connection on which it arrived. -/
theorem C92_v1_wired {ext rng L v} (hr : VRun ext rng L v) : WireSpec.Wired (visible (sysLabels L)) :=
  Event.C92_wired (log := v.sys.log) (store := v.sys.store) (crashed := v.sys.crashed) ⟨_, _, hr.run, rfl, rfl, rfl, rfl⟩

end Godis.V1
