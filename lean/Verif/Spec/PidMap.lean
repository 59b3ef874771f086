import Verif.Model.PidMap
/-! Vocabulary for C20. -/

namespace Verif.Props.PidMapSpec
open Verif Verif.PidMap

/-- The pids with which application `a` has called RegisterPid in a schedule. -/
def pidsOf (a : Nat) : List Op → List Nat
  | [] => []
  | .register b p :: ops => if b = a then p :: pidsOf a ops else pidsOf a ops
  | _ :: ops => pidsOf a ops

/-- A state that some schedule reaches from a fresh mapping with `n` entries. -/
def Reachable (n : Nat) (s : St) : Prop := ∃ ops, s = run (init n) ops

end Verif.Props.PidMapSpec
