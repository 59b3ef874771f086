import Verif.Model.ClientCache

/-! What users of connections rely on. -/
namespace Verif.ClientCacheSpec
open Verif.ClientCache

/-- The connection exists, and neither was it asked to stop nor did it fail. -/
def Open (s : St) (c : Nat) : Prop := c < s.count ∧ (s.conn c).reason = false

/-- The connection to a process that was handed out last and not removed since. -/
def current (n : Nat) (log : List Ev) : Option Nat :=
  log.foldl (fun v e => match e with
    | .returned _ m c _ => if m = n then some c else v
    | .removed _ m => if m = n then none else v
    | .found _ _ _ => v) none

/-- Connections are removed by the callback thread only, as in the code (the only caller is
`HandleOutdatedNodeIdMsg`, message_passing_service_instance.cpp 578-604). -/
def RemovedByCallback (ops : List Op) : Prop := ∀ t n, Op.remove t n ∈ ops → t = 0

end Verif.ClientCacheSpec
