import Verif.Model.TracePlan
import Verif.Spec.TraceSlots

/-! What users rely on when they configure tracing. -/
namespace Verif.TracePlanSpec
open Verif.TracePlan Verif.TraceSlots

/-- The files ask for trace point `p` of element `e` of instance `i`: the filter file switches it
on, the instance is configured and has tracing slots for the element. -/
def Asked (c : Config) (file : List FileEntry) (e : Elem) (p : Point) (i : Nat) : Prop :=
  (∃ x ∈ file, x.elem = e ∧ p ∈ x.points) ∧ i ∈ c.instances e.service ∧ 0 < c.slots e i

/-- Samples of element `e` of instance `i` are traced when they are sent. -/
def SendsTraced (c : Config) (file : List FileEntry) (e : Elem) (i : Nat) : Prop :=
  Asked c file e .send i ∨ Asked c file e .sendAllocated i

/-- The maps of the filter in any order. -/
structure Maps (c : Config) (file : List FileEntry) (events fields : List Entry) : Prop where
  events : events.Perm (parse c file false)
  fields : fields.Perm (parse c file true)

/-- All slots that `list` needs. -/
def needed (c : Config) (list : List (Elem × Nat)) : Nat := (list.map fun p => c.slots p.1 p.2).sum

/-- The creation of the elements in `list`, in this order. -/
def creations (c : Config) (events fields : List Entry) (list : List (Elem × Nat)) : List Op :=
  list.filterMap fun p => create c events fields p.1 p.2

end Verif.TracePlanSpec
