import Verif.Model.Access

/-!
# What the documentation says about permissions

configuration/README.md ("permission-checks", "allowedConsumer", "allowedProvider"):
a list of users allows just these users.  No list, or an empty list, means no restriction,
or nobody if the checks are strict.
-/
namespace Verif.Spec.Access
open Verif.Json Verif.Ident Verif.Access

/-- A user is allowed by a list. -/
def Allowed (strict : Bool) (list : Option (List Uid)) (u : Uid) : Prop :=
  match list with
  | none => strict = false
  | some [] => strict = false
  | some (v :: l) => u ∈ v :: l

/-- A user is an allowed consumer of a quality of a service instance. -/
def Consumer (d : Lola) (q : Quality) (u : Uid) : Prop := Allowed d.strict (find d.consumers q) u

/-- A user is an allowed provider of a quality of a service instance. -/
def Provider (d : Lola) (q : Quality) (u : Uid) : Prop := Allowed d.strict (find d.providers q) u

end Verif.Spec.Access
