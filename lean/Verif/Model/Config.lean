import Verif.Model.Ident

/-!
# The configuration of a process: loading, validating, extending, resolving

The parser is in Model/ConfigParse: a configuration is what `configuration::Parse` returns, one map
of service types and one of instances, and the quality of the process.

Simplifications:
* Maps are lists of pairs (see `Model.Json`), visited in the order of the list.
* The global and the tracing part of the configuration are left out but for the quality of
  the process: an add-on does not change them (configuration.cpp 107-186).
* The pointers to the lists are never null (configuration.cpp 24-35), so
  `configuration_merged_invalid_configuration_state` does not occur.
-/
namespace Verif.Config
open Verif.Json Verif.Ident

/-- `emplace` of a map: nothing happens if the key is there. -/
def emplace {κ α : Type} [DecidableEq κ] (m : List (κ × α)) (k : κ) (v : α) : List (κ × α) :=
  match find m k with
  | some _ => m
  | none => m ++ [(k, v)]

/-- The inner loop of `flatten` (configuration.cpp 537-540 and 553-556). -/
def emplaceAll {κ α : Type} [DecidableEq κ] : List (κ × α) → List (κ × α) → List (κ × α)
  | m, [] => m
  | m, (k, v) :: l => emplaceAll (emplace m k v) l

/-- The outer loop of `flatten`. -/
def flattenTo {κ α : Type} [DecidableEq κ] : List (κ × α) → List (List (κ × α)) → List (κ × α)
  | m, [] => m
  | m, g :: l => flattenTo (emplaceAll m g) l

/-- `Configuration::GetServiceTypes` (configuration.cpp 529-543),
`Configuration::GetServiceInstances` (configuration.cpp 545-559). -/
def flatten {κ α : Type} [DecidableEq κ] (l : List (List (κ × α))) : List (κ × α) := flattenTo [] l

/-! ### Merging -/

/-- The loop over the additional entries (configuration.cpp 120-133 and 155-168): `none` is
the error for a key that is there already. -/
def collectNew {κ α : Type} [DecidableEq κ] (current : List (List (κ × α))) :
    List (κ × α) → List (κ × α) → Option (List (κ × α))
  | new, [] => some new
  | new, (k, v) :: l => if known current k then none else collectNew current (emplace new k v) l

/-- The new list with the new map in front (configuration.cpp 140-146 and 175-182). -/
def publish {κ α : Type} (current : List (List (κ × α))) (new : List (κ × α)) : List (List (κ × α)) :=
  if new.isEmpty then current else new :: current

/-- One half of `MergeServiceEntries` (configuration.cpp 111-146 and 150-182). -/
def mergeMaps {κ α : Type} [DecidableEq κ] (current additional : List (List (κ × α))) :
    Option (List (List (κ × α))) :=
  match collectNew current [] (flatten additional) with
  | none => none
  | some new => some (publish current new)

/-- What `MergeServiceEntries` returns. -/
inductive Merged where
  | ok
  /-- configuration_merge_duplicate_service_type -/
  | duplicateType
  /-- configuration_merge_duplicate_service_instance -/
  | duplicateInstance
deriving DecidableEq, Repr

/-- `Configuration::MergeServiceEntries` (configuration.cpp 107-186). -/
def merge (c add : Config) : Merged × Config :=
  match mergeMaps c.types add.types with
  | none => (.duplicateType, c)
  | some types =>
    match mergeMaps c.insts add.insts with
    | none => (.duplicateInstance, { c with types })
    | some insts => (.ok, { c with types, insts })

/-! ### Validating -/

/-- Errors of `Validate` (configuration_error.h 30-35). -/
inductive Invalid where
  | asil
  | typeReference
  | instanceBinding
  | typeBinding
  | eventReference
  | fieldReference
deriving DecidableEq, Repr

/-- The body of the loop of `CrossCheckAsilLevels` (configuration.cpp 205-213). -/
def checkAsil (process : Quality) (i : InstDep) : Option Invalid :=
  if i.asil == .b && process != .b then some .asil else none

/-- Whether each name of the instance is a name of the type (configuration.cpp 244-255 and
256-267). -/
def allIn {α : Type} (l : List (String × α)) (type : List (String × UInt16)) : Bool :=
  l.all fun p => (find type p.1).isSome

/-- The body of the loop of `CrossCheckServiceInstancesToTypes` (configuration.cpp 221-267).
Methods are not looked at. -/
def checkType (types : List (Service × TypeDep)) (i : InstDep) : Option Invalid :=
  match find types i.service with
  | none => some .typeReference
  | some t =>
    match i.binding, t with
    | .blank, _ => some .instanceBinding
    | .lola _, .blank => some .typeBinding
    | .lola d, .lola t =>
      if !allIn d.events t.events then some .eventReference
      else if !allIn d.fields t.fields then some .fieldReference
      else none

/-- `Configuration::Validate` (configuration.cpp 188-271): `none` is success. -/
def validate (c : Config) : Option Invalid :=
  match (flatten c.insts).findSome? (fun p => checkAsil c.asil p.2) with
  | some e => some e
  | none => (flatten c.insts).findSome? (fun p => checkType (flatten c.types) p.2)

/-! ### The runtime -/

/-- `Runtime::Initialize` (runtime.cpp 111-134): `none` is the end of the process. -/
def startWith (parsed : Config) : Option Config :=
  match validate parsed with
  | none => some parsed
  | some _ => none

/-- The first use of the runtime without `Initialize` (runtime.cpp 189-199): the default
configuration is parsed. -/
def startDefault (parsed : Config) : Option Config := some parsed

/-- `InitializeRuntimeAddonConfiguration` (runtime.cpp 136-168) with
`MergeAdditionalConfiguration` (runtime.cpp 287-303): `none` is the end of the process. -/
def addon (c add : Config) : Option Config :=
  match merge c add with
  | (.ok, c') =>
    match validate c' with
    | none => some c'
    | some _ => none
  | _ => none

/-- `Runtime::resolve` (runtime.cpp 255-282). -/
def resolve (c : Config) (specifier : String) : List Ident :=
  match lookup c.insts specifier with
  | none => []
  | some i =>
    match lookup c.types i.service with
    | none => []
    | some t => [make i t]

/-- What changes the configuration of a running process. -/
inductive Change where
  /-- an add-on is loaded -/
  | addon (add : Config)
  /-- `InstanceIdentifier::Create` -/
  | create (text : Text)

/-- One change; `none` is the end of the process. -/
def change (c : Config) : Change → Option Config
  | .addon add => addon c add
  | .create text =>
    match create (some c) text with
    | .ok c' _ => some c'
    | .terminated => none
    | .badText => some c
    | .noConfiguration => some c

/-- A history of changes. -/
def changes (c : Config) : List Change → Option Config
  | [] => some c
  | x :: l =>
    match change c x with
    | none => none
    | some c' => changes c' l

end Verif.Config
