import Verif.Model.Json
/-!
# Instance identifiers: their parts, text, comparison and hash

An instance identifier says which instance of which service is meant, and how that
instance is deployed.  A user may turn it into text and back, compare it, sort it
and use it as a key of a hash map.

Simplifications:
* The deployments, to which an identifier points, are values.
* A text is what the JSON parser makes of it.  The JSON writer and parser are
  trusted to be inverse to each other.
* Termination of the process, by `std::terminate` or by an assertion, is `none`.
-/
namespace Verif.Ident
open Verif.Json hiding get

/-! ### The parts of an identifier -/

/-- `ServiceVersionType` (configuration/service_version_type.h). -/
structure Version where
  major : UInt32
  minor : UInt32
deriving DecidableEq, Repr

/-- `ServiceIdentifierType` (configuration/service_identifier_type.h). -/
structure Service where
  name : String
  version : Version
deriving DecidableEq, Repr

/-- `QualityType` (configuration/quality_type.h 22-27). -/
inductive Quality where
  | invalid
  | qm
  | b
deriving DecidableEq, Repr

/-- `LolaEventInstanceDeployment` (configuration/lola_event_instance_deployment.h). -/
structure EventDep where
  slots : Option UInt16
  subscribers : Option UInt8
  allocations : Option UInt8
  enforce : Bool
  tracing : UInt8
deriving DecidableEq, Repr

/-- `LolaFieldInstanceDeployment` (configuration/lola_field_instance_deployment.h). -/
structure FieldDep where
  event : EventDep
  useGet : Bool
  useSet : Bool
deriving DecidableEq, Repr

/-- `LolaMethodInstanceDeployment` (configuration/lola_method_instance_deployment.h). -/
structure MethodDep where
  queue : Option UInt8
  enabled : Bool
deriving DecidableEq, Repr

/-- `LolaServiceInstanceDeployment` (configuration/lola_service_instance_deployment.h). -/
structure Lola where
  id : Option UInt16
  shmSize : Option UInt64
  ctlBSize : Option UInt64
  ctlQmSize : Option UInt64
  events : List (String × EventDep)
  fields : List (String × FieldDep)
  methods : List (String × MethodDep)
  strict : Bool
  consumers : List (Quality × List UInt32)
  providers : List (Quality × List UInt32)
  interVm : Bool
  forwarded : Bool
deriving DecidableEq, Repr

/-- `ServiceInstanceDeployment::BindingInformation`
(configuration/service_instance_deployment.h 40). -/
inductive Binding where
  | lola (l : Lola)
  | blank
deriving DecidableEq, Repr

/-- `ServiceInstanceDeployment` (configuration/service_instance_deployment.h). -/
structure InstDep where
  service : Service
  binding : Binding
  asil : Quality
  specifier : String
deriving DecidableEq, Repr

/-- `LolaServiceTypeDeployment` (configuration/binding_service_type_deployment.h). -/
structure LolaType where
  id : UInt16
  events : List (String × UInt16)
  fields : List (String × UInt16)
  methods : List (String × UInt16)
deriving DecidableEq, Repr

/-- `ServiceTypeDeployment` (configuration/service_type_deployment.h 33-47). -/
inductive TypeDep where
  | lola (l : LolaType)
  | blank
deriving DecidableEq, Repr

/-! ### Instance specifiers -/

/-- A letter, in the "C" locale (`std::isalpha`). -/
def isAlpha (c : Char) : Bool := ('a' ≤ c && c ≤ 'z') || ('A' ≤ c && c ≤ 'Z')

/-- A letter or a digit, in the "C" locale (`std::isalnum`). -/
def isAlnum (c : Char) : Bool := isAlpha c || ('0' ≤ c && c ≤ '9')

/-- `validate_chars` for one character (instance_specifier.cpp 45-53). -/
def charOk (first : Bool) (c : Char) : Bool :=
  (if first then isAlpha c else isAlnum c) || c == '_' || c == '/'

/-- `shortname.find("//") != npos` (instance_specifier.cpp 70-72). -/
def hasDoubleSlash : List Char → Bool
  | [] => false
  | [_] => false
  | a :: b :: l => (a == '/' && b == '/') || hasDoubleSlash (b :: l)

/-- `IsShortNameValid` (instance_specifier.cpp 38-77). -/
def shortNameValid (s : List Char) : Bool :=
  match s with
  | [] => false
  | c :: l =>
    if (c :: l).getLast? == some '/' then false
    else if !charOk true c then false
    else if !l.all (charOk false) then false
    else if hasDoubleSlash (c :: l) then false
    else true

/-- `InstanceSpecifier::Create` (instance_specifier.cpp 81-99): `none` is the error
kInvalidMetaModelShortname. -/
def makeSpecifier (s : String) : Option String := if shortNameValid s.toList then some s else none

/-! ### Writing -/

/-- `json::Any{serializationVersion}`: each class has version 1. -/
def version1 : Json := .num 1

/-- `ServiceVersionType::Serialize` (service_version_type.cpp 62-70). -/
def Version.toJson (v : Version) : Obj :=
  put (put (put [] "serializationVersion" version1) "majorVersion" (num32 v.major))
    "minorVersion" (num32 v.minor)

/-- `ServiceIdentifierType::Serialize` (service_identifier_type.cpp 65-72). -/
def Service.toJson (s : Service) : Obj :=
  put (put (put [] "serviceType" (.str s.name)) "version" (.obj s.version.toJson))
    "serializationVersion" version1

/-- `ToString(QualityType)` (quality_type.cpp 29-51). -/
def Quality.toText : Quality → String
  | .invalid => "kInvalid"
  | .qm => "kASIL_QM"
  | .b => "kASIL_B"

/-- `LolaEventInstanceDeployment::Serialize` (lola_event_instance_deployment.cpp
86-110): the number of tracing slots is always written as 0. -/
def EventDep.toJson (e : EventDep) : Obj :=
  let o := putOpt num16 [] "numberOfSampleSlots" e.slots
  let o := putOpt num8 o "maxSubscribers" e.subscribers
  let o := put o "serializationVersion" version1
  let o := putOpt num8 o "maxConcurrentAllocations" e.allocations
  let o := put o "enforceMaxSamples" (.bool e.enforce)
  put o "numberOfIpcTracingSlots" (num8 0)

/-- `LolaFieldInstanceDeployment::Serialize` (lola_field_instance_deployment.cpp 57-65). -/
def FieldDep.toJson (f : FieldDep) : Obj :=
  put (put f.event.toJson "useGetIfAvailable" (.bool f.useGet)) "useSetIfAvailable" (.bool f.useSet)

/-- `LolaMethodInstanceDeployment::Serialize` (lola_method_instance_deployment.cpp 50-60). -/
def MethodDep.toJson (m : MethodDep) : Obj :=
  put (putOpt num8 [] "queueSize" m.queue) "use" (.bool m.enabled)

/-- `LolaServiceInstanceId::Serialize` (lola_service_instance_id.cpp 58-64). -/
def idToJson (i : UInt16) : Json :=
  .obj (put (put [] "instanceId" (num16 i)) "serializationVersion" version1)

/-- `ConvertUidMapToJson` (lola_service_instance_deployment.cpp 83-98). -/
def uidsToJson (m : List (Quality × List UInt32)) : Obj :=
  mapToJson Quality.toText (fun l => .list (l.map num32)) m

/-- `LolaServiceInstanceDeployment::Serialize`
(lola_service_instance_deployment.cpp 218-255). -/
def Lola.toJson (l : Lola) : Obj :=
  let o := put [] "serializationVersion" version1
  let o := putOpt idToJson o "instanceId" l.id
  let o := putOpt num64 o "sharedMemorySize" l.shmSize
  let o := putOpt num64 o "controlAsilBMemorySize" l.ctlBSize
  let o := putOpt num64 o "controlQmMemorySize" l.ctlQmSize
  let o := put o "events" (.obj (mapToJson (fun s => s) (fun e => .obj (EventDep.toJson e)) l.events))
  let o := put o "fields" (.obj (mapToJson (fun s => s) (fun f => .obj (FieldDep.toJson f)) l.fields))
  let o := put o "methods" (.obj (mapToJson (fun s => s) (fun m => .obj (MethodDep.toJson m)) l.methods))
  let o := put o "strict" (.bool l.strict)
  let o := put o "interVmSupport" (.bool l.interVm)
  let o := put o "interVmForwarded" (.bool l.forwarded)
  let o := put o "allowedConsumer" (.obj (uidsToJson l.consumers))
  put o "allowedProvider" (.obj (uidsToJson l.providers))

/-- `ServiceInstanceDeployment::Serialize` (service_instance_deployment.cpp 123-144). -/
def InstDep.toJson (i : InstDep) : Obj :=
  let o := match i.binding with
    | .lola l => put (put [] "bindingInfoIndex" (.num 0)) "bindingInfo" (.obj l.toJson)
    | .blank => put [] "bindingInfoIndex" (.num 1)
  let o := put o "asilLevel" (.str i.asil.toText)
  let o := put o "service" (.obj i.service.toJson)
  let o := put o "instanceSpecifier" (.str i.specifier)
  put o "serializationVersion" version1

/-- `BindingServiceTypeDeployment::Serialize`
(binding_service_type_deployment_impl.h 133-146). -/
def LolaType.toJson (t : LolaType) : Obj :=
  let o := put [] "serializationVersion" version1
  let o := put o "serviceId" (num16 t.id)
  let o := put o "events" (.obj (mapToJson (fun s => s) num16 t.events))
  let o := put o "fields" (.obj (mapToJson (fun s => s) num16 t.fields))
  put o "methods" (.obj (mapToJson (fun s => s) num16 t.methods))

/-- `ServiceTypeDeployment::Serialize` (service_type_deployment.cpp 118-132). -/
def TypeDep.toJson (t : TypeDep) : Obj :=
  match t with
  | .lola l =>
    put (put (put [] "bindingInfoIndex" (.num 0)) "serializationVersion" version1)
      "bindingInfo" (.obj l.toJson)
  | .blank => put (put [] "bindingInfoIndex" (.num 1)) "serializationVersion" version1

/-- `InstanceIdentifier::Serialize` (instance_identifier.cpp 126-135). -/
def identToJson (i : InstDep) (t : TypeDep) : Obj :=
  put (put (put [] "serializationVersion" version1) "serviceInstanceDeployment" (.obj i.toJson))
    "serviceTypeDeployment" (.obj t.toJson)

/-! ### Reading -/

/-- The check of the version in each class, e.g. service_version_type.cpp 49-54. -/
def checkVersion (o : Obj) : Option Unit :=
  match Json.get asU32 o "serializationVersion" with
  | some v => if v = 1 then some () else none
  | none => none

/-- `ServiceVersionType(json)` (service_version_type.cpp 45-55). -/
def Version.fromJson (o : Obj) : Option Version := do
  let major ← Json.get asU32 o "majorVersion"
  let minor ← Json.get asU32 o "minorVersion"
  checkVersion o
  return { major, minor }

/-- `ServiceIdentifierType(json)` (service_identifier_type.cpp 47-58). -/
def Service.fromJson (o : Obj) : Option Service := do
  let name ← Json.get asStr o "serviceType"
  let version ← (Json.get asObj o "version").bind Version.fromJson
  checkVersion o
  return { name, version }

/-- `FromString` (quality_type.cpp 53-71). -/
def Quality.fromText (s : String) : Option Quality :=
  if s = "kInvalid" then some .invalid
  else if s = "kASIL_QM" then some .qm
  else if s = "kASIL_B" then some .b
  else none

/-- `LolaEventInstanceDeployment::CreateFromJson` (lola_event_instance_deployment.cpp
55-80). -/
def EventDep.fromJson (o : Obj) : Option EventDep := do
  checkVersion o
  let slots ← getOpt asU16 o "numberOfSampleSlots"
  let subscribers ← getOpt asU8 o "maxSubscribers"
  let allocations ← getOpt asU8 o "maxConcurrentAllocations"
  let enforce ← Json.get asBool o "enforceMaxSamples"
  let tracing ← getOpt asU8 o "numberOfIpcTracingSlots"
  return { slots, subscribers, allocations, enforce, tracing := tracing.getD 0 }

/-- `LolaFieldInstanceDeployment::CreateFromJson` (lola_field_instance_deployment.cpp
46-55). -/
def FieldDep.fromJson (o : Obj) : Option FieldDep := do
  let event ← EventDep.fromJson o
  let useGet ← Json.get asBool o "useGetIfAvailable"
  let useSet ← Json.get asBool o "useSetIfAvailable"
  return { event, useGet, useSet }

/-- `LolaMethodInstanceDeployment(json)` (lola_method_instance_deployment.cpp 36-42). -/
def MethodDep.fromJson (o : Obj) : Option MethodDep := do
  let queue ← getOpt asU8 o "queueSize"
  let enabled ← Json.get asBool o "use"
  return { queue, enabled }

/-- `LolaServiceInstanceId(json)` (lola_service_instance_id.cpp 47-56). -/
def idFromJson (j : Json) : Option UInt16 := do
  let o ← asObj j
  let i ← Json.get asU16 o "instanceId"
  checkVersion o
  return i

/-- The user ids of one quality (lola_service_instance_deployment.cpp 62-75). -/
def uidsFromJson (j : Json) : Option (List UInt32) :=
  match asList j with
  | some l => l.mapM asU32
  | none => none

/-- `LolaServiceInstanceDeployment(json)` (lola_service_instance_deployment.cpp
146-187). -/
def Lola.fromJson (o : Obj) : Option Lola := do
  let events ← getMap some (fun j => (asObj j).bind EventDep.fromJson) o "events"
  let fields ← getMap some (fun j => (asObj j).bind FieldDep.fromJson) o "fields"
  let methods ← getMap some (fun j => (asObj j).bind MethodDep.fromJson) o "methods"
  let strict ← Json.get asBool o "strict"
  let consumers ← getMap Quality.fromText uidsFromJson o "allowedConsumer"
  let providers ← getMap Quality.fromText uidsFromJson o "allowedProvider"
  let interVm ← Json.get asBool o "interVmSupport"
  let forwarded ← Json.get asBool o "interVmForwarded"
  checkVersion o
  let id ← getOpt idFromJson o "instanceId"
  let shmSize ← getOpt asU64 o "sharedMemorySize"
  let ctlBSize ← getOpt asU64 o "controlAsilBMemorySize"
  let ctlQmSize ← getOpt asU64 o "controlQmMemorySize"
  return { id, shmSize, ctlBSize, ctlQmSize, events, fields, methods, strict, consumers, providers,
           interVm, forwarded }

/-- `DeserializeVariant` (configuration_common_resources.h 151-179) for an instance:
the first alternative is Lola, the second has no content, there is no third. -/
def bindingFromJson (o : Obj) : Option Binding := do
  let index ← Json.get asInt o "bindingInfoIndex"
  if index = 0 then
    let l ← (Json.get asObj o "bindingInfo").bind Lola.fromJson
    return .lola l
  else if index = 1 then return .blank
  else none

/-- `ServiceInstanceDeployment(json)` (service_instance_deployment.cpp 97-112). -/
def InstDep.fromJson (o : Obj) : Option InstDep := do
  let service ← (Json.get asObj o "service").bind Service.fromJson
  let binding ← bindingFromJson o
  let asil ← (Json.get asStr o "asilLevel").bind Quality.fromText
  let specifier ← (Json.get asStr o "instanceSpecifier").bind makeSpecifier
  checkVersion o
  return { service, binding, asil, specifier }

/-- `BindingServiceTypeDeployment(json)` (binding_service_type_deployment_impl.h
117-131). -/
def LolaType.fromJson (o : Obj) : Option LolaType := do
  let id ← Json.get asU16 o "serviceId"
  let events ← getMap some asU16 o "events"
  let fields ← getMap some asU16 o "fields"
  let methods ← getMap some asU16 o "methods"
  checkVersion o
  return { id, events, fields, methods }

/-- `ServiceTypeDeployment(json)` (service_type_deployment.cpp 30-38 and 101-109). -/
def TypeDep.fromJson (o : Obj) : Option TypeDep := do
  let index ← Json.get asInt o "bindingInfoIndex"
  if index = 0 then
    let l ← (Json.get asObj o "bindingInfo").bind LolaType.fromJson
    checkVersion o
    return .lola l
  else if index = 1 then
    checkVersion o
    return .blank
  else none

/-! ### Comparison -/

/-- `operator==` of events (lola_event_instance_deployment.cpp 151-163). -/
def EventDep.eq (a b : EventDep) : Bool :=
  a.slots == b.slots && a.tracing == b.tracing && a.subscribers == b.subscribers &&
    a.allocations == b.allocations && a.enforce == b.enforce

/-- `operator==` of fields (lola_field_instance_deployment.cpp 67-76). -/
def FieldDep.eq (a b : FieldDep) : Bool :=
  a.event.eq b.event && a.useGet == b.useGet && a.useSet == b.useSet

/-- `operator==` of methods (lola_method_instance_deployment.h 79-82). -/
def MethodDep.eq (a b : MethodDep) : Bool := a.queue == b.queue && a.enabled == b.enabled

/-- `operator==` of Lola deployments (lola_service_instance_deployment.cpp 111-133). -/
def Lola.eq (a b : Lola) : Bool :=
  a.id == b.id && a.shmSize == b.shmSize && a.ctlBSize == b.ctlBSize &&
    a.ctlQmSize == b.ctlQmSize && mapEq EventDep.eq a.events b.events &&
    mapEq FieldDep.eq a.fields b.fields && mapEq MethodDep.eq a.methods b.methods &&
    a.strict == b.strict && mapEq (· == ·) a.consumers b.consumers &&
    mapEq (· == ·) a.providers b.providers

/-- `operator==` of `std::variant`. -/
def Binding.eq : Binding → Binding → Bool
  | .lola a, .lola b => a.eq b
  | .blank, .blank => true
  | _, _ => false

/-- `operator<` of `std::optional<LolaServiceInstanceId>` (lola_service_instance_id.cpp
76-79): no id is less than any id. -/
def idLt : Option UInt16 → Option UInt16 → Bool
  | none, some _ => true
  | some a, some b => a < b
  | _, none => false

/-- `operator<` of Lola deployments (lola_service_instance_deployment.cpp 135-138). -/
def Lola.lt (a b : Lola) : Bool := idLt a.id b.id

/-- `operator<` of `std::variant`: the index first, then the content. -/
def Binding.lt : Binding → Binding → Bool
  | .lola a, .lola b => a.lt b
  | .lola _, .blank => true
  | _, _ => false

/-- The number of a quality (quality_type.h 22-27). -/
def Quality.num : Quality → Nat
  | .invalid => 0
  | .qm => 1
  | .b => 2

/-- `operator==` of instances (service_instance_deployment.cpp 70-73). -/
def InstDep.eq (a b : InstDep) : Bool := a.asil == b.asil && a.binding.eq b.binding

/-- `operator<` of instances (service_instance_deployment.cpp 75-82). -/
def InstDep.lt (a b : InstDep) : Bool :=
  if a.binding.eq b.binding then a.asil.num < b.asil.num else a.binding.lt b.binding

/-- `operator<` of versions (service_version_type.cpp 77-84). -/
def Version.lt (a b : Version) : Bool :=
  if a.major == b.major then a.minor < b.minor else a.major < b.major

/-- `operator==` of services (service_identifier_type.cpp 74-77,
service_version_type.cpp 72-75). -/
def Service.eq (a b : Service) : Bool :=
  a.name == b.name && (a.version.major == b.version.major && a.version.minor == b.version.minor)

/-- `operator<` of services (service_identifier_type.cpp 79-86). -/
def Service.lt (a b : Service) : Bool :=
  if a.name == b.name then a.version.lt b.version else a.name < b.name

/-- `areCompatible` of Lola deployments (lola_service_instance_deployment.cpp 102-109). -/
def Lola.compatible (a b : Lola) : Bool :=
  if a.id.isNone || b.id.isNone then true else a.id == b.id

/-- `areCompatible` of instances (service_instance_deployment.cpp 84-94,
quality_type.cpp 73-76). -/
def InstDep.compatible (a b : InstDep) : Bool :=
  a.asil == b.asil &&
    (match a.binding, b.binding with
     | .lola l, .lola r => l.compatible r
     | _, _ => false)

/-! ### Identifiers -/

/-- A text: what the JSON parser makes of it. -/
inductive Text where
  /-- Text that is no JSON. -/
  | garbage (s : String)
  /-- The text of a JSON value. -/
  | doc (j : Json)

/-- `InstanceIdentifier` (instance_identifier.h). -/
structure Ident where
  inst : InstDep
  type : TypeDep
  text : Text

/-- `make_InstanceIdentifier`, the constructor from two deployments
(instance_identifier.cpp 118-124). -/
def make (i : InstDep) (t : TypeDep) : Ident :=
  { inst := i, type := t, text := .doc (.obj (identToJson i t)) }

/-- `operator==` (instance_identifier.cpp 142-146). -/
def Ident.eq (a b : Ident) : Bool := a.inst.service.eq b.inst.service && a.inst.eq b.inst

/-- `operator<` (instance_identifier.cpp 148-152): `std::tie` compares the service
first, then the deployment. -/
def Ident.lt (a b : Ident) : Bool :=
  a.inst.service.lt b.inst.service ||
    (!b.inst.service.lt a.inst.service && a.inst.lt b.inst)

/-- `std::hash<InstanceIdentifier>` (instance_identifier.cpp 202-206): the hash of the
text, with any hash function of texts. -/
def Ident.hash (h : Text → UInt64) (a : Ident) : UInt64 := h a.text

/-- `InstanceIdentifierView::isCompatibleWith` (instance_identifier.cpp 190-198). -/
def Ident.compatible (a b : Ident) : Bool := a.inst.compatible b.inst

/-! ### The configuration of a process, as far as identifiers are added to it -/

/-- `Configuration` (configuration/configuration.h 249-275): the generations of the
map of service types and of the map of instances, and the quality of the process. -/
structure Config where
  types : List (List (Service × TypeDep))
  insts : List (List (String × InstDep))
  asil : Quality
deriving DecidableEq, Repr

/-- `Configuration::GetServiceTypeDeployment` (configuration.cpp 422-439),
`GetServiceInstanceDeployment` (configuration.cpp 441-458): the first generation that
has the key. -/
def lookup {κ α : Type} [DecidableEq κ] : List (List (κ × α)) → κ → Option α
  | [], _ => none
  | m :: l, k =>
    match find m k with
    | some v => some v
    | none => lookup l k

/-- Adding to the last map of the list (configuration.cpp 64-66 and 92-94). -/
def addLast {κ α : Type} [DecidableEq κ] : List (List (κ × α)) → κ → α → Option (List (List (κ × α)))
  | [], _, _ => none
  | [m], k, v =>
    match find m k with
    | none => some [m ++ [(k, v)]]
    | some _ => none
  | m :: m' :: l, k, v => (addLast (m' :: l) k v).map (m :: ·)

/-- `CheckServiceTypeExists`, `CheckServiceInstanceExists` (configuration.cpp 483-501). -/
def known {κ α : Type} [DecidableEq κ] (l : List (List (κ × α))) (k : κ) : Bool :=
  l.any fun m => (find m k).isSome

/-- `AddServiceTypeDeployment` (configuration.cpp 52-77),
`AddServiceInstanceDeployments` (configuration.cpp 79-105). -/
def addEntry {κ α : Type} [DecidableEq κ] (l : List (List (κ × α))) (k : κ) (v : α) :
    Option (List (List (κ × α))) :=
  if known l k then none else addLast l k v

/-- What `InstanceIdentifier::Create` comes to. -/
inductive Created where
  /-- kInvalidConfiguration. -/
  | noConfiguration
  /-- kInvalidInstanceIdentifierString. -/
  | badText
  /-- The process is terminated. -/
  | terminated
  /-- The configuration afterwards, and the identifier. -/
  | ok (c : Config) (x : Ident)

/-- `InstanceIdentifier(json, text)` (instance_identifier.cpp 83-111). -/
def build (c : Config) (o : Obj) (text : Text) : Option (Config × Ident) := do
  checkVersion o
  let i ← (Json.get asObj o "serviceInstanceDeployment").bind InstDep.fromJson
  let t ← (Json.get asObj o "serviceTypeDeployment").bind TypeDep.fromJson
  let types ← addEntry c.types i.service t
  let insts ← addEntry c.insts i.specifier i
  return ({ c with types, insts }, { inst := i, type := t, text })

/-- `InstanceIdentifier::Create` (instance_identifier.cpp 47-76). -/
def create (c : Option Config) (text : Text) : Created :=
  match c with
  | none => .noConfiguration
  | some c =>
    match text with
    | .garbage _ => .badText
    | .doc j =>
      match asObj j with
      | none => .badText
      | some o =>
        match build c o text with
        | none => .terminated
        | some (c', x) => .ok c' x

end Verif.Ident
