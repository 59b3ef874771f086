import Verif.Model.Ident

/-!
# The parser of the configuration file

`configuration::Parse` turns the JSON text of a configuration file into the configuration of
the process (score/mw/com/impl/configuration/configuration_json_parsing_strategy.cpp, called
"parser" below).  The result `none` of a function is the end of the process: every
precondition and assertion of the parser is of the kind that is always checked.

Simplifications:
* The text is a tree already (`Model.Json`); `FromFile` (parser 1207-1227) is not modelled.
  Numbers are integers: a number with a fraction is not a value here.
* Maps are lists of pairs in the order of insertion.  The parser visits the members of an
  object only for the lists of users; their order is the order of the list.
* The map from an element to the set of the instances with tracing
  (tracing_configuration.h) is the list of the pairs.
-/
namespace Verif.ConfigParse
open Verif.Json Verif.Ident

/-! ### The result -/

/-- `GlobalConfiguration` (configuration/global_configuration.h). -/
structure Global where
  asil : Quality
  app : Option UInt32
  rxQm : Int
  rxB : Int
  txB : Int
  analysis : Bool
deriving DecidableEq, Repr

/-- `GlobalConfiguration::GlobalConfiguration` (global_configuration.cpp 22-30). -/
def Global.init : Global :=
  { asil := .qm, app := none, rxQm := 10, rxB := 10, txB := 20, analysis := false }

/-- `tracing::TracingConfig` (tracing/configuration/tracing_config.h 21-31). -/
structure Trace where
  enabled : Bool
  app : String
  path : String
deriving DecidableEq, Repr

/-- The kind of an element that can be traced (tracing/service_element_identifier.h). -/
inductive Kind where
  | event
  | field
deriving DecidableEq, Repr

/-- An element of an instance (`ServiceElementIdentifier` and `InstanceSpecifier`). -/
structure Element where
  service : String
  name : String
  kind : Kind
  specifier : String
deriving DecidableEq, Repr

/-- `Configuration` as it is made by `Parse` (parser 1230-1248). -/
structure Conf where
  types : List (Service × TypeDep)
  insts : List (String × InstDep)
  global : Global
  trace : Trace
  traced : List Element
deriving DecidableEq, Repr

/-! ### Helpers -/

/-- `Any::As<std::int32_t>`. -/
def asI32 : Json → Option Int
  | .num n => if -2147483648 ≤ n ∧ n < 2147483648 then some n else none
  | _ => none

/-- Each element of a list is converted (`for (const auto& element : list)`). -/
def mapAll {α β : Type} (f : α → Option β) : List α → Option (List β)
  | [] => some []
  | a :: l =>
    match f a with
    | none => none
    | some b =>
      match mapAll f l with
      | none => none
      | some r => some (b :: r)

/-- `EmplaceOrFatal` (config_validate.h 36-44). -/
def emplaceOrFatal {κ α : Type} [DecidableEq κ] (m : List (κ × α)) (k : κ) (v : α) :
    Option (List (κ × α)) :=
  match find m k with
  | some _ => none
  | none => some (m ++ [(k, v)])

/-- A loop that reads an entry from each object of a list and adds it to a map. -/
def gather {κ α : Type} [DecidableEq κ] (f : Obj → Option (κ × α)) :
    List (κ × α) → List Json → Option (List (κ × α))
  | m, [] => some m
  | m, j :: l =>
    match asObj j with
    | none => none
    | some o =>
      match f o with
      | none => none
      | some (k, v) =>
        match emplaceOrFatal m k v with
        | none => none
        | some m' => gather f m' l

/-- The loop over the list under a key; without the key nothing is added. -/
def gatherAt {κ α : Type} [DecidableEq κ] (f : Obj → Option (κ × α)) (o : Obj) (key : String) :
    Option (List (κ × α)) :=
  match getOpt asList o key with
  | none => none
  | some none => some []
  | some (some l) => gather f [] l

/-- `name.data()` as an argument `std::string`: what stands before the first zero character. -/
def beforeNul (s : String) : String := String.ofList (s.toList.takeWhile (· ≠ Char.ofNat 0))

/-! ### Service types and instances, common parts -/

/-- `ParseInstanceSpecifier` (parser 131-142), `CreateValidInstanceSpecifier`
(config_validate.cpp 62-71). -/
def parseSpecifier (o : Obj) : Option String :=
  match get asStr o "instanceSpecifier" with
  | none => none
  | some s => makeSpecifier s

/-- `ParseVersion` (parser 156-182). -/
def parseVersion (o : Obj) : Option Version :=
  match get asObj o "version" with
  | none => none
  | some v =>
    match get asU32 v "major", get asU32 v "minor" with
    | some a, some b => some ⟨a, b⟩
    | _, _ => none

/-- `ParseServiceTypeName` (parser 144-154), `ParseServiceTypeIdentifier` (parser 184-190). -/
def parseService (o : Obj) : Option Service :=
  match get asStr o "serviceTypeName", parseVersion o with
  | some n, some v => some ⟨beforeNul n, v⟩
  | _, _ => none

/-- `ParseAsilLevel` (parser 192-216). -/
def parseAsil (o : Obj) : Option (Option Quality) :=
  match getOpt asStr o "asil-level" with
  | none => none
  | some none => some none
  | some (some s) =>
    some (some (if s = "QM" then .qm else if s = "B" then .b else .invalid))

/-! ### Instances -/

/-- The quality of a list of users (parser 283-299). -/
def userQuality (s : String) : Option Quality :=
  if s = "QM" then some .qm else if s = "B" then some .b else none

/-- The loop of `ParseAllowedUser` (parser 269-300): a list replaces an earlier list of the
same quality. -/
def parseUsers : List (Quality × List UInt32) → Obj → Option (List (Quality × List UInt32))
  | m, [] => some m
  | m, (k, j) :: l =>
    match asList j with
    | none => none
    | some us =>
      match mapAll asU32 us, userQuality k with
      | some ids, some q => parseUsers (put m q ids) l
      | _, _ => none

/-- `ParseAllowedUser` (parser 257-302), `ParseAllowedConsumer` and `ParseAllowedProvider`
(parser 304-312). -/
def parseAllowed (o : Obj) (key : String) : Option (List (Quality × List UInt32)) :=
  match getOpt asObj o key with
  | none => none
  | some none => some []
  | some (some u) => parseUsers [] u

/-- `AbortIfFound` (parser 118-129). -/
def abortIfFound (o : Obj) (key : String) : Option Unit :=
  match find o key with
  | some _ => none
  | none => some ()

/-- `GetNumberOfSampleSlots` (parser 351-371). -/
def sampleSlots (o : Obj) : Option (Option UInt16) :=
  match find o "maxSamples" with
  | none => getOpt asU16 o "numberOfSampleSlots"
  | some _ =>
    match find o "numberOfSampleSlots" with
    | some _ => none
    | none => getOpt asU16 o "maxSamples"

/-- The body of the loop of `ParseLolaEventInstanceDeployment` (parser 392-426). -/
def parseEvent (o : Obj) : Option (String × EventDep) := do
  abortIfFound o "maxConcurrentAllocations"
  let name ← get asStr o "eventName"
  let slots ← sampleSlots o
  let subs ← getOpt asU8 o "maxSubscribers"
  let enforce ← getOpt asBool o "enforceMaxSamples"
  let tracing ← getOpt asU8 o "numberOfIpcTracingSlots"
  return (name, { slots := slots, subscribers := subs, allocations := some 1,
                  enforce := enforce.getD true, tracing := tracing.getD 0 })

/-- The body of the loop of `ParseLolaFieldInstanceDeployment` (parser 443-483). -/
def parseField (o : Obj) : Option (String × FieldDep) := do
  abortIfFound o "maxConcurrentAllocations"
  let name ← get asStr o "fieldName"
  let slots ← getOpt asU16 o "numberOfSampleSlots"
  let subs ← getOpt asU8 o "maxSubscribers"
  let enforce ← getOpt asBool o "enforceMaxSamples"
  let tracing ← getOpt asU8 o "numberOfIpcTracingSlots"
  let useGet ← getOpt asBool o "useGetIfAvailable"
  let useSet ← getOpt asBool o "useSetIfAvailable"
  return (name, { event := { slots := slots, subscribers := subs, allocations := some 1,
                             enforce := enforce.getD true, tracing := tracing.getD 0 },
                  useGet := useGet.getD true, useSet := useSet.getD true })

/-- The body of the loop of `ParseLolaMethodInstanceDeployment` (parser 500-515). -/
def parseMethod (o : Obj) : Option (String × MethodDep) := do
  let name ← get asStr o "methodName"
  let queue ← getOpt asU8 o "queueSize"
  let use ← getOpt asBool o "use"
  return (name, { queue := queue, enabled := use.getD true })

/-- `ParsePermissionChecks` (parser 578-594) and the comparison (parser 665). -/
def parseStrict (o : Obj) : Option Bool :=
  match getOpt asStr o "permission-checks" with
  | none => none
  | some none => some false
  | some (some s) =>
    if s = "strict" then some true else if s = "file-permissions-on-empty" then some false
    else none

/-- `ParseLolaServiceInstanceDeployment` (parser 596-671). -/
def parseLola (o : Obj) : Option Lola := do
  let shm ← getOpt asU64 o "shm-size"
  let ctlB ← getOpt asU64 o "control-asil-b-shm-size"
  let ctlQm ← getOpt asU64 o "control-qm-shm-size"
  let id ← getOpt asU16 o "instanceId"
  let vm ← getOpt asBool o "interVmSupport"
  let fw ← getOpt asBool o "interVmForwarded"
  if fw.getD false && !vm.getD false then none else
  let events ← gatherAt parseEvent o "events"
  let fields ← gatherAt parseField o "fields"
  let methods ← gatherAt parseMethod o "methods"
  let strict ← parseStrict o
  let consumers ← parseAllowed o "allowedConsumer"
  let providers ← parseAllowed o "allowedProvider"
  return { id := id, shmSize := shm, ctlBSize := ctlB, ctlQmSize := ctlQm, events := events,
           fields := fields, methods := methods, strict := strict, consumers := consumers,
           providers := providers, interVm := vm.getD false, forwarded := fw.getD false }

/-- `TracingConfiguration::SetServiceElementTracingEnabled` (tracing_configuration.cpp 70-93). -/
def setTraced (t : List Element) (e : Element) : Option (List Element) :=
  if e ∈ t then none else some (t ++ [e])

/-- The loop of `ParseServiceElementTracingEnabled` (parser 545-575). -/
def traceElements (service specifier : String) (kind : Kind) (nameKey : String) :
    List Element → List Json → Option (List Element)
  | t, [] => some t
  | t, j :: l =>
    match asObj j with
    | none => none
    | some o =>
      match find o nameKey with
      | none => none
      | some n =>
        match getOpt asU8 o "numberOfIpcTracingSlots" with
        | none => none
        | some none => traceElements service specifier kind nameKey t l
        | some (some slots) =>
          if 0 < slots then
            match asStr n with
            | none => none
            | some name =>
              match setTraced t ⟨service, name, kind, specifier⟩ with
              | none => none
              | some t' => traceElements service specifier kind nameKey t' l
          else traceElements service specifier kind nameKey t l

/-- `ParseServiceElementTracingEnabled` (parser 519-576). -/
def traceAt (service specifier : String) (kind : Kind) (key nameKey : String) (t : List Element)
    (o : Obj) : Option (List Element) :=
  match getOpt asList o key with
  | none => none
  | some none => some t
  | some (some l) => traceElements service specifier kind nameKey t l

/-- The body of the loop of `ParseServiceInstanceDeployments` (parser 687-738). -/
def parseInstance (tracing : Bool) (service : Service) (specifier : String) (t : List Element)
    (o : Obj) : Option (InstDep × List Element) := do
  let asil ← parseAsil o
  let q ← asil
  if q = .invalid then none else
  let binding ← get asStr o "binding"
  if binding ≠ "SHM" then none else
  let lola ← parseLola o
  let dep : InstDep := { service := service, binding := .lola lola, asil := q,
                         specifier := specifier }
  if tracing then
    let t ← traceAt service.name specifier .event "events" "eventName" t o
    let t ← traceAt service.name specifier .field "fields" "fieldName" t o
    return (dep, t)
  else
    return (dep, t)

/-- The loop of `ParseServiceInstanceDeployments` (parser 673-741). -/
def parseInstances (tracing : Bool) (service : Service) (specifier : String) :
    List Element → List Json → Option (List InstDep × List Element)
  | t, [] => some ([], t)
  | t, j :: l =>
    match asObj j with
    | none => none
    | some o =>
      match parseInstance tracing service specifier t o with
      | none => none
      | some (d, t') =>
        match parseInstances tracing service specifier t' l with
        | none => none
        | some (ds, t'') => some (d :: ds, t'')

/-- The body of the loop of `ParseServiceInstances` (parser 756-772), with
`ValidateSingleDeployment` (config_validate.h 49-58). -/
def parseSection (tracing : Bool) (t : List Element) (o : Obj) :
    Option (String × InstDep × List Element) := do
  let specifier ← parseSpecifier o
  let service ← parseService o
  let l ← get asList o "instances"
  match ← parseInstances tracing service specifier t l with
  | ([d], t') => return (specifier, d, t')
  | _ => none

/-- The loop of `ParseServiceInstances` (parser 743-776). -/
def parseSections (tracing : Bool) :
    List (String × InstDep) → List Element → List Json →
      Option (List (String × InstDep) × List Element)
  | m, t, [] => some (m, t)
  | m, t, j :: l =>
    match asObj j with
    | none => none
    | some o =>
      match parseSection tracing t o with
      | none => none
      | some (s, d, t') =>
        match emplaceOrFatal m s d with
        | none => none
        | some m' => parseSections tracing m' t' l

/-! ### Service types -/

/-- The bodies of the loops of `ParseLolaEventTypeDeployments` (parser 789-811),
`ParseLolaFieldTypeDeployments` (parser 825-848) and `ParseLolaMethodTypeDeployments`
(parser 862-885). -/
def parseId (nameKey idKey : String) (o : Obj) : Option (String × UInt16) :=
  match get asStr o nameKey, get asU16 o idKey with
  | some n, some i => some (n, i)
  | _, _ => none

/-- A loop of `ValidateUniqueServiceElementIds` (config_validate.cpp 34-59). -/
def insertIds : List UInt16 → List (String × UInt16) → Option (List UInt16)
  | ids, [] => some ids
  | ids, (_, i) :: l => if i ∈ ids then none else insertIds (i :: ids) l

/-- `ValidateUniqueServiceElementIds` (config_validate.cpp 26-60). -/
def validateIds (l : LolaType) : Option Unit := do
  let ids ← insertIds [] l.events
  let ids ← insertIds ids l.fields
  let _ ← insertIds ids l.methods
  return ()

/-- `ParseLoLaServiceTypeDeployments` (parser 888-905). -/
def parseLolaType (o : Obj) : Option LolaType := do
  let id ← get asU16 o "serviceId"
  let events ← gatherAt (parseId "eventName" "eventId") o "events"
  let fields ← gatherAt (parseId "fieldName" "fieldId") o "fields"
  let methods ← gatherAt (parseId "methodName" "methodId") o "methods"
  let l : LolaType := { id := id, events := events, fields := fields, methods := methods }
  validateIds l
  return l

/-- `ParseServiceTypeDeployment` (parser 907-945): the loop returns with the first binding. -/
def parseBindings : List Json → Option TypeDep
  | [] => some .blank
  | j :: _ => do
    let o ← asObj j
    let b ← get asStr o "binding"
    if b = "SHM" then
      let l ← parseLolaType o
      return .lola l
    else none

/-- The body of the loop of `ParseServiceTypes` (parser 959-967). -/
def parseType (o : Obj) : Option (Service × TypeDep) := do
  let s ← parseService o
  let l ← get asList o "bindings"
  let d ← parseBindings l
  return (s, d)

/-- `ParseServiceTypes` (parser 947-970). -/
def parseTypes (o : Obj) : Option (List (Service × TypeDep)) :=
  match get asList o "serviceTypes" with
  | none => none
  | some l => gather parseType [] l

/-! ### Global and tracing -/

/-- `ParseReceiverQueueSize` (parser 972-1015), `ParseSenderQueueSize` (parser 1017-1045). -/
def parseQueueSize (o : Obj) (key : String) : Option (Option Int) :=
  match getOpt asObj o "queue-size" with
  | none => none
  | some none => some none
  | some (some q) => getOpt asI32 q key

/-- `ParseShmSizeCalcMode` (parser 218-246): `true` is kAnalysis. -/
def parseCalcMode (o : Obj) : Option (Option Bool) :=
  match getOpt asStr o "shm-size-calc-mode" with
  | none => none
  | some none => some none
  | some (some s) =>
    if s = "SIMULATION" then some (some false) else if s = "ANALYSIS" then some (some true)
    else none

/-- `ParseGlobalProperties` (parser 1047-1127). -/
def parseGlobal (o : Obj) : Option Global :=
  match getOpt asObj o "global" with
  | none => none
  | some none => some { Global.init with asil := .qm }
  | some (some g) => do
    let asil ← parseAsil g
    if asil = some .invalid then none else
    let rxQm ← parseQueueSize g "QM-receiver"
    let rxB ← parseQueueSize g "B-receiver"
    let txB ← parseQueueSize g "B-sender"
    let mode ← parseCalcMode g
    let app ← getOpt asU32 g "applicationID"
    return { asil := asil.getD .qm, app := app, rxQm := rxQm.getD Global.init.rxQm,
             rxB := rxB.getD Global.init.rxB, txB := txB.getD Global.init.txB,
             analysis := mode.getD Global.init.analysis }

/-- `ParseTracingProperties` (parser 1172-1199), with `ParseTracingEnabled` (parser
1129-1140), `ParseTracingApplicationInstanceId` (parser 1142-1152) and
`ParseTracingTraceFilterConfigPath` (parser 1154-1170). -/
def parseTrace (o : Obj) : Option Trace :=
  match getOpt asObj o "tracing" with
  | none => none
  | some none => some { enabled := false, app := "", path := "" }
  | some (some t) => do
    let enabled ← getOpt asBool t "enable"
    let app ← get asStr t "applicationInstanceID"
    let path ← getOpt asStr t "traceFilterConfigPath"
    return { enabled := enabled.getD false, app := app,
             path := path.getD "./etc/mw_com_trace_filter.json" }

/-- `ConfigurationJsonParsingStrategy::Parse` (parser 1230-1248). -/
def parse (j : Json) : Option Conf := do
  let o ← asObj j
  let trace ← parseTrace o
  let types ← parseTypes o
  let l ← get asList o "serviceInstances"
  let (insts, traced) ← parseSections trace.enabled [] [] l
  let global ← parseGlobal o
  return { types := types, insts := insts, global := global, trace := trace, traced := traced }

end Verif.ConfigParse
