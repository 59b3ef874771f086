import Verif.Model.ConfigParse

/-!
Vocabulary for C117: what a configuration file says.  A file is a JSON value, an object is
a list of members.  None of the functions of the parser is used here.
-/
namespace Verif.ConfigSays
open Verif.Json Verif.Ident Verif.ConfigParse

/-- The member `k` of the object has the value `j`. -/
def Has (o : Obj) (k : String) (j : Json) : Prop := find o k = some j

/-- The object has no member `k`. -/
def Lacks (o : Obj) (k : String) : Prop := find o k = none

/-- The member `k` is written for a value, and left out for no value. -/
def Optional {α : Type} (to : α → Json) (o : Obj) (k : String) (v : Option α) : Prop :=
  match v with
  | some a => Has o k (to a)
  | none => Lacks o k

/-- The member `k` has the value, or it is left out and the value is the default. -/
def WithDefault {α : Type} (to : α → Json) (o : Obj) (k : String) (d v : α) : Prop :=
  Has o k (to v) ∨ (Lacks o k ∧ v = d)

/-- The lists are as long, and the elements are related one by one. -/
def Each {α β : Type} (R : α → β → Prop) : List α → List β → Prop
  | [], [] => True
  | a :: l, b :: r => R a b ∧ Each R l r
  | _, _ => False

/-- The member `k` is a list of objects that say the entries, or it is left out and there
are no entries. -/
def ListOf {α : Type} (R : Obj → α → Prop) (o : Obj) (k : String) (l : List α) : Prop :=
  (∃ js, Has o k (.list js) ∧ Each (fun j a => ∃ p, j = .obj p ∧ R p a) js l) ∨
  (Lacks o k ∧ l = [])

/-- No key is there twice. -/
def Distinct {κ α : Type} (l : List (κ × α)) : Prop := (l.map (·.1)).Nodup

/-- In every object no key is there twice, as the JSON library gives it. -/
inductive Proper : Json → Prop
  | null : Proper .null
  | bool (b : Bool) : Proper (.bool b)
  | num (n : Int) : Proper (.num n)
  | str (s : String) : Proper (.str s)
  | list (l : List Json) : (∀ j ∈ l, Proper j) → Proper (.list l)
  | obj (o : Obj) : Distinct o → (∀ k j, (k, j) ∈ o → Proper j) → Proper (.obj o)

/-! ### Common parts -/

/-- The name of a service is the text before the first zero character, which is the whole
text of an ordinary name. -/
def NameOf (text name : String) : Prop :=
  (∀ c ∈ name.toList, c ≠ Char.ofNat 0) ∧
  (text = name ∨ ∃ rest, text.toList = name.toList ++ Char.ofNat 0 :: rest)

/-- Name and version of a service. -/
def SaysService (o : Obj) (s : Service) : Prop :=
  (∃ text, Has o "serviceTypeName" (.str text) ∧ NameOf text s.name) ∧
  ∃ v, Has o "version" (.obj v) ∧ Has v "major" (num32 s.version.major) ∧
    Has v "minor" (num32 s.version.minor)

/-- A quality. -/
def SaysAsil (o : Obj) (q : Quality) : Prop :=
  (Has o "asil-level" (.str "QM") ∧ q = .qm) ∨ (Has o "asil-level" (.str "B") ∧ q = .b)

/-! ### Instances -/

/-- An event of an instance. -/
structure SaysEvent (o : Obj) (e : String × EventDep) : Prop where
  name : Has o "eventName" (.str e.1)
  slots : (Lacks o "maxSamples" ∧ Optional num16 o "numberOfSampleSlots" e.2.slots) ∨
    (∃ n, Has o "maxSamples" (num16 n) ∧ Lacks o "numberOfSampleSlots" ∧ e.2.slots = some n)
  subscribers : Optional num8 o "maxSubscribers" e.2.subscribers
  allocations : Lacks o "maxConcurrentAllocations" ∧ e.2.allocations = some 1
  enforce : WithDefault .bool o "enforceMaxSamples" true e.2.enforce
  tracing : WithDefault num8 o "numberOfIpcTracingSlots" 0 e.2.tracing

/-- A field of an instance. -/
structure SaysField (o : Obj) (f : String × FieldDep) : Prop where
  name : Has o "fieldName" (.str f.1)
  slots : Optional num16 o "numberOfSampleSlots" f.2.event.slots
  subscribers : Optional num8 o "maxSubscribers" f.2.event.subscribers
  allocations : Lacks o "maxConcurrentAllocations" ∧ f.2.event.allocations = some 1
  enforce : WithDefault .bool o "enforceMaxSamples" true f.2.event.enforce
  tracing : WithDefault num8 o "numberOfIpcTracingSlots" 0 f.2.event.tracing
  useGet : WithDefault .bool o "useGetIfAvailable" true f.2.useGet
  useSet : WithDefault .bool o "useSetIfAvailable" true f.2.useSet

/-- A method of an instance. -/
structure SaysMethod (o : Obj) (m : String × MethodDep) : Prop where
  name : Has o "methodName" (.str m.1)
  queue : Optional num8 o "queueSize" m.2.queue
  enabled : WithDefault .bool o "use" true m.2.enabled

/-- The users of a quality. -/
def SaysUsersOf (p : String × Json) (u : Quality × List UInt32) : Prop :=
  ((p.1 = "QM" ∧ u.1 = .qm) ∨ (p.1 = "B" ∧ u.1 = .b)) ∧ p.2 = .list (u.2.map num32)

/-- The users that are allowed. -/
def SaysUsers (o : Obj) (k : String) (l : List (Quality × List UInt32)) : Prop :=
  (∃ p, Has o k (.obj p) ∧ Each SaysUsersOf p l) ∨ (Lacks o k ∧ l = [])

/-- The check of permissions. -/
def SaysStrict (o : Obj) (b : Bool) : Prop :=
  (Has o "permission-checks" (.str "strict") ∧ b = true) ∨
  (Has o "permission-checks" (.str "file-permissions-on-empty") ∧ b = false) ∨
  (Lacks o "permission-checks" ∧ b = false)

/-- An instance in shared memory. -/
structure SaysLola (o : Obj) (l : Lola) : Prop where
  id : Optional num16 o "instanceId" l.id
  shmSize : Optional num64 o "shm-size" l.shmSize
  ctlBSize : Optional num64 o "control-asil-b-shm-size" l.ctlBSize
  ctlQmSize : Optional num64 o "control-qm-shm-size" l.ctlQmSize
  events : ListOf SaysEvent o "events" l.events
  fields : ListOf SaysField o "fields" l.fields
  methods : ListOf SaysMethod o "methods" l.methods
  strict : SaysStrict o l.strict
  consumers : SaysUsers o "allowedConsumer" l.consumers
  providers : SaysUsers o "allowedProvider" l.providers
  interVm : WithDefault .bool o "interVmSupport" false l.interVm
  forwarded : WithDefault .bool o "interVmForwarded" false l.forwarded

/-- One entry of "instances". -/
def SaysInstance (o : Obj) (i : InstDep) : Prop :=
  SaysAsil o i.asil ∧ Has o "binding" (.str "SHM") ∧ ∃ l, i.binding = .lola l ∧ SaysLola o l

/-- One entry of "serviceInstances": it has one instance. -/
def SaysSection (o : Obj) (s : String × InstDep) : Prop :=
  Has o "instanceSpecifier" (.str s.1) ∧ s.2.specifier = s.1 ∧ SaysService o s.2.service ∧
  ∃ p, Has o "instances" (.list [.obj p]) ∧ SaysInstance p s.2

/-! ### Service types -/

/-- An element of a service type. -/
def SaysId (nameKey idKey : String) (o : Obj) (e : String × UInt16) : Prop :=
  Has o nameKey (.str e.1) ∧ Has o idKey (num16 e.2)

/-- A service type in shared memory. -/
structure SaysLolaType (o : Obj) (l : LolaType) : Prop where
  id : Has o "serviceId" (num16 l.id)
  events : ListOf (SaysId "eventName" "eventId") o "events" l.events
  fields : ListOf (SaysId "fieldName" "fieldId") o "fields" l.fields
  methods : ListOf (SaysId "methodName" "methodId") o "methods" l.methods

/-- One entry of "serviceTypes": the first binding counts. -/
def SaysType (o : Obj) (t : Service × TypeDep) : Prop :=
  SaysService o t.1 ∧
  ((Has o "bindings" (.list []) ∧ t.2 = .blank) ∨
   ∃ p rest l, Has o "bindings" (.list (.obj p :: rest)) ∧ Has p "binding" (.str "SHM") ∧
     t.2 = .lola l ∧ SaysLolaType p l)

/-! ### Global and tracing -/

/-- The sizes of the queues. -/
def SaysQueues (o : Obj) (g : Global) : Prop :=
  (∃ q, Has o "queue-size" (.obj q) ∧ WithDefault .num q "QM-receiver" 10 g.rxQm ∧
    WithDefault .num q "B-receiver" 10 g.rxB ∧ WithDefault .num q "B-sender" 20 g.txB) ∨
  (Lacks o "queue-size" ∧ g.rxQm = 10 ∧ g.rxB = 10 ∧ g.txB = 20)

/-- The mode of the calculation. -/
def SaysMode (o : Obj) (analysis : Bool) : Prop :=
  (Has o "shm-size-calc-mode" (.str "ANALYSIS") ∧ analysis = true) ∨
  (Has o "shm-size-calc-mode" (.str "SIMULATION") ∧ analysis = false) ∨
  (Lacks o "shm-size-calc-mode" ∧ analysis = false)

/-- The global settings. -/
def SaysGlobal (o : Obj) (g : Global) : Prop :=
  (∃ p, Has o "global" (.obj p) ∧
    (SaysAsil p g.asil ∨ (Lacks p "asil-level" ∧ g.asil = .qm)) ∧
    Optional num32 p "applicationID" g.app ∧ SaysQueues p g ∧ SaysMode p g.analysis) ∨
  (Lacks o "global" ∧
    g = { asil := .qm, app := none, rxQm := 10, rxB := 10, txB := 20, analysis := false })

/-- The tracing settings. -/
def SaysTrace (o : Obj) (t : Trace) : Prop :=
  (∃ p, Has o "tracing" (.obj p) ∧ WithDefault .bool p "enable" false t.enabled ∧
    Has p "applicationInstanceID" (.str t.app) ∧
    WithDefault .str p "traceFilterConfigPath" "./etc/mw_com_trace_filter.json" t.path) ∨
  (Lacks o "tracing" ∧ t = { enabled := false, app := "", path := "" })

/-! ### The file -/

/-- The file says this configuration. -/
structure Says (j : Json) (c : Conf) : Prop where
  intro ::
  file : ∃ o, j = .obj o ∧
    (∃ l, Has o "serviceTypes" (.list l) ∧
      Each (fun j t => ∃ p, j = .obj p ∧ SaysType p t) l c.types) ∧
    (∃ l, Has o "serviceInstances" (.list l) ∧
      Each (fun j s => ∃ p, j = .obj p ∧ SaysSection p s) l c.insts) ∧
    SaysGlobal o c.global ∧ SaysTrace o c.trace

/-- The documented rules for an instance specifier. -/
structure ValidName (s : List Char) : Prop where
  nonempty : s ≠ []
  chars : ∀ c ∈ s, (('a' ≤ c ∧ c ≤ 'z') ∨ ('A' ≤ c ∧ c ≤ 'Z')) ∨ ('0' ≤ c ∧ c ≤ '9') ∨ c = '_' ∨ c = '/'
  first : ∀ c, s.head? = some c → ¬ ('0' ≤ c ∧ c ≤ '9')
  last : s.getLast? ≠ some '/'
  single : ¬ ∃ p q, s = p ++ '/' :: '/' :: q

/-- A number of 32 bits. -/
def In32 (n : Int) : Prop := -2147483648 ≤ n ∧ n ≤ 2147483647

/-- The elements of an instance that have slots for tracing. -/
def slotsOf (s : String × InstDep) : List Element :=
  match s.2.binding with
  | .lola l =>
    (l.events.filter fun e => 0 < e.2.tracing).map (⟨s.2.service.name, ·.1, .event, s.1⟩) ++
    (l.fields.filter fun f => 0 < f.2.event.tracing).map (⟨s.2.service.name, ·.1, .field, s.1⟩)
  | .blank => []

/-- What a configuration must fulfil. -/
structure Valid (c : Conf) : Prop where
  types : Distinct c.types
  insts : Distinct c.insts
  names : ∀ s ∈ c.insts, ValidName s.1.toList
  elements : ∀ s ∈ c.insts, ∀ l, s.2.binding = .lola l →
    Distinct l.events ∧ Distinct l.fields ∧ Distinct l.methods ∧
    (l.forwarded = true → l.interVm = true)
  ids : ∀ t ∈ c.types, ∀ l, t.2 = .lola l →
    Distinct l.events ∧ Distinct l.fields ∧ Distinct l.methods ∧
    ((l.events ++ l.fields ++ l.methods).map (·.2)).Nodup
  queues : In32 c.global.rxQm ∧ In32 c.global.rxB ∧ In32 c.global.txB
  traced : c.traced = if c.trace.enabled then c.insts.flatMap slotsOf else []

end Verif.ConfigSays
