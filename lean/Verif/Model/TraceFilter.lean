/-!
Which trace points are enabled, and which calls are traced (/repo/score/mw/com/impl/tracing/configuration/
tracing_filter_config_parser.cpp, tracing_filter_config.cpp, trace_point_key.h, configuration/tracing_configuration.cpp,
tracing/proxy_event_tracing.cpp, tracing/skeleton_event_tracing.{h,cpp}).

`none` in a result of type Option is the end of the process (an assertion, std::terminate, or an exception that leaves a noexcept
function), unless said otherwise. Reading of the JSON text is the JSON library's; log messages are left out.
-/
namespace Verif.TraceFilter

/-- score::json::Any. The keys of an object are unique (std::map). -/
inductive Json where
  | obj (l : List (String × Json))
  | list (l : List Json)
  | str (s : String)
  | bool (b : Bool)
  | other

/-- As<Object>() with the check of the result. -/
def Json.asObj : Json → Option (List (String × Json))
  | .obj l => some l
  | _ => none

/-- As<List>() with the check of the result. -/
def Json.asList : Json → Option (List Json)
  | .list l => some l
  | _ => none

/-- As<std::string>() with the check of the result. -/
def Json.asStr : Json → Option String
  | .str s => some s
  | _ => none

/-- The trace points that ProxyEventTracePointType and ProxyFieldTracePointType share
(proxy_event_trace_point_type.h:20-34, proxy_field_trace_point_type.h:20-38). -/
inductive Notif where
  | subscribe
  | unsubscribe
  | stateChange
  | setStateHandler
  | unsetStateHandler
  | callStateHandler
  | setHandler
  | unsetHandler
  | callHandler
  | getNew
  | callback
  deriving DecidableEq, Repr

/-- The trace points of the getter and the setter of a field. -/
inductive Acc where
  | get
  | getResult
  | set
  | setResult
  deriving DecidableEq, Repr

/-- SEND or UPDATE, and the same WITH_ALLOCATE (skeleton_event_trace_point_type.h:21-26, skeleton_field_trace_point_type.h:21-30). -/
inductive Out where
  | copy
  | allocate
  deriving DecidableEq, Repr

/-- A trace point. -/
inductive Point where
  | proxyEvent (n : Notif)
  | proxyField (n : Notif)
  | proxyAcc (a : Acc)
  | skelEvent (o : Out)
  | skelField (o : Out)
  | skelAcc (a : Acc)
  deriving DecidableEq, Repr

def Notif.code : Notif → Nat
  | .subscribe => 1
  | .unsubscribe => 2
  | .stateChange => 3
  | .setStateHandler => 4
  | .unsetStateHandler => 5
  | .callStateHandler => 6
  | .setHandler => 7
  | .unsetHandler => 8
  | .callHandler => 9
  | .getNew => 10
  | .callback => 11

def Acc.code : Acc → Nat
  | .get => 0
  | .getResult => 1
  | .set => 2
  | .setResult => 3

def Out.code : Out → Nat
  | .copy => 1
  | .allocate => 2

/-- The underlying values of the enumerations. -/
def Point.code : Point → Nat
  | .proxyEvent n => n.code
  | .proxyField n => n.code
  | .proxyAcc a => 12 + a.code
  | .skelEvent o => o.code
  | .skelField o => o.code
  | .skelAcc a => 3 + a.code

/-- The four maps of TracingFilterConfig (tracing_filter_config.h:70-74), chosen by the overload of AddTracePoint and
IsTracePointEnabled (tracing_filter_config.cpp:265-390). -/
inductive Side where
  | skelEvent
  | skelField
  | proxyEvent
  | proxyField
  deriving DecidableEq, Repr

def Point.side : Point → Side
  | .proxyEvent _ => .proxyEvent
  | .proxyField _ => .proxyField
  | .proxyAcc _ => .proxyField
  | .skelEvent _ => .skelEvent
  | .skelField _ => .skelField
  | .skelAcc _ => .skelField

/-- ServiceElementType: whether it is a field and not an event. -/
def Point.field : Point → Bool
  | .proxyEvent _ => false
  | .proxyField _ => true
  | .proxyAcc _ => true
  | .skelEvent _ => false
  | .skelField _ => true
  | .skelAcc _ => true

/-- ServiceElementIdentifier (service_element_identifier.h:30-41). -/
structure Elem where
  service : String
  name : String
  field : Bool
  deriving DecidableEq, Repr

/-- TracePointKey (trace_point_key.h:29-37). -/
structure Key where
  elem : Elem
  code : Nat
  deriving DecidableEq, Repr

/-- TracingFilterConfig: the maps with the instance specifiers of every key. The strings that the keys refer to (config_names_)
are not modelled apart from `cstr`. -/
structure Filter where
  maps : Side → List (Key × List String) := fun _ => []

/-- A string that is read up to its first zero character. -/
def cstr (s : String) : String := String.ofList (s.toList.takeWhile (· ≠ '\x00'))

/-- GetOrInsertStringInSet (tracing_filter_config.cpp:32-49): the view is made from the pointer that data() returns. -/
def stored (s : String) : String := cstr s

/-- The hash of a TracePointKey, which ends the process if the names are too long (trace_point_key.h:68-93). -/
def tooLong (k : Key) : Bool := decide (k.elem.service.utf8ByteSize + k.elem.name.utf8ByteSize + 1 + 1 > 1024)

/-- InsertTracePointIntoMap (tracing_filter_config.cpp:51-71). -/
def insert (k : Key) (inst : String) : List (Key × List String) → List (Key × List String)
  | [] => [(k, [inst])]
  | (k', l) :: m => if k' = k then (k', if inst ∈ l then l else l ++ [inst]) :: m else (k', l) :: insert k inst m

/-- AddTracePointToMap (tracing_filter_config.cpp:73-97). -/
def add (f : Filter) (service name inst : String) (p : Point) : Option Filter :=
  let k : Key := ⟨⟨stored service, stored name, p.field⟩, p.code⟩
  if tooLong k then none
  else some { f with maps := fun s => if s = p.side then insert k inst (f.maps s) else f.maps s }

/-- IsTracePointEnabledInMap (tracing_filter_config.cpp:99-123). -/
def isEnabled (f : Filter) (service name inst : String) (p : Point) : Option Bool :=
  let k : Key := ⟨⟨service, name, p.field⟩, p.code⟩
  if tooLong k then none
  else match (f.maps p.side).lookup k with
    | none => some false
    | some l => some (decide (inst ∈ l))

/-- A service type of the configuration with its events and fields. -/
structure TypeDep where
  name : String
  events : List String
  fields : List String
  deriving Repr

/-- A service instance with its events and fields and the numbers of tracing slots (numberOfIpcTracingSlots, 0 if absent). -/
structure Inst where
  spec : String
  service : String
  events : List (String × Nat)
  fields : List (String × Nat)
  deriving Repr

/-- Configuration. `enabled` is the switch for tracing. -/
structure Conf where
  enabled : Bool
  types : List TypeDep
  insts : List Inst
  deriving Repr

/-- SetServiceElementTracingEnabled (tracing_configuration.cpp:70-93). -/
def setTraced (e : Elem) (spec : String) : List (Elem × List String) → Option (List (Elem × List String))
  | [] => some [(e, [spec])]
  | (e', l) :: m =>
    if e' = e then (if spec ∈ l then none else some ((e', l ++ [spec]) :: m))
    else (setTraced e spec m).map fun m => (e', l) :: m

/-- ParseServiceElementTracingEnabled (configuration_json_parsing_strategy.cpp:519-577). -/
def setElems (i : Inst) (field : Bool) (m : List (Elem × List String)) : Option (List (Elem × List String)) :=
  (if field then i.fields else i.events).foldlM
    (fun m x => if 0 < x.2 then setTraced ⟨i.service, x.1, field⟩ i.spec m else some m) m

/-- The map of TracingConfiguration (configuration_json_parsing_strategy.cpp:719-728). -/
def traced (c : Conf) : Option (List (Elem × List String)) :=
  c.insts.foldlM (fun m i => if c.enabled then (setElems i false m).bind fun m => setElems i true m else some m) []

/-- IsServiceElementTracingEnabled (tracing_configuration.cpp:102-121). -/
def isTraced (m : List (Elem × List String)) (e : Elem) (spec : String) : Bool :=
  match m.lookup e with
  | none => false
  | some l => decide (spec ∈ l)

/-- GetServiceTypeNames (configuration.cpp:292-300). -/
def typeNames (c : Conf) : List String := c.types.map (·.name)

/-- GetElementNamesOfServiceType (configuration.cpp:302-349): of all versions of the type. -/
def elemNames (c : Conf) (service : String) (field : Bool) : List String :=
  (c.types.filter fun t => t.name = service).flatMap fun t => if field then t.fields else t.events

/-- GetInstancesOfServiceType (configuration.cpp:394-404). -/
def instances (c : Conf) (service : String) : List String :=
  (c.insts.filter fun i => i.service = service).map (·.spec)

/-- filter_property_proxy_event_mappings and filter_property_proxy_field_notifier_mappings
(tracing_filter_config_parser.cpp:51-69, 79-97). -/
def notifMap : List (String × Notif) :=
  [("trace_subscribe_send", .subscribe),
   ("trace_unsubscribe_send", .unsubscribe),
   ("trace_subscription_state_changed", .stateChange),
   ("trace_subscription_state_change_handler_registered", .setStateHandler),
   ("trace_subscription_state_change_handler_deregistered", .unsetStateHandler),
   ("trace_subscription_state_change_handler_callback", .callStateHandler),
   ("trace_get_new_samples", .getNew),
   ("trace_get_new_samples_callback", .callback),
   ("trace_receive_handler_registered", .setHandler),
   ("trace_receive_handler_deregistered", .unsetHandler),
   ("trace_receive_handler_callback", .callHandler)]

/-- filter_property_skeleton_event_mappings (tracing_filter_config_parser.cpp:71-75). -/
def skelEventMap : List (String × Point) :=
  [("trace_send_allocate", .skelEvent .allocate), ("trace_send", .skelEvent .copy)]

/-- filter_property_skeleton_field_notifier_mappings (tracing_filter_config_parser.cpp:115-119). -/
def skelFieldMap : List (String × Point) :=
  [("trace_update", .skelField .allocate), ("trace_update", .skelField .copy)]

/-- The mappings of getters and setters (tracing_filter_config_parser.cpp:99-111, 125-141). -/
def proxyGetMap : List (String × Point) := [("trace_request_send", .proxyAcc .get), ("trace_response_received", .proxyAcc .getResult)]
def proxySetMap : List (String × Point) := [("trace_request_send", .proxyAcc .set), ("trace_response_received", .proxyAcc .setResult)]
def skelGetMap : List (String × Point) := [("trace_request_received", .skelAcc .get), ("trace_response_send", .skelAcc .getResult)]
def skelSetMap : List (String × Point) := [("trace_request_received", .skelAcc .set), ("trace_response_send", .skelAcc .setResult)]

/-- service_element_notifier_filter_properties_not_implemented_array (tracing_filter_config_parser.cpp:47-48). -/
def notImplemented : List String := ["trace_subscribe_received", "trace_unsubscribe_received"]

/-- IsOptionalBoolPropertyEnabled (tracing_filter_config_parser.cpp:144-152). -/
def boolProp (o : List (String × Json)) (prop : String) : Option Bool :=
  match o.lookup prop with
  | none => some false
  | some (.bool b) => some b
  | some _ => none

/-- AddTracePoint for every entry of a mapping (tracing_filter_config_parser.cpp:164-177, 226-237, 323-332). -/
def addAll (o : List (String × Json)) (service name inst : String) (ps : List (String × Point)) (f : Filter) : Option Filter :=
  ps.foldlM (fun f x => (boolProp o x.1).bind fun b => if b then add f service name inst x.2 else some f) f

/-- The properties that only lead to a warning are read, too (tracing_filter_config_parser.cpp:238-247, 348-357). -/
def warn (o : List (String × Json)) (f : Filter) : Option Filter :=
  notImplemented.foldlM (fun f x => (boolProp o x).map fun _ => f) f

/-- AddTracePointsFromSubObject (tracing_filter_config_parser.cpp:306-335). -/
def addSub (o : List (String × Json)) (sub service name inst : String) (ps : List (String × Point)) (f : Filter) : Option Filter :=
  match o.lookup sub with
  | none => some f
  | some j => j.asObj.bind fun o => addAll o service name inst ps f

/-- WarnNotImplementedTracePointsFromSubObject (tracing_filter_config_parser.cpp:337-360). -/
def warnSub (o : List (String × Json)) (sub : String) (f : Filter) : Option Filter :=
  match o.lookup sub with
  | none => some f
  | some j => j.asObj.bind fun o => warn o f

/-- What ParseEvent does for one instance (tracing_filter_config_parser.cpp:224-247). -/
def addEvent (o : List (String × Json)) (service name inst : String) (f : Filter) : Option Filter := do
  let f ← addAll o service name inst (notifMap.map fun x => (x.1, .proxyEvent x.2)) f
  let f ← addAll o service name inst skelEventMap f
  warn o f

/-- What ParseField does for one instance (tracing_filter_config_parser.cpp:406-449). -/
def addField (o : List (String × Json)) (service name inst : String) (f : Filter) : Option Filter := do
  let f ← addSub o "notifier" service name inst (notifMap.map fun x => (x.1, .proxyField x.2)) f
  let f ← addSub o "notifier" service name inst skelFieldMap f
  let f ← addSub o "getter" service name inst proxyGetMap f
  let f ← addSub o "getter" service name inst skelGetMap f
  let f ← addSub o "setter" service name inst proxySetMap f
  let f ← addSub o "setter" service name inst skelSetMap f
  warnSub o "notifier" f

/-- ParseEvent and ParseField (tracing_filter_config_parser.cpp:186-256, 366-460). -/
def parseElem (c : Conf) (tm : List (Elem × List String)) (service : String) (field : Bool) (j : Json) (f : Filter) : Option Filter := do
  let o ← j.asObj
  match o.lookup "shortname" with
  | none => some f
  | some s => do
    let name ← s.asStr
    if name ∈ elemNames c service field then
      (instances c service).foldlM (fun f inst =>
        if isTraced tm ⟨service, name, field⟩ inst then
          (if field then addField o service name inst f else addEvent o service name inst f)
        else some f) f
    else some f

/-- ParseEvents and ParseFields (tracing_filter_config_parser.cpp:265-297, 467-497). -/
def parseElems (c : Conf) (tm : List (Elem × List String)) (service : String) (field : Bool) (o : List (String × Json)) (f : Filter) :
    Option Filter :=
  match o.lookup (if field then "fields" else "events") with
  | none => some f
  | some j => j.asList.bind fun l => l.foldlM (fun f j => parseElem c tm service field j f) f

/-- ParseService (tracing_filter_config_parser.cpp:539-571); ParseMethods does nothing. -/
def parseService (c : Conf) (tm : List (Elem × List String)) (j : Json) (f : Filter) : Option Filter := do
  let o ← j.asObj
  match o.lookup "shortname_path" with
  | none => some f
  | some s => do
    let service ← s.asStr
    if service ∈ typeNames c then do
      let f ← parseElems c tm service false o f
      parseElems c tm service true o f
    else some f

/-- ParseServices (tracing_filter_config_parser.cpp:577-610). -/
def parse (c : Conf) (tm : List (Elem × List String)) (j : Json) : Option Filter := do
  let o ← j.asObj
  match o.lookup "services" with
  | none => some {}
  | some j => do
    let l ← j.asList
    l.foldlM (fun f j => parseService c tm j f) {}

/-- ParseTraceConfig (runtime.cpp:92-107) after the configuration has been read. `file` is `none` if it cannot be read. The inner
result is `none` if there is no filter and therefore no tracing. -/
def load (c : Conf) (file : Option Json) : Option (Option Filter) := do
  let tm ← traced c
  if c.enabled then
    match file with
    | none => some none
    | some j => (parse c tm j).map some
  else some none

/-- The answer of a call of Trace (trace_error.h). -/
inductive Answer where
  | ok
  | disablePoint
  | disableAll
  | other
  deriving DecidableEq, Repr

/-- What a trace call tells the trace subsystem. -/
structure Rec where
  elem : Elem
  inst : String
  point : Point
  deriving DecidableEq, Repr

/-- ProxyEventTracingData (proxy_event_tracing_data.h:25-50) or SkeletonEventTracingData: the element and what is enabled. -/
structure Data (α : Type) where
  elem : Elem
  inst : String
  on : α → Bool

/-- GenerateProxyTracingStructFromEventConfig and …FromFieldConfig (proxy_event_tracing.cpp:63-165). -/
def proxyData (f : Option Filter) (e : Elem) (inst : String) : Option (Data Notif) :=
  match f with
  | none => some ⟨e, inst, fun _ => false⟩
  | some f =>
    let ask (n : Notif) := isEnabled f e.service e.name inst (if e.field then .proxyField n else .proxyEvent n)
    do
      let a ← ask .subscribe
      let b ← ask .unsubscribe
      let c ← ask .stateChange
      let d ← ask .setStateHandler
      let g ← ask .unsetStateHandler
      let h ← ask .callStateHandler
      let i ← ask .setHandler
      let j ← ask .unsetHandler
      let k ← ask .callHandler
      let l ← ask .getNew
      let m ← ask .callback
      some ⟨e, inst, fun
        | .subscribe => a
        | .unsubscribe => b
        | .stateChange => c
        | .setStateHandler => d
        | .unsetStateHandler => g
        | .callStateHandler => h
        | .setHandler => i
        | .unsetHandler => j
        | .callHandler => k
        | .getNew => l
        | .callback => m⟩

/-- GenerateSkeletonTracingStructFromEventConfig and …FromFieldConfig (skeleton_event_tracing.cpp:143-238). The registration with
the tracing runtime is C88 and C89. -/
def skelData (f : Option Filter) (e : Elem) (inst : String) : Option (Data Out) :=
  match f with
  | none => some ⟨e, inst, fun _ => false⟩
  | some f =>
    let ask (o : Out) := isEnabled f e.service e.name inst (if e.field then .skelField o else .skelEvent o)
    do
      let a ← ask .copy
      let b ← ask .allocate
      some ⟨e, inst, fun
        | .copy => a
        | .allocate => b⟩

/-- A Trace function with UpdateTracingDataFromTraceResult (proxy_event_tracing.cpp:35-55, 167-415, skeleton_event_tracing.h:150-238):
`x` is what is traced, `p` gives its trace point. -/
def trace {α : Type} [DecidableEq α] (p : Bool → α → Point) (d : Data α) (x : α) (a : Answer) : Data α × List Rec :=
  if d.on x then
    (match a with
      | .ok => d
      | .disablePoint => { d with on := fun y => if y = x then false else d.on y }
      | .disableAll => { d with on := fun _ => false }
      | .other => d,
     [⟨d.elem, d.inst, p d.elem.field x⟩])
  else (d, [])

/-- The trace point of a consumer (the choice by ServiceElementType in every Trace function of proxy_event_tracing.cpp). -/
def proxyPoint (field : Bool) (n : Notif) : Point := if field then .proxyField n else .proxyEvent n

/-- The trace point of a provider (skeleton_event_tracing.h:160-171, 205-216). -/
def skelPoint (field : Bool) (o : Out) : Point := if field then .skelField o else .skelEvent o

/-- A ProxyEventBase: `subscribed` is is_subscribed_flag_; `handler` is receive_handler_ptr_, and whether the handler was wrapped for
tracing; `live` says that the scope of the handler has not expired. -/
structure Proxy where
  data : Data Notif
  subscribed : Bool := false
  handler : Option Bool := none
  live : Bool := false
  log : List Rec := []

/-- What a consumer does with an element and what happens to it: `ok` says that the binding succeeds; GetNewSamples has `guards`
free samples and delivers `n`; `a` are the answers to the trace calls. -/
inductive Op where
  | subscribe (ok : Bool) (a : Answer)
  | unsubscribe (a : Answer)
  | setHandler (a : Answer)
  | unsetHandler (a : Answer)
  | getNew (guards n : Nat) (a : Answer) (as : List Answer)
  | receive (a : Answer)
  | setStateHandler
  | unsetStateHandler
  | stateChange

/-- The trace of `n` calls of the receiver. -/
def callbacks (d : Data Notif) : Nat → List Answer → Data Notif × List Rec
  | 0, _ => (d, [])
  | n + 1, as =>
    let r := trace proxyPoint d .callback (as.headD .ok)
    let q := callbacks r.1 n as.tail
    (q.1, r.2 ++ q.2)

/-- Subscribe, Unsubscribe, SetReceiveHandler, UnsetReceiveHandler (proxy_event_base.cpp:76-152, 206-265), GetNewSamples
(proxy_event.h:191-230, proxy_event_tracing.h:64-113) and the call of the receive handler when a notification arrives
(proxy_event_tracing.cpp:417-436); Unsubscribe ends the scope of the handler or has the binding remove it (proxy_event_base.cpp:138-145).
Every answer of the binding apart from that to Subscribe is success. The handlers for changes of the subscription state are passed on without tracing (proxy_event_base.cpp:154-162). -/
def step (s : Proxy) : Op → Proxy
  | .subscribe ok a =>
    let r := trace proxyPoint s.data .subscribe a
    { s with data := r.1, subscribed := s.subscribed || ok, log := s.log ++ r.2 }
  | .unsubscribe a =>
    if s.subscribed then
      let r := trace proxyPoint s.data .unsubscribe a
      { s with data := r.1, subscribed := false, live := false, log := s.log ++ r.2 }
    else s
  | .setHandler a =>
    let r := trace proxyPoint s.data .setHandler a
    { s with data := r.1, handler := some (r.1.on .callHandler), live := true, log := s.log ++ r.2 }
  | .unsetHandler a =>
    if s.handler.isSome then
      let r := trace proxyPoint s.data .unsetHandler a
      { s with data := r.1, handler := none, live := false, log := s.log ++ r.2 }
    else s
  | .getNew guards n a as =>
    let r := trace proxyPoint s.data .getNew a
    if guards = 0 then { s with data := r.1, log := s.log ++ r.2 }
    else if r.1.on .callback then
      let q := callbacks r.1 (min n guards) as
      { s with data := q.1, log := s.log ++ r.2 ++ q.2 }
    else { s with data := r.1, log := s.log ++ r.2 }
  | .receive a =>
    if s.live ∧ s.handler = some true then
      let r := trace proxyPoint s.data .callHandler a
      { s with data := r.1, log := s.log ++ r.2 }
    else s
  | .setStateHandler => s
  | .unsetStateHandler => s
  | .stateChange => s

def run (s : Proxy) (l : List Op) : Proxy := l.foldl step s

/-- A SkeletonEvent. -/
structure Skel where
  data : Data Out
  log : List Rec := []

/-- Send with a copy or with an allocated sample: `ok` says that the event is offered and the binding gets to the trace callback
(skeleton_event.h:184-233, lola/skeleton_event.h). The callback is only created if the trace point is enabled. -/
structure Send where
  kind : Out
  ok : Bool
  a : Answer

def sendStep (s : Skel) (o : Send) : Skel :=
  if o.ok then
    if s.data.on o.kind then
      let r := trace skelPoint s.data o.kind o.a
      { data := r.1, log := s.log ++ r.2 }
    else s
  else s

def sendRun (s : Skel) (l : List Send) : Skel := l.foldl sendStep s

end Verif.TraceFilter
