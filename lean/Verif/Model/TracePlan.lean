import Verif.Model.TraceSlots

/-!
# Which elements are traced and how many slots they need

The configuration of the application and the trace filter file are read when the
process starts.  From both the number of tracing slots is calculated; the slots are
given to the elements of skeletons when these are created.

Simplifications:
* Names of service types, elements and instances are numbers.
* JSON files have been read: a file is the list of its entries.  Entries without a
  name, of unknown services and of unknown elements are left out by the parser; an
  unknown element is an element for which no instance has tracing slots here.
* A `std::set` of instances is a list without duplicates in the order of insertion;
  an `std::unordered_map` is a list of entries.  The order in which the map is walked
  is not fixed, see `number`.
* Trace points of proxies never need slots (`DoesTracePointNeedTraceDoneCB`,
  tracing_filter_config.cpp 145-149); their maps are left out.
-/
namespace Verif.TracePlan
open Verif.TraceSlots (Op)

/-- `ServiceElementIdentifierView` (service_element_identifier_view.h). -/
structure Elem where
  service : Nat
  name : Nat
  field : Bool
  deriving DecidableEq, Repr

/-- `SkeletonEventTracePointType`, `SkeletonFieldTracePointType`: `SEND` / `UPDATE`,
`SEND_WITH_ALLOCATE` / `UPDATE_WITH_ALLOCATE` and the others. -/
inductive Point where
  | send
  | sendAllocated
  | other (n : Nat)
  deriving DecidableEq, Repr

/-- `DoesTracePointNeedTraceDoneCB` (tracing_filter_config.cpp 119-156). -/
def Point.needsSlot : Point → Bool
  | .send => true
  | .sendAllocated => true
  | .other _ => false

/-- An entry of `trace_point_map`: the key and the instances. -/
structure Entry where
  elem : Elem
  point : Point
  instances : List Nat
  deriving DecidableEq, Repr

/-- `InsertTracePointIntoMap` (tracing_filter_config.cpp 50-68). -/
def insert (e : Elem) (p : Point) (i : Nat) : List Entry → List Entry
  | [] => [⟨e, p, [i]⟩]
  | x :: xs =>
    if x.elem = e ∧ x.point = p then
      (if i ∈ x.instances then x else { x with instances := x.instances ++ [i] }) :: xs
    else x :: insert e p i xs

/-- `IsTracePointEnabledInMap` (tracing_filter_config.cpp 93-116). -/
def enabled (map : List Entry) (e : Elem) (p : Point) (i : Nat) : Bool :=
  match map.find? fun x => x.elem = e ∧ x.point = p with
  | none => false
  | some x => x.instances.contains i

/-- The configuration of the application: the instances of a service type
(`GetInstancesOfServiceType`, configuration.cpp 410-420) and the number of tracing slots
(`numberOfIpcTracingSlots`) of an element of an instance; 0 if none are configured. -/
structure Config where
  instances : Nat → List Nat
  slots : Elem → Nat → Nat

/-- `ParseServiceElementTracingEnabled` (configuration_json_parsing_strategy.cpp 519-576) and
`IsServiceElementTracingEnabled` (tracing_configuration.cpp): tracing is enabled if the number
of slots is not zero. -/
def Config.tracing (c : Config) (e : Elem) (i : Nat) : Bool := 0 < c.slots e i

/-- An element in the trace filter file, with the trace points that are switched on.
For fields one property switches both update trace points on
(tracing_filter_config_parser.cpp 130-134). -/
structure FileEntry where
  elem : Elem
  points : List Point
  deriving Repr

/-- `ParseEvent`, `ParseField` (tracing_filter_config_parser.cpp 186-257, 366-461): for one
instance the trace points of the element that are switched on are added. -/
def addAll (e : Elem) (i : Nat) (points : List Point) (map : List Entry) : List Entry :=
  points.foldl (fun m p => insert e p i m) map

/-- `ParseEvent`, `ParseField`: the loop over the instances of the service. -/
def parseElement (c : Config) (x : FileEntry) (map : List Entry) : List Entry :=
  (c.instances x.elem.service).foldl (fun m i => if c.tracing x.elem i then addAll x.elem i x.points m else m) map

/-- `ParseServices` (tracing_filter_config_parser.cpp 572-602), the maps of events
(`field = false`) or of fields. -/
def parse (c : Config) (file : List FileEntry) (field : Bool) : List Entry :=
  (file.filter fun x => x.elem.field = field).foldl (fun m x => parseElement c x m) []

/-- `FindNumberOfTracingSlots` (tracing_filter_config.cpp 171-287): the number and the elements
that have been seen. -/
def find (c : Config) : List Entry → List Elem → Nat × List Elem
  | [], seen => (0, seen)
  | x :: xs, seen =>
    if !x.point.needsSlot then find c xs seen
    else if x.elem ∈ seen then find c xs seen
    else
      let r := find c xs (x.elem :: seen)
      ((x.instances.map fun i => c.slots x.elem i).sum + r.1, r.2)

/-- `GetNumberOfTracingSlots` (tracing_filter_config.cpp 400-430) for maps that are walked in the
given order; `none`: the process is ended. -/
def number (c : Config) (events fields : List Entry) : Option Nat :=
  let r := find c events []
  let q := find c fields r.2
  if r.1 + q.1 > 65535 then none else some (r.1 + q.1)

/-- `GenerateSkeletonTracingStructFromEventConfig`, `GenerateSkeletonTracingStructFromFieldConfig`
(skeleton_event_tracing.cpp 138-243): what the creation of element `e` of instance `i` asks for. -/
def create (c : Config) (events fields : List Entry) (e : Elem) (i : Nat) : Option Op :=
  let map := if e.field then fields else events
  if enabled map e .send i || enabled map e .sendAllocated i then some (.register (c.slots e i)) else none

end Verif.TracePlan
