import Verif.Model.Arith
import Verif.Model.ShmAlloc
/-! The sizes of the shared memory objects of a service instance and what offering the service allocates in them
(/repo/score/mw/com/impl/bindings/lola/skeleton_memory_manager.{h,cpp}, service_data_storage.cpp, service_data_control.cpp,
/repo/score/memory/shared/new_delete_delegate_resource.cpp). `none` is a failing assertion or std::terminate. The layout of the C++ types is
chosen by the compiler; here it is a parameter. -/
namespace Verif.Sizing
open Verif.Arith

/-- sizeof and alignof of a type. -/
structure Ty where
  size : Nat
  align : Nat
  deriving DecidableEq, Repr

/-- The types of the library that end up in shared memory, and std::max_align_t. -/
structure Lib where
  /-- std::max_align_t. -/
  maxAlign : Ty
  /-- SharedMemoryResource::ControlBlock (shared_memory_resource.h:376-389). -/
  block : Ty
  /-- ServiceDataStorage (service_data_storage.h:33-75). -/
  storage : Ty
  /-- An entry of ServiceDataStorage::events_ and of events_metainfo_. -/
  eventEntry : Ty
  metaEntry : Ty
  /-- EventDataStorage, without its array (event_data_storage.h:32-34). -/
  eventStorage : Ty
  /-- ServiceDataControl (service_data_control.h:27-77), an entry of its event_controls_ and of its application_id_pid_mapping_. -/
  control : Ty
  controlEntry : Ty
  pidEntry : Ty
  /-- An element of EventDataControl::state_slots_, of TransactionLog::reference_count_slots_, and TransactionLogSet::TransactionLogNode. -/
  slot : Ty
  logSlot : Ty
  logNode : Ty
  deriving DecidableEq, Repr

/-- The abilities of a field (FieldTagsStore). -/
structure Tags where
  notifier : Bool
  getter : Bool
  setter : Bool
  deriving DecidableEq, Repr

/-- An event (`tags = none`) or a field: its sample type and its entry in the configuration (lola_event_instance_deployment.h:51-75). -/
structure Elem where
  sample : Ty
  slots : Option Nat
  tracing : Nat
  maxSubs : Option Nat
  tags : Option Tags
  deriving DecidableEq, Repr

/-- A service instance: its events in the order of their names, followed by its fields in the order of their names
(skeleton_binding.h:40, 61; skeleton_base.cpp:150-200), and the sizes that may be set in the configuration. -/
structure Svc where
  generic : Bool
  asilB : Bool
  elems : List Elem
  manualData : Option Nat
  manualQm : Option Nat
  manualB : Option Nat
  deriving DecidableEq, Repr

/-- An allocation: bytes and alignment. -/
abbrev Req := Nat × Nat

/-! ## The calculated size (ShmSizeCalculationMode::kAnalysis) -/

/-- GetNumberOfSampleSlots (lola_event_instance_deployment.cpp:115-131), read by GetNumberOfSampleSlotsFromConfig
(skeleton_memory_manager.cpp:642-662). -/
def cfgSlots (e : Elem) : Option Nat := do
  let n ← e.slots
  if n + e.tracing > 65535 then none else some (n + e.tracing)

/-- GetMaxSubscribersFromConfig (skeleton_memory_manager.cpp:664-682). -/
def cfgSubs (e : Elem) : Option Nat := e.maxSubs

/-- The number of elements of type std::max_align_t that hold so many bytes (skeleton_memory_manager.cpp:246-247, 593-594). -/
def chunks (lib : Lib) (bytes : Nat) : Nat := ((bytes + lib.maxAlign.size - 1) % W) / lib.maxAlign.size

/-- The size and the alignment of the slot array of a service element (skeleton_memory_manager.cpp:577-605). -/
def slotArray (lib : Lib) (generic : Bool) (e : Elem) : Option Req := do
  let n ← cfgSlots e
  if generic then some ((chunks lib ((n * e.sample.size) % W) * lib.maxAlign.size) % W, lib.maxAlign.align)
  else some ((n * e.sample.size) % W, e.sample.align)

/-- CalculateDataShmResourceStorageSize and CalculateServiceDataStorageShmSize (skeleton_memory_manager.cpp:556-613,
service_data_storage.cpp:25-69). -/
def analyseData (lib : Lib) (svc : Svc) : Option Nat := do
  let arrays ← svc.elems.mapM (slotArray lib svc.generic)
  alignedSequence
    ([(lib.storage.size, lib.storage.align),
      ((svc.elems.length * lib.eventEntry.size) % W, lib.eventEntry.align),
      ((svc.elems.length * lib.metaEntry.size) % W, lib.metaEntry.align)] ++
      arrays.flatMap (fun a => [(lib.eventStorage.size, lib.eventStorage.align), a]))

/-- What CalculateServiceDataControlShmSize takes into account for a service element (service_data_control.cpp:63-108). -/
def controlArrays (lib : Lib) (n subs : Nat) : List Req :=
  [((n * lib.slot.size) % W, lib.slot.align), ((n * lib.logSlot.size) % W, lib.logSlot.align),
    ((subs * lib.logNode.size) % W, lib.logNode.align)] ++
  List.replicate subs ((n * lib.logSlot.size) % W, lib.logSlot.align) ++ [((n * lib.logSlot.size) % W, lib.logSlot.align)]

/-- kMaxApplicationIdPidMappings (service_data_control.h:33). -/
def maxPids : Nat := 50

/-- CalculateControlShmResourceStorageSize and CalculateServiceDataControlShmSize (skeleton_memory_manager.cpp:615-640,
service_data_control.cpp:28-111). -/
def analyseControl (lib : Lib) (svc : Svc) : Option Nat := do
  let infos ← svc.elems.mapM (fun e => do
    let n ← cfgSlots e
    let m ← cfgSubs e
    pure (n, m))
  alignedSequence
    ([(lib.control.size, lib.control.align),
      ((svc.elems.length * lib.controlEntry.size) % W, lib.controlEntry.align),
      ((maxPids * lib.pidEntry.size) % W, lib.pidEntry.align)] ++
      infos.flatMap (fun x => controlArrays lib x.1 x.2))

/-! ## What offering the service allocates -/

/-- kMaxConcurrentFieldGetterSamplePtrs (skeleton_event_common.h:51). -/
def getterSlots : Nat := 1

/-- The maximum number of subscribers (skeleton_service_element_binding_factory_impl.h:71-91): `none` if it is needed but not configured. -/
def subscribers (e : Elem) : Option Nat :=
  match e.tags with
  | none => e.maxSubs
  | some t => if t.notifier then e.maxSubs else some 0

/-- The slots added for the getter and the setter of a field (skeleton_service_element_binding_factory_impl.h:93-96,
skeleton_event_properties.h:45). -/
def extraSlots (e : Elem) : Nat :=
  match e.tags with
  | none => 0
  | some t => (if t.getter then getterSlots else 0) + (if t.setter then 1 else 0)

/-- CreateSkeletonEventProperties and GetTotalNumberOfSlots (skeleton_service_element_binding_factory_impl.h:54-105,
skeleton_event_properties.h:43-48): the number of slots and the maximum number of subscribers. -/
def properties (e : Elem) : Option (Nat × Nat) :=
  match e.slots, subscribers e with
  | some n, some subs => some (n + e.tracing + extraSlots e, subs)
  | _, _ => none

/-- What the construction of an array with `n` elements allocates (polymorphic_offset_ptr_allocator.h:82-92). The containers are not in
the repository: whether they allocate anything for no elements is the parameter `skip`. -/
def array (skip : Bool) (n : Nat) (t : Ty) : Option (List Req) :=
  if n * t.size ≥ W then none else if skip && n == 0 then some [] else some [(n * t.size, t.align)]

/-- ManagedMemoryResource::construct for an object (managed_memory_resource.h:74-82). -/
def object (t : Ty) : List Req := [(t.size, t.align)]

/-- CreateEventDataInCreatedSharedMemory with EmplaceEventDataStorage (skeleton_memory_manager.h:271-290, 330-345), or
CreateGenericEventDataInCreatedSharedMemory (skeleton_memory_manager.cpp:223-276). Generic elements have no tags
(skeleton_service_element_binding_factory_impl.h:220-222), which is left to the caller. -/
def createElemData (lib : Lib) (skip generic : Bool) (e : Elem) : Option (List Req) := do
  let (n, _) ← properties e
  if generic then
    if e.sample.align > lib.maxAlign.align then none
    else do
      let aligned ← alignedSize e.sample.size e.sample.align
      let a ← array skip (chunks lib ((aligned * n) % W)) lib.maxAlign
      pure (object lib.eventStorage ++ a)
  else do
    let a ← array skip n e.sample
    pure (object lib.eventStorage ++ a)

/-- Everything allocated in the object for data: InitializeSharedMemoryForData (skeleton_memory_manager.cpp:871-886) constructs
ServiceDataStorage, then every event and field is offered. -/
def createData (lib : Lib) (skip : Bool) (svc : Svc) : Option (List Req) := do
  let es ← array skip svc.elems.length lib.eventEntry
  let ms ← array skip svc.elems.length lib.metaEntry
  let rest ← svc.elems.mapM (createElemData lib skip svc.generic)
  pure (object lib.storage ++ es ++ ms ++ rest.flatten)

/-- EmplaceEventControl (skeleton_memory_manager.cpp:904-926): the constructors of EventControl, EventDataControl, TransactionLogSet,
TransactionLogNode and TransactionLog (event_control.cpp:18-27, event_data_control.h:44-47, transaction_log_set.cpp:53-62,
transaction_log_set.h:81-86, transaction_log.cpp:18-21). The number of slots is converted to std::uint16_t. The array of logs is filled with
copies of a prototype. -/
def createElemControl (lib : Lib) (skip : Bool) (e : Elem) : Option (List Req) := do
  let (total, subs) ← properties e
  let n := total % 65536
  if subs = 255 then none
  else do
    let slots ← array skip n lib.slot
    let logs ← array skip n lib.logSlot
    let nodes ← array skip subs lib.logNode
    pure (slots ++ logs ++ nodes ++ (List.replicate subs logs).flatten ++ logs)

/-- Everything allocated in an object for control: InitializeSharedMemoryForControl (skeleton_memory_manager.cpp:891-902) constructs
ServiceDataControl, then every event and field is offered. -/
def createControl (lib : Lib) (skip : Bool) (svc : Svc) : Option (List Req) := do
  let es ← array skip svc.elems.length lib.controlEntry
  let ps ← array skip maxPids lib.pidEntry
  let rest ← svc.elems.mapM (createElemControl lib skip)
  pure (object lib.control ++ es ++ ps ++ rest.flatten)

/-- GetNeededManagementSpace (shared_memory_resource.h:187-190). -/
def mgmt (lib : Lib) : Option Nat := alignedSize lib.block.size lib.maxAlign.align

/-- Allocations of one thread, one after the other, in a shared memory resource: the value of the counter at the end. -/
def place (c : ShmAlloc.Cfg) : Nat → List Req → Option Nat
  | cur, [] => some cur
  | cur, (bytes, align) :: rest =>
    match ShmAlloc.compute c 0 cur bytes align with
    | none => none
    | some (_, new) => place c new rest

/-- SharedMemoryFactory::Create for a user space of so many bytes (shared_memory_resource.cpp:499-506, 976-988), mapped at `base`, followed by
the allocations: the number of bytes the user has allocated at the end (GetUserAllocatedBytes). -/
def create (lib : Lib) (user base : Nat) (reqs : List Req) : Option Nat := do
  let m ← mgmt lib
  let size ← ShmAlloc.safeAdd user m
  let final ← place ⟨size, m, fun _ => base⟩ m reqs
  pure (final - m)

/-! ## The simulated size (ShmSizeCalculationMode::kSimulation) -/

/-- NewDeleteDelegateMemoryResource::do_allocate (new_delete_delegate_resource.cpp:118-190) as far as it counts: the new sum. The base
address is one page. -/
def simulateOne (sum bytes align : Nat) : Option Nat := do
  let start ← addOffset 4096 sum
  let most ← ShmAlloc.safeAdd bytes align
  if most = 0 then none
  else do
    let stop ← addOffset start (most - 1)
    let q? ← ShmAlloc.algorithm start stop bytes align
    let q ← q?
    let pad ← subPointers q start
    if pad < 0 then none
    else do
      let total ← ShmAlloc.safeAdd bytes pad.toNat
      ShmAlloc.safeAdd sum total

def simulate : Nat → List Req → Option Nat
  | sum, [] => some sum
  | sum, (bytes, align) :: rest =>
    match simulateOne sum bytes align with
    | none => none
    | some sum' => simulate sum' rest

inductive Mode where
  | analysis
  | simulation
  deriving DecidableEq, Repr

/-- The sizes of the objects for data and for control that are calculated (skeleton_memory_manager.cpp:434-447, 505-554). In the simulation
the service elements are offered on resources that count. -/
def calculate (lib : Lib) (skip : Bool) (svc : Svc) : Mode → Option (Nat × Nat)
  | .analysis => do
    let d ← analyseData lib svc
    let c ← analyseControl lib svc
    pure (d, c)
  | .simulation => do
    let data ← createData lib skip svc
    let control ← createControl lib skip svc
    let d ← simulate 0 data
    let c ← simulate 0 control
    pure (d, c)

/-- CalculateShmResourceStorageSizes (skeleton_memory_manager.cpp:401-503): the sizes of the objects for data, QM control and ASIL-B
control. -/
def sizes (lib : Lib) (skip : Bool) (svc : Svc) (mode : Mode) : Option (Nat × Nat × Nat) :=
  match svc.manualData, svc.manualQm, svc.manualB with
  | some d, some q, some b => some (d, q, b)
  | md, mq, mb =>
    match calculate lib skip svc mode with
    | none => none
    | some (d, c) => some (md.getD d, mq.getD c, mb.getD c)

/-- What was used of the three objects. -/
structure Used where
  data : Nat
  qm : Nat
  asilB : Option Nat
  deriving DecidableEq, Repr

/-- Where the three objects are mapped. -/
structure Bases where
  data : Nat
  qm : Nat
  asilB : Nat
  deriving DecidableEq, Repr

/-- Offering the service with new shared memory: CreateSharedMemory (skeleton_memory_manager.cpp:155-192) and PrepareOffer of every event and
field. The three objects are independent of each other, so that the order between them does not matter. -/
def offer (lib : Lib) (skip : Bool) (svc : Svc) (mode : Mode) (bases : Bases) : Option Used := do
  let (d, q, b) ← sizes lib skip svc mode
  let data ← createData lib skip svc
  let control ← createControl lib skip svc
  let usedQm ← create lib q bases.qm control
  let usedB ← if svc.asilB then (create lib b bases.asilB control).map some else some none
  let usedData ← create lib d bases.data data
  pure ⟨usedData, usedQm, usedB⟩

end Verif.Sizing
