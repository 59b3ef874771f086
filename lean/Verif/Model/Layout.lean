import Verif.Model.Arith
import Verif.Model.ElementFqId
/-!
Where the samples of the events and fields of a service instance are: the tables in shared memory, what the provider
enters in them, and what consumers find (/repo/score/mw/com/impl/bindings/lola/linear_search_map.h,
service_data_storage.h, service_data_control.h, skeleton_memory_manager.{h,cpp}, skeleton_event.h,
generic_skeleton_event.cpp, proxy.cpp, proxy_event.h, generic_proxy_event.cpp and /repo/score/mw/com/impl/generic_proxy.cpp).

Every place is an offset in the shared memory object for data: the provider and the consumers map it at different
addresses, and C48 shows that an OffsetPtr leads to the same offset. `none` is std::terminate or a failing assertion.
-/
namespace Verif.Layout
open Verif.ElementFqId (Id)

/-- sizeof and alignof of a type, or a DataTypeSizeInfo. -/
structure Ty where
  size : Nat
  align : Nat
  deriving DecidableEq, Repr

/-- LinearSearchMap (linear_search_map.h:69-132): the entries in the order of their insertion. -/
structure Map (V : Type) where
  cap : Nat
  items : List (Id × V)
  deriving DecidableEq, Repr

/-- The first entry with that key (linear_search_map.h:204-230); `none` is end(). -/
def findIn {V : Type} : List (Id × V) → Id → Option V
  | [], _ => none
  | (k, v) :: l, key => if ElementFqId.eq k key then some v else findIn l key

/-- find (linear_search_map.h:204-230). -/
def Map.find {V : Type} (m : Map V) (key : Id) : Option V := findIn m.items key

/-- emplace (linear_search_map.h:257-288) and the assertion of its callers that it has inserted
(skeleton_memory_manager.cpp:257-270, 915-923, 932-937; skeleton_memory_manager.h:339-343). The vector ends the
process when it is full (linear_search_map.h:53); it is not in the repository. -/
def Map.emplace {V : Type} (m : Map V) (key : Id) (v : V) : Option (Map V) :=
  match m.find key with
  | some _ => none
  | none => if m.items.length < m.cap then some { m with items := m.items ++ [(key, v)] } else none

/-- EventDataStorage, a DynamicArray (event_data_storage.h:31-33): where the object itself is, where its array is and its
number of elements. The container is not in the repository. -/
structure Store where
  obj : Nat
  data : Nat
  count : Nat
  deriving DecidableEq, Repr

/-- EventMetaInfo (event_meta_info.h:26-42). -/
structure Meta where
  ty : Ty
  raw : Nat
  deriving DecidableEq, Repr

/-- The shared memory of a service instance: the allocator of the object for data (`used` of `size` bytes, see C54),
ServiceDataStorage (service_data_storage.h:69-71) and ServiceDataControl::event_controls_ (service_data_control.h:63), of
which only the number of slots matters here. -/
structure Shm where
  size : Nat
  used : Nat
  events : Map Store
  metas : Map Meta
  controls : Map Nat
  deriving DecidableEq, Repr

/-- Memory after ServiceDataStorage has been constructed with the number of events and fields
(skeleton_memory_manager.cpp:871-902); `used` bytes are taken by then. -/
def empty (size used n : Nat) : Shm :=
  { size := size, used := used, events := ⟨n, []⟩, metas := ⟨n, []⟩, controls := ⟨n, []⟩ }

/-- Round up. -/
def up (p align : Nat) : Nat := (p + (align - 1)) / align * align

/-- One allocation of the only thread that offers (shared_memory_resource.cpp:695-779; C54 has the arithmetic of addresses
and other threads). Mappings begin at a page, so offsets are aligned as the addresses are. -/
def alloc (m : Shm) (bytes align : Nat) : Option (Shm × Nat) :=
  if up m.used align + bytes ≤ m.size then some ({ m with used := up m.used align + bytes }, up m.used align) else none

/-- How a service element is registered: by a typed skeleton or a generic one, with its sample type and its
GetTotalNumberOfSlots (skeleton_event_properties.h:42-47). -/
structure Reg where
  id : Id
  generic : Bool
  ty : Ty
  slots : Nat
  deriving DecidableEq, Repr

/-- The types of the library: EventDataStorage without its array and std::max_align_t. -/
structure Lib where
  storage : Ty
  maxAlign : Ty
  deriving DecidableEq, Repr

/-- Construction of an EventDataStorage with `n` elements (managed_memory_resource.h:75-82;
polymorphic_offset_ptr_allocator.h:82-92, which ends the process if the product does not fit). -/
def construct (lib : Lib) (m : Shm) (n : Nat) (t : Ty) : Option (Shm × Store) := do
  let (m, o) ← alloc m lib.storage.size lib.storage.align
  if n * t.size < Arith.W then
    let (m, a) ← alloc m (n * t.size) t.align
    some (m, ⟨o, a, n⟩)
  else none

/-- EmplaceEventDataStorage and EmplaceEventMetaInfo, and the same in CreateGenericEventDataInCreatedSharedMemory
(skeleton_memory_manager.h:279-290, 330-345; skeleton_memory_manager.cpp:257-270, 928-939): the new storage is entered. -/
def enter (m : Shm) (id : Id) (s : Store) (t : Ty) : Option Shm := do
  let events ← m.events.emplace id s
  let metas ← m.metas.emplace id ⟨t, s.data⟩
  some { m with events := events, metas := metas }

/-- The number of elements of std::max_align_t for a generic element (skeleton_memory_manager.cpp:248-252): the products
and sums are not checked. -/
def chunks (lib : Lib) (aligned slots : Nat) : Nat :=
  (((aligned * slots) % Arith.W + lib.maxAlign.size - 1) % Arith.W) / lib.maxAlign.size

/-- CreateEventDataInCreatedSharedMemory (skeleton_memory_manager.h:279-290) or CreateGenericEventDataInCreatedSharedMemory
(skeleton_memory_manager.cpp:229-273). -/
def createData (lib : Lib) (m : Shm) (r : Reg) : Option Shm :=
  if r.generic then
    if r.ty.align > lib.maxAlign.align then none
    else do
      let aligned ← Arith.alignedSize r.ty.size r.ty.align
      let (m, s) ← construct lib m (chunks lib aligned r.slots) lib.maxAlign
      enter m r.id s r.ty
  else do
    let (m, s) ← construct lib m r.slots r.ty
    enter m r.id s r.ty

/-- Skeleton::Register and RegisterGeneric in memory that has been created (skeleton.h:342-347, skeleton.cpp:605-610), with
EmplaceEventControl (skeleton_memory_manager.cpp:904-926). EventControl has a std::uint16_t for the number of slots
(event_control.h:28). The control for ASIL-B is filled in the same way and not modelled. -/
def register (lib : Lib) (m : Shm) (r : Reg) : Option Shm := do
  let m ← createData lib m r
  let controls ← m.controls.emplace r.id (r.slots % 65536)
  some { m with controls := controls }

/-- The elements are registered one after the other (skeleton_base.cpp:105-140). -/
def offer (lib : Lib) : Shm → List Reg → Option Shm
  | m, [] => some m
  | m, r :: l => (register lib m r).bind fun m => offer lib m l

/-- What the provider keeps of a registered element: the kind, its own idea of the type (the template argument or
size_info_), the array, the number of elements of the storage, and the number of slots in the control. -/
structure Handle where
  generic : Bool
  ty : Ty
  data : Nat
  count : Nat
  slots : Nat
  deriving DecidableEq, Repr

/-- What `register` has returned for an element that it has entered (skeleton.h:342-347, skeleton.cpp:605-610; the fields of
SkeletonEvent and GenericSkeletonEvent, generic_skeleton_event.cpp:36-52). -/
def created (m : Shm) (r : Reg) : Option Handle := do
  let slots ← m.controls.find r.id
  let s ← m.events.find r.id
  some { generic := r.generic, ty := r.ty, data := s.data, count := s.count, slots := slots }

/-- OffsetPtr::get(size) checks that so many bytes from there are in the memory (offset_ptr.h, see C49). -/
def inside (m : Shm) (a bytes : Nat) : Bool := decide (a + bytes ≤ m.size)

/-- RetrieveEventControlsFromOpenedSharedMemory with RetrieveEventDataFromOpenedSharedMemory or
RetrieveGenericEventDataFromOpenedSharedMemory (skeleton_memory_manager.cpp:275-323, skeleton_memory_manager.h:300-328): a
provider that has been restarted finds its elements in the memory of the last time. A typed skeleton asks OffsetPtr::get for the storage object, which lies in the
memory; the type of the samples is not looked at. -/
def retrieve (m : Shm) (r : Reg) : Option Handle := do
  let slots ← m.controls.find r.id
  let info ← m.metas.find r.id
  if r.generic then
    let aligned ← Arith.alignedSize info.ty.size info.ty.align
    if aligned * r.slots < Arith.W ∧ inside m info.raw (aligned * r.slots) = true then
      some { generic := true, ty := r.ty, data := info.raw, count := r.slots, slots := slots }
    else none
  else do
    let s ← m.events.find r.id
    some { generic := false, ty := r.ty, data := s.data, count := s.count, slots := slots }

/-- Where Allocate puts the sample of slot `s` (skeleton_event.h:173-194 with DynamicArray::at, which ends the process for
an index out of bounds; generic_skeleton_event.cpp:57-71). -/
def Handle.place (h : Handle) (s : Nat) : Option Nat :=
  if h.generic then
    (Arith.alignedSize h.ty.size h.ty.align).bind fun aligned =>
      Arith.addOffset h.data ((s * aligned) % Arith.W)
  else if s < h.count then some (h.data + s * h.ty.size) else none

/-- A consumer's event: where the array is, the distance of slots and the number of slots. -/
structure View where
  raw : Nat
  stride : Nat
  slots : Nat
  deriving DecidableEq, Repr

/-- Construction of ProxyEvent<SampleType> (proxy_event.h:69-77, 148-165; proxy.cpp:562-586, 632-653): without entries in the
tables the process ends, and if the size or the alignment is not that of the provider. -/
def typedView (m : Shm) (id : Id) (t : Ty) : Option View := do
  let slots ← m.controls.find id
  let info ← m.metas.find id
  let aligned ← Arith.alignedSize t.size t.align
  if aligned * slots < Arith.W ∧ inside m info.raw (aligned * slots) = true ∧ info.ty.size = t.size ∧ info.ty.align = t.align then
    some ⟨info.raw, aligned, slots⟩
  else none

/-- Construction of GenericProxyEvent and the beginning of GetNewSamplesImpl (generic_proxy_event.cpp:29-35, 130-152). -/
def genericView (m : Shm) (id : Id) : Option View := do
  let slots ← m.controls.find id
  let info ← m.metas.find id
  let aligned ← Arith.alignedSize info.ty.size info.ty.align
  if aligned * slots < Arith.W ∧ inside m info.raw (aligned * slots) = true then
    some ⟨info.raw, aligned, slots⟩
  else none

/-- GenericProxyEvent::GetSampleSize (generic_proxy_event.cpp:80-83). -/
def sampleSize (m : Shm) (id : Id) : Option Nat := (m.metas.find id).map (·.ty.size)

/-- Where a consumer reads the sample of slot `s` (proxy_event.h:232, generic_proxy_event.cpp:179). -/
def View.place (v : View) (s : Nat) : Nat := v.raw + v.stride * s

/-- Proxy::IsEventProvided (proxy.cpp:660-669), after the conversion of the name. -/
def provided (m : Shm) (id : Id) : Bool := (m.controls.find id).isSome

/-- GenericProxy::FillEventMap (generic_proxy.cpp:141-159): the events of the configuration that are provided. -/
def genericEvents (m : Shm) (ids : List Id) : List Id := ids.filter (provided m)

end Verif.Layout
