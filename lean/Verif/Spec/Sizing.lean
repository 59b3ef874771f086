import Verif.Model.Sizing
/-! Vocabulary for the sizes of the shared memory objects of a service instance. -/
namespace Verif.Sizing

/-- What C++ guarantees for the type of an object, together with: no larger than 1 TiB. -/
structure Ty.Valid (t : Ty) : Prop where
  power : ∃ k, t.align = 2 ^ k
  multiple : t.align ∣ t.size
  nonempty : 0 < t.size
  modest : t.size ≤ 2 ^ 40

/-- The type is not over-aligned: its alignment is at most that of std::max_align_t. -/
def Ty.Fundamental (lib : Lib) (t : Ty) : Prop := t.align ≤ lib.maxAlign.align

/-- The types of the library are C++ types, and not over-aligned; the alignment of std::max_align_t is at most a page. -/
structure Lib.Valid (lib : Lib) : Prop where
  page : lib.maxAlign.align ≤ 4096
  max : lib.maxAlign.Valid
  all : ∀ t ∈ [lib.block, lib.storage, lib.eventEntry, lib.metaEntry, lib.eventStorage, lib.control, lib.controlEntry, lib.pidEntry,
    lib.slot, lib.logSlot, lib.logNode], t.Valid ∧ t.Fundamental lib

/-- The configuration values fit their types (std::uint16_t and std::uint8_t), 255 subscribers are not configured, the type of the samples is a
C++ type, and a field has a getter or a notifier. -/
structure Elem.Valid (e : Elem) : Prop where
  sample : e.sample.Valid
  slots : ∀ n, e.slots = some n → n < 65536
  tracing : e.tracing < 256
  maxSubs : ∀ n, e.maxSubs = some n → n < 255
  tags : ∀ t, e.tags = some t → t.getter = true ∨ t.notifier = true

/-- Service element ids are values of std::uint16_t, once for events and once for fields. Generic services have no fields with tags. -/
structure Svc.Valid (svc : Svc) : Prop where
  elems : ∀ e ∈ svc.elems, e.Valid
  count : svc.elems.length ≤ 2 * 65536
  generic : svc.generic = true → ∀ e ∈ svc.elems, e.tags = none

/-- A field with a getter or a setter. -/
def Elem.Accessor (e : Elem) : Prop := ∃ t, e.tags = some t ∧ (t.getter = true ∨ t.setter = true)

/-- An object of that many bytes for the user is mapped at a page boundary, not at address 0, and ends before 2^63. -/
def Mapped (lib : Lib) (base user : Nat) : Prop :=
  4096 ∣ base ∧ 0 < base ∧ base + user + lib.block.size + lib.maxAlign.align < 2 ^ 63

/-- All objects that are created are mapped so, with the sizes the library has decided on. -/
def Bases.Mapped (lib : Lib) (skip : Bool) (svc : Svc) (mode : Mode) (bases : Bases) : Prop :=
  ∀ d q b, sizes lib skip svc mode = some (d, q, b) →
    Sizing.Mapped lib bases.data d ∧ Sizing.Mapped lib bases.qm q ∧ (svc.asilB = true → Sizing.Mapped lib bases.asilB b)

/-- The size set in the configuration, if any, is at least `n`. -/
def AtLeast (manual : Option Nat) (n : Nat) : Prop := ∀ m, manual = some m → n ≤ m

/-- What has to be configured for a service element: the number of slots and the maximum number of subscribers. -/
def Elem.Configured (e : Elem) : Prop := ∃ n m, e.slots = some n ∧ n + e.tracing ≤ 65535 ∧ e.maxSubs = some m

/-- The sizes are far from the limits of 64 bits: the types of the library have at most 4 KiB, all samples of a service element (with two slots
for getter and setter) at most 1 TiB. -/
structure Modest (lib : Lib) (svc : Svc) : Prop where
  types : ∀ t ∈ [lib.maxAlign, lib.storage, lib.eventEntry, lib.metaEntry, lib.eventStorage, lib.control, lib.controlEntry, lib.pidEntry,
    lib.slot, lib.logSlot, lib.logNode], t.size ≤ 4096
  samples : ∀ e ∈ svc.elems, ∀ n, e.slots = some n → (n + e.tracing + 2) * e.sample.size ≤ 2 ^ 40

end Verif.Sizing
