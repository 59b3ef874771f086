import Verif.Model.Layout
/-! Vocabulary for C106: service elements that can be offered, and places of samples. -/
namespace Verif.Spec.Layout
open Verif.Layout Verif.ElementFqId

/-- The two name the same service element: service, instance and element number agree. -/
def Same (a b : Id) : Prop := a.service = b.service ∧ a.inst = b.inst ∧ a.element = b.element

/-- What C++ guarantees of the types of the library: alignments are not 0, sizeof is a multiple of alignof. -/
def Cpp (t : Ty) : Prop := 0 < t.align ∧ 0 < t.size ∧ t.size % t.align = 0

/-- An element as a provider may have it: the size of a C++ type is a multiple of its alignment, a generic element may
have any size and an alignment not beyond that of std::max_align_t (powers of two divide each other), there are at most
65535 slots, and all samples together (with one to spare) have less than 2^63 bytes. -/
structure Good (lib : Lib) (r : Reg) : Prop where
  align : 0 < r.ty.align
  typed : r.generic = false → r.ty.size % r.ty.align = 0
  generic : r.generic = true → lib.maxAlign.align % r.ty.align = 0
  slots : r.slots < 65536
  bytes : (r.ty.size + r.ty.align) * (r.slots + 1) < 2 ^ 63

/-- The library's types, with a std::max_align_t of less than 2^62 bytes. -/
def GoodLib (lib : Lib) : Prop := Cpp lib.storage ∧ Cpp lib.maxAlign ∧ lib.maxAlign.size < 2 ^ 62

/-- `n` bytes from `a` and `k` bytes from `b` have no byte in common. -/
def Apart (a n b k : Nat) : Prop := a + n ≤ b ∨ b + k ≤ a

instance (a n b k : Nat) : Decidable (Apart a n b k) := inferInstanceAs (Decidable (_ ∨ _))

/-- The provider of the memory `m`, which has registered `r`, writes the sample of slot `s` at `a`. -/
def WritesAt (m : Shm) (r : Reg) (s a : Nat) : Prop := ∃ h, created m r = some h ∧ h.place s = some a

/-- A provider that has been restarted and registers `r` writes the sample of slot `s` at `a`. -/
def WritesAgainAt (m : Shm) (r : Reg) (s a : Nat) : Prop := ∃ h, retrieve m r = some h ∧ h.place s = some a

/-- A consumer with a typed proxy reads the sample of slot `s` of the element `id` at `a`. -/
def ReadsAt (m : Shm) (id : Id) (t : Ty) (s a : Nat) : Prop := ∃ v, typedView m id t = some v ∧ s < v.slots ∧ v.place s = a

/-- A consumer with a generic proxy reads the sample of slot `s` of the element `id` at `a`. -/
def GenericReadsAt (m : Shm) (id : Id) (s a : Nat) : Prop := ∃ v, genericView m id = some v ∧ s < v.slots ∧ v.place s = a

/-- The library keeps its own object for the element `r` at `a`. -/
def KeptAt (m : Shm) (r : Reg) (a : Nat) : Prop := ∃ s, m.events.find r.id = some s ∧ s.obj = a

end Verif.Spec.Layout
