import Verif.Model.Arith
/-! OffsetPtr (/repo/score/memory/shared/offset_ptr.h) and its bounds checks (offset_ptr_bounds_check.cpp,
pointer_arithmetic_util.cpp). Addresses are natural numbers below 2^64, offsets integers; that an offset lies in the range of
std::ptrdiff_t is a hypothesis of the theorems where it matters. The registry is the function that finds the bounds of the
registered region of an address (C51, C52). -/
namespace Verif.OffsetPtr

inductive Res (α : Type) where
  | ok (a : α)
  /-- A failed assertion or std::terminate. -/
  | abort
  /-- Undefined behaviour: signed overflow. -/
  | ub
  deriving DecidableEq, Repr

def Res.bind {α β : Type} : Res α → (α → Res β) → Res β
  | .ok a, f => f a
  | .abort, _ => .abort
  | .ub, _ => .ub

/-- kNullPtrRepresentation and sizeof(OffsetPtr): an offset and the two bounds. -/
def nullRep : Int := 1
def ptrSize : Nat := 24

/-- The content of an OffsetPtr: `offset_` and `memory_bounds_` (`none`: MemoryRegionBounds without value). -/
structure OP where
  off : Int
  bnd : Option (Nat × Nat)
  deriving DecidableEq, Repr

/-- IsBoundsCheckingEnabled and MemoryResourceRegistry::GetBoundsFromAddress. -/
structure Env where
  enabled : Bool
  region : Nat → Option (Nat × Nat)

/-- A failed assertion of the arithmetic aborts. -/
def lift {α : Type} : Option α → Res α
  | some a => .ok a
  | none => .abort

/-- The arithmetic is that of Model/Arith.lean: AddOffsetToPointerAsInteger, AddSignedOffsetToPointerAsInteger,
SubtractPointersBytes (pointer_arithmetic_util.cpp:33-56, 125-168). -/
def addU (a n : Nat) : Res Nat := lift (Arith.addOffset a n)
def addS (a : Nat) (off : Int) : Res Nat := lift (Arith.addSigned a off)
def subPtr (p a : Nat) : Res Int := lift (Arith.subPointers p a)

/-- CalculateOffsetFromPointer (offset_ptr.h:454-466). -/
def offsetFrom (a p : Nat) : Res Int :=
  if p = 0 then .ok nullRep
  else (subPtr p a).bind (fun d => if d = nullRep then .abort else .ok d)

/-- CalculatePointerFromOffset, GetPointerWithoutBoundsCheck (offset_ptr.h:473-501, 590-598). -/
def raw (a : Nat) (off : Int) : Res Nat := if off = nullRep then .ok 0 else addS a off

/-- The constructor from a pointer and operator=(pointer) (offset_ptr.h:398-401, 427-432): `this` is at address `a`. -/
def ofPtr (a p : Nat) : Res OP := (offsetFrom a p).bind (fun d => .ok ⟨d, none⟩)

/-- The bounds CopyFrom gives to the target (offset_ptr.h:508-533). -/
def copyBounds (env : Env) (src : Nat) (o : OP) (dst : Nat) : Option (Nat × Nat) :=
  if env.enabled then
    match env.region src, env.region dst with
    | some r, none => some r
    | none, none => o.bnd
    | _, _ => none
  else none

/-- CopyFrom (offset_ptr.h:503-546), used by the copy constructors and assignments: from address `src` to `dst`. -/
def copy (env : Env) (src : Nat) (o : OP) (dst : Nat) : Res OP :=
  (raw src o.off).bind (fun p =>
    if p = 0 then .ok ⟨nullRep, none⟩
    else (offsetFrom dst p).bind (fun d => .ok ⟨d, copyBounds env src o dst⟩))

/-- IsPointerWithinMemoryBounds (offset_ptr_bounds_check.cpp:33-36). -/
def within (p : Nat) (r : Nat × Nat) : Bool := r.1 ≤ p && p ≤ r.2

/-- The checks of the pointed-to object (offset_ptr_bounds_check.cpp:60-83 and 121-143). -/
def checkObject (a : Nat) (off : Int) (r : Nat × Nat) (size : Nat) : Res Bool :=
  (addS a off).bind (fun p =>
    if within p r then (addU p size).bind (fun e => .ok (within e r)) else .ok false)

/-- DoesOffsetPtrInSharedMemoryPassBoundsChecks (offset_ptr_bounds_check.cpp:40-85). -/
def checkShm (a : Nat) (off : Int) (r : Nat × Nat) (size : Nat) : Res Bool :=
  (addU a ptrSize).bind (fun e => if within e r then checkObject a off r size else .ok false)

/-- DoesOffsetPtrNotInSharedMemoryPassBoundsChecks (offset_ptr_bounds_check.cpp:93-145). -/
def checkStack (env : Env) (a : Nat) (off : Int) (bnd : Option (Nat × Nat)) (size : Nat) : Res Bool :=
  (addU a ptrSize).bind (fun e =>
    match env.region e with
    | some _ => .ok false
    | none =>
      match bnd with
      | none => .ok true
      | some r => checkObject a off r size)

/-- GetPointerWithBoundsCheck (offset_ptr.h:550-588). -/
def checked (env : Env) (a : Nat) (off : Int) (bnd : Option (Nat × Nat)) (size : Nat) : Res Nat :=
  if env.enabled then
    (match env.region a with
     | some r => checkShm a off r size
     | none => checkStack env a off bnd size).bind (fun b => if b then raw a off else .abort)
  else raw a off

/-- get, operator->, operator pointer (offset_ptr.h:211-258) for a pointed-to type of `size` bytes. -/
def get (env : Env) (a : Nat) (o : OP) (size : Nat) : Res Nat := checked env a o.off o.bnd size

/-- operator* (offset_ptr.h:624-630): the address of the object. -/
def deref (env : Env) (a : Nat) (o : OP) (size : Nat) : Res Nat :=
  (get env a o size).bind (fun p => if p = 0 then .abort else .ok p)

def fits (i : Int) : Prop := -(Arith.H : Int) ≤ i ∧ i < (Arith.H : Int)
instance (i : Int) : Decidable (fits i) := by unfold fits; infer_instance

/-- operator[] (offset_ptr.h:633-641); products and sums outside the range of std::ptrdiff_t are undefined behaviour. -/
def index (env : Env) (a : Nat) (o : OP) (size : Nat) (idx : Int) : Res Nat :=
  if fits (size * idx) ∧ fits (o.off + size * idx) then
    (checked env a (o.off + size * idx) o.bnd size).bind (fun p => if p = 0 then .abort else .ok p)
  else .ub

/-- operator bool (offset_ptr.h:260-263). -/
def nonNull (o : OP) : Bool := o.off ≠ nullRep

/-- IncrementOffset and DecrementOffset (offset_ptr.h:644-672). -/
def increment (o : OP) (size n : Nat) : Res OP :=
  if n ≤ (Arith.W - 1) / size then (lift (Arith.addUnsignedToSigned o.off (n * size))).bind (fun d => .ok { o with off := d })
  else .abort
def decrement (o : OP) (size n : Nat) : Res OP :=
  if n ≤ (Arith.W - 1) / size then (lift (Arith.subUnsignedFromSigned o.off (n * size))).bind (fun d => .ok { o with off := d })
  else .abort

/-- operator+= (offset_ptr.h:675-690); operator-=, ++, -- and the binary operators are made of the same helpers. -/
def advance (o : OP) (size : Nat) (k : Int) : Res OP :=
  if k > 0 then increment o size k.toNat
  else if k < 0 then decrement o size (Arith.absoluteValue k)
  else .ok o

/-- swap (offset_ptr.h:1094-1099): the new contents of `left` (at `la`) and `right` (at `ra`). -/
def swap (env : Env) (la : Nat) (l : OP) (ra : Nat) (r : OP) : Res (OP × OP) :=
  (raw ra r.off).bind (fun p =>
    (copy env la l ra).bind (fun r' => (ofPtr la p).bind (fun l' => .ok (l', r'))))

end Verif.OffsetPtr
