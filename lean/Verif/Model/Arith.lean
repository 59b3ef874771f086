/-!
/repo/score/memory/shared/pointer_arithmetic_util.{h,cpp} for 64-bit std::size_t, std::uintptr_t and std::ptrdiff_t.
An unsigned value is a Nat below `W`, a signed one an Int from `-H` to `H - 1`; arithmetic that the code does in an
unsigned type is reduced modulo `W` explicitly. `none` is a failing assertion.
-/
namespace Verif.Arith

/-- 2^64 and 2^63. -/
def W : Nat := 18446744073709551616
def H : Nat := 9223372036854775808

/-- AddOffsetToPointerAsInteger (pointer_arithmetic_util.cpp:33-43). -/
def addOffset (p o : Nat) : Option Nat := if p ≤ (W - 1) - o then some ((p + o) % W) else none

/-- SubtractOffsetFromPointerAsInteger (pointer_arithmetic_util.cpp:58-64). -/
def subOffset (p o : Nat) : Option Nat := if o ≤ p then some (p - o) else none

/-- AddSignedOffsetToPointerAsInteger (pointer_arithmetic_util.cpp:45-56). safe_math::Abs is not in the repository; it is
modelled as the exact absolute value in the unsigned type. -/
def addSigned (p : Nat) (o : Int) : Option Nat := if o < 0 then subOffset p o.natAbs else addOffset p o.toNat

/-- SubtractPointersBytes (pointer_arithmetic_util.cpp:125-168). -/
def subPointers (a b : Nat) : Option Int :=
  if b < a then
    match subOffset a b with
    | none => none
    | some r => if r > H - 1 then none else some r
  else
    match subOffset b a with
    | none => none
    | some r =>
      if r = (H - 1) + 1 then some (-(H : Int))
      else if r > H - 1 then none
      else some (-1 * (r : Int))

/-- AbsoluteValue (pointer_arithmetic_util.h:153-166). -/
def absoluteValue (x : Int) : Nat := if x = -(H : Int) then (H - 1) + 1 else x.natAbs

/-- static_cast from the signed to the unsigned type. -/
def toUnsigned (x : Int) : Nat := (x % (W : Int)).toNat

/-- UndoSignedToUnsignedIntegerCast (pointer_arithmetic_util.h:178-203). -/
def undoCast (u : Nat) : Int :=
  if u ≤ H - 1 then (u : Int)
  else ((((u : Int) - (toUnsigned (-(H : Int)) : Int)) % (W : Int))) + -(H : Int)

/-- AddUnsignedToSigned (pointer_arithmetic_util.h:211-236). -/
def addUnsignedToSigned (x : Int) (u : Nat) : Option Int :=
  let r := undoCast ((toUnsigned x + u) % W)
  if r ≥ x then some r else none

/-- SubtractUnsignedFromSigned (pointer_arithmetic_util.h:238-263). -/
def subUnsignedFromSigned (x : Int) (u : Nat) : Option Int :=
  let r := undoCast ((toUnsigned x + (W - u)) % W)
  if r ≤ x then some r else none

/-- CalculateAlignedSize (pointer_arithmetic_util.h:58-73). -/
def alignedSize (size align : Nat) : Option Nat :=
  if align = 0 then none
  else if size % align = 0 then some size
  else if size > align then
    if size ≤ (W - 1) - align then some ((size + align - size % align) % W) else none
  else some align

/-- CalculateAlignedSizeOfSequence (pointer_arithmetic_util.cpp:66-93) from element `i` on with `total` so far; elements
are pairs of size and alignment. -/
def alignedSequenceFrom (total : Nat) : List (Nat × Nat) → Option Nat
  | [] => some total
  | [(size, align)] =>
    if align = 0 then none else if total ≤ (W - 1) - size then some (total + size) else none
  | (size, align) :: (size', align') :: rest =>
    if align = 0 then none
    else if total ≤ (W - 1) - size then
      if align' = 0 then none
      else match alignedSize (total + size) align' with
        | none => none
        | some t => alignedSequenceFrom t ((size', align') :: rest)
    else none

def alignedSequence (l : List (Nat × Nat)) : Option Nat := alignedSequenceFrom 0 l

end Verif.Arith
