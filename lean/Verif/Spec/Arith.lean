import Verif.Model.Arith
/-! Vocabulary for C46 and C47. -/

namespace Verif.Props.ArithSpec

/-- A value of the 64-bit unsigned type / of the 64-bit signed type. -/
abbrev U64 (n : Nat) : Prop := n < 2 ^ 64

abbrev I64 (x : Int) : Prop := -(2 : Int) ^ 63 ≤ x ∧ x < 2 ^ 63

/-- `r` is the smallest multiple of `align` that is at least `size`. -/
def IsAlignedSize (size align r : Nat) : Prop :=
  align ∣ r ∧ size ≤ r ∧ ∀ k, align ∣ k → size ≤ k → r ≤ k

/-- `offsets` places the elements (pairs of size and alignment) one after the other from `start`: the first lies at
`start`, each next one at the first offset behind its predecessor that its alignment allows, and `total` is the end of
the last one. -/
def Placed (start : Nat) : List (Nat × Nat) → List Nat → Nat → Prop
  | [], os, total => os = [] ∧ total = start
  | [(size, _)], os, total => os = [start] ∧ total = start + size
  | (size, _) :: (size', align') :: rest, os, total =>
    ∃ o os', os = start :: o :: os' ∧ IsAlignedSize (start + size) align' o ∧
      Placed o ((size', align') :: rest) (o :: os') total

end Verif.Props.ArithSpec
