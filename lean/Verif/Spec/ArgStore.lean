import Verif.Model.ArgStore
import Verif.Spec.CallQueue
/-! Vocabulary for the storage of method arguments and results. -/
namespace Verif.ArgStore
open CallQueue

/-- `o` is the least multiple of `k` that is not below `a`. -/
def NextMultiple (a k o : Nat) : Prop := a ≤ o ∧ k ∣ o ∧ ∀ o', a ≤ o' → k ∣ o' → o ≤ o'

/-- The members of a C++ struct: each at the first place after the one before it that fits its alignment. The last number is the end
of the last member. -/
def StructFrom (a : Nat) : List TypeInfo → List Nat → Nat → Prop
  | [], [], e => e = a
  | t :: ts, o :: os, e => NextMultiple a t.align o ∧ StructFrom (o + t.size) ts os e
  | _, _, _ => False

/-- The values have the sizes of their types. -/
def Fit : List TypeInfo → List (List Byte) → Prop
  | [], [] => True
  | t :: ts, v :: vs => v.length = t.size ∧ Fit ts vs
  | _, _ => False

/-- Objects of these types at these addresses: aligned, inside of the span, and apart from each other. -/
def Objects (s : Span) : List TypeInfo → List Nat → Prop
  | [], [] => True
  | t :: ts, p :: ps => t.align ∣ p ∧ Span.Inside ⟨p, t.size⟩ s ∧ 
      (∀ (k : Nat) (t' : TypeInfo) (p' : Nat), ts[k]? = some t' → ps[k]? = some p' → Span.Apart ⟨p, t.size⟩ ⟨p', t'.size⟩) ∧
      Objects s ts ps
  | _, _ => False

end Verif.ArgStore
