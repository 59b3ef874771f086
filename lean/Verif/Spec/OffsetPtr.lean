import Verif.Model.OffsetPtr
/-! Vocabulary for C48 to C50. -/
namespace Verif.OffsetPtr

/-- Addresses, sizes and offsets are representable. -/
def Addr (a : Nat) : Prop := a < 2 ^ 64
def Off (i : Int) : Prop := -(2 ^ 63) ≤ i ∧ i < 2 ^ 63

instance (a : Nat) : Decidable (Addr a) := by unfold Addr; infer_instance
instance (i : Int) : Decidable (Off i) := by unfold Off; infer_instance

/-- The object of `size` bytes at `p` lies completely inside the region. -/
def Inside (p size : Nat) (r : Nat × Nat) : Prop := r.1 ≤ p ∧ p + size ≤ r.2

/-- The OffsetPtr with content `o` at address `a` designates `p` (0: it is null). -/
def Designates (a : Nat) (o : OP) (p : Nat) : Prop :=
  (p = 0 ∧ o.off = nullRep) ∨ (p ≠ 0 ∧ o.off ≠ nullRep ∧ (a : Int) + o.off = p)

/-- An OffsetPtr at `a` does not straddle the border of a registered region. -/
def Placed (env : Env) (a : Nat) : Prop :=
  a + ptrSize < 2 ^ 64 ∧
  match env.region a with
  | some r => r.1 ≤ a ∧ a + ptrSize ≤ r.2
  | none => env.region (a + ptrSize) = none

/-- Copying from place to place. -/
def copies (env : Env) (a : Nat) (o : OP) : List Nat → Res (Nat × OP)
  | [] => .ok (a, o)
  | d :: ds => (copy env a o d).bind (fun o' => copies env d o' ds)

/-- What a user does with an OffsetPtr: copy it to another place, or move it by elements. -/
inductive Use where
  | copy (dst : Nat)
  | advance (k : Int)
  deriving DecidableEq, Repr

def uses (env : Env) (size a : Nat) (o : OP) : List Use → Res (Nat × OP)
  | [] => .ok (a, o)
  | .copy d :: us => (copy env a o d).bind (fun o' => uses env size d o' us)
  | .advance k :: us => (advance o size k).bind (fun o' => uses env size a o' us)

/-- No null OffsetPtr is moved. -/
def NoNullArith (env : Env) (size a : Nat) (o : OP) : List Use → Prop
  | [] => True
  | .copy d :: us => ∀ o', copy env a o d = .ok o' → NoNullArith env size d o' us
  | .advance k :: us => o.off ≠ nullRep ∧ ∀ o', advance o size k = .ok o' → NoNullArith env size a o' us

end Verif.OffsetPtr
