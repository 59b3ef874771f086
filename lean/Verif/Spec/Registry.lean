import Verif.Model.Registry
/-! Vocabulary for C53. -/
namespace Verif.Registry

/-- The region of `e` is a proper one and touches no region in use for bounds checking. -/
def Separate (s : St) (e : Entry) : Prop :=
  0 < e.base ∧ e.base < e.endp ∧ ∀ r ∈ s.tab, e.endp ≤ r.1 ∨ r.2 ≤ e.base

/-- Every resource with a new identifier that takes part in bounds checking is inserted while its region is separate from the
regions in use: no insertion is rejected. -/
def NoConflict : St → List Op → Prop
  | _, [] => True
  | s, .insert e :: ops =>
    (found s e.id = none → e.bypass = false → Separate s e) ∧ NoConflict (step s (.insert e)).1 ops
  | s, o :: ops => NoConflict (step s o).1 ops

instance (s : St) (e : Entry) : Decidable (Separate s e) := by unfold Separate; infer_instance

instance decNoConflict : (s : St) → (ops : List Op) → Decidable (NoConflict s ops)
  | _, [] => .isTrue trivial
  | s, .insert e :: ops =>
    have : Decidable (NoConflict (step s (.insert e)).1 ops) := decNoConflict _ _
    by unfold NoConflict; infer_instance
  | s, .remove i :: ops => decNoConflict (step s (.remove i)).1 ops
  | s, .clear :: ops => decNoConflict (step s .clear).1 ops

end Verif.Registry
