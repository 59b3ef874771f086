import Verif.Model.RegionTable
/-! Vocabulary for C51: which regions are registered after a history of successful changes (newest first). -/
namespace Verif.RegionTable

def Live : List Upd → Nat × Nat → Prop
  | [], _ => False
  | .add s e :: h, r => r = (s, e) ∨ Live h r
  | .remove s :: h, r => r.1 ≠ s ∧ Live h r
  | .clear :: _, _ => False

/-- Regions do not end before they start. -/
def Forward (us : List Upd) : Prop := ∀ s e, .add s e ∈ us → s ≤ e

end Verif.RegionTable
