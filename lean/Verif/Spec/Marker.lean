import Verif.Model.Marker
/-! What users see of the claim on a service instance. -/
namespace Verif.Marker

/-- Skeleton object `k` exists: Create has returned it and its destructor has not begun. -/
def Exists (s : St) (k : Nat) : Prop := ∃ i, s.pc k = .up i

/-- No object is being created (between opening the file and locking it) while another one is being destroyed (between unlocking the
file and removing its name). -/
def Apart (s : St) : Prop := ∀ k j, (∃ i, s.pc k = .opened i) → s.pc j ≠ .unlocked

/-- `Apart` in all states of the run. -/
def Orderly (c : Nat → Nat) (ops : List Op) : Prop := ∀ pre, pre <+: ops → Apart (run c init pre)

end Verif.Marker
