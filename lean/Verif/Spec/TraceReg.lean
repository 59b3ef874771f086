import Verif.Model.TraceReg
import Verif.Spec.TraceCall

/-! What users rely on when traced services are offered and stopped. -/
namespace Verif.TraceRegSpec
open Verif.TraceReg
open Verif.TraceCall (Answer Point)

/-- What the trace subsystem has registered for an instance, from the calls it got: handle and
start address. -/
def registered (s : St) (i : Nat) : Option (Nat × Nat) := TraceCallSpec.object i s.tr.log

/-- A trace point for sending is on for an element of the instance. -/
def Traced (s : St) (i : Nat) : Prop :=
  ∃ e ∈ s.elems i, s.tr.on ⟨i, e, 0⟩ = true ∨ s.tr.on ⟨i, e, 1⟩ = true

/-- The memory is there and every step after it succeeds. -/
def Succeeds (w : World) (m : Mem) : Prop := w.mem = some m ∧ w.methods = true ∧ w.listed = true

/-- Services that are offered are not offered again, and an offer fails only before the memory is there. -/
def CleanAt (s : St) : Op → Prop
  | .offer i w _ => s.offered i = false ∧ (w.mem = none ∨ ∃ m, Succeeds w m)
  | _ => True

/-- At the end of an offer whose memory is registered, tracing is still on for it. -/
def StillOnAt (s : St) : Op → Prop
  | .stop i _ _ => s.offered i = true → registered s i ≠ none → s.tr.enabled = true ∧ Traced s i
  | _ => True

/-- A condition holds at every step. -/
def Always (c : St → Op → Prop) : St → List Op → Prop
  | _, [] => True
  | s, o :: ops => c s o ∧ Always c (s.op o) ops

/-- Memory is registered only while the service is offered, and then it is the memory that the service
uses. -/
def Follows (s : St) : Prop :=
  ∀ i h st, registered s i = some (h, st) →
    s.offered i = true ∧ ∃ m, s.mem i = some m ∧ m.start = st ∧ m.typed = true

end Verif.TraceRegSpec
