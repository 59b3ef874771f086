import Verif.Model.TraceSlots

/-! What users rely on when samples are traced. -/
namespace Verif.TraceSlotsSpec
open Verif.TraceSlots

/-- The element on which a thread works. -/
def element : Pc → Option Nat
  | .pick e _ _ => some e
  | .put e _ _ => some e
  | .call e _ _ => some e
  | .undo e _ => some e
  | .stop e _ => some e
  | _ => none

/-- Slot `c` was given to element `e`. -/
def Own (s : St) (e c : Nat) : Prop := ∃ a n, s.ranges[e]? = some (a, n) ∧ a ≤ c ∧ c < a + n

/-- The process holds a reference to sample `x` in slot `c`. -/
def Holds (s : St) (c x : Nat) : Prop := s.slots c = some x

/-- No other thread works on element `e`. -/
def Free (s : St) (e : Nat) : Prop := ∀ t, element (s.pc t) ≠ some e

/-- A call for an element is made only when no other thread works on it. -/
def AloneAt (s : St) : Op → Prop
  | .trace _ e _ => Free s e
  | .stop _ e => Free s e
  | _ => True

/-- The calls of the threads for one element (sending and stopping) do not overlap. -/
def Alone : St → List Op → Prop
  | _, [] => True
  | s, o :: ops => AloneAt s o ∧ Alone (s.op o) ops

/-- An element is not stopped while the subsystem works on one of its samples or calls
back for it. -/
def SettledAt (s : St) : Op → Prop
  | .stop _ e =>
    (∀ c x, (c, x) ∈ s.flight → ¬ Own s e c) ∧
    (∀ t c, s.pc t = .check c ∨ s.pc t = .clear c → ¬ Own s e c)
  | _ => True

/-- This holds for all calls. -/
def Settled : St → List Op → Prop
  | _, [] => True
  | s, o :: ops => SettledAt s o ∧ Settled (s.op o) ops

/-- The slots that the elements ask for. -/
def asked : List Op → List Nat
  | [] => []
  | .register n :: ops => n :: asked ops
  | _ :: ops => asked ops

/-- All elements ask for at least one slot and there are enough slots for them. -/
def Enough (size : Nat) (ops : List Op) : Prop := (∀ n ∈ asked ops, 0 < n) ∧ (asked ops).sum ≤ size

/-- All threads have returned and the subsystem has no work. -/
def Quiet (s : St) : Prop := (∀ t, s.pc t = .idle) ∧ s.flight = []

/-- The next step of thread `t` ends its call that stops element `e`. -/
def StopReturns (s : St) (t e : Nat) : Prop := (∃ i, s.pc t = .stop e i) ∧ (s.op (.next t true)).pc t = .idle

/-- How often thread `t` was told that there is no slot. -/
def losses (s : St) (t : Nat) : Nat := (s.lost.filter fun p => p.1 == t).length

end Verif.TraceSlotsSpec
