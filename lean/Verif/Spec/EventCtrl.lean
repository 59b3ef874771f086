import Verif.Model.EventCtrl
/-! Vocabulary for C02 to C08, C11, C12, C15 and C16. -/

namespace Verif.Ctrl
open Verif Verif.Slot
variable {V : Type}

/-- Slots referenced by the getter but not handed out yet. -/
def pend : CPc → List Nat
  | .scan cx _ _ _ => cx.coll
  | .begin cx _ _ _ _ => cx.coll
  | .cas cx _ _ _ => cx.coll
  | .commit cx _ => cx.coll
  | .abort cx _ _ => cx.coll
  | .loadTs cx i => cx.coll ++ [i]
  | .final coll _ _ => coll
  | .deliver todo => todo
  | _ => []

/-- Slot with an open reference transaction, and whether the count was incremented. -/
def mid : CPc → Option (Nat × Bool)
  | .cas _ _ i _ => some (i, false)
  | .abort _ _ i => some (i, false)
  | .commit _ i => some (i, true)
  | _ => none

/-- Does consumer `c` have a counted reference on slot `i`, read off its program state? -/
def hasRef (c : Cons V) (i : Nat) : Bool :=
  c.held i || c.rel i == .begun || (pend c.pc).contains i || mid c.pc == some (i, true)

end Verif.Ctrl

namespace Verif.Props.Ctrl
open Verif Verif.Slot Verif.Ctrl
variable {V : Type}

/-- States the system can get into. -/
def Reachable (n m : Nat) (v0 : V) (s : St V) : Prop := ∃ ops, s = run (init n m v0) ops

/-- The user of consumer `c` holds a SamplePtr on slot `i` from state `s` on, during all of `ops`. -/
def HeldDuring (s : St V) (ops : List (Op V)) (c i : Nat) : Prop :=
  ∀ k, k ≤ ops.length → ((run s (ops.take k)).cons c).held i = true

/-- The process died and its log says of slot `i` that a transaction was begun but not ended, or the
other way round. -/
def Ambiguous (c : Cons V) (i : Nat) : Prop :=
  (c.pc = .crashed ∨ c.pc = .waitTimeout ∨ c.pc = .unsubAbort) ∧ c.b i ≠ c.e i

end Verif.Props.Ctrl

namespace Verif.Props.Seq
open Verif Verif.Slot Verif.Ctrl
variable {V : Type}

/-- Slot `i` holds a sample that consumer `c` has not seen: it can be read, and every sample handed to
the user in this subscription is older. -/
def NewFor (s : St V) (c i : Nat) : Prop :=
  i < s.n ∧ s.slots i ≠ inWriting ∧ s.slots i ≠ invalidEvent ∧ 0 < tsN (s.slots i) ∧
  ∀ d ∈ (s.cons c).delivered, d.1 < tsN (s.slots i)

/-- No call of consumer `c` is in progress. -/
def AtRest (s : St V) (c : Nat) : Prop := (s.cons c).pc = .idle ∧ ∀ i, (s.cons c).rel i = .none

/-- GetNewSamples of consumer `c` with maximum count `k`, undisturbed, after `j` steps. -/
def getNewSamples (s : St V) (c k j : Nat) : St V := run s (.consGet c k :: List.replicate j (.consStep c false))

/-- Nobody uses the slot: it is not being written and its reference count is zero. -/
def FreeSlot (s : St V) (i : Nat) : Prop := i < s.n ∧ s.slots i ≠ inWriting ∧ rcN (s.slots i) = 0

/-- Allocate, undisturbed, after `j` steps. -/
def allocate (s : St V) (j : Nat) : St V := run s (.provAlloc :: List.replicate j .provStep)

/-- Number of SamplePtrs held by the first `m` consumers. -/
def heldTotal (s : St V) : Nat → Nat
  | 0 => 0
  | m + 1 => heldTotal s m + count (fun i => (s.cons m).held i) s.n

end Verif.Props.Seq

namespace Verif.Ctrl
variable {V : Type}

/-- A step of a consumer. -/
def Op.isCons : Op V → Bool
  | .consGet .. | .consStep .. | .consRelease .. | .consRelStep .. | .consCrash .. | .consRecover ..
  | .consResubscribe .. => true
  | _ => false

/-- A restart of the provider. -/
def Op.isRestart : Op V → Bool
  | .provRestart => true
  | _ => false

end Verif.Ctrl
