import Verif.Model.Composite
/-! Vocabulary of the property theorems about the composite control. -/
namespace Verif.Comp
open Verif Verif.Slot Verif.Ctrl

/-- Word of a slot that can be allocated: nobody references it, it is not being written, its timestamp is
below the maximum. -/
def Free (w : Word) : Prop := rcN w = 0 ∧ w ≠ inWriting ∧ tsN w < tsMax

/-- Steps of the provider's call and actions of QM processes: reference counts of every slot, and any word in a slot that the
ASIL-B control (`b`) says has never been published. Nothing else. -/
def QmLoose (b : Nat → Word) : Op → Prop
  | .prov => True
  | .qmRef _ => True
  | .qmDeref _ => True
  | .qmScribble _ _ => True
  | .qmCorrupt i _ => b i = invalidEvent
  | _ => False

/-- The operation is a step of the provider's call. -/
def isProv : Op → Bool
  | .prov => true
  | _ => false

/-- What well-behaved processes do, without provider crash. -/
def Behaved : Op → Prop
  | .restart => False
  | .qmScribble _ _ => False
  | .qmCorrupt _ _ => False
  | _ => True

/-- Misbehaving QM processes change reference counts at will, but no timestamps. -/
def RefCountsOnly : Op → Prop
  | .restart => False
  | .qmCorrupt _ _ => False
  | _ => True

/-- A history of well-behaved processes in which the provider only dies between two calls and only while
the QM side is connected. -/
def CleanCrashes (s : St) : List Op → Prop
  | [] => True
  | op :: ops =>
    ((op = .restart ∧ s.pc = .idle ∧ s.ignore = false) ∨ Behaved op) ∧ CleanCrashes (step s op) ops

end Verif.Comp
