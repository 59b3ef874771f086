import Verif.Model.AllocPtr

/-! # Sample pointers, as a provider sees them -/
namespace Verif.Spec.AllocPtr
open Verif.AllocPtr

variable {V : Type}

/-- The pointer points to a sample of the event. -/
def Holds (p : Ptr) (e : Nat) : Prop := ∃ b m s, p.bin = some b ∧ b.obj = some (e, m, s)

/-- The pointer points to this place: event, memory and slot. -/
def At (p : Ptr) (e m s : Nat) : Prop := ∃ b, p.bin = some b ∧ b.obj = some (e, m, s)

/-- The pointer is empty. -/
def Empty (p : Ptr) : Prop := ∀ e, ¬ Holds p e

/-- What a tidy provider does: an event is not withdrawn and does not end while there is a
pointer to a sample of it, a sample is sent by the event from which it is, and only a pointer
that is not empty is sent or written through. -/
def Tidy (w : World V) : Step V → Prop
  | .stopOffer e => ∀ p ∈ w.ptrs, ¬ Holds p e
  | .destroyEvent e => ∀ p ∈ w.ptrs, ¬ Holds p e
  | .send e i => ∃ p, w.ptrs[i]? = some p ∧ Holds p e
  | .write i _ => ∃ p e, w.ptrs[i]? = some p ∧ Holds p e
  | _ => True

/-- Each step of a program is tidy. -/
def AllTidy (size : Nat → Nat) (l : List (Step V)) : Prop :=
  ∀ a x b, l = a ++ x :: b → Tidy (run size a) x

/-- The newest published time stamp of an event is below this one. -/
def Newer (v : Event V) (t : Nat) : Prop :=
  ∀ s u : Nat, v.slots[s]? = some (Slot.ready u) → u < t

end Verif.Spec.AllocPtr
