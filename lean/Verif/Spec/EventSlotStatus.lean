import Verif.Model.EventSlotStatus
/-! Vocabulary for C01. -/

namespace Verif.Props.C01
open Verif.Slot

/-- The three states a slot can be in, stated on the halves of the word. -/
def Never (w : Word) : Prop := w.toNat = 0

def Writing (w : Word) : Prop := w.toNat / 2 ^ 32 = 0 ∧ w.toNat % 2 ^ 32 = 2 ^ 32 - 1

def Readable (w : Word) : Prop := ¬ Never w ∧ ¬ Writing w

end Verif.Props.C01
