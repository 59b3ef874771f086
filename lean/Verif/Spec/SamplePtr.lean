import Verif.Model.SamplePtr
/-! Vocabulary for C107. -/
namespace Verif.Spec.SamplePtr
open Verif.SamplePtr

section
variable {V : Type}

/-- The variable `i` is not null and leads to slot `s`. -/
def Holds (w : World V) (i s : Nat) : Prop := (w.get i).bool = true ∧ (w.get i).target = some s

/-- The variable `i` is null. -/
def Null (w : World V) (i : Nat) : Prop := (w.get i).bool = false ∧ (w.get i).target = none

/-- Which variables a program must not read: those that were the source of a move assignment (with another variable) and those that
are being destroyed. What is moved out of such a variable must not be read either. `len` is the number of variables. -/
def spend (len : Nat) (sp : Nat → Bool) : Step V → Nat → Bool
  | .move i, x => if x = len then sp i else if x = i then false else sp x
  | .assign i j, x => if i = j then sp x else if x = i then sp j else if x = j then true else sp x
  | .swap i j, x => if x = i then sp j else if x = j then sp i else sp x
  | .drop i, x => if x = i then false else sp x
  | .resetTo i j, x => if x = i then sp j else if x = j then false else sp x
  | .endBegin i, x => if x = i then true else sp x
  | _, x => sp x

/-- The variables that must not be read after a program. A step with variables that do not exist does nothing. -/
def spent (w : World V) (l : List (Step V)) : Nat → Bool :=
  (l.foldl (fun (a : World V × (Nat → Bool)) st =>
    (step a.1 st, if (match st with
        | .move i | .drop i | .endBegin i | .endFinish i => decide (i < a.1.ptrs.length)
        | .assign i j | .swap i j | .resetTo i j => decide (i < a.1.ptrs.length) && decide (j < a.1.ptrs.length)
        | _ => true) then spend a.1.ptrs.length a.2 st else a.2)) (w, fun _ => false)).2

/-- The variables that a step changes. -/
def touches : Step V → Nat → Prop
  | .publish _ _, _ => False
  | .getNew _ _ _, _ => False
  | .move i, x => x = i
  | .assign i j, x => x = i ∨ x = j
  | .swap i j, x => x = i ∨ x = j
  | .drop i, x => x = i
  | .resetTo i j, x => x = i ∨ x = j
  | .endBegin i, x => x = i
  | .endFinish i, x => x = i

/-- The number of samples of subscription `c` that variables refer to. -/
def referred (w : World V) (c : Nat) : Nat := w.ptrs.countP fun p => decide ((p.dec.map (·.1)) = some c)

/-- From `w` to `w'` the reference to slot `s` was given back, and one sample of the subscription it was obtained with. -/
def GivesBack (w w' : World V) (s : Nat) : Prop :=
  w'.refs s + 1 = w.refs s ∧ (∀ t, t ≠ s → w'.refs t = w.refs t) ∧
    ∃ c, w'.avail c = w.avail c + 1 ∧ ∀ d, d ≠ c → w'.avail d = w.avail d

/-- Nothing was given back or taken. -/
def KeepsAll (w w' : World V) : Prop := w'.refs = w.refs ∧ w'.avail = w.avail

/-- All variables end. -/
def dropAll (w : World V) : World V := run w ((List.range w.ptrs.length).map .drop)

end
end Verif.Spec.SamplePtr
