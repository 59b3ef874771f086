import Verif.Model.FieldRace

/-!
# What a user of a field relies on when calls overlap
-/
namespace Verif.FieldRaceSpec
open Verif.FieldRace

/-- The sample `x` was the last one sent at some moment of the `Get`: it was when the `Get` began, or it was
sent until the `Get` ended. -/
def CurrentDuring {V : Type} (g : Got V) (x : Nat × V) : Prop :=
  x ∈ g.after.take (g.after.length - g.before.length + 1)

/-- `Update` and the set handlers do not overlap. -/
def Serial {V : Type} (s : St V) (ops : List (Op V)) : Prop :=
  ∀ pre b v post, ops = pre ++ Op.send b v :: post →
    (run s pre).upd = .idle ∧ (run s pre).set = .idle

/-- The number of sends that begin. -/
def sends {V : Type} (ops : List (Op V)) : Nat :=
  (ops.filter fun o => match o with | .send _ _ => true | _ => false).length

/-- The slot is referenced by a consumer or a `Get`. -/
def InUse {V : Type} (s : St V) (i : Nat) : Prop := ∃ ts rc, s.slots i = .ready ts (rc + 1)

/-- The slot may be used for a new value: nothing is in it yet, or a value to which nobody has a reference. -/
def Free {V : Type} (s : St V) (i : Nat) : Prop := s.slots i = .invalid ∨ ∃ ts, s.slots i = .ready ts 0

/-- The steps `ops` from `s` on, during which at most `u` of the slots are in use at any moment or another. -/
def UsesAtMost {V : Type} (s : St V) (ops : List (Op V)) (u : Nat) : Prop :=
  ∃ l : List Nat, l.length ≤ u ∧ ∀ pre post i, ops = pre ++ post → InUse (run s pre) i → i ∈ l

end Verif.FieldRaceSpec
