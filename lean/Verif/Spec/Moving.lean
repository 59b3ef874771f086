import Verif.Model.Moving

/-! # Variables of proxies and skeletons, as a program sees them -/
namespace Verif.Spec.Moving
open Verif.Moving

/-- The variable exists and stands for this service. -/
def Has (w : World) (v s : Nat) : Prop := (w.objs v).alive = true ∧ (w.objs v).service = some s

/-- The variable exists and stands for nothing: it was moved from. -/
def MovedFrom (w : World) (v : Nat) : Prop := (w.objs v).alive = true ∧ (w.objs v).service = none

/-- What the base object of the variable takes for its element `k` is element `j` of variable
`x`. -/
def Finds (w : World) (v k x j : Nat) : Prop := ∃ r, (w.objs v).map k = some r ∧ w.refs r = some (x, j)

/-- The program holds sample `m`, and it is from element `k` of the variable. -/
def HeldFrom (w : World) (v k m : Nat) : Prop :=
  k < (w.objs v).n ∧ ∃ t, w.samples[m]? = some (some t) ∧ ((w.objs v).elems k).tracker = some t

/-- No sample of the variable is held. -/
def NoneHeld (w : World) (v : Nat) : Prop := ∀ k m, ¬ HeldFrom w v k m

/-- What the program sees of a variable. -/
def Same (o p : Obj) : Prop :=
  o.kind = p.kind ∧ o.n = p.n ∧ o.service = p.service ∧ o.offered = p.offered ∧
    ∀ k, k < o.n → (o.elems k).bind = (p.elems k).bind ∧ (o.elems k).flag = (p.elems k).flag ∧
      (o.elems k).tracker = (p.elems k).tracker

/-- What the binding of the service has is as before. -/
def SameService (w w' : World) (s : Nat) : Prop :=
  (∀ k, w'.active s k = w.active s k) ∧ w'.opened s = w.opened s

/-- What a tidy program does: nothing but the end and an assignment to it is done with a variable
that was moved from, and no sample is held when its element is unsubscribed or ends. -/
def Tidy (w : World) : Step → Prop
  | .move i => ¬ MovedFrom w i
  | .assign i j => i = j ∨ (¬ MovedFrom w j ∧ NoneHeld w i)
  | .destroy i => NoneHeld w i
  | .subscribe i _ => ¬ MovedFrom w i
  | .unsubscribe i k => ∀ m, ¬ HeldFrom w i k m
  | .offer i => ¬ MovedFrom w i
  | _ => True

/-- Each step of a program is tidy. -/
def AllTidy (l : List Step) : Prop := ∀ a x b, l = a ++ x :: b → Tidy (run a) x

end Verif.Spec.Moving
