import Verif.Model.Offer
/-! Vocabulary for offering services. -/
namespace Verif.Offer

def Reachable (c : Cfg) (s : St) : Prop := ∃ ops, s = run c init ops

/-- The instance that a thread is offering or has just stopped offering. -/
def Pc.inst : Pc → Option Nat
  | .idle => none
  | .list j | .remove j _ _ | .mkdir j | .create j | .perm j => some j.inst
  | .insert i _ _ _ => some i
  | .undo i _ _ _ _ => some i

/-- Some thread is in a call of OfferService or StopOfferService for the instance. -/
def St.Busy (s : St) (inst : Nat) : Prop := ∃ t, (s.pc t).inst = some inst

/-- The qualities in which process `p` offers the instance, as far as its calls have returned or been accepted. The log is newest
first. -/
def offers : List Ev → Nat → Nat → List Qual
  | [], _, _ => []
  | .offered p i b :: log, p', i' => if p = p' ∧ i = i' then (if b then [.b, .qm] else [.qm]) else offers log p' i'
  | .stopped p i both :: log, p', i' =>
    if p = p' ∧ i = i' then (if both then [] else (offers log p' i').filter (· != .qm)) else offers log p' i'
  | .crashed p :: log, p', i' => if p = p' then [] else offers log p' i'
  | _ :: log, p', i' => offers log p' i'

/-- Process `p` has offered the instance and not stopped both qualities since. -/
def registered : List Ev → Nat → Nat → Bool
  | [], _, _ => false
  | .offered p i _ :: log, p', i' => if p = p' ∧ i = i' then true else registered log p' i'
  | .stopped p i true :: log, p', i' => if p = p' ∧ i = i' then false else registered log p' i'
  | .crashed p :: log, p', i' => if p = p' then false else registered log p' i'
  | _ :: log, p', i' => registered log p' i'

/-- A flag file is left over: since it was last made, its process has ended, or its permissions could not be set. -/
def LeftOver (log : List Ev) (f : File) : Prop :=
  ∃ post pre, log = post ++ .created f :: pre ∧ .created f ∉ post ∧
    (.crashed f.pid ∈ post ∨ .leaked f ∈ post)

/-- The calls for one instance do not overlap, and no two processes offer the same instance at the same time. -/
def Orderly (c : Cfg) (s : St) : Op → Prop
  | .offer t inst _ => ¬ s.Busy inst ∧ ∀ p, p ≠ c t → offers s.log p inst = []
  | .stop _ inst _ => ¬ s.Busy inst
  | _ => True

def OrderlyRun (c : Cfg) (s : St) : List Op → Prop
  | [] => True
  | o :: os => Orderly c s o ∧ OrderlyRun c (step c s o) os

/-- No removal of a flag file fails that its owner gives up. -/
def Removable (s : St) : Op → Prop
  | .next t ok =>
    match s.pc t with
    | .undo _ _ _ _ _ => ok = true
    | _ => True
  | _ => True

def RemovableRun (c : Cfg) (s : St) : List Op → Prop
  | [] => True
  | o :: os => Removable s o ∧ RemovableRun c (step c s o) os

end Verif.Offer
