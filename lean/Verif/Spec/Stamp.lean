import Verif.Model.Stamp

/-! Vocabulary for the statements about timestamps. -/
namespace Verif.StampSpec
open Verif.Stamp

variable {V : Type}

/-- The thread is sending; a set handler that waits for the mutex is not. -/
def Sending (p : Pc V) : Prop :=
  (∃ k v, p = .ready k v) ∨ (∃ k v r, p = .loaded k v r) ∨ (∃ k v, p = .stored k v) ∨
  (∃ k v r, p = .read k v r)

/-- No thread is sending. -/
def Quiet (s : St V) : Prop := ∀ t, ¬Sending (s.pc t)

/-- An `Update` starts, or a set handler takes the mutex, only while no `Update` runs; an `Update`
starts only while no set handler runs. -/
def ApartStep (s : St V) : Op V → Prop
  | .call _ .update _ => Quiet s
  | .call _ .set _ => True
  | .next t => (∃ v, s.pc t = .wait v) → ∀ j v r, s.pc j ≠ .ready .update v ∧
      s.pc j ≠ .loaded .update v r ∧ s.pc j ≠ .stored .update v ∧ s.pc j ≠ .read .update v r

/-- No `Update` overlaps with another `Update` or with a set handler.  Set handlers may overlap. -/
def Apart : St V → List (Op V) → Prop
  | _, [] => True
  | s, o :: os => ApartStep s o ∧ Apart (s.step o) os

/-- The thread runs a set handler and holds the mutex. -/
def InSet (p : Pc V) : Prop :=
  (∃ v, p = .ready .set v) ∨ (∃ v r, p = .loaded .set v r) ∨ (∃ v, p = .stored .set v) ∨ (∃ v r, p = .read .set v r)

/-- Only set handlers send. -/
def SetsOnly (ops : List (Op V)) : Prop := ∀ t v, Op.call t .update v ∉ ops

/-- The values of the calls made in a run, in the order of the calls.  (A thread that has not returned from a call makes no other.) -/
def called : St V → List (Op V) → List V
  | _, [] => []
  | s, .call t k v :: os =>
    match s.pc t with
    | .idle => v :: called (s.step (.call t k v)) os
    | _ => called (s.step (.call t k v)) os
  | s, .next t :: os => called (s.step (.next t)) os

end Verif.StampSpec
