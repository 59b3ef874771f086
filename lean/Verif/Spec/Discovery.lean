/-
Vocabulary for the claims about service discovery: what a search was told last, what a note of the history is about, and which batches
of events are harmless.
-/
import Verif.Model.Discovery

namespace Verif.Discovery

/-- What the handler of search `h` was called with last; nothing found if it has not been called. The history is newest first. -/
def lastResult : List Note → Nat → List Nat
  | [], _ => []
  | .called h' found :: log, h => if h' = h then found else lastResult log h
  | .stopped _ :: log, h => lastResult log h
  | .started _ _ _ _ :: log, h => lastResult log h

/-- The search that a note of the history is about. -/
def Note.search : Note → Nat
  | .started h _ _ _ => h
  | .called h _ => h
  | .stopped h => h

/-- No flag file is created and then removed within these events. -/
def Calm (l : List Ev) : Prop :=
  ∀ a b wd q, l = a ++ ⟨wd, .create q⟩ :: b → ⟨wd, .delete q⟩ ∉ b

/-- In no batch that the worker thread reads. -/
def CalmRun (w : World) : List Op → Prop
  | [] => True
  | o :: ops => Calm (step w o).batch ∧ CalmRun (step w o) ops

mutual
/-- What is done, in nested handlers too, does not include StopFindService for search `h`. -/
def NoStop (h : Nat) : Deed → Prop
  | .act _ => True
  | .stop h' => h' ≠ h
  | .start _ _ _ _ does => NoStops h does
  | .fail _ _ _ _ => True

def NoStops (h : Nat) : List Deed → Prop
  | [] => True
  | d :: ds => NoStop h d ∧ NoStops h ds
end

/-- In an operation of a history nobody stops search `h`. -/
def Op.noStop (h : Nat) : Op → Prop
  | .app d => NoStop h d
  | .read _ => True
  | .handle _ does _ => ∀ log, NoStops h (does log)

end Verif.Discovery
