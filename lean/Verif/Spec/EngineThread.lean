import Verif.Model.EngineThread

/-! Words for the properties of the thread of an engine. -/
namespace Verif.EngineThread

/-- The events that came, the oldest first. -/
def arrivals (l : List Ev) : List Nat :=
  (l.filterMap fun e => match e with | .arrived n => some n | _ => none).reverse

/-- The events whose handlers were called, the oldest first. -/
def calls (l : List Ev) : List Nat :=
  (l.filterMap fun e => match e with | .called n => some n | _ => none).reverse

/-- The constructor has returned and the destructor was not called. -/
def Up (s : St) : Prop := .built ∈ s.log ∧ .destroyCalled ∉ s.log

/-- The thread of the engine is in a handler. -/
def InHandler (s : St) : Prop := ∃ n, s.th = .running n

/-- Threads go on, handlers return, and the system does what it is asked for. -/
def GoesOn (op : Op) : Prop := op = .go true ∨ op = .thread true ∨ op = .finish

end Verif.EngineThread
