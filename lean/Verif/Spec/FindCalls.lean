import Verif.Model.FindCalls

/-! Words for the properties of searches. -/
namespace Verif.FindCalls

/-- The thread is in the handler of the search, perhaps in a call the handler makes. -/
def Running (s : St) (t h : Nat) : Prop := Frame.running h ∈ s.stacks t

/-- The thread is in no call of the library, and in no handler. -/
def Idle (s : St) (t : Nat) : Prop := s.stacks t = []

/-- Somebody stops this search. -/
def Stops (h : Nat) (op : Op) : Prop := ∃ t, op = .stop t h

/-- A thread goes on, or a handler returns. -/
def GoesOn (op : Op) : Prop := ∃ t, op = .go t ∨ op = .finish t

end Verif.FindCalls
