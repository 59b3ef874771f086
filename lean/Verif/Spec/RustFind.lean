import Verif.Model.RustFind

/-! Words for the properties of the asynchronous search. -/
namespace Verif.RustFind

/-- A whole poll. -/
def onePoll : List Op := [.poll, .go]

/-- The future has returned `Pending`, and has not been polled since. -/
def Waiting (s : St) : Prop := s.pc = .waiting

/-- The future has returned or was dropped. -/
def Over (s : St) : Prop := s.pc = .gone

end Verif.RustFind
