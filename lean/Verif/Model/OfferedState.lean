/-! /repo/score/mw/com/impl/bindings/lola/methods/offered_state_machine.{h,cpp}: the proxy's view of the offer state. -/
namespace Verif.OfferedState

/-- offered_state_machine.h:48-53. -/
inductive State where
  | offered
  | stopOffered
  | reOffered
  deriving DecidableEq, Repr

inductive Op where
  | offer
  | stopOffer
  deriving DecidableEq, Repr

/-- offered_state_machine.cpp:28-36 with the state classes (lines 41-69); `none` is the failing assertion. -/
def step : State → Op → Option State
  | .offered, .offer => some .offered
  | .offered, .stopOffer => some .stopOffered
  | .stopOffered, .offer => some .reOffered
  | .stopOffered, .stopOffer => none
  | .reOffered, .offer => none
  | .reOffered, .stopOffer => some .stopOffered

/-- A history from the initial state OFFERED (offered_state_machine.cpp:20-26); `none` if an assertion failed. -/
def run (h : List Op) : Option State := h.foldl (fun s o => s.bind (step · o)) (some .offered)

end Verif.OfferedState
