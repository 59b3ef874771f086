import Verif.Model.GwSerial
/-! Which gateway messages can be represented on the wire. -/
namespace Verif.GwSerial

/-- A C string: not empty, and without NUL. -/
def CString (s : List UInt8) : Prop := s ≠ [] ∧ 0 ∉ s

/-- All texts of the message are C strings, and there are at most 65535 events. -/
def Sendable : Message → Prop
  | .provide spec events _ _ => CString spec ∧ events.length ≤ 65535
  | .offer spec => CString spec
  | .stopOffer spec => CString spec
  | .register spec _ name => CString spec ∧ CString name
  | .unregister spec _ name => CString spec ∧ CString name
  | .update spec _ name => CString spec ∧ CString name
  | .ack _ => True

/-- Size of the message on the wire. -/
def wireSize : Message → Nat
  | .provide spec events _ _ => spec.length + 1 + (2 + 32 * events.length) + 4 + 4
  | .offer spec => spec.length + 1
  | .stopOffer spec => spec.length + 1
  | .register spec _ name => spec.length + 1 + 1 + (name.length + 1)
  | .unregister spec _ name => spec.length + 1 + 1 + (name.length + 1)
  | .update spec _ name => spec.length + 1 + 1 + (name.length + 1)
  | .ack _ => 4

end Verif.GwSerial
