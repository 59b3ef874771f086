import Verif.Model.GwApp
/-! Vocabulary for C43 to C45. -/
namespace Verif.GwApp

/-! Situations that end the gateway process (C44). -/

/-- A peer message about an element that is not an event. -/
def OddType (ops : List Op) : Prop :=
  ∃ n ty e, ty ≠ eventType ∧ (.peerUnregister n ty e ∈ ops ∨ ∃ b, .peerNotify n ty e b ∈ ops)

/-- A service was reported as available but its proxy could not be created or the peer did not acknowledge. -/
def NotForwarded (n : Nat) (ops : List Op) : Prop := ∃ es c k, .available n es c k ∈ ops ∧ (c = false ∨ k = false)

/-- A subscription change met a running re-registration. -/
def Met (s0 : St) (ops : List Op) : Prop :=
  ∃ pre n e on k post, ops = pre ++ .subscription n e on k :: post ∧ iterates (run s0 pre) n = true

/-- A service is reported as unavailable that has not been reported as available, or whose forwarding failed. -/
def LostProxy (ops : List Op) : Prop :=
  ∃ pre n k post, ops = pre ++ .unavailable n k :: post ∧ ((∀ es c k', .available n es c k' ∉ pre) ∨ NotForwarded n pre)

/-! Requests to the peer (C45).  `Ev.register` and `Ev.unregister` follow changes of the local subscription state,
`Ev.reregister` follows a message of the peer that provides the service again. -/

def isRegister (n e : Nat) : Ev → Bool
  | .register n' e' _ => n' == n && e' == e
  | _ => false
def isUnregister (n e : Nat) : Ev → Bool
  | .unregister n' e' _ => n' == n && e' == e
  | _ => false
def isReregister (n e : Nat) : Ev → Bool
  | .reregister n' e' _ => n' == n && e' == e
  | _ => false
def isProvideOf (n : Nat) : Op → Bool
  | .peerProvide n' _ _ _ => n' == n
  | _ => false

end Verif.GwApp
