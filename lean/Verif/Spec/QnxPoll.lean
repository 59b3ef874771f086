import Verif.Model.QnxPoll

/-!
# Vocabulary for pulses and endpoints
-/
namespace Verif.QnxPollSpec
open Verif.QnxPoll

/-- The endpoint of a registration is registered. -/
def Registered (s : State) (id : Nat) : Prop := ∃ owner, (id, owner) ∈ s.eps

/-- The callback a pulse was sent for. -/
def meant (p : Pulse) : Call := if p.ping then .ping p.to else .input p.to

/-- How many registrations there were since that of `id`. -/
def since (s : State) (id : Nat) : Nat := s.vals.length - 1 - id

/-- The registration was given a slot: there are fewer than `2^32 - 1` at the same time. -/
def Announced (s : State) (id : Nat) : Prop := ∃ x, s.vals[id]? = some (some x)

end Verif.QnxPollSpec
