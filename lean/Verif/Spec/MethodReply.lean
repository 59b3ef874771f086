/-
Vocabulary for the property about method messages with reply (C59).
-/
import Verif.Model.MethodReply

namespace Verif.MethodReply

/-- The errors a client can recover from: its message was understood, but the service is not there, or the sender is not known or not
subscribed. -/
def Recoverable (e : Nat) : Prop :=
  e = kSkeletonAlreadyDestroyed ∨ e = kNotSubscribed ∨ e = kNotOffered ∨ e = kUnknownProxy

instance (e : Nat) : Decidable (Recoverable e) := by unfold Recoverable; infer_instance

/-- The handlers registered by skeletons report success or one of the errors defined for replies. -/
def HandlersReportDefinedErrors (s : Server) : Prop :=
  ∀ i e, s.outcome i = some (some e) → 1 ≤ e ∧ e ≤ 7

/-- What a request asks the provider to do on behalf of a sender. -/
def Request.invocation (uid pid : Nat) : Request → Invocation
  | .subscribe s p => .subscribed s p uid pid
  | .unsubscribe s p => .unsubscribed s p
  | .call m pos => .called m pos

/-- The sender may do this: the service is offered and open to this user; the method is subscribed, by this user. -/
def Permitted (s : Server) (uid : Nat) : Request → Prop
  | .subscribe sk _ => s.subscribeHandler sk = some none ∨ ∃ uids, s.subscribeHandler sk = some (some uids) ∧ uid ∈ uids
  | .unsubscribe sk _ => s.unsubscribeHandler sk = true
  | .call m _ => s.callHandler m = some uid

/-- A message that is not one of the three requests: wrong type, or wrong size. -/
def Malformed (msg : List UInt8) : Prop :=
  ∀ (pad : List UInt8) (r : Request), pad.length = 7 → msg ≠ encode pad r

/-- A reply with an error number, or 0 for success. -/
def Reply (n : Nat) : List UInt8 := [UInt8.ofNat n, 0, 0, 0]

end Verif.MethodReply
