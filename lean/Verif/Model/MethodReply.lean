/-
Method messages with reply between two processes (/repo/score/mw/com/impl/bindings/lola/messaging/message_passing_service_instance.cpp,
/repo/score/mw/com/impl/error_serializer.cpp).
-/
import Verif.Model.GwSerial

namespace Verif.MethodReply
open Verif.GwSerial (le fromLe)

/-- MethodErrc (methods/method_error.h:31-43): the numbers of the errors that are sent in replies. -/
abbrev kSkeletonAlreadyDestroyed : Nat := 1
abbrev kUnexpectedMessage : Nat := 2
abbrev kUnexpectedMessageSize : Nat := 3
abbrev kMessagePassingError : Nat := 4
abbrev kNotSubscribed : Nat := 5
abbrev kNotOffered : Nat := 6
abbrev kUnknownProxy : Nat := 7
abbrev kNumEnumElements : Nat := 8

/-- ComErrc::kBindingFailure (com_error.h, the fourth enumerator). Errors of the two enumerations are told apart by their domain, which
neither IsMethodErrorRecoverable nor SerializeToMethodReplyMessage looks at. -/
abbrev comBindingFailure : Nat := 3

/-- A `score::Result<void>`: `none` for success, the number of the error otherwise. -/
abbrev Res := Option Nat

/-- SkeletonInstanceIdentifier (skeleton_instance_identifier.h:33-37), ProxyInstanceIdentifier (proxy_instance_identifier.h:37-45) and
ProxyMethodInstanceIdentifier (methods/proxy_method_instance_identifier.h, methods/unique_method_identifier.h:30-37). -/
structure Skel where
  service : BitVec 16
  inst : BitVec 16
  deriving DecidableEq, Repr

structure Proxy where
  app : BitVec 32
  counter : BitVec 16
  deriving DecidableEq, Repr

structure ProxyMethod where
  proxy : Proxy
  method : BitVec 16
  kind : BitVec 8
  deriving DecidableEq, Repr

/-- The three messages (message_passing_service_instance.h:147-152, message_passing_service_instance.cpp:65-81). -/
inductive Request where
  | subscribe (s : Skel) (p : Proxy)
  | call (m : ProxyMethod) (pos : BitVec 64)
  | unsubscribe (s : Skel) (p : Proxy)
  deriving DecidableEq, Repr

/-- SerializeToMessage (139-157): the type byte and the object representation of the payload (the layout is that of the usual 64-bit
ABIs). `pad` are the padding bytes: they hold whatever the memory held before. -/
def encode (pad : List UInt8) : Request → List UInt8
  | .subscribe s p => 1 :: (le 2 s.service.toNat ++ le 2 s.inst.toNat ++ le 4 p.app.toNat ++ le 2 p.counter.toNat ++ pad.take 2)
  | .call m pos => 2 :: (le 4 m.proxy.app.toNat ++ le 2 m.proxy.counter.toNat ++ pad.take 2 ++ le 2 m.method.toNat ++
      le 1 m.kind.toNat ++ (pad.drop 2).take 5 ++ le 8 pos.toNat)
  | .unsubscribe s p => 3 :: (le 2 s.service.toNat ++ le 2 s.inst.toNat ++ le 4 p.app.toNat ++ le 2 p.counter.toNat ++ pad.take 2)

/-- `k` bytes of a payload at an offset, as a number. -/
def field (b : List UInt8) (off k : Nat) : Nat := fromLe ((b.drop off).take k)

/-- The payload of a (un)subscribe message: 12 bytes (DeserializeFromPayload, 91-109: the size must be exact). -/
def decodeSub (b : List UInt8) : Option (Skel × Proxy) :=
  if b.length = 12 then
    some (⟨BitVec.ofNat 16 (field b 0 2), BitVec.ofNat 16 (field b 2 2)⟩, ⟨BitVec.ofNat 32 (field b 4 4), BitVec.ofNat 16 (field b 8 2)⟩)
  else none

/-- The payload of a call message: 24 bytes (ditto). -/
def decodeCall (b : List UInt8) : Option (ProxyMethod × BitVec 64) :=
  if b.length = 24 then
    some (⟨⟨BitVec.ofNat 32 (field b 0 4), BitVec.ofNat 16 (field b 4 2)⟩, BitVec.ofNat 16 (field b 8 2), BitVec.ofNat 8 (field b 10 1)⟩,
      BitVec.ofNat 64 (field b 16 8))
  else none

/-- A call of a registered handler, with its arguments. -/
inductive Invocation where
  | subscribed (s : Skel) (p : Proxy) (uid pid : Nat)
  | unsubscribed (s : Skel) (p : Proxy)
  | called (m : ProxyMethod) (pos : BitVec 64)
  deriving DecidableEq, Repr

/-- The handler tables at the moment a message is handled, and what the handlers would return: `none` if the scope of the handler has
expired (the skeleton has stopped offering), else its result. Each table is read once, under its lock; the handler is called on a copy
after the lock has been released. The method call handler returns no result. -/
structure Server where
  /-- registered by the offered services; the user ids that may subscribe, if restricted -/
  subscribeHandler : Skel → Option (Option (List Nat))
  unsubscribeHandler : Skel → Bool
  /-- registered for each method of each subscribed proxy; the user id that may call -/
  callHandler : ProxyMethod → Option Nat
  outcome : Invocation → Option Res

/-- The check of the allowed consumers (674-680): no list means everybody. -/
def mayUse (allowed : Option (List Nat)) (uid : Nat) : Bool :=
  match allowed with
  | none => true
  | some uids => decide (uid ∈ uids)

/-- CallSubscribeServiceMethodLocally (652-692). -/
def callSubscribe (s : Server) (sk : Skel) (p : Proxy) (uid pid : Nat) : Res × List Invocation :=
  match s.subscribeHandler sk with
  | none => (some kNotOffered, [])
  | some allowed =>
    if mayUse allowed uid = false then (some kUnknownProxy, [])
    else
      match s.outcome (.subscribed sk p uid pid) with
      | none => (some kSkeletonAlreadyDestroyed, [])
      | some r => (r, [.subscribed sk p uid pid])

/-- CallUnsubscribeServiceMethodLocally (694-724). -/
def callUnsubscribe (s : Server) (sk : Skel) (p : Proxy) : Res × List Invocation :=
  if s.unsubscribeHandler sk = false then (none, [])
  else
    match s.outcome (.unsubscribed sk p) with
    | none => (none, [])
    | some r => (r, [.unsubscribed sk p])

/-- CallServiceMethodLocally (726-761). The result of the handler is not a `Result`; it is ignored. -/
def callMethod (s : Server) (m : ProxyMethod) (pos : BitVec 64) (uid : Nat) : Res × List Invocation :=
  match s.callHandler m with
  | none => (some kNotSubscribed, [])
  | some allowed =>
    if allowed ≠ uid then (some kUnknownProxy, [])
    else
      match s.outcome (.called m pos) with
      | none => (some kSkeletonAlreadyDestroyed, [])
      | some _ => (none, [.called m pos])

/-- MessageCallbackWithReply (408-442) with HandleSubscribeServiceMethodMsg, HandleUnsubscribeServiceMethodMsg and HandleCallMethodMsg
(606-650): the result, and the handlers that were called. -/
def messageCallback (s : Server) (uid pid : Nat) : List UInt8 → Res × List Invocation
  | [] => (some kUnexpectedMessageSize, [])
  | t :: payload =>
    if t = 1 then
      match decodeSub payload with
      | none => (some kUnexpectedMessageSize, [])
      | some (sk, p) => callSubscribe s sk p uid pid
    else if t = 3 then
      match decodeSub payload with
      | none => (some kUnexpectedMessageSize, [])
      | some (sk, p) => callUnsubscribe s sk p
    else if t = 2 then
      match decodeCall payload with
      | none => (some kUnexpectedMessageSize, [])
      | some (m, pos) => callMethod s m pos uid
    else (some kUnexpectedMessage, [])

/-- IsMethodErrorRecoverable (181-205); `none`: the precondition is violated and the process is aborted. Only the number is compared,
not the domain of the error. -/
def recoverable (e : Nat) : Option Bool :=
  if e = kSkeletonAlreadyDestroyed ∨ e = kUnknownProxy ∨ e = kNotSubscribed ∨ e = kNotOffered then some true
  else if e = kUnexpectedMessage ∨ e = kUnexpectedMessageSize ∨ e = kMessagePassingError then some false
  else none

/-- SerializeToMethodReplyMessage (159-179), ErrorSerializer::SerializeSuccess, SerializeError (error_serializer.cpp:24-46): four bytes;
`none`: the precondition is violated and the process is aborted. -/
def encodeReply : Res → Option (List UInt8)
  | none => some (le 4 0)
  | some e => if 0 < e ∧ e < kNumEnumElements then some (le 4 e) else none

/-- What happened to the provider process when a message arrived. -/
inductive Outcome where
  /-- the callback returned: the replies sent, whether it returned an error (and the connection is closed), the handlers called -/
  | returned (replies : List (List UInt8)) (closed : Bool) (calls : List Invocation)
  /-- `value()` was called on an empty optional, or an assertion failed: the process does not survive; the replies sent before -/
  | crashed (replies : List (List UInt8))
  deriving DecidableEq, Repr

/-- The callback of CreateSendMessageWithReplyCallback (317-374). `live`: the scope of the instance has not expired (its expiry waits
for running calls). `sent`: IServerConnection::Reply succeeds, in the first and in the second place where it is called. -/
def onMessage (live sent : Bool) (s : Server) (uid pid : Nat) (msg : List UInt8) : Outcome :=
  if live = false then
    match encodeReply (some kSkeletonAlreadyDestroyed) with
    | none => .crashed []
    | some b =>
      if sent = false then .returned [] true []
      -- no return here: function_invocation_result.value() is evaluated although it has none
      else .crashed [b]
  else
    let (res, calls) := messageCallback s uid pid msg
    match (match res with | none => some false | some e => (recoverable e).map (!·)) with
    | none => .crashed []
    | some unrecoverable =>
      match encodeReply res with
      | none => .crashed []
      | some b =>
        if sent = false then .returned [] true calls
        else .returned [b] unrecoverable calls

/-- ErrorSerializer::Deserialize (error_serializer.cpp:48-67) on the number in a reply; `none`: the process is aborted.
score::result::ErrorCode is a signed 32-bit number, so numbers from 2^31 on are negative and violate the precondition too. -/
def decodeErr (n : Nat) : Option Res :=
  if n < kNumEnumElements then some (if n ≠ 0 then some n else none) else none

/-- DeserializeFromMethodReplyPayload (115-137); outer `none`: abort. -/
def decodeReply (b : List UInt8) : Option Res :=
  if b.length ≠ 4 then some (some kUnexpectedMessageSize) else decodeErr (fromLe b)

/-- CallSubscribeServiceMethodRemotely, CallUnsubscribeServiceMethodRemotely and CallServiceMethodRemotely (763-863) after SendWaitReply
has returned `reply` (`none`: an error), and the callers SubscribeServiceMethod, UnsubscribeServiceMethod and CallMethod (1538-1618),
which replace every error by ComErrc::kBindingFailure. Outer `none`: the consumer process is aborted. -/
def finish (reply : Option (List UInt8)) : Option Res :=
  match reply with
  | none => some (some comBindingFailure)
  | some b =>
    match decodeReply b with
    | none => none
    | some none => some none
    | some (some _) => some (some comBindingFailure)

/-- A connection: messages are handled one after the other until the callback returns an error or the process is gone. `none`: the
process has crashed. -/
def session (uid pid : Nat) : List (Server × Bool × Bool × List UInt8) → Option (List (List UInt8) × Bool)
  | [] => some ([], true)
  | (s, live, sent, m) :: rest =>
    match onMessage live sent s uid pid m with
    | .crashed _ => none
    | .returned rs true _ => some (rs, false)
    | .returned rs false _ =>
      match session uid pid rest with
      | none => none
      | some (rs', up) => some (rs ++ rs', up)

end Verif.MethodReply
