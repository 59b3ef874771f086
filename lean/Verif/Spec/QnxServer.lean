import Verif.Model.QnxServer

/-!
# What a user of a server on QNX relies on
-/
namespace Verif.QnxServerSpec
open Verif.QnxServer

/-- The session an event is about. -/
def session : Event → Nat
  | .connect id _ _ _ => id
  | .sent id _ _ => id
  | .request id _ _ => id
  | .disconnect id _ => id
  | .reply id => id

/-- All that the user sees of a session. -/
def seen (log : List Event) (id : Nat) : List Event := log.filter (session · == id)

/-- Calls go to the handler that the connect callback gave, or to a callback of the server given in the `g`-th call
of `StartListening` or later. -/
def Right (g : Nat) : User → To → Prop
  | .handler h, t => t = .handler h
  | .other, t => ∃ g', g ≤ g' ∧ t = .server g'

/-- A message of session `id`, given to the right one, or a reply to it. -/
def Message (id g : Nat) (u : User) (e : Event) : Prop :=
  (∃ t b, Right g u t ∧ (e = .sent id t b ∨ e = .request id t b)) ∨ e = .reply id

/-- The life of a session as seen by the user: nothing; a connect callback that refuses; or a connect callback that
accepts, then messages, and at the end perhaps one disconnect callback. -/
inductive Orderly (id : Nat) : List Event → Prop
  | nothing : Orderly id []
  | refused {c g} : Orderly id [.connect id c g none]
  | running {c g u ms} (h : ∀ m ∈ ms, Message id g u m) : Orderly id (.connect id c g (some u) :: ms)
  | ended {c g u ms t} (h : ∀ m ∈ ms, Message id g u m) (ht : Right g u t) :
      Orderly id (.connect id c g (some u) :: (ms ++ [.disconnect id t]))

/-- The session is open. -/
def Open (s : St) (id : Nat) : Prop := ∃ c ∈ s.conns, c.id = id

/-- The user has been told that the session has ended. -/
def Told (s : St) (id : Nat) : Prop := ∃ t, Event.disconnect id t ∈ s.log

/-- The write that a client of this library makes for a message (`SendProtocolMessage`,
qnx_dispatch_engine.cpp 467-494): a whole header, and behind it the code and the message. -/
def proper (code : UInt8) (message : List UInt8) : Raw :=
  { header := 16, nbytes := message.length + 1, plain := true, body := code :: message }

/-- The header is complete. -/
def Complete : Op → Prop
  | .writes _ r _ => r.header = 16 ∧ r.body.length < 2 ^ 64
  | _ => True

/-- `StartListening` is not called while the server listens. -/
def Once (s : St) (ops : List Op) : Prop :=
  ∀ pre ok post, ops = pre ++ Op.startListening ok :: post → (run s pre).mgr = none

end Verif.QnxServerSpec
