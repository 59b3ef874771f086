import Verif.Model.UnixFrame
/-! The sending side of a client connection with the message bytes
(/repo/score/message_passing/client_connection.cpp:93-275, 452-575) and of a server connection
(/repo/score/message_passing/unix_domain/unix_domain_server.cpp:73-93).

Every step is the part of a function between two releases of `send_mutex_`; transmissions done without the lock are
recorded in `tx` and completed by `transmit`, in any order, successfully or not.  Stopping and restarting only matter here
through the connection state, which may change at any time (`setReady`).  The engine may run the send queue at any time
(`process`), which is a superset of the real schedules. -/
namespace Verif.SizedSend
open Verif.UnixFrame

/-- ServiceProtocolConfig::max_send_size and the two flags of IClientFactory::ClientConfig that matter. -/
structure Cfg where
  maxSend : Nat
  fullyOrdered : Bool
  trulyAsync : Bool

/-- Who waits for a transmission: nobody, SendWaitReply, or the send queue (with or without callback). -/
inductive TxKind where
  | direct
  | waitReply
  | queuedRequest
  | queuedSend
  deriving DecidableEq, Repr

structure St where
  ready : Bool
  waiting : Bool
  queue : List (List UInt8 × Bool)
  free : Nat
  tx : List (TxKind × Msg)
  wire : List Msg

def init (free : Nat) : St := ⟨false, false, [], free, [], []⟩

inductive Errno where
  | eagain
  | emsgsize
  | einval
  | enobufs
  | sendError
  deriving DecidableEq, Repr

/-- The result of an API call: `pending` when the outcome depends on a transmission or a reply still to come. -/
inductive Res where
  | ok
  | error (e : Errno)
  | pending
  deriving DecidableEq, Repr

/-- TryQueueMessage (client_connection.cpp:93-105): `none` is false. -/
def tryQueue (s : St) (m : List UInt8) (cb : Bool) : Option St :=
  if s.free = 0 then none
  else some { s with free := s.free - 1, queue := s.queue ++ [(m, cb)] }

/-- ClientToServer codes (client_server_communication.h:21-25). -/
def SEND : UInt8 := 0
def REQUEST : UInt8 := 1

/-- Send (client_connection.cpp:107-146); `ok` is the result of a transmission made under the lock. -/
def send (c : Cfg) (s : St) (m : List UInt8) (ok : Bool) : St × Res :=
  if m.length > c.maxSend then (s, .error .emsgsize)
  else if !s.ready then (s, .error .einval)
  else if !c.fullyOrdered && !c.trulyAsync then ({ s with tx := s.tx ++ [(.direct, (SEND, m))] }, .pending)
  else if !s.waiting then
    if c.trulyAsync then
      match tryQueue s m false with
      | none => (s, .error .enobufs)
      | some s' => ({ s' with waiting := true }, .ok)
    else if ok then ({ s with wire := s.wire ++ [(SEND, m)] }, .ok)
    else (s, .error .sendError)
  else
    match tryQueue s m false with
    | none => (s, .error .enobufs)
    | some s' => (s', .ok)

/-- SendWaitReply (client_connection.cpp:148-229) up to the wait. -/
def sendWaitReply (c : Cfg) (s : St) (m : List UInt8) (inCallback : Bool) : St × Res :=
  if inCallback then (s, .error .eagain)
  else if m.length > c.maxSend then (s, .error .emsgsize)
  else if !s.ready then (s, .error .einval)
  else if s.waiting then
    match tryQueue s m true with
    | none => (s, .error .enobufs)
    | some s' => (s', .pending)
  else ({ s with waiting := true, tx := s.tx ++ [(.waitReply, (REQUEST, m))] }, .pending)

/-- SendWithCallback (client_connection.cpp:231-271). -/
def sendWithCallback (c : Cfg) (s : St) (m : List UInt8) (ok : Bool) : St × Res :=
  if m.length > c.maxSend then (s, .error .emsgsize)
  else if !s.ready then (s, .error .einval)
  else if s.waiting then
    match tryQueue s m true with
    | none => (s, .error .enobufs)
    | some s' => (s', .ok)
  else if c.trulyAsync then
    match tryQueue s m true with
    | none => (s, .error .enobufs)
    | some s' => ({ s' with waiting := true }, .ok)
  else if ok then ({ s with wire := s.wire ++ [(REQUEST, m)], waiting := true }, .ok)
  else (s, .error .sendError)

/-- One iteration of ProcessSendQueueUnderLock (client_connection.cpp:526-572) up to the transmission. -/
def process (s : St) : St :=
  match s.queue with
  | [] => s
  | (m, cb) :: q =>
    { s with queue := q, waiting := true,
             tx := s.tx ++ [if cb then (.queuedRequest, (REQUEST, m)) else (.queuedSend, (SEND, m))] }

/-- What follows a transmission (client_connection.cpp:210-224, 545-570). -/
def afterTx (s : St) (k : TxKind) (ok : Bool) : St :=
  match k with
  | .direct => s
  | .waitReply => if ok then s else if s.queue.isEmpty then { s with waiting := false } else { s with waiting := true }
  | .queuedRequest => if ok then { s with free := s.free + 1 } else { s with free := s.free + 1, waiting := false }
  | .queuedSend => { s with free := s.free + 1, waiting := false }

/-- Completion of the i-th transmission in progress: the kernel takes the whole frame or nothing. -/
def transmit (s : St) (i : Nat) (ok : Bool) : St :=
  match s.tx[i]? with
  | none => s
  | some (k, m) =>
    let s' := { s with tx := s.tx.eraseIdx i, wire := if ok then s.wire ++ [m] else s.wire }
    afterTx s' k ok

inductive Op where
  | send (m : List UInt8) (ok : Bool)
  | sendWaitReply (m : List UInt8) (inCallback : Bool)
  | sendWithCallback (m : List UInt8) (ok : Bool)
  | process
  | transmit (i : Nat) (ok : Bool)
  | reply
  | setReady (b : Bool)

/-- `reply`: the reply branch of ProcessInputEvent (client_connection.cpp:475-483). -/
def step (c : Cfg) (s : St) : Op → St × Res
  | .send m ok => send c s m ok
  | .sendWaitReply m cb => sendWaitReply c s m cb
  | .sendWithCallback m ok => sendWithCallback c s m ok
  | .process => (process s, .ok)
  | .transmit i ok => (transmit s i ok, .ok)
  | .reply => ({ s with waiting := false }, .ok)
  | .setReady b => ({ s with ready := b }, .ok)

def run (c : Cfg) (s : St) (ops : List Op) : St := ops.foldl (fun s o => (step c s o).1) s

/-- Server side limits (unix_domain_server.h, from ServiceProtocolConfig). -/
structure SrvCfg where
  maxReply : Nat
  maxNotify : Nat

inductive SrvOp where
  | reply (m : List UInt8) (ok : Bool)
  | notify (m : List UInt8) (ok : Bool)

/-- Reply and Notify of a server connection (unix_domain_server.cpp:73-93); codes client_server_communication.h:27-31. -/
def srvStep (c : SrvCfg) (wire : List Msg) : SrvOp → List Msg × Res
  | .reply m ok =>
    if m.length > c.maxReply then (wire, .error .emsgsize)
    else if ok then (wire ++ [(0, m)], .ok) else (wire, .error .sendError)
  | .notify m ok =>
    if m.length > c.maxNotify then (wire, .error .emsgsize)
    else if ok then (wire ++ [(1, m)], .ok) else (wire, .error .sendError)

def srvRun (c : SrvCfg) (ops : List SrvOp) : List Msg := ops.foldl (fun w o => (srvStep c w o).1) []

/-- The reply of a SendWaitReply call with a reply buffer of `room` bytes (client_connection.cpp:168-187). -/
def copyReply (room : Nat) (reply : List UInt8) : Except Errno (List UInt8) :=
  if reply.length > room then .error .emsgsize else .ok reply

end Verif.SizedSend
