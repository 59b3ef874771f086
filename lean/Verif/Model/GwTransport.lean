import Verif.Lib.Fn
/-! Requests and acknowledgements of the gateway's sample transport
(/repo/score/mw/com/gateway/transport_layer/sample/bidirectional_transport.cpp, pending_request_tracker.cpp).

`Sender`: any number of threads call SendRequest; the peer, the network and the connection are the environment.  Every access
to shared state (the connected flag, the map of pending requests under its mutex, the socket under the send mutex) is one
step.  Messages in transit may be delivered in any order, lost or duplicated by retries; what may not happen is that
something arrives that was not sent.
`Receiver`: the receiving side with its dispatch queue. -/
namespace Verif.GwTransport

/-- Events, for the specification only: what happened, newest first. -/
inductive Ev where
  | registered (t : Nat) (seq : UInt32)
  | transmitted (t : Nat) (seq : UInt32)
  | sendFailed (t : Nat) (seq : UInt32)
  | received (seq : UInt32)
  | acked (seq : UInt32)
  | succeeded (t : Nat) (seq : UInt32)
  | failed (t : Nat) (seq : UInt32)
  deriving DecidableEq, Repr

/-- Where a thread is in SendRequest (bidirectional_transport.cpp:411-455). -/
inductive Pc where
  | idle
  | check (seq : UInt32) (attempt : Nat)
  | reset (seq : UInt32) (attempt : Nat)
  | send (seq : UInt32) (attempt : Nat)
  | wait (seq : UInt32) (attempt : Nat)
  | retry (seq : UInt32) (attempt : Nat)
  | erase (seq : UInt32) (ok : Bool)
  deriving DecidableEq, Repr

structure St where
  /-- next_sequence_ (pending_request_tracker.h:90), wraps. -/
  next : UInt32
  /-- pending_requests_: the acknowledged flag of a pending request. -/
  pending : UInt32 → Option Bool
  connected : Bool
  pc : Nat → Pc
  /-- requests and acknowledgements in transit. -/
  fwd : List UInt32
  acks : List UInt32
  log : List Ev
  /-- number of requests started (ghost). -/
  started : Nat

def init : St := ⟨1, fun _ => none, false, fun _ => .idle, [], [], [], 0⟩

def updP (f : UInt32 → Option Bool) (i : UInt32) (v : Option Bool) : UInt32 → Option Bool :=
  fun j => if j = i then v else f j

inductive Op where
  /-- SendRequest is called by a thread -/
  | start (t : Nat)
  /-- the next step of a thread; `b`: whether sending succeeds, or whether the wait for the acknowledgement times out -/
  | step (t : Nat) (b : Bool)
  /-- the peer receives the i-th request in transit and sends its acknowledgement if `b` -/
  | deliver (i : Nat) (b : Bool)
  /-- the i-th acknowledgement in transit arrives: HandleResponse, Acknowledge -/
  | ackArrives (i : Nat)
  | loseRequest (i : Nat)
  | loseAck (i : Nat)
  | setConnected (b : Bool)
  deriving DecidableEq, Repr

/-- SendRequest up to the registration (bidirectional_transport.cpp:413-421); GetNextSequenceNumber and
RegisterPendingRequest are one step, because nobody else knows the number in between. -/
def start (s : St) (t : Nat) : St :=
  if !s.connected then s
  else { s with next := s.next + 1, pending := updP s.pending s.next (some false), pc := upd s.pc t (.check s.next 0),
                log := .registered t s.next :: s.log, started := s.started + 1 }

/-- The condition of the loop, attempt < kMaxSendRetries = 5 (bidirectional_transport.cpp:424). -/
def loopHead (seq : UInt32) (attempt : Nat) : Pc := if attempt < 5 then .check seq attempt else .erase seq false

/-- One step of SendRequest (bidirectional_transport.cpp:424-454) with TrySendAndWaitForAck (391-409) and WaitForAck
(pending_request_tracker.cpp:58-90). -/
def threadStep (s : St) (t : Nat) (b : Bool) : St :=
  match s.pc t with
  | .idle => s
  | .check q a =>
    if !s.connected then { s with pc := upd s.pc t (.erase q false) }
    else if a > 0 then { s with pc := upd s.pc t (.reset q a) }
    else { s with pc := upd s.pc t (.send q a) }
  | .reset q a =>
    { s with pending := if (s.pending q).isSome then updP s.pending q (some false) else s.pending,
             pc := upd s.pc t (.send q a) }
  | .send q a =>
    if b then { s with fwd := s.fwd ++ [q], log := .transmitted t q :: s.log, pc := upd s.pc t (.wait q a) }
    else { s with log := .sendFailed t q :: s.log, pc := upd s.pc t (.retry q a) }
  | .wait q a =>
    match s.pending q with
    | none => { s with pc := upd s.pc t (.retry q a) }
    | some true => { s with pc := upd s.pc t (.erase q true) }
    | some false => if !s.connected || b then { s with pc := upd s.pc t (.retry q a) } else s
  | .retry q a =>
    if !s.connected then { s with pc := upd s.pc t (.erase q false) }
    else { s with pc := upd s.pc t (loopHead q (a + 1)) }
  | .erase q ok =>
    { s with pending := updP s.pending q none, pc := upd s.pc t .idle,
             log := (if ok then .succeeded t q else .failed t q) :: s.log }

/-- Acknowledge (pending_request_tracker.cpp:47-56). -/
def acknowledge (s : St) (q : UInt32) : St :=
  match s.pending q with
  | none => s
  | some _ => { s with pending := updP s.pending q (some true), log := .acked q :: s.log }

/-- A thread can start a request only when it is not in one. -/
def step (s : St) : Op → St
  | .start t => if s.pc t = .idle then start s t else s
  | .step t b => threadStep s t b
  | .deliver i b =>
    match s.fwd[i]? with
    | none => s
    | some q => { s with fwd := s.fwd.eraseIdx i, acks := if b then s.acks ++ [q] else s.acks, log := .received q :: s.log }
  | .ackArrives i =>
    match s.acks[i]? with
    | none => s
    | some q => acknowledge { s with acks := s.acks.eraseIdx i } q
  | .loseRequest i => { s with fwd := s.fwd.eraseIdx i }
  | .loseAck i => { s with acks := s.acks.eraseIdx i }
  | .setConnected b => { s with connected := b }

def run (s : St) (ops : List Op) : St := ops.foldl step s

end Verif.GwTransport

namespace Verif.GwReceiver

/-- Kinds of incoming messages (transport_message.h:66-88): requests are acknowledged, notifications are not. -/
inductive Kind where
  | request
  | notification
  | response
  deriving DecidableEq, Repr

/-- A message that arrived: its kind and its number in the order of arrival. -/
structure Msg where
  id : Nat
  kind : Kind
  deriving DecidableEq, Repr

inductive Ev where
  | acked (id : Nat)
  | handled (m : Msg)
  deriving DecidableEq, Repr

structure St where
  hasHandler : Bool
  queue : List Msg
  stopped : Bool
  shutdown : Bool
  next : Nat
  /-- what happened, newest first (ghost) -/
  log : List Ev

def init : St := ⟨false, [], false, false, 0, []⟩

inductive Op where
  | setHandler
  /-- a message of the given kind arrives; `b`: sending the acknowledgement succeeds -/
  | arrive (k : Kind) (b : Bool)
  /-- one iteration of DispatchLoop -/
  | dispatch
  /-- Shutdown requests the threads to stop (the stop token) and sets dispatch_shutdown_ -/
  | shutdown
  deriving DecidableEq, Repr

/-- HandleIncomingMessage (bidirectional_transport.cpp:303-336). -/
def arrive (s : St) (m : Msg) (b : Bool) : St :=
  if m.kind = .response then s
  else if !s.hasHandler then s
  else if m.kind = .request then
    if b then { s with log := .acked m.id :: s.log, queue := s.queue ++ [m] } else s
  else { s with queue := s.queue ++ [m] }

/-- One iteration of DispatchLoop (bidirectional_transport.cpp:349-371).  While it waits for a message nothing happens. -/
def dispatch (s : St) : St :=
  if s.stopped then s
  else
    match s.queue with
    | [] => if s.shutdown then { s with stopped := true } else s
    | m :: q => { s with queue := q, log := .handled m :: s.log }

/-- `shutdown`: Shutdown (bidirectional_transport.cpp:483-496); the stop token is checked at the head of the loop. -/
def step (s : St) : Op → St
  | .setHandler => { s with hasHandler := true }
  | .arrive k b => let m : Msg := ⟨s.next, k⟩; { arrive s m b with next := s.next + 1 }
  | .dispatch => dispatch s
  | .shutdown => { s with shutdown := true, stopped := true }

def run (s : St) (ops : List Op) : St := ops.foldl step s

end Verif.GwReceiver
