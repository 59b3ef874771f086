/-!
# The way from the server to the client on QNX

On QNX a client reads the messages of its server: the server queues a reply or notification and sends
the client a pulse, and the client reads one message per pulse.  An empty notification is a pulse of
its own (a *ping*) and is not queued.

The client announces its pulses to the server with one message after it has opened the connection
(`io_msg`).  The server can send before that.

Simplifications:
* One connection from its opening until one side ends it.  What happens at the end is not modelled.
* The calls of `Reply`, `Notify`, `HasSomethingToRead` and `ProcessReadRequest` are one step each (they
  hold `send_mutex_`; `Reply` stores the bytes just before it takes the lock).  `io_msg` does not hold
  the lock and is two steps.
* Pulses arrive in the order in which they were sent (they inherit the priority of the sender: so
  all threads of the server have the same one).  Pulses with an index or nonce of another connection:
  `Model/QnxPoll.lean`.
* The kernel delivers the pulses and the bytes of a read.
-/
namespace Verif.QnxConn

/-- A queued message (qnx_dispatch_server.h 75-87): `code` REPLY or NOTIFY, and its bytes. -/
structure Msg where
  reply : Bool
  body : List UInt8
  deriving DecidableEq, Repr

/-- The two pulses a client announces (qnx_dispatch_engine.cpp 347-358). -/
inductive Pulse where
  /-- `kSignalNewData` -/
  | select
  /-- `kSignalPing` -/
  | ping
  deriving DecidableEq, Repr

/-- Something that was sent by the server or reached the client. -/
inductive Item where
  | msg (m : Msg)
  /-- an empty notification that went as a pulse -/
  | ping
  deriving DecidableEq, Repr

/-- The sizes of a server configuration (qnx_dispatch_server.cpp 30-55, 330-345). -/
structure Cfg where
  maxReply : Nat
  maxNotify : Nat
  queued : Nat
  deriving DecidableEq, Repr

/-- Results of `Reply` and `Notify`. -/
inductive Res where
  | ok
  | emsgsize
  | enobufs
  /-- the reply message is put into the list a second time -/
  | undefined
  deriving DecidableEq, Repr

structure State where
  cfg : Cfg
  /-- `send_queue_` -/
  queue : List Msg
  /-- the number of messages in `notify_pool_` -/
  pool : Nat
  /-- `select_event_` and `ping_event_` are set -/
  selected : Bool
  /-- `io_msg` has also looked into the queue -/
  checked : Bool
  /-- pulses on their way to the client -/
  pulses : List Pulse
  /-- the client has taken a select pulse and has not read yet -/
  reading : Bool
  /-- `waiting_for_reply_` of the client -/
  waiting : Bool
  /-- the client has ended the connection because of a reply nobody waits for -/
  stopped : Bool
  /-- the list of the server is corrupted -/
  corrupt : Bool
  /-- history: what the server was told it has sent -/
  sent : List Item
  /-- history: what the callbacks of the client were called with -/
  got : List Item
  /-- history: the number of requests the client has sent -/
  asked : Nat
  deriving DecidableEq, Repr

/-- A new connection (qnx_dispatch_server.cpp 30-55). -/
def start (c : Cfg) : State :=
  { cfg := c, queue := [], pool := c.queued, selected := false, checked := false, pulses := [],
    reading := false, waiting := false, stopped := false, corrupt := false, sent := [], got := [], asked := 0 }

/-- `MsgDeliverEvent(rcvid_, &select_event_)`: nothing happens as long as it is `SIGEV_NONE`. -/
def pulse (s : State) (p : Pulse) : State :=
  if s.selected then { s with pulses := s.pulses ++ [p] } else s

/-- `ServerConnection::Reply` (qnx_dispatch_server.cpp 76-95).  The connection has one message for
replies: when it is still in the queue, its bytes are overwritten and it is linked a second time. -/
def reply (s : State) (body : List UInt8) : State × Res :=
  if s.cfg.maxReply < body.length then (s, .emsgsize)
  else if s.queue.any (·.reply) then ({ s with corrupt := true }, .undefined)
  else
    let s := { s with queue := s.queue ++ [⟨true, body⟩], sent := s.sent ++ [.msg ⟨true, body⟩] }
    (pulse s .select, .ok)

/-- `ServerConnection::Notify` (qnx_dispatch_server.cpp 97-136). -/
def notify (s : State) (body : List UInt8) : State × Res :=
  if s.cfg.maxNotify < body.length then (s, .emsgsize)
  else if body = [] ∧ s.selected = true then
    (pulse { s with sent := s.sent ++ [.ping] } .ping, .ok)
  else if s.pool = 0 then (s, .enobufs)
  else
    let s := { s with pool := s.pool - 1, queue := s.queue ++ [⟨false, body⟩],
                      sent := s.sent ++ [.msg ⟨false, body⟩] }
    (pulse s .select, .ok)

/-- First part of `io_msg` (qnx_dispatch_engine.cpp 785-822): the pulses are stored. -/
def select (s : State) : State :=
  if s.selected then s else { s with selected := true }

/-- Second part of `io_msg` (qnx_dispatch_engine.cpp 823-826): `HasSomethingToRead` and one pulse. -/
def check (s : State) : State :=
  if s.selected ∧ ¬ s.checked then
    let s := { s with checked := true }
    if s.queue.isEmpty then s else pulse s .select
  else s

/-- The client takes the next pulse: `SelectPulseCallback` (qnx_dispatch_engine.cpp 640-690) calls `ping`
of the endpoint (client_connection.cpp 425-430) or begins `input`. -/
def take (s : State) : State :=
  if s.reading || s.stopped then s else
  match s.pulses with
  | [] => s
  | .ping :: ps => { s with pulses := ps, got := s.got ++ [.ping] }
  | .select :: ps => { s with pulses := ps, reading := true }

/-- The client reads: `ProcessInputEvent` (client_connection.cpp 452-507) with `ReceiveProtocolMessage`
(qnx_dispatch_engine.cpp 497-525) and `ProcessReadRequest` of the server
(qnx_dispatch_server.cpp 209-269).  An empty queue (`EAGAIN`) is a spurious wake-up. -/
def readMsg (s : State) : State :=
  if ¬ s.reading then s else
  let s := { s with reading := false }
  match s.queue with
  | [] => s
  | m :: q =>
    let s := { s with queue := q, pool := if m.reply then s.pool else s.pool + 1 }
    if m.reply then
      if s.waiting then { s with waiting := false, got := s.got ++ [.msg m] }
      else { s with stopped := true }
    else { s with got := s.got ++ [.msg m] }

/-- The client sends a request (client_connection.cpp 160-330, qnx_dispatch_server.cpp 149-175): only
when it does not wait for the reply to an earlier one. -/
def request (s : State) : State :=
  if s.waiting || s.stopped then s else { s with waiting := true, asked := s.asked + 1 }

inductive Op where
  | reply (body : List UInt8)
  | notify (body : List UInt8)
  | select
  | check
  | take
  | read
  | request
  deriving DecidableEq, Repr

/-- Nothing is said about a connection whose list is corrupted. -/
def step (s : State) (o : Op) : State :=
  if s.corrupt then s else
  match o with
  | .reply b => (reply s b).1
  | .notify b => (notify s b).1
  | .select => select s
  | .check => check s
  | .take => take s
  | .read => readMsg s
  | .request => request s

def run (s : State) (ops : List Op) : State := ops.foldl step s

end Verif.QnxConn
