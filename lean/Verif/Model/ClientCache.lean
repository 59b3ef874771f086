/-!
# The cache of connections to other processes

Events, methods and event registrations send their messages through one connection per target
process.  `MessagePassingClientCache` creates connections, waits until they are established, keeps
them and replaces those that broke.

Connections are worked on by the callback thread of the message passing engine (thread 0):
it connects, notices that the peer is gone and disconnects.  The same thread runs the handlers for
received messages, because servers and clients share the engine (message_passing_service.cpp 51-64);
while it is in a handler, connections make no progress.

Simplifications:
* Process ids are numbers, a connection is the number of its creation.
* All functions of the cache hold its mutex from begin to end, so at most one thread is inside; waiting
  for the mutex is the absence of a step.  Looking at a state, and the code between two looks, are
  one step.
* Time is in microseconds.  A thread that sleeps wakes up when the time has come or later.
* Destruction of connections is left out; the cache's references only.
-/
namespace Verif.ClientCache

/-- `IClientConnection::State`. -/
inductive State where
  | starting
  | ready
  | stopping
  | stopped
  deriving DecidableEq, Repr

/-- A `ClientConnection` (message_passing/client_connection.cpp). -/
structure Conn where
  node : Nat
  st : State := .starting
  /-- `stop_reason_` is set -/
  reason : Bool := false
  /-- an attempt to connect is queued for the callback thread -/
  connectQ : Bool := true
  /-- `disconnection_command_` is queued for the callback thread -/
  discQ : Bool := false
  deriving DecidableEq, Repr

/-- The call that holds the mutex. -/
inductive Job where
  /-- in the loop of `CreateNewClient`; `sleeps` and `began` are history -/
  | waiting (t node c delay wake began sleeps : Nat)
  /-- in the loop of `RemoveMessagePassingClient` -/
  | closing (t node c tries wake : Nat)
  deriving DecidableEq, Repr

inductive Ev where
  /-- `GetMessagePassingClient` for a process returned a connection, in this state -/
  | returned (t node c : Nat) (st : State)
  /-- `GetCachedMessagePassingClient` -/
  | found (t node : Nat) (c : Option Nat)
  | removed (t node : Nat)
  deriving DecidableEq, Repr

structure St where
  now : Nat := 0
  /-- number of connections created so far -/
  count : Nat := 0
  conn : Nat → Conn := fun _ => { node := 0 }
  /-- `clients_` -/
  cache : Nat → Option Nat := fun _ => none
  /-- who holds `mutex_` -/
  job : Option Job := none
  /-- the callback thread is in a message handler -/
  inHandler : Bool := false
  /-- `std::terminate` was called -/
  dead : Bool := false
  /-- history -/
  log : List Ev := []

/-- What a connection attempt on the callback thread comes to. -/
inductive Attempt where
  | connected
  /-- an error for which the attempt is repeated later -/
  | again
  | failed
  deriving DecidableEq, Repr

inductive Op where
  | tick (d : Nat)
  /-- the callback thread enters and leaves a message handler -/
  | enter
  | leave
  /-- a thread calls a function of the cache -/
  | get (t node : Nat)
  | cached (t node : Nat)
  | remove (t node : Nat)
  /-- the thread in the cache goes on -/
  | go
  /-- the callback thread works on a connection -/
  | connect (c : Nat) (a : Attempt)
  | lost (c : Nat)
  | disconnect (c : Nat)
  deriving DecidableEq, Repr

def St.setConn (s : St) (c : Nat) (x : Conn) : St := { s with conn := fun d => if d = c then x else s.conn d }

def St.setCache (s : St) (n : Nat) (v : Option Nat) : St := { s with cache := fun m => if m = n then v else s.cache m }

def St.add (s : St) (e : Ev) : St := { s with log := s.log ++ [e] }

/-- `kConnectRetryDelayMin`, `kConnectRetryDelayMax`, `kConnectTimeout`, `kStateRetryDelay` and
`kStateTryAttempts` (message_passing_client_cache.cpp 44-50). -/
def delayMin : Nat := 50
def delayMax : Nat := 50000
def timeout : Nat := 500000
def retryDelay : Nat := 50000
def attempts : Nat := 10

/-- `ClientConnection::Stop` called by thread `t` and, on the callback thread, `SwitchToStopState`, which removes
what is queued for the connection (client_connection.cpp 292-312, 575-612). -/
def Conn.stop (x : Conn) (t : Nat) : Conn :=
  if x.reason then x
  else if t = 0 then { x with reason := true, st := .stopped, connectQ := false, discQ := false }
  else { x with reason := true, st := .stopping, discQ := true }

/-- `SwitchToStopState` after an error (client_connection.cpp 361-375, 416-424, 431-433). -/
def Conn.fail (x : Conn) : Conn := { x with reason := true, st := .stopped, connectQ := false, discQ := false }

/-- `TryConnect` on the callback thread (client_connection.cpp 348-450): an error sets the stop reason unless it is set
already. -/
def Conn.attempt (x : Conn) : Attempt → Conn
  | .connected => { x with st := .ready, connectQ := false }
  | .again => x
  | .failed => if x.reason then { x with connectQ := false } else x.fail

/-- `CreateNewClient` up to the first look at the state (message_passing_client_cache.cpp 117-142);
`Start` queues the first attempt because `sync_first_connect` is false. -/
def St.create (s : St) (t n : Nat) : St :=
  { s.setConn s.count { node := n } with
    count := s.count + 1
    job := some (.waiting t n s.count delayMin s.now s.now 0) }

/-- `GetMessagePassingClient` (message_passing_client_cache.cpp 79-107). -/
def St.get (s : St) (t n : Nat) : St :=
  match s.cache n with
  | none => s.create t n
  | some c =>
    if (s.conn c).st = .ready then s.add (.returned t n c .ready)
    else ((s.setConn c ((s.conn c).stop t)).setCache n none).create t n

/-- The rest of `GetMessagePassingClient` (109-114) after `CreateNewClient`.  The entry is free: the
assertion is part of the model. -/
def St.finish (s : St) (t n c : Nat) : St :=
  match s.cache n with
  | some _ => { s with dead := true }
  | none => ({ s with job := none }.setCache n (some c)).add (.returned t n c (s.conn c).st)

/-- One look in the loop of `CreateNewClient` (143-166). -/
def St.look (s : St) (t n c delay began sleeps : Nat) : St :=
  if (s.conn c).st = .ready then s.finish t n c
  else if (s.conn c).st ≠ .starting then s.finish t n c
  else if s.now ≥ began + timeout then s.finish t n c
  else { s with job := some (.waiting t n c (min (delay * 2) delayMax) (s.now + delay) began (sleeps + 1)) }

/-- One look in the loop of `RemoveMessagePassingClient` (177-189). -/
def St.close (s : St) (t n c tries : Nat) : St :=
  if (s.conn c).st = .stopped then ({ s with job := none }.setCache n none).add (.removed t n)
  else if tries + 1 ≥ attempts then { s with dead := true }
  else { s with job := some (.closing t n c (tries + 1) (s.now + retryDelay)) }

/-- `RemoveMessagePassingClient` up to the first look (169-177). -/
def St.remove (s : St) (t n : Nat) : St :=
  match s.cache n with
  | none => s.add (.removed t n)
  | some c => { s.setConn c ((s.conn c).stop t) with job := some (.closing t n c 0 s.now) }

/-- Thread `t` may call: the mutex is free, and the callback thread calls only from a handler. -/
def St.mayCall (s : St) (t : Nat) : Bool := s.job = none && (t != 0 || s.inHandler)

/-- The callback thread is inside the cache. -/
def St.callbackInside (s : St) : Bool :=
  match s.job with
  | some (.waiting t ..) => t = 0
  | some (.closing t ..) => t = 0
  | none => false

def St.next (s : St) : Op → St
  | .tick d => { s with now := s.now + d }
  | .enter => { s with inHandler := true }
  | .leave => if s.callbackInside then s else { s with inHandler := false }
  | .get t n => if s.mayCall t then s.get t n else s
  -- `GetCachedMessagePassingClient` (72-77)
  | .cached t n => if s.mayCall t then s.add (.found t n (s.cache n)) else s
  | .remove t n => if s.mayCall t then s.remove t n else s
  | .go =>
    match s.job with
    | none => s
    | some (.waiting t n c delay wake began sleeps) =>
      if s.now < wake then s else s.look t n c delay began sleeps
    | some (.closing t n c tries wake) => if s.now < wake then s else s.close t n c tries
  | .connect c a =>
    if !s.inHandler && c < s.count && (s.conn c).connectQ then s.setConn c ((s.conn c).attempt a) else s
  -- the input function of the endpoint (client_connection.cpp 416-424)
  | .lost c =>
    if !s.inHandler && c < s.count && (s.conn c).st = .ready && !(s.conn c).reason then s.setConn c (s.conn c).fail else s
  -- `disconnection_command_` (client_connection.cpp 303-310)
  | .disconnect c =>
    if !s.inHandler && c < s.count && (s.conn c).discQ then s.setConn c (s.conn c).fail else s

def St.op (s : St) (o : Op) : St := if s.dead then s else s.next o

def run (s : St) (ops : List Op) : St := ops.foldl St.op s

def start : St := {}

end Verif.ClientCache
