import Verif.Lib.Fn
/-!
/repo/score/message_passing/client_connection.cpp: the state and the stop reason of a client connection.

The atomic steps are the accesses to the atomics state_ and stop_reason_ and the queueing of commands on the engine. Thread 0
is the engine's callback thread; the other threads are user threads. All of them may call Stop() and Restart() (the engine's
thread does so from callbacks).

Simplifications: the stop command is executed before a retry timer, because its time is zero (see TimedQueue); a connect
command and a stop command both have time zero and are executed in the order of queueing. What happens to messages is in
Model/Client.lean.
-/
namespace Verif.ClientState

/-- IClientConnection::State (i_client_connection.h:88-100). -/
inductive CState where
  | starting
  | ready
  | stopping
  | stopped
  deriving DecidableEq, Repr

/-- IClientConnection::StopReason. -/
inductive Reason where
  | init
  | userRequested
  | permission
  | closedByPeer
  | ioError
  deriving DecidableEq, Repr

/-- Where a thread is. `stopWon`, `stopSet`: in Stop() after TrySetStopReason / after the state was set
(client_connection.cpp:292-312). `rs1`, `rs2`, `rs3`: in Restart() after the check / after resetting the reason / after
setting the state (314-328). `connecting`: in TryConnect (348-450). `won`: after a successful TrySetStopReason for an error
(376-380, 425-429). `switching`: in SwitchToStopState (575-612). -/
inductive Pc where
  | idle
  | stopWon
  | stopSet
  | rs1
  | rs2
  | rs3
  | connecting
  | won
  | switching
  deriving DecidableEq, Repr

/-- `cmds`: the immediate commands queued on the engine, `true` for connect, `false` for stop. `timer`: a retry timer is
set. `log`: the changes of the state, latest first. `first`: the first reason reported since the last Restart. -/
structure St where
  st : CState
  reason : Option Reason
  pc : Nat → Pc
  cmds : List Bool
  timer : Bool
  log : List (CState × CState)
  first : Option Reason

/-- Constructor (client_connection.cpp:38-71): state kStopped, reason kInit. -/
def init : St :=
  { st := .stopped, reason := some .init, pc := fun _ => .idle, cmds := [], timer := false, log := [], first := some .init }

/-- ProcessStateChange (client_connection.cpp:646-662). -/
def setState (s : St) (n : CState) : St := { s with st := n, log := (s.st, n) :: s.log }

/-- TrySetStopReason (client_connection.cpp:614-626) by thread `t`, going on at `p` if successful. -/
def report (s : St) (t : Nat) (r : Reason) (p q : Pc) : St :=
  let s1 := { s with first := if s.first = none then some r else s.first }
  if s.reason = none then { s1 with reason := some r, pc := upd s.pc t p } else { s1 with pc := upd s.pc t q }

/-- The result of an attempt to connect: connected, try again, or give up. -/
inductive Res where
  | ok
  | retry
  | fail (r : Reason)
  deriving DecidableEq, Repr

inductive Op where
  | stop (t : Nat)
  | restart (t : Nat)
  | next (t : Nat) (sync : Bool)
  | connected (t : Nat) (res : Res)
  | command
  | fire
  | lost (r : Reason)
  deriving DecidableEq, Repr

/-- One step.
`stop t`: Stop() up to TrySetStopReason. `restart t`: Restart() up to its check. `next t`: the next step of thread `t`; on the
engine's thread Stop() switches to the stop state itself, on other threads it queues the stop command (299-311);
`sync`: sync_first_connect (332-345). `connected t res`: the end of an attempt to connect. `command`: the engine executes the
oldest immediate command. `fire`: the retry timer expires; a pending stop command comes first. `lost r`: the engine's thread
finds an error in the input of the connection (425-431). -/
def step (T : Nat) (s : St) : Op → St
  | .stop t => if t < T ∧ s.pc t = .idle then report s t .userRequested .stopWon .idle else s
  | .restart t => if t < T ∧ s.pc t = .idle ∧ s.st = .stopped then { s with pc := upd s.pc t .rs1 } else s
  | .next t sync =>
    if t < T then
      match s.pc t with
      | .stopWon => { setState s .stopping with pc := upd s.pc t (if t = 0 then .switching else .stopSet) }
      | .stopSet => { s with cmds := s.cmds ++ [false], pc := upd s.pc t .idle }
      | .rs1 => { s with reason := none, first := none, pc := upd s.pc t .rs2 }
      | .rs2 => { setState s .starting with pc := upd s.pc t .rs3 }
      | .rs3 => if sync then { s with pc := upd s.pc t .connecting } else { s with cmds := s.cmds ++ [true], pc := upd s.pc t .idle }
      | .won => { setState s .stopping with pc := upd s.pc t .switching }
      | .switching => { setState s .stopped with cmds := [], timer := false, pc := upd s.pc t .idle }
      | _ => s
    else s
  | .connected t res =>
    if t < T ∧ s.pc t = .connecting then
      match res with
      | .ok => { setState s .ready with pc := upd s.pc t .idle }
      | .retry => { s with timer := true, pc := upd s.pc t .idle }
      | .fail r => report s t r .won .idle
    else s
  | .command =>
    if 0 < T ∧ s.pc 0 = .idle then
      match s.cmds with
      | true :: q => { s with cmds := q, pc := upd s.pc 0 .connecting }
      | false :: q => { s with cmds := q, pc := upd s.pc 0 .switching }
      | [] => s
    else s
  | .fire =>
    if 0 < T ∧ s.pc 0 = .idle ∧ s.timer = true ∧ false ∉ s.cmds then { s with timer := false, pc := upd s.pc 0 .connecting } else s
  | .lost r => if 0 < T ∧ s.pc 0 = .idle ∧ s.st = .ready then report s 0 r .won .idle else s

def run (T : Nat) (s : St) (ops : List Op) : St := ops.foldl (step T) s

end Verif.ClientState
