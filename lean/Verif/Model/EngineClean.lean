/-!
# Clean-up of an owner while several threads use an engine

`ISharedResourceEngine::CleanUpOwner` of the engines of the message passing library
(score/message_passing/unix_domain/unix_domain_engine.cpp, "unix" below, and
score/message_passing/qnx_dispatch/qnx_dispatch_engine.cpp, "qnx" below).  One thread of the
engine runs all commands of the queue and all callbacks of the endpoints.  Any number of
other threads register commands and clean up owners.

Simplifications:
* Steps are the critical sections of the queue's mutex and what the engine's thread does
  between two callbacks.  `ProcessCleanup` is one step.
* Times are natural numbers; 0 is the epoch, which stands for "immediately".  Owners are
  numbers; 0 is the null pointer.
* The callback for a disconnected endpoint is one step of the log.
* Endpoints and entries are numbered in the order of registration; an object that is
  registered again is a new number.
* Wake-ups reach the engine's thread (the waiting time is in `Model.TimedQueue`).
-/
namespace Verif.EngineClean

/-- `TimedCommandQueueEntry` (timed_command_queue_entry.h 29-46).  `waiter` is the thread that
waits for the command, for the commands that `CleanUpOwner` registers. -/
structure Cmd where
  id : Nat
  due : Nat
  owner : Nat
  waiter : Option Nat
deriving DecidableEq, Repr

/-- A registered `PosixEndpointEntry` (i_shared_resource_engine.h 68-82). -/
structure Ep where
  id : Nat
  owner : Nat
deriving DecidableEq, Repr

/-- What the thread of the engine is in: nothing, a callback of a user, or a command of
`CleanUpOwner` after `ProcessCleanup` and before it tells the waiting thread. -/
inductive Busy where
  | idle
  | callback (id owner : Nat)
  | clean (t : Nat)
deriving DecidableEq, Repr

/-- What users see. -/
inductive Ev where
  | started (id : Nat)
  | ended (id : Nat)
  | disconnected (id : Nat)
deriving DecidableEq, Repr

/-- `now`: the argument of a running `ProcessQueue`.  `wait t`: the owner that the blocked
thread `t` cleans up, and the number of registrations before the call (ghost).  `ready t`: the
promise (or future) of `t` is fulfilled.  `made`: all registrations with their owner (ghost). -/
structure St where
  queue : List Cmd
  eps : List Ep
  now : Option Nat
  busy : Busy
  wait : Nat → Option (Nat × Nat)
  ready : Nat → Bool
  next : Nat
  made : List (Nat × Nat)
  log : List Ev

def init : St :=
  { queue := [], eps := [], now := none, busy := .idle, wait := fun _ => none,
    ready := fun _ => false, next := 0, made := [], log := [] }

def upd {α : Type} (f : Nat → α) (i : Nat) (a : α) : Nat → α := fun j => if j = i then a else f j

/-- `RegisterTimedEntry` (timed_command_queue.cpp 25-42): before the first entry that is due
later. -/
def insert (c : Cmd) : List Cmd → List Cmd
  | [] => [c]
  | x :: l => if c.due < x.due then c :: x :: l else x :: insert c l

/-- `ProcessCleanup` (unix 295-309, qnx 525-536): the endpoints of the owner are disconnected,
the commands of the owner are removed. -/
def processCleanup (s : St) (o : Nat) : St :=
  { s with
    eps := s.eps.filter fun e => e.owner != o
    queue := s.queue.filter fun c => c.owner != o
    log := s.log ++ (s.eps.filter fun e => e.owner == o).map fun e => .disconnected e.id }

inductive Op where
  | enqueue (due owner : Nat)
  | register (owner : Nat)
  | unregister (id : Nat)
  | call (t owner : Nat)
  | resume (t : Nat)
  | cleanHere (owner : Nat)
  | serverClean (owner : Nat)
  | begin (now : Nat)
  | turn
  | fire (id : Nat)
  | finish
deriving DecidableEq, Repr

/-- `enqueue`: `EnqueueCommand` by any thread (unix 155-162, qnx 431-438). -/
def enqueue (s : St) (due o : Nat) : St :=
  { s with queue := insert ⟨s.next, due, o, none⟩ s.queue, next := s.next + 1,
           made := (s.next, o) :: s.made }

/-- `register`: `RegisterPosixEndpoint` in a callback (unix 93-127, qnx 302-345).  Elsewhere the
precondition ends the process; there is no step then. -/
def register (s : St) (o : Nat) : St :=
  match s.busy with
  | .callback _ _ => { s with eps := s.eps ++ [⟨s.next, o⟩], next := s.next + 1,
                              made := (s.next, o) :: s.made }
  | _ => s

/-- `unregister`: `UnregisterPosixEndpoint` in a callback (unix 129-153, qnx 386-428). -/
def unregister (s : St) (i : Nat) : St :=
  match s.busy with
  | .callback _ _ =>
    { s with eps := s.eps.filter fun e => e.id != i
             log := s.log ++ (s.eps.filter fun e => e.id == i).map fun e => .disconnected e.id }
  | _ => s

/-- `call`: `CleanUpOwner` on a thread that is not the engine's, up to the wait (unix 164-190,
qnx 440-463): the command has the owner that is cleaned up.  A thread that waits cannot call. -/
def call (s : St) (t o : Nat) : St :=
  if o = 0 then s else
  match s.wait t with
  | some _ => s
  | none => { s with queue := insert ⟨s.next, 0, o, some t⟩ s.queue, next := s.next + 1,
                     wait := upd s.wait t (some (o, s.next)), ready := upd s.ready t false }

/-- `resume`: the call returns (unix 188, qnx 461, non_allocating_future.h 67-73). -/
def resume (s : St) (t : Nat) : St :=
  if s.ready t then { s with wait := upd s.wait t none, ready := upd s.ready t false } else s

/-- `cleanHere`: `CleanUpOwner` in a callback on the engine's thread (unix 170-173, qnx
446-449). -/
def cleanHere (s : St) (o : Nat) : St :=
  if o = 0 then s else
  match s.busy with
  | .callback _ _ => processCleanup s o
  | _ => s

/-- `serverClean`: `CleanUpOwner` on the second thread of the engine of QNX, in a callback of a
server: `IsOnCallbackThread` holds there as well (qnx_dispatch_engine.h 246-250). -/
def serverClean (qnx : Bool) (s : St) (o : Nat) : St :=
  if qnx && o != 0 then processCleanup s o else s

/-- `begin`: `ProcessQueue` is called (unix 342-345, qnx 538-541). -/
def begin' (s : St) (n : Nat) : St :=
  match s.busy, s.now with
  | .idle, none => { s with now := some n }
  | _, _ => s

/-- `turn`: a round of the loop of `ProcessQueue` (timed_command_queue.cpp 46-63); the commands
of `CleanUpOwner` (unix 180-183, qnx 455-458) clean up at once. -/
def turn (s : St) : St :=
  match s.busy, s.now, s.queue with
  | .idle, some _, [] => { s with now := none }
  | .idle, some n, c :: q =>
    if c.due > n then { s with now := none }
    else match c.waiter with
      | none => { s with queue := q, busy := .callback c.id c.owner, log := s.log ++ [.started c.id] }
      | some t => { processCleanup { s with queue := q } c.owner with busy := .clean t }
  | _, _, _ => s

/-- `fire`: the callback of an endpoint is called (unix 326-333, qnx 199-231). -/
def fire (s : St) (i : Nat) : St :=
  match s.busy, s.now, s.eps.find? (fun e => e.id == i) with
  | .idle, none, some e => { s with busy := .callback e.id e.owner, log := s.log ++ [.started e.id] }
  | _, _, _ => s

/-- `finish`: the callback returns, or the waiting thread is told (unix 182, qnx 457,
non_allocating_future.h 60-65). -/
def finish (s : St) : St :=
  match s.busy with
  | .idle => s
  | .callback i _ => { s with busy := .idle, log := s.log ++ [.ended i] }
  | .clean t => { s with busy := .idle, ready := upd s.ready t true }

def step (qnx : Bool) (s : St) : Op → St
  | .enqueue d o => enqueue s d o
  | .register o => register s o
  | .unregister i => unregister s i
  | .call t o => call s t o
  | .resume t => resume s t
  | .cleanHere o => cleanHere s o
  | .serverClean o => serverClean qnx s o
  | .begin n => begin' s n
  | .turn => turn s
  | .fire i => fire s i
  | .finish => finish s

def run (qnx : Bool) (s : St) (ops : List Op) : St := ops.foldl (step qnx) s

end Verif.EngineClean
