/-!
# The thread of a message passing engine

An engine makes its thread in the constructor and ends it in the destructor
(score/message_passing/qnx_dispatch/dispatch_thread_runner.cpp and .h, called "runner" below, and
qnx_dispatch_engine.cpp 104-132, 272-284).

Simplifications:
* One thread and its channel.  The engine for QNX has two of these, for clients and for servers,
  which are made and ended one after the other and share nothing here.  The engine for Unix domain
  sockets has one, made and ended in the same way (unix_domain/unix_domain_engine.cpp 44-66,
  311-340); its pipe is the channel.
* What the system refuses in the constructor ends the process there (`ValueOrTerminate`), so that
  the constructor succeeds here.  Pulses have one priority.
* A pulse, an input of an endpoint or a message is an event with a number; handlers are those that
  `init()` attaches.
-/
namespace Verif.EngineThread

/-- What is in the channel. -/
inductive Pulse where
  | event (n : Nat)
  /-- `kQuitPulseCode` -/
  | quit
deriving DecidableEq, Repr

/-- Where the thread of the engine is. -/
inductive Th where
  | none
  /-- before the mutex (runner.cpp 121-123) -/
  | fresh
  /-- at the condition of the loop (runner.cpp 156) -/
  | check
  /-- in `dispatch_block` (runner.cpp 159) -/
  | block
  /-- in `dispatch_handler` (runner.cpp 162) -/
  | got (p : Pulse)
  /-- in the handler of an event -/
  | running (n : Nat)
  | ended
deriving DecidableEq, Repr

/-- Where the owner of the engine is. -/
inductive Pc where
  | start
  | channel
  | attached
  | spawned
  | assigned
  /-- the constructor has returned -/
  | up
  | quitting
  | joining
  | detach
  | free
  /-- the destructor has returned -/
  | gone
  /-- `std::terminate` -/
  | dead
deriving DecidableEq, Repr

/-- What can be seen. -/
inductive Ev where
  | built
  /-- an event comes to the channel -/
  | arrived (n : Nat)
  | called (n : Nat)
  | returned (n : Nat)
  /-- there is no handler for the event -/
  | dropped (n : Nat)
  | destroyCalled
  | destroyed
  | aborted
  /-- the thread uses the context after its release -/
  | badUse
deriving DecidableEq, Repr

structure St where
  pc : Pc := .start
  th : Th := .none
  /-- the channel is open (`dispatch_pointer_`) -/
  chan : Bool := false
  /-- the handlers are attached -/
  handlers : Bool := false
  /-- `context_pointer_` is valid -/
  ctx : Bool := false
  /-- `thread_` is the thread -/
  known : Bool := false
  /-- `thread_mutex_` is held by the owner -/
  locked : Bool := false
  /-- `quit_flag_` -/
  quit : Bool := false
  queue : List Pulse := []
  /-- the destructor was called in a handler -/
  self : Bool := false
  /-- the newest first -/
  log : List Ev := []

def St.say (s : St) (e : Ev) : St := { s with log := e :: s.log }

/-- The owner goes on; `ok`: `MsgSendPulse` succeeds. -/
def go (s : St) (ok : Bool) : St :=
  match s.pc with
  -- `Start`, `StartPreInit` (runner.h 59-67, runner.cpp 79-87)
  | .start => { s with pc := .channel, locked := true, chan := true }
  -- `init()` (qnx_dispatch_engine.cpp 125-182)
  | .channel => { s with pc := .attached, handlers := true }
  -- `StartPostInit` (runner.cpp 89-127)
  | .attached => { s with pc := .spawned, ctx := true, th := .fresh }
  | .spawned => { s with pc := .assigned, known := true }
  | .assigned => { s with pc := .up, locked := false }.say .built
  -- `Stop` (runner.cpp 129-145); the result of `MsgSendPulse` is ignored (183-187)
  | .quitting => { s with pc := .joining, queue := if ok then s.queue ++ [.quit] else s.queue }
  -- `thread_.join()`: a thread that joins itself throws in a `noexcept` function
  | .joining =>
    if s.self then { s with pc := .dead }.say .aborted
    else if s.th = .ended then { s with pc := .detach, known := false } else s
  | .detach => { s with pc := .free, chan := false, queue := [] }
  | .free => { s with pc := .gone, ctx := false }.say .destroyed
  | _ => s

/-- The destructor is called (qnx_dispatch_engine.cpp 272-284), in a handler or by another thread:
the last owner of the engine gives it up. -/
def destroy (s : St) (self : Bool) : St :=
  match s.pc, s.th, self with
  | .up, .running _, true => { s with pc := .quitting, self := true }.say .destroyCalled
  | .up, _, false => { s with pc := .quitting }.say .destroyCalled
  | _, _, _ => s

/-- An event comes. -/
def arrive (s : St) (n : Nat) : St :=
  if s.chan then ({ s with queue := s.queue ++ [Pulse.event n] } : St).say (.arrived n) else s

/-- The use of the context. -/
def use (s : St) : St := if s.ctx then s else s.say .badUse

/-- The thread goes on (runner.cpp 118-166); `ok`: `dispatch_block` succeeds. -/
def thread (s : St) (ok : Bool) : St :=
  match s.th with
  | .fresh => if s.locked then s else { s with th := .check }
  | .check => if s.quit then { s with th := .ended } else { s with th := .block }
  | .block =>
    if ok then
      match s.queue with
      | [] => s
      | p :: q => use { s with th := .got p, queue := q }
    else use { s with th := .check }
  -- `QuitPulseCallback` (runner.cpp 174-181)
  | .got .quit => use { s with th := .check, quit := true }
  | .got (.event n) =>
    if s.handlers then use ({ s with th := .running n }.say (.called n))
    else use ({ s with th := .check }.say (.dropped n))
  | _ => s

/-- The handler returns; one that destroys the engine is still in the destructor. -/
def finish (s : St) : St :=
  match s.th with
  | .running n => if s.self then s else { s with th := .check }.say (.returned n)
  | _ => s

inductive Op where
  | go (ok : Bool)
  | destroy (self : Bool)
  | arrive (n : Nat)
  | thread (ok : Bool)
  | finish
deriving DecidableEq, Repr

/-- After `std::terminate` there is nothing. -/
def step (s : St) (op : Op) : St :=
  if s.pc = .dead then s else
  match op with
  | .go ok => go s ok
  | .destroy self => destroy s self
  | .arrive n => arrive s n
  | .thread ok => thread s ok
  | .finish => finish s

def run (s : St) (ops : List Op) : St := ops.foldl step s

/-- Before the constructor. -/
def init : St := {}

end Verif.EngineThread
