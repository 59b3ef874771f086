/-!
# Starting and stopping a search, and the calls of its handler

`ServiceDiscovery` keeps the handlers of the users; the service discovery of the binding keeps
the searches, and calls the handlers with its recursive mutex held: in `StartFindService` if
something is known already, and later in its own thread.

Simplifications:
* Thread 0 is the thread of the service discovery; the others are those of the user.  Code of
  the user runs in the other threads and in the handlers.
* A block with `container_mutex_` is one step, together with the number of the handle; nobody
  knows the handle before.  A number is never used again: the counter has 64 bits.
* A search has one identifier, or none if the name is not in the configuration
  (`Runtime::resolve` gives at most one).
* What is found, and when, is the matter of C61 and C62; here the service discovery may call
  each handler of a search at any time.
* The destructor is left out.
-/
namespace Verif.FindCalls

/-- How a call of `StartFindService` will go: the file system cannot be searched; the name is
not in the configuration; nothing is known yet; something is known. -/
inductive Mode where
  | fails
  | unresolved
  | quiet
  | known
deriving DecidableEq, Repr

/-- Where a thread is, from the inside to the outside. -/
inductive Frame where
  /-- in `StartFindService`, the handler has been stored (service_discovery.cpp 155) -/
  | starting (h : Nat) (m : Mode)
  /-- in `StartFindService` of the binding with the mutex, after the handler
  (service_discovery_client.cpp 772-777) -/
  | startHeld (h : Nat)
  /-- in `StopFindService`, the handler has been erased (service_discovery.cpp 189); `failed`: it
  was called because the start has failed (service_discovery.cpp 160) -/
  | stopping (h : Nat) (failed : Bool)
  /-- in `HandleEvents`, with the mutex (service_discovery_client.cpp 380) -/
  | eventHeld
  /-- in the handler of this search -/
  | running (h : Nat)
deriving DecidableEq, Repr

/-- What can be seen. -/
inductive Ev where
  | startCalled (t h : Nat) (m : Mode)
  /-- `ok`: with the handle, otherwise with an error -/
  | startReturned (t h : Nat) (ok : Bool)
  | stopCalled (t h : Nat)
  | stopReturned (t h : Nat)
  /-- the handler is called -/
  | called (t h : Nat)
  /-- the handler returns -/
  | returned (t h : Nat)
deriving DecidableEq, Repr

structure St where
  /-- `next_free_uid_` -/
  next : Nat := 0
  /-- `user_callbacks_` -/
  callbacks : Nat → Bool := fun _ => false
  /-- `handle_to_instances_` -/
  insts : Nat → Bool := fun _ => false
  /-- `search_requests_` of the binding -/
  searches : Nat → Bool := fun _ => false
  /-- `obsolete_search_requests_` of the binding -/
  obsolete : Nat → Bool := fun _ => false
  /-- the owner of `worker_mutex_`, and how often they have it -/
  owner : Option Nat := none
  depth : Nat := 0
  stacks : Nat → List Frame := fun _ => []
  /-- the newest first -/
  log : List Ev := []

/-- Changes one place of a function. -/
def upd {α : Type} (f : Nat → α) (i : Nat) (x : α) : Nat → α := fun j => if j = i then x else f j

def St.say (s : St) (e : Ev) : St := { s with log := e :: s.log }

def St.put (s : St) (t : Nat) (l : List Frame) : St := { s with stacks := upd s.stacks t l }

/-- Code of the user runs. -/
def userRuns (t : Nat) : List Frame → Bool
  | [] => t != 0
  | .running _ :: _ => true
  | _ => false

/-- `worker_mutex_` can be had: it is free, or the thread has it already
(service_discovery_client.h 216). -/
def canLock (s : St) (t : Nat) : Bool :=
  match s.owner with
  | none => true
  | some u => u == t

def lock (s : St) (t : Nat) : St := { s with owner := some t, depth := s.depth + 1 }

def unlock (s : St) : St :=
  if s.depth ≤ 1 then { s with owner := none, depth := 0 } else { s with depth := s.depth - 1 }

/-- `StartFindService` up to the call of the binding (service_discovery.cpp 83-104, 142-155);
without an identifier there is no such call (service_discovery.cpp 106-131). -/
def start (s : St) (t : Nat) (m : Mode) : St :=
  if userRuns t (s.stacks t) then
    let h := s.next
    let s' := { s with next := h + 1, callbacks := upd s.callbacks h true }.say (.startCalled t h m)
    match m with
    | .unresolved => s'.say (.startReturned t h true)
    | _ => { s' with insts := upd s'.insts h true }.put t (.starting h m :: s'.stacks t)
  else s

/-- The first half of `StopFindService`: the handler and the identifier are erased
(service_discovery.cpp 173-189). -/
def erase (s : St) (h : Nat) : St :=
  { s with callbacks := upd s.callbacks h false, insts := upd s.insts h false }

/-- `StopFindService` up to the call of the binding; without an identifier there is no such call
(service_discovery.cpp 191-205). -/
def stop (s : St) (t h : Nat) : St :=
  if userRuns t (s.stacks t) ∧ h < s.next then
    let s' := (erase s h).say (.stopCalled t h)
    if s.insts h then s'.put t (.stopping h false :: s.stacks t) else s'.say (.stopReturned t h)
  else s

/-- The handler is called if it is still stored (service_discovery.cpp 315-320). -/
def callUser (s : St) (t h : Nat) : St :=
  if s.callbacks h then (s.put t (.running h :: s.stacks t)).say (.called t h) else s

/-- `StartFindService` of the binding (service_discovery_client.cpp 706-778). -/
def bindStart (s : St) (t h : Nat) (m : Mode) (rest : List Frame) : St :=
  match m with
  | .known =>
    callUser ((lock { s with searches := upd s.searches h true } t).put t (.startHeld h :: rest)) t h
  | .fails => (erase s h).put t (.stopping h true :: rest)
  | _ => ({ s with searches := upd s.searches h true }.put t rest).say (.startReturned t h true)

/-- A thread goes on. -/
def go (s : St) (t : Nat) : St :=
  match s.stacks t with
  | .starting h m :: rest => if canLock s t then bindStart s t h m rest else s
  | .startHeld h :: rest => ((unlock s).put t rest).say (.startReturned t h true)
  | .stopping h failed :: rest =>
    -- `StopFindService` of the binding (service_discovery_client.cpp 267-282)
    if canLock s t then
      ({ s with obsolete := upd s.obsolete h true }.put t rest).say
        (if failed then .startReturned t h false else .stopReturned t h)
    else s
  | .eventHeld :: rest => (unlock s).put t rest
  | _ => s

/-- The handler returns. -/
def finish (s : St) (t : Nat) : St :=
  match s.stacks t with
  | .running h :: rest => (s.put t rest).say (.returned t h)
  | _ => s

/-- The thread of the service discovery has events (service_discovery_client.cpp 373-381); the
searches that were stopped are removed (322-329). -/
def events (s : St) : St :=
  match s.stacks 0, s.owner with
  | [], none =>
    (lock { s with searches := fun h => s.searches h && !s.obsolete h, obsolete := fun _ => false } 0).put 0
      [.eventHeld]
  | _, _ => s

/-- It calls the handler of a search (service_discovery_client.cpp 517-596). -/
def tell (s : St) (h : Nat) : St :=
  match s.stacks 0 with
  | .eventHeld :: _ => if s.searches h && !s.obsolete h then callUser s 0 h else s
  | _ => s

inductive Op where
  | start (t : Nat) (m : Mode)
  | stop (t h : Nat)
  | go (t : Nat)
  | finish (t : Nat)
  | events
  | tell (h : Nat)
deriving DecidableEq, Repr

def step (s : St) : Op → St
  | .start t m => start s t m
  | .stop t h => stop s t h
  | .go t => go s t
  | .finish t => finish s t
  | .events => events s
  | .tell h => tell s h

def run (s : St) (ops : List Op) : St := ops.foldl step s

/-- The start of the process. -/
def init : St := {}

end Verif.FindCalls
