/-!
# Pulses and endpoints of the clients on QNX

All clients of a process share one thread that waits for pulses.  A client registers its endpoint
there and announces pulses to its server whose value names the endpoint: by its slot in a table, and by
a nonce that is incremented whenever the slot is used again.  Pulses that were sent to an endpoint can
still be under way when it is unregistered.

An endpoint is named by the number of its registration.

Simplifications:
* Everything happens on the thread of the clients, one call after the other, as the code asserts
  (`IsOnCallbackThread`; the thread of the servers also passes that check, and is left out here).
* The kernel delivers each pulse once, in any order, and none is sent for a registration after
  `MsgUnregisterEvent`.
* What a callback does are further steps.
-/
namespace Verif.QnxPoll

/-- `poll_endpoints_` has an entry (qnx_dispatch_engine.h 330-336). -/
structure Slot where
  /-- `endpoint`; `none`: `nullptr` -/
  ep : Option Nat
  nonce : Nat
  /-- history: how often the slot was used again -/
  uses : Nat
  /-- history: the last registration that used it -/
  last : Nat
  deriving DecidableEq, Repr

/-- `PackSelectPulseValue` (qnx_dispatch_engine.cpp 88-91), in 64 bits. -/
def pack (index signal nonce : Nat) : Nat := ((nonce <<< 48) + (signal <<< 32) + index) % 2 ^ 64

/-- `UnpackSelectPulseValue` (qnx_dispatch_engine.cpp 93-100): index, signal, nonce. -/
def unpack (v : Nat) : Nat × Nat × Nat := (v &&& (2 ^ 32 - 1), (v >>> 32) &&& (2 ^ 16 - 1), (v >>> 48) % 2 ^ 16)

/-- `kSignalNewData`, `kSignalPing` (qnx_dispatch_engine.cpp 39-40). -/
def signal (ping : Bool) : Nat := if ping then 1 else 0

/-- A pulse under way: its value; history: the registration it was sent to, and which of its pulses. -/
structure Pulse where
  value : Nat
  to : Nat
  ping : Bool
  deriving DecidableEq, Repr

/-- A callback of an endpoint. -/
inductive Call where
  | input (id : Nat)
  | ping (id : Nat)
  | disconnect (id : Nat)
  deriving DecidableEq, Repr

structure State where
  slots : List Slot
  /-- `posix_endpoint_list_`: the endpoints and their owners -/
  eps : List (Nat × Nat)
  /-- the values announced to the server, by registration: slot and uses (`none`: without a slot) -/
  vals : List (Option (Nat × Nat))
  pulses : List Pulse
  /-- history: the callbacks -/
  calls : List Call
  deriving DecidableEq, Repr

def start : State := ⟨[], [], [], [], []⟩

/-- `RegisterPosixEndpoint` (qnx_dispatch_engine.cpp 302-384). -/
def register (s : State) (owner : Nat) : State :=
  let id := s.vals.length
  let eps := s.eps ++ [(id, owner)]
  match s.slots.findIdx? (·.ep.isNone) with
  | some i =>
    match s.slots[i]? with
    | some x =>
      { s with eps, slots := s.slots.set i { ep := some id, nonce := (x.nonce + 1) % 2 ^ 16, uses := x.uses + 1, last := id },
               vals := s.vals ++ [some (i, x.uses + 1)] }
    | none => s
  | none =>
    if s.slots.length = 2 ^ 32 - 1 then { s with eps, vals := s.vals ++ [none] }
    else { s with eps, slots := s.slots ++ [{ ep := some id, nonce := 0, uses := 0, last := id }],
                  vals := s.vals ++ [some (s.slots.length, 0)] }

/-- `UnselectEndpoint` (qnx_dispatch_engine.cpp 395-428). -/
def unselect (s : State) (id : Nat) : State :=
  { s with slots := match s.slots.findIdx? (·.ep == some id) with
                    | some i => s.slots.modify i fun x => { x with ep := none }
                    | none => s.slots
           calls := s.calls ++ [.disconnect id] }

/-- `UnregisterPosixEndpoint` (qnx_dispatch_engine.cpp 386-393).  The endpoint is registered. -/
def unregister (s : State) (id : Nat) : State :=
  if s.eps.any (·.1 == id) then unselect { s with eps := s.eps.filter (·.1 != id) } id else s

/-- `ProcessCleanup` (qnx_dispatch_engine.cpp 525-536): the endpoints of an owner are removed.  The timers:
`Model/TimedQueue.lean`. -/
def cleanup (s : State) (owner : Nat) : State :=
  (s.eps.filter (·.2 == owner)).foldl (fun s e => unselect s e.1)
    { s with eps := s.eps.filter (·.2 != owner) }

/-- The server of a registered endpoint sends one of the announced pulses
(qnx_dispatch_engine.cpp 347-384). -/
def send (s : State) (id : Nat) (ping : Bool) : State :=
  if s.eps.any (·.1 == id) then
    match s.vals[id]? with
    | some (some (i, u)) => { s with pulses := s.pulses ++ [⟨pack i (signal ping) (u % 2 ^ 16), id, ping⟩] }
    | _ => s
  else s

/-- What `SelectPulseCallback` calls for a value (qnx_dispatch_engine.cpp 199-231). -/
def target (s : State) (v : Nat) : Option Call :=
  let (i, sig, n) := unpack v
  match s.slots[i]? with
  | none => none
  | some x => if x.nonce ≠ n then none else x.ep.map fun id => if sig = 1 then .ping id else .input id

/-- The thread takes the `n`-th pulse under way. -/
def take (s : State) (n : Nat) : State :=
  match s.pulses[n]? with
  | none => s
  | some p => { s with pulses := s.pulses.eraseIdx n, calls := s.calls ++ (target s p.value).toList }

inductive Op where
  | register (owner : Nat)
  | unregister (id : Nat)
  | cleanup (owner : Nat)
  | send (id : Nat) (ping : Bool)
  | take (n : Nat)
  deriving DecidableEq, Repr

def step (s : State) : Op → State
  | .register o => register s o
  | .unregister i => unregister s i
  | .cleanup o => cleanup s o
  | .send i p => send s i p
  | .take n => take s n

def run (s : State) (ops : List Op) : State := ops.foldl step s

end Verif.QnxPoll
