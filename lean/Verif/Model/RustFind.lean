/-!
# Looking for services with the asynchronous Rust API

`get_available_instances_async` and `ServiceDiscoveryFuture`
(score/mw/com/impl/rust/com-api/com-api-runtime-lola/consumer.rs, "consumer.rs" below), with
`mw_com_start_find_service` and `mw_com_stop_find_service`
(score/mw/com/impl/rust/com-api/com-api-ffi-lola/registry_bridge_macro.cpp 403-450).

A poll is two steps (registration of the waker, looking at the result) and a callback of the
service discovery is two steps (storing the handles, waking).  They run in any order.

Simplifications:
* One call; calls share nothing (consumer.rs 958-963 makes the state and the waker per call).
* The service discovery calls the callback only while the search is active (C62); a callback that
  has stored its handles still wakes after the search was stopped.
* `AtomicWaker::register` and `wake` are atomic; a handle of a service is a number.
-/
namespace Verif.RustFind

inductive Err where
  /-- `InstanceSpecifierInvalid` -/
  | invalid
  /-- `FailedToStartDiscovery` -/
  | notStarted
deriving DecidableEq, Repr

inductive Res where
  | found (hs : List Nat)
  | err (e : Err)
deriving DecidableEq, Repr

/-- How the call goes: the specifier is not valid; the search cannot be started; it is started,
perhaps with a callback before `StartFindService` returns. -/
inductive Begin where
  | invalid
  | failed
  | ok (atOnce : Option (List Nat))
deriving DecidableEq, Repr

/-- Where the future is: not there yet; not polled; `Pending` was returned; in a poll, after the
registration of the waker; finished or dropped. -/
inductive Pc where
  | none
  | fresh
  | waiting
  | polling
  | gone
deriving DecidableEq, Repr

/-- `err`: `find_service_result` is an error.  `slot`: `handles` of `DiscoveryStateData`
(consumer.rs 873-875).  `toWake`: callbacks between storing and waking.  `active`: the search of the
service discovery.  `stops`: calls of `stop_find_service`.  `boxes`: closures of the callback that
are allocated.  `started`, `seen` (what the callbacks brought) and `polled` are ghosts. -/
structure St where
  pc : Pc
  err : Option Err
  slot : Option (List Nat)
  toWake : Nat
  waker : Bool
  woken : Bool
  active : Bool
  stops : Nat
  boxes : Nat
  out : Option Res
  started : Bool
  seen : List (List Nat)
  polled : Bool
deriving DecidableEq, Repr

def init : St :=
  { pc := .none, err := none, slot := none, toWake := 0, waker := false, woken := false,
    active := false, stops := 0, boxes := 0, out := none, started := false, seen := [],
    polled := false }

inductive Op where
  | call (b : Begin)
  | notify (hs : List Nat)
  | wake
  | poll
  | go
  | drop
deriving DecidableEq, Repr

/-- `call`: `get_available_instances_async` (consumer.rs 947-1019); the search starts in the call, not
in the first poll.  The closure is boxed in any case (971-986). -/
def call (s : St) (b : Begin) : St :=
  match s.pc with
  | .none =>
    let s := { s with pc := .fresh, boxes := s.boxes + 1, woken := true }
    match b with
    | .invalid => { s with err := some .invalid }
    | .failed => { s with err := some .notStarted }
    | .ok none => { s with active := true, started := true }
    | .ok (some hs) => { s with active := true, started := true, slot := some hs, seen := s.seen ++ [hs] }
  | _ => s

/-- `notify`: the callback stores the handles (consumer.rs 973-975). -/
def notify (s : St) (hs : List Nat) : St :=
  if s.active then { s with slot := some hs, toWake := s.toWake + 1, seen := s.seen ++ [hs] } else s

/-- `wake`: the callback wakes (consumer.rs 976). -/
def wake (s : St) : St :=
  if s.toWake = 0 then s
  else { s with toWake := s.toWake - 1, waker := false, woken := s.woken || s.waker }

/-- `poll`: the future is polled.  The first poll returns the error of the start (consumer.rs
1005-1007) or makes the `ServiceDiscoveryFuture` (1009-1016); the waker is registered (1057). -/
def poll (s : St) : St :=
  match s.pc, s.err with
  | .fresh, some e => { s with pc := .gone, woken := false, polled := true, out := some (.err e) }
  | .fresh, none => { s with pc := .polling, woken := false, waker := true, polled := true }
  | .waiting, _ => { s with pc := .polling, woken := false, waker := true }
  | _, _ => s

/-- `drop` of the `ServiceDiscoveryFuture` (consumer.rs 1036-1048, registry_bridge_macro.cpp
431-450) -/
def stop (s : St) : St := { s with active := false, stops := s.stops + 1 }

/-- `go`: the poll takes the handles (consumer.rs 1068-1095); the future is dropped when it has
returned. -/
def go (s : St) : St :=
  match s.pc, s.slot with
  | .polling, some hs => stop { s with pc := .gone, slot := none, out := some (.found hs) }
  | .polling, none => { s with pc := .waiting }
  | _, _ => s

/-- `drop`: the user drops the future between two polls.  Before the first poll there is no
`ServiceDiscoveryFuture` (consumer.rs 1004-1016), and nothing is stopped. -/
def drop (s : St) : St :=
  match s.pc with
  | .fresh => { s with pc := .gone }
  | .waiting => stop { s with pc := .gone }
  | _ => s

/-- `RustBoxedCallable::dispose` for this callback is empty (registry_bridge_macro.h 188):
nothing releases the closure. -/
def step (s : St) : Op → St
  | .call b => call s b
  | .notify hs => notify s hs
  | .wake => wake s
  | .poll => poll s
  | .go => go s
  | .drop => drop s

def run (s : St) (ops : List Op) : St := ops.foldl step s

end Verif.RustFind
