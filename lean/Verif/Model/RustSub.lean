/-!
# A subscription of the Rust API

`Subscriber::new`, `subscribe`, `unsubscribe` and the drops of the objects
(score/mw/com/impl/rust/com-api/com-api-runtime-lola/consumer.rs, called "consumer.rs"), with what they
call (impl/proxy_event_base.cpp 76-152, impl/proxy_base.cpp 190-208,
bindings/lola/proxy_event_common.cpp 45-52).

Simplifications:
* One subscriber with its proxy and its event; each subscriber makes a proxy of its own.
* The binding is subscribed or not; the states of the subscription are in C21-C23.  How many samples
  there are is in C24, their content in C119.
* What the borrow checker does not allow has no effect here: the subscription is neither dropped nor
  given up while a receive future borrows it.  Samples borrow nothing: `Sample<'a>` is
  `LolaSample<T, B>` (consumer.rs 600).
-/
namespace Verif.RustSub

/-- The object that the user has. -/
inductive Obj where
  | none
  | subscriber
  | subscription (max : Nat)
deriving DecidableEq, Repr

inductive Ev where
  | subscribed (max : Nat)
  | refused (max : Nat)
  | unsubscribed
  /-- the process ends: an assertion, `std::terminate`, or a panic in a drop -/
  | ended
deriving DecidableEq, Repr

structure St where
  obj : Obj := .none
  /-- the proxy exists -/
  proxy : Bool := false
  /-- the binding is subscribed, with so many samples -/
  sub : Option Nat := .none
  /-- the receive handler is set -/
  handler : Bool := false
  /-- `in_progress` of the event -/
  busy : Bool := false
  /-- a receive future borrows the subscription -/
  future : Bool := false
  /-- samples that the user has -/
  samples : Nat := 0
  over : Bool := false
  /-- the newest first -/
  log : List Ev := []
deriving DecidableEq, Repr

def finish (s : St) : St := { s with over := true, log := .ended :: s.log }

/-- `ProxyEventBase::Unsubscribe` (proxy_event_base.cpp 115-152); the handler is unset with it. -/
def cppUnsubscribe (s : St) : St :=
  match s.sub with
  | none => s
  | some _ =>
    let s := { s with sub := none, handler := false }
    if s.samples = 0 then s else finish s

/-- `destroy_proxy` (consumer.rs 224-232): `Deinitialize` unsubscribes (proxy_base.cpp 190-208), then
the event is destroyed (proxy_event_base.cpp 55-64). -/
def destroyProxy (s : St) : St :=
  let s := cppUnsubscribe s
  if s.over then s
  else if s.samples = 0 then { s with proxy := false } else finish s

/-- `Drop for LolaSubscriberImpl` (consumer.rs 508-529): the guard panics if it is taken. -/
def dropSubscription (s : St) : St :=
  if s.busy then finish s else cppUnsubscribe s

/-- `new` (consumer.rs 318-336); `ok`: there is a handle and the proxy can be made. -/
def create (s : St) (ok : Bool) : St :=
  match s.obj with
  | .none => if ok then { s with obj := .subscriber, proxy := true } else s
  | _ => s

/-- `subscribe` takes the subscriber, so that it is dropped with an error. -/
def refuse (s : St) (max : Nat) : St :=
  let s := destroyProxy { s with obj := .none }
  if s.over then s else { s with log := .refused max :: s.log }

/-- `subscribe` (consumer.rs 337-401).  `event`: the proxy has the event; `binding`: the binding
accepts the subscription; `ops`: the operations of the type are registered. -/
def subscribe (s : St) (max : Nat) (event binding ops : Bool) : St :=
  match s.obj with
  | .subscriber =>
    if max = 0 then refuse s max
    else if event = false then refuse s max
    else if 4294967295 < max then refuse s max
    -- the assertion of the binding (proxy_event_common.cpp 49)
    else if 255 < max then finish s
    else if binding = false then refuse s max
    else
      let s := { s with sub := some max }
      if ops = false then refuse s max
      else { s with obj := .subscription max, log := .subscribed max :: s.log }
  | _ => s

/-- `unsubscribe` (consumer.rs 626-634): the new subscriber has the same proxy; then the
subscription is dropped. -/
def unsubscribe (s : St) : St :=
  match s.obj with
  | .subscription _ =>
    if s.future then s
    else
      let s := dropSubscription s
      if s.over then s else { s with obj := .subscriber, log := .unsubscribed :: s.log }
  | _ => s

/-- The object is dropped; the proxy with it, since nothing else shares it. -/
def drop (s : St) : St :=
  match s.obj with
  | .none => s
  | .subscriber => destroyProxy { s with obj := .none }
  | .subscription _ =>
    if s.future then s
    else
      let s := dropSubscription s
      if s.over then s else destroyProxy { s with obj := .none }

/-- `try_receive` (consumer.rs 636-650) hands over `n` samples, as many as are allowed (C24). -/
def receive (s : St) (n : Nat) : St :=
  match s.obj with
  | .subscription max =>
    if s.busy then finish s else { s with samples := min (s.samples + n) max }
  | _ => s

/-- The user drops a sample (consumer.rs 91-106). -/
def release (s : St) : St := { s with samples := s.samples - 1 }

/-- The first poll of a receive future takes the guard and sets the handler (consumer.rs 657-698). -/
def startReceive (s : St) : St :=
  match s.obj with
  | .subscription _ =>
    if s.busy then finish s else { s with busy := true, future := true, handler := true }
  | _ => s

/-- The future is finished or dropped (consumer.rs 464-470), or given to `mem::forget`. -/
def endReceive (s : St) (forget : Bool) : St :=
  if s.future then { s with future := false, busy := forget } else s

inductive Op where
  | create (ok : Bool)
  | subscribe (max : Nat) (event binding ops : Bool)
  | unsubscribe
  | drop
  | receive (n : Nat)
  | release
  | startReceive
  | endReceive (forget : Bool)
deriving DecidableEq, Repr

def step (s : St) (op : Op) : St :=
  if s.over then s else
  match op with
  | .create ok => create s ok
  | .subscribe max e b o => subscribe s max e b o
  | .unsubscribe => unsubscribe s
  | .drop => drop s
  | .receive n => receive s n
  | .release => release s
  | .startReceive => startReceive s
  | .endReceive f => endReceive s f

def run (s : St) (ops : List Op) : St := ops.foldl step s

def init : St := {}

end Verif.RustSub
