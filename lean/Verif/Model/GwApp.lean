import Verif.Lib.Fn
/-! The gateway application (/repo/score/mw/com/gateway/gateway_application/gateway_application.cpp) with the dispatch of
messages from the peer (transport_layer/sample/sample_hypervisor_transport.cpp:98-239).

Service instances and service elements are natural numbers: the code compares the texts for equality only.  An instance
specifier that cannot be parsed never reaches the application (sample_hypervisor_transport.cpp:140, 160, ...).  What the
middleware below and the connection to the peer answer is chosen by the environment.

Two threads matter: the dispatch thread, which calls the functions for messages of the peer, and the threads of the
middleware, which report availability and subscription changes under mutex_.  The functions for the peer's messages do not
lock mutex_.  RegisterUpdateNotification and UnregisterUpdateNotification therefore take two steps (the lookup in proxies_ and
the use of the element found), and ReRegisterActiveEventSubscriptions one step per element of the set it iterates over; an
element that is erased in between, or a set that changes during the iteration, is undefined behaviour (`race`).  The
remaining functions are one step each.  The placeholders for the shared memory of a hypervisor (52, 70, 313 of the transport)
are left out. -/
namespace Verif.GwApp

/-- Why the gateway process ended. -/
inductive Death where
  /-- the assertion in OnServiceUnavailable (gateway_application.cpp:168) -/
  | proxyMissing
  /-- the assertions on the element type (532, 562) -/
  | notAnEvent
  /-- undefined behaviour by unsynchronised access -/
  | race
  deriving DecidableEq, Repr

/-- Observable effects, for the specification. -/
inductive Ev where
  | created (n : Nat)
  | offered (n : Nat)
  | stopped (n : Nat)
  | notified (n e : Nat)
  /-- a request to the peer: register or unregister for updates of event `e` of service `n`; `ok`: it was acknowledged -/
  | register (n e : Nat) (ok : Bool)
  | unregister (n e : Nat) (ok : Bool)
  /-- the same request as `register`, sent because the peer provides the service again -/
  | reregister (n e : Nat) (ok : Bool)
  | provide (n : Nat) (ok : Bool)
  | stopOffer (n : Nat)
  /-- subscription and unsubscription at the local proxy on behalf of the peer -/
  | subscribed (n e : Nat)
  | unsubscribed (n e : Nat)
  deriving DecidableEq, Repr

/-- What the dispatch thread is doing. -/
inductive Pc where
  | idle
  /-- in RegisterUpdateNotification, holding an iterator to the proxy of `n` -/
  | register (n e : Nat)
  | unregister (n ty e : Nat)
  /-- in ReRegisterActiveEventSubscriptions with the elements still to be visited -/
  | reregister (n : Nat) (es : List Nat)
  deriving DecidableEq, Repr

structure St where
  /-- GetReceivedServices of the configuration -/
  received : List Nat
  /-- proxies_: the events of the proxy -/
  proxies : Nat → Option (List Nat)
  /-- skeletons_: the events of the skeleton -/
  skeletons : Nat → Option (List Nat)
  /-- active_event_subscriptions_ -/
  active : Nat → List Nat
  pc : Pc
  dead : Option Death
  /-- newest first -/
  log : List Ev

def init (received : List Nat) : St := ⟨received, fun _ => none, fun _ => none, fun _ => [], .idle, none, []⟩

/-- ServiceElementType::EVENT (impl/service_element_type.h:30-36). -/
def eventType : Nat := 1

inductive Op where
  /-- messages of the peer; the Booleans are the answers of the middleware (Create, OfferService, Notify, ...) -/
  | peerProvide (n : Nat) (es : List Nat) (createOk offerOk : Bool)
  | peerOffer (n : Nat) (ok : Bool)
  | peerStopOffer (n : Nat)
  | peerRegister (n ty e : Nat)
  | peerUnregister (n ty e : Nat)
  | peerNotify (n ty e : Nat) (ok : Bool)
  /-- the dispatch thread continues; `b`: Subscribe succeeds, or the request to the peer is acknowledged -/
  | continue (b : Bool)
  /-- the middleware reports that a forwarded service is available, with the events of its proxy;
  `createOk`: the proxy can be created, `sendOk`: the request to the peer is acknowledged -/
  | available (n : Nat) (es : List Nat) (createOk sendOk : Bool)
  | unavailable (n : Nat) (sendOk : Bool)
  /-- the first consumer sets a receive handler (`on`) or the last one removes it -/
  | subscription (n e : Nat) (on : Bool) (sendOk : Bool)
  deriving DecidableEq, Repr

/-- IsServiceInstanceAccepted (gateway_application.cpp:79-87). -/
def isAccepted (s : St) (n : Nat) : Bool := s.received.any (fun x => x == n)

/-- ProvideService (gateway_application.cpp:343-411).  The handlers set by RegisterEventReceiveHandlerCallback (225-253) lead
to `subscription` operations.  For an existing skeleton the function goes on with ReRegisterActiveEventSubscriptions. -/
def peerProvide (s : St) (n : Nat) (es : List Nat) (createOk offerOk : Bool) : St :=
  if !isAccepted s n then s
  else
    match s.skeletons n with
    | some _ =>
      { s with log := if offerOk then .offered n :: s.log else s.log, pc := .reregister n (s.active n) }
    | none =>
      if !createOk then s
      else if !offerOk then { s with log := .created n :: s.log }
      else { s with skeletons := upd s.skeletons n (some es), log := .offered n :: .created n :: s.log }

/-- OfferService (gateway_application.cpp:433-453). -/
def peerOffer (s : St) (n : Nat) (ok : Bool) : St :=
  match s.skeletons n with
  | none => s
  | some _ => if ok then { s with log := .offered n :: s.log } else s

/-- StopOfferService (gateway_application.cpp:413-431). -/
def peerStopOffer (s : St) (n : Nat) : St :=
  match s.skeletons n with
  | none => s
  | some _ => { s with log := .stopped n :: s.log }

/-- RegisterUpdateNotification, the lookup (gateway_application.cpp:464-469).  The element type is not looked at. -/
def peerRegister (s : St) (n e : Nat) : St :=
  match s.proxies n with
  | none => s
  | some _ => { s with pc := .register n e }

/-- UnregisterUpdateNotification, the lookup (gateway_application.cpp:526-530). -/
def peerUnregister (s : St) (n ty e : Nat) : St :=
  match s.proxies n with
  | none => s
  | some _ => { s with pc := .unregister n ty e }

/-- NotifyUpdate (gateway_application.cpp:550-582). -/
def peerNotify (s : St) (n ty e : Nat) (ok : Bool) : St :=
  match s.skeletons n with
  | none => s
  | some es =>
    if ty ≠ eventType then { s with dead := some .notAnEvent }
    else if e ∈ es ∧ ok then { s with log := .notified n e :: s.log }
    else s

/-- The rest of RegisterUpdateNotification (gateway_application.cpp:471-513), of UnregisterUpdateNotification (532-547) and of
ReRegisterActiveEventSubscriptions (312-341).  The iterator points to an element of proxies_; using it after the element was
erased is undefined. -/
def continue' (s : St) (b : Bool) : St :=
  match s.pc with
  | .idle => s
  | .register n e =>
    match s.proxies n with
    | none => { s with dead := some .race }
    | some es =>
      if e ∈ es ∧ b then { s with pc := .idle, log := .subscribed n e :: s.log } else { s with pc := .idle }
  | .unregister n ty e =>
    match s.proxies n with
    | none => { s with dead := some .race }
    | some es =>
      if ty ≠ eventType then { s with dead := some .notAnEvent }
      else if e ∈ es then { s with pc := .idle, log := .unsubscribed n e :: s.log }
      else { s with pc := .idle }
  | .reregister _ [] => { s with pc := .idle }
  | .reregister n (e :: es) => { s with pc := .reregister n es, log := .reregister n e b :: s.log }

/-- PropagateService (gateway_application.cpp:188-223): the proxy is erased when the peer does not acknowledge. -/
def propagate (s : St) (n : Nat) (sendOk : Bool) : St :=
  if sendOk then { s with log := .provide n true :: s.log }
  else { s with log := .provide n false :: s.log, proxies := upd s.proxies n none }

/-- OnServiceAvailabilityChanged with handles (gateway_application.cpp:130-161). -/
def available (s : St) (n : Nat) (es : List Nat) (createOk sendOk : Bool) : St :=
  match s.proxies n with
  | some _ => propagate s n sendOk
  | none => if !createOk then s else propagate { s with proxies := upd s.proxies n (some es) } n sendOk

/-- OnServiceUnavailable (gateway_application.cpp:163-186). -/
def unavailable (s : St) (n : Nat) : St :=
  match s.proxies n with
  | none => { s with dead := some .proxyMissing }
  | some _ => { s with log := .stopOffer n :: s.log }

/-- Does the dispatch thread iterate over the active events of service `n`? -/
def iterates (s : St) (n : Nat) : Bool :=
  match s.pc with
  | .reregister m _ => m == n
  | _ => false

/-- OnSubscriptionStateChanged (gateway_application.cpp:255-310). -/
def subscription (s : St) (n e : Nat) (on sendOk : Bool) : St :=
  if on then
    if e ∈ s.active n then s
    else if iterates s n then { s with dead := some .race }
    else { s with active := upd s.active n (e :: s.active n), log := .register n e sendOk :: s.log }
  else
    if e ∈ s.active n then
      if iterates s n then { s with dead := some .race }
      else { s with active := upd s.active n ((s.active n).filter (fun x => x ≠ e)), log := .unregister n e sendOk :: s.log }
    else s

/-- The dispatch thread handles one message after the other (bidirectional_transport.cpp:349-371). -/
def step (s : St) (o : Op) : St :=
  if s.dead.isSome then s
  else
    match o with
    | .peerProvide n es c f => if s.pc = .idle then peerProvide s n es c f else s
    | .peerOffer n b => if s.pc = .idle then peerOffer s n b else s
    | .peerStopOffer n => if s.pc = .idle then peerStopOffer s n else s
    | .peerRegister n _ e => if s.pc = .idle then peerRegister s n e else s
    | .peerUnregister n ty e => if s.pc = .idle then peerUnregister s n ty e else s
    | .peerNotify n ty e b => if s.pc = .idle then peerNotify s n ty e b else s
    | .continue b => continue' s b
    | .available n es c k => available s n es c k
    | .unavailable n _ => unavailable s n
    | .subscription n e on k => subscription s n e on k

def run (s : St) (ops : List Op) : St := ops.foldl step s

end Verif.GwApp
