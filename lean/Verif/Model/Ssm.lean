/-!
Model of one proxy event: the API layer (impl/proxy_event_base.cpp:75-330), the subscription state machine of the
lola binding (lola/subscription_state_machine.cpp:60-200, subscription_not_subscribed_states.cpp:38-170,
subscription_subscribed_states.cpp:30-110, subscription_subscription_pending_states.cpp:30-120) and the handler
registration (lola/subscription_helpers.cpp:28-62).

Every operation of the state machine runs under its mutex, so operations are atomic. The shared memory is seen through
what this proxy event holds in it; whether a log is free, whether the slot limit allows the subscription and whether
`Unsubscribe` meets its retry limit are decided by the environment (arguments of the operations); how the shared
memory decides is modelled in Model/SubCtrl.lean and Model/LogSet.lean.
-/
namespace Verif.Ssm

/-- SubscriptionStateMachineState (lola/subscription_state_machine_states.h). -/
inductive State where
  | notSubscribed
  | pending
  | subscribed
  deriving DecidableEq, Repr

/-- Everything belonging to one proxy event. -/
structure St where
  /-- state machine -/
  st : State
  /-- `provider_service_instance_is_available_` -/
  avail : Bool
  /-- `event_receiver_handler_`: handler waiting for its registration -/
  pend : Option Nat
  /-- `max_sample_count_` -/
  max : Option Nat
  /-- `transaction_log_registration_guard_` is set -/
  guard : Bool
  /-- `registration_number_` of the handler manager -/
  regNo : Option Nat
  /-- `event_source_pid_` of the handler manager -/
  pid : Nat
  /-- registrations of this event with the messaging: number, handler, provider pid -/
  regs : List (Nat × Nat × Nat)
  /-- next registration number -/
  nextNo : Nat
  /-- held in shared memory: transaction logs -/
  logs : Nat
  /-- held in shared memory: subscriptions -/
  subs : Nat
  /-- held in shared memory: slots reserved by the subscriptions -/
  slots : Nat
  /-- `is_subscribed_flag_` of the API layer -/
  flag : Bool
  /-- `receive_handler_ptr_` of the API layer -/
  ptr : Option Nat
  /-- handler whose scope is not expired -/
  scope : Option Nat
  /-- next handler identity -/
  nextH : Nat
  /-- the process terminated itself -/
  dead : Bool
  /-- transitions reported to the state change handler, newest first -/
  trans : List State
  deriving DecidableEq, Repr

/-- A new proxy event (subscription_state_machine.cpp:62-86). -/
def init (pid : Nat) : St :=
  { st := .notSubscribed, avail := true, pend := none, max := none, guard := false, regNo := none, pid := pid,
    regs := [], nextNo := 0, logs := 0, subs := 0, slots := 0, flag := false, ptr := none, scope := none, nextH := 0,
    dead := false, trans := [] }

/-- EventReceiveHandlerManager::Unregister (subscription_helpers.cpp:53-62). -/
def unregister (s : St) : St :=
  match s.regNo with
  | some k => { s with regs := s.regs.filter (fun r => r.1 != k), regNo := none }
  | none => s

/-- EventReceiveHandlerManager::Register (subscription_helpers.cpp:28-34). -/
def register (s : St) (h : Nat) : St :=
  let t := unregister s
  { t with regs := (t.nextNo, h, t.pid) :: t.regs, regNo := some t.nextNo, nextNo := t.nextNo + 1 }

/-- EventReceiveHandlerManager::Reregister (subscription_helpers.cpp:36-51): without a new handler the existing
registration is repeated towards the new provider process. -/
def reregister (s : St) : St :=
  match s.pend with
  | some h => register s h
  | none =>
    match s.regNo with
    | some k => { s with regs := s.regs.map (fun r => if r.1 == k then (r.1, r.2.1, s.pid) else r) }
    | none => s

/-- The unsubscription done on entry of NOT_SUBSCRIBED (subscription_not_subscribed_states.cpp:157-170); `ok = false`:
the shared counter could not be updated and the process terminates. -/
def enterNotSubscribed (s : St) (ok : Bool) : St :=
  if s.guard = false then { s with dead := true }
  else
    match s.max with
    | none => { s with dead := true }
    | some n =>
      if ok = false ∨ s.subs = 0 ∨ s.slots < n then { s with dead := true }
      else
        let t := unregister { s with subs := s.subs - 1, slots := s.slots - n }
        if t.logs = 0 then { t with dead := true }
        else { t with max := none, guard := false, logs := t.logs - 1 }

/-- TransitionToState (subscription_state_machine.cpp:183-200). -/
def transition (s : St) (new : State) (ok : Bool) : St :=
  let t := if new = .notSubscribed then enterNotSubscribed { s with st := new } ok else { s with st := new }
  { t with trans := new :: t.trans }

/-- Result of a Subscribe call. -/
inductive Res where
  | ok
  | maxSubscribersExceeded
  | notRealizable
  deriving DecidableEq, Repr

/-- Registration of a waiting handler on subscription (subscription_not_subscribed_states.cpp:87-96). -/
def registerWaiting (s : St) : St :=
  match s.pend with
  | some h => if s.avail then { register s h with pend := none } else s
  | none => s

/-- NotSubscribedState::SubscribeEvent (subscription_not_subscribed_states.cpp:38-111). -/
def subscribeFresh (s : St) (n : Nat) (logFree slotsFree : Bool) : St × Res :=
  if logFree = false then (s, .maxSubscribersExceeded)
  else if slotsFree = false then (s, .notRealizable)
  else
    let s := { s with guard := true, logs := s.logs + 1, subs := s.subs + 1, slots := s.slots + n }
    let s := { registerWaiting s with max := some n }
    (transition s (if s.avail then .subscribed else .pending) true, .ok)

/-- Binding level SubscribeEvent (subscribed: …:33-55, pending: …:32-54; the casts to 16 and 8 bit keep the counts up to
255 that proxy_event_common.cpp:45-52 lets through). -/
def bindSubscribe (s : St) (n : Nat) (logFree slotsFree : Bool) : St × Res :=
  match s.st with
  | .notSubscribed => subscribeFresh s n logFree slotsFree
  | .subscribed => (s, if s.max = some (n % 65536) then .ok else .notRealizable)
  | .pending => (s, if s.max = some (n % 256) then .ok else .notRealizable)

/-- UnsubscribeEvent of the three states. -/
def bindUnsubscribe (s : St) (ok : Bool) : St :=
  match s.st with
  | .notSubscribed => s
  | _ => transition s .notSubscribed ok

/-- StopOfferEvent of the three states. -/
def stopOffer (s : St) : St :=
  match s.st with
  | .notSubscribed => { s with avail := false }
  | .subscribed => transition { s with avail := false } .pending true
  | .pending => { s with dead := true }

/-- ReOfferEvent of the three states. -/
def reOffer (s : St) (pid : Nat) : St :=
  match s.st with
  | .notSubscribed => { s with pid := pid, avail := true }
  | .subscribed => s
  | .pending =>
    let t := reregister { s with avail := true, pid := pid }
    transition { t with pend := none } .subscribed true

/-- SetReceiveHandler of the three states. -/
def bindSetHandler (s : St) (h : Nat) : St :=
  match s.st with
  | .subscribed => register s h
  | _ => { s with pend := some h }

/-- UnsetReceiveHandler of the three states. -/
def bindUnsetHandler (s : St) : St :=
  match s.st with
  | .subscribed => unregister s
  | _ => { s with pend := none }

/-- Calls and events. -/
inductive Op where
  | subscribe (n : Nat) (logFree slotsFree : Bool)
  /-- `inHandler`: called from within the receive handler -/
  | unsubscribe (inHandler ok : Bool)
  | setHandler
  | unsetHandler (inHandler : Bool)
  | stopOffer
  | reOffer (pid : Nat)

/-- One operation (API layer around the binding). -/
def step (s : St) (op : Op) : St :=
  if s.dead then s else
  match op with
  | .subscribe n lf sf =>
    -- proxy_event_base.cpp:75-112
    match s.st with
    | .notSubscribed =>
      -- proxy_event_common.cpp:45-52
      if n > 255 then { s with dead := true }
      else
        let r := bindSubscribe s n lf sf
        if r.2 = .ok then { r.1 with flag := true } else r.1
    | .subscribed =>
      -- GetMaxSampleCount asserts a count above 0 in this state (subscription_subscribed_states.cpp:83-90)
      match s.max with
      | none => { s with dead := true }
      | some m => if m = 0 then { s with dead := true } else if n = m then { s with flag := true } else s
    | .pending =>
      match s.max with
      | none => { s with dead := true }
      | some m => if n = m then { s with flag := true } else s
  | .unsubscribe ih ok =>
    -- proxy_event_base.cpp:115-150
    if s.flag = false then s
    else if s.st = .notSubscribed then { s with flag := false }
    else { bindUnsubscribe { s with scope := if ih then s.scope else none } ok with flag := false }
  | .setHandler =>
    -- proxy_event_base.cpp:246-280
    bindSetHandler { s with scope := some s.nextH, ptr := some s.nextH, nextH := s.nextH + 1 } s.nextH
  | .unsetHandler ih =>
    -- proxy_event_base.cpp:282-308
    match s.ptr with
    | none => s
    | some _ => bindUnsetHandler { s with scope := if ih then s.scope else none, ptr := none }
  | .stopOffer => stopOffer s
  | .reOffer pid => reOffer s pid

/-- Run a history. -/
def run (s : St) (ops : List Op) : St := ops.foldl step s

/-- Handlers called when a notification arrives: every registration whose handler object still exists and whose scope is
not expired (message_passing_service_instance.cpp:950-1008). -/
def called (s : St) : List Nat :=
  (s.regs.filter (fun r => s.ptr == some r.2.1 && s.scope == some r.2.1)).map (·.2.1)

end Verif.Ssm
