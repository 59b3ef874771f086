import Verif.Lib.Fn
/-!
The "somebody wants to be notified" flag of a provided event: the tables of local handlers and of interested remote nodes of a
`MessagePassingServiceInstance`, the status-change callbacks, and the flag these callbacks set in the provided event
(score/mw/com/impl/bindings/lola/messaging/message_passing_service_instance.cpp:463-604, 1039-1102, 1156-1224, 1467-1521;
score/mw/com/impl/bindings/lola/skeleton_event_common.h:285-333, 411-431).

Any number of threads. Each critical section is one atomic step; the status-change callback runs in a critical section of its own,
after the tables have been released. Simplifications: events, nodes and threads are numbers; the registration with a remote
provider (modelled in `EventNotif`) lies between the critical sections and touches none of this state; an absent table entry is an
empty one (the functions modelled here do not tell them apart); one quality level (the levels have separate instances and flags);
the additional callback for gateways is left out.
-/
namespace Verif.NotifyFlag

/-- What a thread is in the middle of. -/
inductive Phase
  | idle
  /-- about to report to the event `e` that there are (or are no) interested parties -/
  | notify (e : Nat) (v : Bool)
  /-- HandleRegisterNotificationMsg after it has looked at the local handlers -/
  | regMsg (e n : Nat) (hasLocal : Bool)
  /-- HandleUnregisterNotificationMsg after it has looked at the local handlers -/
  | unregMsg (e n : Nat) (hasLocal : Bool)
  /-- RegisterEventNotificationExistenceChangedCallback after the callback has been stored -/
  | offerHandlers (e : Nat)
  /-- … after it has looked at the local handlers -/
  | offerNodes (e : Nat) (hasLocal : Bool)
  /-- PrepareStopOfferCommon after the callback has been removed -/
  | resetFlag (e : Nat)
  deriving DecidableEq, Repr

structure St where
  /-- event_update_handlers_: the registration numbers -/
  handlers : Nat → List Nat
  /-- event_update_interested_nodes_ (a std::set; the order is of no importance here) -/
  nodes : Nat → List Nat
  /-- handler_status_change_callbacks_ has an entry: the event is offered -/
  offered : Nat → Bool
  /-- qm_event_update_notifications_registered_ / asil_b_… of the provided event -/
  flag : Nat → Bool
  /-- cur_registration_no_ (std::uint32_t; a wrap is of no importance here) -/
  nextNo : Nat
  /-- the threads -/
  th : Nat → Phase

/-- A process in which nothing has been registered yet (skeleton_event_common.h:189-190). -/
def init : St :=
  { handlers := fun _ => [], nodes := fun _ => [], offered := fun _ => false, flag := fun _ => false, nextNo := 0,
    th := fun _ => .idle }

inductive Op
  /-- RegisterEventNotification -/
  | register (t e : Nat)
  /-- UnregisterEventNotification with a registration number -/
  | unregister (t e no : Nat)
  /-- RegisterEventNotificationMessage received from node n -/
  | regMsg (t e n : Nat)
  /-- UnregisterEventNotificationMessage received from node n -/
  | unregMsg (t e n : Nat)
  /-- OutdatedNodeIdMessage received about node n -/
  | outdated (n : Nat)
  /-- PrepareOfferCommon registers the callback -/
  | offer (t e : Nat)
  /-- PrepareStopOfferCommon removes it -/
  | stopOffer (t e : Nat)
  /-- thread t goes on -/
  | go (t : Nat)
  deriving DecidableEq, Repr

/-- RegisterEventNotification (message_passing_service_instance.cpp:1039-1081): the handler is stored and, if it is the first local
one, the remote nodes are looked at, all under the lock of the handlers. The look at the nodes happens under their own lock a little
later; as nobody else can see the handlers in between, the model does both at once. -/
def register (s : St) (t e : Nat) : St :=
  { s with
    handlers := upd s.handlers e (s.handlers e ++ [s.nextNo])
    nextNo := s.nextNo + 1
    th := upd s.th t (if s.handlers e = [] ∧ s.nodes e = [] then .notify e true else .idle) }

/-- UnregisterEventNotification (1156-1206): an unknown number is ignored; if it was the last local handler, the remote nodes are
looked at. -/
def unregister (s : St) (t e no : Nat) : St :=
  if no ∈ s.handlers e then
    { s with
      handlers := upd s.handlers e ((s.handlers e).erase no)
      th := upd s.th t (if (s.handlers e).erase no = [] ∧ s.nodes e = [] then .notify e false else .idle) }
  else s

/-- The second critical section of HandleRegisterNotificationMsg (483-501): the status has changed if the node is the only one now
and there was no local handler. -/
def regNode (s : St) (t e n : Nat) (hasLocal : Bool) : St :=
  { s with
    nodes := upd s.nodes e (if n ∈ s.nodes e then s.nodes e else n :: s.nodes e)
    th := upd s.th t (if n ∉ s.nodes e ∧ s.nodes e = [] ∧ hasLocal = false then .notify e true else .idle) }

/-- The second critical section of HandleUnregisterNotificationMsg (543-557). -/
def unregNode (s : St) (t e n : Nat) (hasLocal : Bool) : St :=
  { s with
    nodes := upd s.nodes e ((s.nodes e).filter (· != n))
    th := upd s.th t
      (if n ∈ s.nodes e ∧ (s.nodes e).filter (· != n) = [] ∧ hasLocal = false then .notify e false else .idle) }

/-- HandleOutdatedNodeIdMsg (578-604): the node is forgotten for all events; no status change is reported. -/
def outdated (s : St) (n : Nat) : St :=
  { s with nodes := fun e => (s.nodes e).filter (· != n) }

/-- The callback of the event is looked up and called, under the lock of the callbacks (512-520, 567-575, 1091-1099, 1215-1223,
1494-1505); it stores the value in the flag (skeleton_event_common.h:293-300). -/
def notify (s : St) (t e : Nat) (v : Bool) : St :=
  { s with flag := if s.offered e then upd s.flag e v else s.flag, th := upd s.th t .idle }

/-- One atomic step; a thread that is in the middle of an operation does not start another one. -/
def step (s : St) : Op → St
  | .register t e => if s.th t = .idle then register s t e else s
  | .unregister t e no => if s.th t = .idle then unregister s t e no else s
  | .regMsg t e n => if s.th t = .idle then { s with th := upd s.th t (.regMsg e n (!(s.handlers e).isEmpty)) } else s
  | .unregMsg t e n => if s.th t = .idle then { s with th := upd s.th t (.unregMsg e n (!(s.handlers e).isEmpty)) } else s
  | .outdated n => outdated s n
  | .offer t e =>
    -- RegisterEventNotificationExistenceChangedCallback (1471-1473)
    if s.th t = .idle then { s with offered := upd s.offered e true, th := upd s.th t (.offerHandlers e) } else s
  | .stopOffer t e =>
    -- UnregisterEventNotificationExistenceChangedCallback (1511-1513)
    if s.th t = .idle then { s with offered := upd s.offered e false, th := upd s.th t (.resetFlag e) } else s
  | .go t =>
    match s.th t with
    | .idle => s
    | .notify e v => notify s t e v
    | .regMsg e n l => regNode s t e n l
    | .unregMsg e n l => unregNode s t e n l
    -- 1475-1480
    | .offerHandlers e => { s with th := upd s.th t (.offerNodes e (!(s.handlers e).isEmpty)) }
    -- 1482-1492
    | .offerNodes e l => { s with th := upd s.th t (if l || !(s.nodes e).isEmpty then .notify e true else .idle) }
    -- skeleton_event_common.h:331-333
    | .resetFlag e => { s with flag := upd s.flag e false, th := upd s.th t .idle }

def run (s : St) : List Op → St
  | [] => s
  | o :: os => run (step s o) os

/-- NotifyConsumersIfHandlersRegistered (skeleton_event_common.h:411-431): a sent event is announced only if the flag is set. -/
def announces (s : St) (e : Nat) : Bool := s.flag e

end Verif.NotifyFlag
