import Verif.Lib.Fn
/-!
Receive handlers and the registration for update notifications at remote providers, as a `MessagePassingServiceInstance` of a
consumer keeps them (score/mw/com/impl/bindings/lola/messaging/message_passing_service_instance.cpp:950-1224, 1330-1465), and the
`EventReceiveHandlerManager` of each proxy event that drives it
(score/mw/com/impl/bindings/lola/subscription_helpers.cpp:28-62, subscription_helpers.h:38-67).

Calls are executed one at a time here; the separate steps of a call are in `Thread` below. Simplifications: events, handlers and
proxies are numbers; a node is the pid of a process, a number; the status-change callbacks are modelled in `NotifyFlag`.
-/
namespace Verif.EventNotif

/-- RegisteredNotificationHandler (message_passing_service_instance.h:154-162). -/
structure Reg where
  no : Nat
  h : Nat
  deriving DecidableEq, Repr

/-- The messages to a provider: start and stop to send update notifications. `sent = false`: skipped because the connection is not
ready. -/
inductive Msg
  | start (e n : Nat)
  | stop (e n : Nat) (sent : Bool)
  deriving DecidableEq, Repr

structure St where
  /-- event_update_handlers_ -/
  handlers : Nat → Option (List Reg)
  /-- event_update_remote_registrations_: node and counter -/
  remote : Nat → Option (Nat × Nat)
  /-- cur_registration_no_ -/
  nextNo : Nat
  /-- messages to providers, newest first -/
  msgs : List Msg
  /-- a check has failed: the process is terminated -/
  aborted : Bool

def init : St :=
  { handlers := fun _ => none, remote := fun _ => none, nextNo := 0, msgs := [], aborted := false }

/-- Registration numbers are std::uint32_t (i_message_passing_service.h:54). -/
def noMod : Nat := 2 ^ 32

/-- The counter of remote registrations is a std::uint16_t (message_passing_service_instance.h:170). -/
def cntMod : Nat := 2 ^ 16

/-- kMaxReceiveHandlersPerEvent (message_passing_service_instance.h:175). -/
def maxHandlers : Nat := 5

/-- std::lower_bound over the registration numbers, by bisection as the standard library does it: `first` and `len` describe the
rest of the range; `fuel` bounds the number of rounds (the length suffices). -/
def lowerBound (l : List Reg) (v : Nat) : (fuel first len : Nat) → Nat
  | 0, first, _ => first
  | fuel + 1, first, len =>
    if len = 0 then first
    else
      let half := len / 2
      match l[first + half]? with
      | none => first
      | some r =>
        if r.no < v then lowerBound l v fuel (first + half + 1) (len - half - 1)
        else lowerBound l v fuel first half

/-- Search and erase in UnregisterEventNotification (message_passing_service_instance.cpp:1169-1183); `none`: not found. -/
def eraseNo (l : List Reg) (no : Nat) : Option (List Reg) :=
  let i := lowerBound l no l.length 0 l.length
  match l[i]? with
  | none => none
  | some r => if r.no = no then some (l.eraseIdx i) else none

/-- The table part of RegisterEventNotificationRemote (1330-1361); the second component tells whether a message is sent. -/
def regCount (r : Option (Nat × Nat)) (n : Nat) : Option (Nat × Nat) × Bool :=
  match r with
  | none => (some (n, 1), true)
  | some (m, c) => if m ≠ n then (some (n, 1), true) else (some (m, (c + 1) % cntMod), (c + 1) % cntMod == 1)

/-- RegisterEventNotificationRemote (1330-1366). -/
def registerRemote (s : St) (e n : Nat) : St :=
  let r := regCount (s.remote e) n
  { s with remote := upd s.remote e r.1, msgs := if r.2 then .start e n :: s.msgs else s.msgs }

/-- RegisterEventNotification (1039-1102): returns the registration number. `self` is the own pid. -/
def register (self : Nat) (s : St) (e h n : Nat) : St × Nat :=
  let s1 :=
    { s with
      handlers := upd s.handlers e (some ((s.handlers e).getD [] ++ [{ no := s.nextNo, h }]))
      nextNo := (s.nextNo + 1) % noMod }
  (if n ≠ self then registerRemote s1 e n else s1, s.nextNo)

/-- The table part of UnregisterEventNotificationRemote (1368-1414): `none` if the check of the counter fails; otherwise the new
entry and whether a message is due. -/
def unregCount (r : Option (Nat × Nat)) (n : Nat) : Option (Option (Nat × Nat) × Bool) :=
  match r with
  | none => some (none, false)
  | some (m, c) =>
    if c = 0 then none
    else if m ≠ n then some (some (m, c), false)
    else if c - 1 = 0 then some (none, true)
    else some (some (m, c - 1), false)

/-- UnregisterEventNotificationRemote (1368-1447). `ready`: there is a connection to the node and it is ready. -/
def unregisterRemote (s : St) (e n : Nat) (ready : Bool) : St :=
  match unregCount (s.remote e) n with
  | none => { s with aborted := true }
  | some (r, due) => { s with remote := upd s.remote e r, msgs := if due then .stop e n ready :: s.msgs else s.msgs }

/-- UnregisterEventNotification (1156-1224). -/
def unregister (self : Nat) (s : St) (e no n : Nat) (ready : Bool) : St :=
  match s.handlers e with
  | none => s
  | some l =>
    match eraseNo l no with
    | none => s
    | some l' =>
      let s1 := { s with handlers := upd s.handlers e (some l') }
      if n ≠ self then unregisterRemote s1 e n ready else s1

/-- The table part of ReregisterEventNotification (1122-1152). -/
def reregCount (r : Option (Nat × Nat)) (n : Nat) : Option (Nat × Nat) × Bool :=
  match r with
  | none => (none, false)
  | some (m, c) => if m = n then (some (m, (c + 1) % cntMod), false) else (some (n, 1), true)

/-- ReregisterEventNotification (1104-1154). -/
def reregister (self : Nat) (s : St) (e n : Nat) : St :=
  match s.handlers e with
  | none => s
  | some _ =>
    if n ≠ self then
      let r := reregCount (s.remote e) n
      { s with remote := upd s.remote e r.1, msgs := if r.2 then .start e n :: s.msgs else s.msgs }
    else s

/-- NotifyEventLocally (950-1008): the handlers that are called, in order. `live h`: the handler object still exists and its scope
has not expired. -/
def notifyLocally (s : St) (e : Nat) (live : Nat → Bool) : List Nat :=
  ((((s.handlers e).getD []).take maxHandlers).map Reg.h).filter live

/-- The calls of applications, for all events. -/
inductive Op
  | register (e h n : Nat)
  | unregister (e no n : Nat) (ready : Bool)
  | reregister (e n : Nat)
  deriving DecidableEq, Repr

def step (self : Nat) (s : St) : Op → St
  | .register e h n => (register self s e h n).1
  | .unregister e no n ready => unregister self s e no n ready
  | .reregister e n => reregister self s e n

def run (self : Nat) (s : St) : List Op → St
  | [] => s
  | o :: os => run self (step self s o) os

/-! ### Proxy events -/

/-- EventReceiveHandlerManager (subscription_helpers.h:38-67). -/
structure Mgr where
  /-- event_source_pid_ -/
  pid : Nat
  /-- registration_number_ -/
  reg : Option Nat
  deriving DecidableEq, Repr

/-- All proxies of a consumer process and the providers of the events. -/
structure World where
  inst : St
  mgr : Nat → Mgr
  /-- pid of the process that provides the event at present -/
  cur : Nat → Nat
  /-- pids of all processes that have provided the event so far -/
  used : Nat → List Nat

/-- The proxies exist and know their provider; proxy `p` is for the event `ev p`, provided by process `pid0 (ev p)`. -/
def World.init (ev pid0 : Nat → Nat) : World :=
  { inst := EventNotif.init, mgr := fun p => { pid := pid0 (ev p), reg := none }, cur := pid0, used := fun e => [pid0 e] }

/-- EventReceiveHandlerManager::Unregister (subscription_helpers.cpp:53-62). -/
def mgrUnregister (self : Nat) (ev : Nat → Nat) (w : World) (p : Nat) (ready : Bool) : World :=
  match (w.mgr p).reg with
  | none => w
  | some no =>
    { w with
      inst := unregister self w.inst (ev p) no (w.mgr p).pid ready
      mgr := upd w.mgr p { w.mgr p with reg := none } }

/-- EventReceiveHandlerManager::Register (subscription_helpers.cpp:28-34). -/
def mgrRegister (self : Nat) (ev : Nat → Nat) (w : World) (p h : Nat) (ready : Bool) : World :=
  let w1 := mgrUnregister self ev w p ready
  let r := register self w1.inst (ev p) h (w1.mgr p).pid
  { w1 with inst := r.1, mgr := upd w1.mgr p { w1.mgr p with reg := some r.2 } }

/-- UpdatePid and EventReceiveHandlerManager::Reregister, as SubscriptionPendingState::ReOfferEvent does
(subscription_subscription_pending_states.cpp:74-81, subscription_helpers.cpp:36-51): `newH` is the handler set while the
subscription was pending. -/
def mgrReoffer (self : Nat) (ev : Nat → Nat) (w : World) (p : Nat) (newH : Option Nat) (ready : Bool) : World :=
  let w1 := { w with mgr := upd w.mgr p { w.mgr p with pid := w.cur (ev p) } }
  match newH with
  | some h => mgrRegister self ev w1 p h ready
  | none =>
    match (w1.mgr p).reg with
    | none => w1
    | some _ => { w1 with inst := reregister self w1.inst (ev p) (w1.mgr p).pid }

inductive WOp
  /-- a receive handler is set (or replaced) while the proxy event is subscribed -/
  | set (p h : Nat) (ready : Bool)
  /-- the receive handler is unset, or the subscription is ended -/
  | unset (p : Nat) (ready : Bool)
  /-- the proxy learns that the service is offered again; `newH`: the handler the application has set meanwhile -/
  | reoffer (p : Nat) (newH : Option Nat) (ready : Bool)
  /-- the provider of the event is now another process -/
  | restart (e n : Nat)
  deriving DecidableEq, Repr

def wstep (self : Nat) (ev : Nat → Nat) (w : World) : WOp → World
  | .set p h ready => mgrRegister self ev w p h ready
  | .unset p ready => mgrUnregister self ev w p ready
  | .reoffer p newH ready => mgrReoffer self ev w p newH ready
  | .restart e n => { w with cur := upd w.cur e n, used := upd w.used e (n :: w.used e) }

def wrun (self : Nat) (ev : Nat → Nat) (w : World) : List WOp → World
  | [] => w
  | o :: os => wrun self ev (wstep self ev w o) os

/-! ### Overlapping calls -/

/-- The two steps of a remote registration or de-registration: the table is changed under its lock, the message is sent afterwards
(RegisterEventNotificationRemote 1333-1365, UnregisterEventNotificationRemote 1374-1446). -/
structure Threads where
  st : St
  /-- the message a thread is about to send -/
  due : Nat → Option Msg

inductive TOp
  | reg (t e n : Nat)
  | unreg (t e n : Nat)
  /-- the thread sends its message -/
  | send (t : Nat)
  deriving DecidableEq, Repr

def tstep (w : Threads) : TOp → Threads
  | .reg t e n =>
    match w.due t with
    | some _ => w
    | none =>
      let r := regCount (w.st.remote e) n
      { st := { w.st with remote := upd w.st.remote e r.1 }, due := upd w.due t (if r.2 then some (.start e n) else none) }
  | .unreg t e n =>
    match w.due t with
    | some _ => w
    | none =>
      match unregCount (w.st.remote e) n with
      | none => { w with st := { w.st with aborted := true } }
      | some r => { st := { w.st with remote := upd w.st.remote e r.1 },
                    due := upd w.due t (if r.2 then some (.stop e n true) else none) }
  | .send t =>
    match w.due t with
    | none => w
    | some m => { st := { w.st with msgs := m :: w.st.msgs }, due := upd w.due t none }

def trun (w : Threads) : List TOp → Threads
  | [] => w
  | o :: os => trun (tstep w o) os

end Verif.EventNotif
