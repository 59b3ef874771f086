import Verif.Model.MethodRes
/-! Subscription to and calls of service methods on the provider's side: the handlers in a process's message passing service
(/repo/score/mw/com/impl/bindings/lola/messaging/message_passing_service_instance.cpp), the services of the process
(skeleton.cpp) and their methods (skeleton_method.cpp). Any number of services, message-processing threads, consumers and
methods. A method call handler and the guard that unregisters it (method_call_registration_guard.cpp) are one record, since the
guard is created when the handler is registered and the handler is removed when the guard is destroyed.

Steps: looking up a handler (under the message passing service's lock) and running it are separate steps, as the code copies the
handler and runs it after it released the lock. The run of a subscription handler is one step, since it holds the skeleton's
mutex on_service_methods_subscribed_mutex_; it is nevertheless interleaved with lookups and calls of methods only as a whole, which
is a simplification. So is that the removal of the region and of the handlers in an unsubscription is one step. A method call is
two steps: entering the handler's scope, and using the memory and leaving the scope.

Not modelled: two skeletons with the same service instance identifier, failing registration of the subscription handlers. -/
namespace Verif.MethodSub

/-- The quality level whose message passing server a message came in through: there is one MessagePassingServiceInstance, with
its own tables, for each. -/
inductive Lvl where
  | qm | b
  deriving DecidableEq, Repr

/-- ProxyInstanceIdentifier (proxy_instance_identifier.h:37-45). -/
structure Proxy where
  app : Nat
  ctr : Nat
  deriving DecidableEq, Repr

/-- A registered method call handler: the element of call_method_handlers_ (key: level, proxy and method; value: handler and
allowed uid) and of registration_guards_ of the method of a skeleton (key: proxy; value: pid and guard). `gen` is the skeleton's
scope that the handler belongs to, `region` is the memory its storages point to. -/
structure Reg where
  skel : Nat
  lvl : Lvl
  proxy : Proxy
  method : Nat
  uid : Nat
  pid : Nat
  gen : Nat
  region : Nat
  deriving DecidableEq, Repr

/-- The configuration of the services of a process. -/
structure Cfg where
  /-- The number of message-processing threads. -/
  threads : Nat
  /-- skeleton_methods_: the methods of a service. -/
  methods : Nat → List Nat
  /-- Is the service ASIL-B (quality_type_)? -/
  asilB : Nat → Bool
  /-- GetAllowedConsumers (skeleton.cpp:792-817): `none` is everybody. -/
  allowed : Nat → Lvl → Option (List Nat)

/-- Where a service is in its life cycle: PrepareStopOffer (skeleton.cpp:425-474) is a sequence of steps. -/
inductive Phase where
  | stopped
  | offered
  /-- The subscription handlers are unregistered (skeleton.cpp:449-452). -/
  | noSubscribe
  /-- The method call handlers are unregistered (skeleton.cpp:453-456). -/
  | noHandlers
  /-- on_service_method_subscribed_handler_scope_ is expired (skeleton.cpp:461). -/
  | subExpired
  /-- method_call_handler_scope_ is expired (skeleton.cpp:465). -/
  | callExpired
  deriving DecidableEq, Repr

/-- What a message-processing thread is doing. -/
inductive Pc where
  | idle
  /-- Has copied a ServiceMethodSubscribedHandler. -/
  | sub (skel : Nat) (lvl : Lvl) (proxy : Proxy) (uid pid gen : Nat)
  /-- Has copied a ServiceMethodUnsubscribedHandler. -/
  | unsub (skel : Nat) (proxy : Proxy) (gen : Nat)
  /-- Has copied a MethodCallHandler, for a call of this method by this proxy. -/
  | call (r : Reg) (uid : Nat) (lvl : Lvl) (proxy : Proxy) (method : Nat)
  /-- Is in the MethodCallHandler, inside of its scope. -/
  | calling (r : Reg)
  deriving DecidableEq, Repr

/-- Why the process terminated. -/
inductive Cause where
  /-- The consumer's memory names a method that the service does not have (skeleton.cpp:745-747). -/
  | unknownMethod
  /-- RegisterMethodCallHandler finds a handler with the same key (message_passing_service_instance.cpp:1272-1276). -/
  | handlerExists (new old : Reg)
  /-- The guard of another handler is in the way (skeleton_method.cpp:112-115). -/
  | guardExists (new old : Reg)
  deriving DecidableEq, Repr

/-- What can be observed (ghost). -/
inductive Ev where
  /-- A service's subscription handler has been run for this caller. -/
  | subscribed (skel : Nat) (lvl : Lvl) (proxy : Proxy) (uid pid : Nat)
  | registered (r : Reg)
  /-- A service's unsubscription handler has been run. -/
  | unsubscribed (skel : Nat) (proxy : Proxy)
  /-- A service's method handler has been entered for a caller, who called this method with this proxy at this level. -/
  | called (r : Reg) (uid : Nat) (lvl : Lvl) (proxy : Proxy) (method : Nat)
  /-- A service's method handler has used the memory of its call slots. -/
  | used (r : Reg) (mapped : Bool)
  deriving DecidableEq, Repr

structure St where
  phase : Nat → Phase
  /-- The number of the current scopes of a service: PrepareOffer creates new ones (skeleton.cpp:389-390). -/
  gen : Nat → Nat
  /-- method_resources_ of each service. -/
  res : Nat → MethodRes.Map
  regs : List Reg
  pc : Nat → Pc
  /-- The number of the next opened region. -/
  next : Nat
  dead : Option Cause
  log : List Ev

def init : St := ⟨fun _ => .stopped, fun _ => 0, fun _ => MethodRes.empty, [], fun _ => .idle, 0, none, []⟩

/-- Is a handler bound to the subscription scope `gen` of a service still invocable? -/
def St.subAlive (s : St) (k gen : Nat) : Bool :=
  s.gen k == gen && (s.phase k == .offered || s.phase k == .noSubscribe || s.phase k == .noHandlers)

/-- The same for the method call scope. -/
def St.callAlive (s : St) (k gen : Nat) : Bool :=
  s.gen k == gen &&
    (s.phase k == .offered || s.phase k == .noSubscribe || s.phase k == .noHandlers || s.phase k == .subExpired)

/-- Is the memory that a handler uses mapped: does the service still hold the region? -/
def St.open (s : St) (r : Reg) : Bool := (s.res r.skel).at r.proxy.app r.proxy.ctr == some r.region

/-- Is a subscription handler registered for the service at this level (skeleton.cpp:393-415)? -/
def served (c : Cfg) (s : St) (k : Nat) (l : Lvl) : Bool := s.phase k == .offered && (l == .qm || c.asilB k)

/-- CleanUpOldHandlers of one method of a service (skeleton_method.cpp:157-190). -/
def cleanHandlers (regs : List Reg) (k m app pid : Nat) : List Reg :=
  if regs.any (fun r => r.skel == k && r.method == m && r.proxy.app == app && r.pid == pid) then regs
  else regs.filter (fun r => !(r.skel == k && r.method == m && r.proxy.app == app))

/-- OnProxyMethodSubscribeFinished (skeleton_method.cpp:58-118) with RegisterMethodCallHandler
(message_passing_service_instance.cpp:1265-1281). -/
def registerOne (regs : List Reg) (n : Reg) : Except Cause (List Reg) :=
  let regs' := cleanHandlers regs n.skel n.method n.proxy.app n.pid
  match regs'.find? (fun o => o.lvl == n.lvl && o.proxy == n.proxy && o.method == n.method) with
  | some o => .error (.handlerExists n o)
  | none =>
    match regs'.find? (fun o => o.skel == n.skel && o.proxy == n.proxy && o.method == n.method) with
    | some o => .error (.guardExists n o)
    | none => .ok (n :: regs')

/-- SubscribeMethods (skeleton.cpp:728-779): `ms` are the methods listed in the consumer's memory. Since registering a handler
fails only by terminating, the branch that unsubscribes again (skeleton.cpp:762-777) is not modelled. -/
def registerAll (c : Cfg) (regs : List Reg) (mk : Nat → Reg) : List Nat → Except Cause (List Reg × List Reg)
  | [] => .ok (regs, [])
  | m :: ms =>
    if ¬ m ∈ c.methods (mk m).skel then .error .unknownMethod
    else
      match registerOne regs (mk m) with
      | .error e => .error e
      | .ok regs' =>
        match registerAll c regs' mk ms with
        | .error e => .error e
        | .ok (regs'', new) => .ok (regs'', mk m :: new)

/-- OnServiceMethodsSubscribed (skeleton.cpp:663-708) of service `k`. `opened`: the methods found in the consumer's memory, `none`
if it cannot be opened. -/
def onSubscribed (c : Cfg) (s : St) (k : Nat) (l : Lvl) (p : Proxy) (uid pid : Nat) (opened : Option (List Nat)) : St :=
  let s := { s with log := .subscribed k l p uid pid :: s.log }
  if MethodRes.contains (s.res k) p.app p.ctr pid then s
  else
    let clean := MethodRes.eraseCrashed (s.res k) p.app pid
    match opened with
    | none => { s with res := upd s.res k clean }
    | some ms =>
      let s' := { s with res := upd s.res k (MethodRes.insert clean p.app p.ctr pid s.next), next := s.next + 1 }
      match registerAll c s.regs (fun m => ⟨k, l, p, m, uid, pid, s.gen k, s.next⟩) ms with
      | .error e => { s' with dead := some e }
      | .ok (regs, new) => { s' with regs := regs, log := new.reverse.map .registered ++ s'.log }

/-- OnServiceMethodsUnsubscribed (skeleton.cpp:710-726). -/
def onUnsubscribed (c : Cfg) (s : St) (k : Nat) (p : Proxy) : St :=
  { s with
    res := upd s.res k (MethodRes.remove (s.res k) p.app p.ctr),
    regs := s.regs.filter (fun r => !(r.skel == k && r.proxy == p && (c.methods k).contains r.method)),
    log := .unsubscribed k p :: s.log }

/-- PrepareStopOffer, one step. Expiring a scope waits until nobody is inside; a subscription handler runs in one step, so only
method calls can be inside of theirs. -/
def stopStep (s : St) (k : Nat) (busy : Bool) : St :=
  match s.phase k with
  | .stopped => s
  | .offered => { s with phase := upd s.phase k .noSubscribe }
  | .noSubscribe => { s with phase := upd s.phase k .noHandlers, regs := s.regs.filter (fun r => !(r.skel == k)) }
  | .noHandlers => { s with phase := upd s.phase k .subExpired }
  | .subExpired => if busy then s else { s with phase := upd s.phase k .callExpired }
  | .callExpired => { s with phase := upd s.phase k .stopped, res := upd s.res k (MethodRes.clear (s.res k)) }

inductive Op where
  /-- PrepareOffer (skeleton.cpp:378-415). -/
  | offer (k : Nat)
  /-- The next step of PrepareStopOffer. -/
  | stop (k : Nat)
  /-- Thread `t` receives a subscription for a proxy from a process with this uid and pid
  (HandleSubscribeServiceMethodMsg, CallSubscribeServiceMethodLocally, message_passing_service_instance.cpp:606-621, 652-679). -/
  | subMsg (t k : Nat) (l : Lvl) (p : Proxy) (uid pid : Nat)
  /-- It invokes the copied handler (679-690). -/
  | subRun (t : Nat) (opened : Option (List Nat))
  /-- Thread `t` receives an unsubscription from anybody (623-635, 693-711). -/
  | unsubMsg (t k : Nat) (l : Lvl) (p : Proxy)
  | unsubRun (t : Nat)
  /-- Thread `t` receives a method call from a process with this uid (637-650, 723-745). -/
  | callMsg (t : Nat) (l : Lvl) (p : Proxy) (m uid : Nat)
  /-- It checks the uid and enters the copied handler's scope (747-753). -/
  | callEnter (t : Nat)
  /-- The handler uses the call slot's memory and ends (skeleton_method.cpp:76-94). -/
  | callUse (t : Nat)
  deriving DecidableEq, Repr

/-- Is some thread in a method call of this service? -/
def St.busy (s : St) (k threads : Nat) : Bool :=
  (List.range threads).any (fun t => match s.pc t with
    | .calling r => r.skel == k
    | _ => false)

/-- callMsg: the lookup in call_method_handlers_. -/
def lookup (regs : List Reg) (l : Lvl) (p : Proxy) (m : Nat) : Option Reg :=
  regs.find? (fun r => r.lvl == l && r.proxy == p && r.method == m)

def stepCore (c : Cfg) (s : St) : Op → St
  | .offer k => if s.phase k = .stopped then { s with phase := upd s.phase k .offered, gen := upd s.gen k (s.gen k + 1) } else s
  | .stop k => stopStep s k (s.busy k c.threads)
  | .subMsg t k l p uid pid =>
    if s.pc t ≠ .idle ∨ c.threads ≤ t then s
    else if ¬ served c s k l then s
    else
      match c.allowed k l with
      | some uids => if uid ∈ uids then { s with pc := upd s.pc t (.sub k l p uid pid (s.gen k)) } else s
      | none => { s with pc := upd s.pc t (.sub k l p uid pid (s.gen k)) }
  | .subRun t opened =>
    match s.pc t with
    | .sub k l p uid pid g =>
      let s := { s with pc := upd s.pc t .idle }
      if s.subAlive k g then onSubscribed c s k l p uid pid opened else s
    | _ => s
  | .unsubMsg t k l p =>
    if s.pc t ≠ .idle ∨ c.threads ≤ t then s
    else if ¬ served c s k l then s
    else { s with pc := upd s.pc t (.unsub k p (s.gen k)) }
  | .unsubRun t =>
    match s.pc t with
    | .unsub k p g =>
      let s := { s with pc := upd s.pc t .idle }
      if s.subAlive k g then onUnsubscribed c s k p else s
    | _ => s
  | .callMsg t l p m uid =>
    if s.pc t ≠ .idle ∨ c.threads ≤ t then s
    else
      match lookup s.regs l p m with
      | none => s
      | some r => { s with pc := upd s.pc t (.call r uid l p m) }
  | .callEnter t =>
    match s.pc t with
    | .call r uid l p m =>
      if r.uid ≠ uid then { s with pc := upd s.pc t .idle }
      else if s.callAlive r.skel r.gen then { s with pc := upd s.pc t (.calling r), log := .called r uid l p m :: s.log }
      else { s with pc := upd s.pc t .idle }
    | _ => s
  | .callUse t =>
    match s.pc t with
    | .calling r => { s with pc := upd s.pc t .idle, log := .used r (s.open r) :: s.log }
    | _ => s

/-- A terminated process does nothing. -/
def step (c : Cfg) (s : St) (o : Op) : St := if s.dead.isSome then s else stepCore c s o

def run (c : Cfg) (s : St) : List Op → St
  | [] => s
  | o :: os => run c (step c s o) os

end Verif.MethodSub
