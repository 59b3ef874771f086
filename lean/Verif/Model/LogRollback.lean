/-!
Model of the recovery of a restarted consumer: `TransactionLogRollbackExecutor::RollbackTransactionLogs`
(lola/transaction_log_rollback_executor.cpp:60-139), `TransactionLogSet` marking and rollback
(lola/transaction_log_set.cpp:64-105, 48-55) and `TransactionLogLocalView::RollbackProxyElementLog`
(lola/transaction_log_local_view.cpp:175-278).

The executor holds a lock per service instance, and the marked logs belong to the dead predecessor, so the
functions are sequential. Dereferencing a slot and unsubscribing are recorded as effects; what they do to the
shared state, step by step and concurrently with everybody else, is in Model/EventCtrl.lean and Model/SubCtrl.lean.
-/
namespace Verif.Rollback

/-- Content of one transaction log: begin and end flag of every sample slot and of the subscription, and the
subscribed sample count (lola/transaction_log.h:60-90, transaction_log_slot.h:25-60). -/
structure Log where
  slots : List (Bool × Bool)
  sb : Bool
  se : Bool
  cnt : Nat
  deriving DecidableEq, Repr

/-- One node of the log set (lola/transaction_log_set.h:86-140); `id = 0` is the invalid id. -/
structure Node where
  id : Nat
  rb : Bool
  log : Log
  deriving DecidableEq, Repr

/-- Calls made by the rollback: dereference a slot, give up a subscription of so many samples. -/
inductive Eff where
  | deref (slot : Nat)
  | unsub (n : Nat)
  deriving DecidableEq, Repr

/-- DoesLogContainIncrementOrDecrementTransactions (transaction_log_local_view.cpp:48-58). -/
def hasRefTransactions (l : Log) : Bool := l.slots.any (fun x => x.1 || x.2)

/-- ContainsTransactions (…:272-278). -/
def containsTransactions (l : Log) : Bool := l.sb || l.se || hasRefTransactions l

/-- RollbackIncrementTransactions (…:209-241) from slot `i` on: new flags, effects, success. -/
def rollbackInc : Nat → List (Bool × Bool) → List (Bool × Bool) × List Eff × Bool
  | _, [] => ([], [], true)
  | i, (b, e) :: rest =>
    if b && e then
      let (rest', eff, ok) := rollbackInc (i + 1) rest
      ((false, false) :: rest', .deref i :: eff, ok)
    else if b || e then ((b, e) :: rest, [], false)
    else
      let (rest', eff, ok) := rollbackInc (i + 1) rest
      ((b, e) :: rest', eff, ok)

/-- Result of rolling back one log. -/
inductive LogRes where
  /-- precondition violated (…:181-186): the process terminates -/
  | abort
  | done (log : Log) (eff : List Eff) (ok : Bool)
  deriving DecidableEq, Repr

/-- RollbackProxyElementLog (…:175-195) with RollbackSubscribeTransactions (…:243-270). -/
def rollbackLog (l : Log) : LogRes :=
  if !l.sb && !l.se && hasRefTransactions l then .abort
  else
    let (slots, eff, ok) := rollbackInc 0 l.slots
    if ok then
      if l.sb && l.se then
        .done { slots := slots, sb := false, se := false, cnt := l.cnt } (eff ++ [.unsub l.cnt]) true
      else .done { l with slots := slots } eff (!(l.sb || l.se))
    else .done { l with slots := slots } eff false

/-- Result of one call on a log set. -/
inductive SetRes where
  | abort
  | done (nodes : List Node) (eff : List Eff) (ok : Bool)
  deriving DecidableEq, Repr

/-- Is this node to be rolled back for `id`? (FindTransactionLogNodesToBeRolledBack, transaction_log_set.cpp:189-222) -/
def Node.due (id : Nat) (x : Node) : Bool := x.id == id && x.rb

/-- The loop of RollbackProxyTransactions (…:90-104); `res` is `rollback_result` so far. -/
def rollbackNodes (id : Nat) : Bool → List Node → SetRes
  | res, [] => .done [] [] res
  | res, x :: rest =>
    if x.due id then
      match rollbackLog x.log with
      | .abort => .abort
      | .done log eff true =>
        -- Reset (…:48-55)
        if containsTransactions log then .abort
        else .done ({ id := 0, rb := false, log := log } :: rest) eff true
      | .done log eff false =>
        match rollbackNodes id false rest with
        | .abort => .abort
        | .done rest' eff' ok => .done ({ x with log := log } :: rest') (eff ++ eff') ok
    else
      match rollbackNodes id res rest with
      | .abort => .abort
      | .done rest' eff' ok => .done (x :: rest') eff' ok

/-- RollbackProxyTransactions (…:82-105). -/
def rollbackSet (id : Nat) (nodes : List Node) : SetRes := rollbackNodes id true nodes

/-- MarkTransactionLogsNeedRollback (…:64-80). -/
def mark (id : Nat) (nodes : List Node) : List Node :=
  nodes.map (fun x => if x.id ≠ 0 && x.id == id then { x with rb := true } else x)

/-- Result of creating a proxy. -/
inductive CreateRes where
  | abort
  | done (events : List (List Node)) (eff : List (List Eff)) (ok : Bool)
  deriving DecidableEq, Repr

/-- The loop over all events in RollbackTransactionLogs (transaction_log_rollback_executor.cpp:118-138). -/
def rollbackEvents (id : Nat) : List (List Node) → CreateRes
  | [] => .done [] [] true
  | ev :: rest =>
    match rollbackSet id ev with
    | .abort => .abort
    | .done ev' eff true =>
      match rollbackEvents id rest with
      | .abort => .abort
      | .done rest' effs ok => .done (ev' :: rest') (eff :: effs) ok
    | .done ev' eff false => .done (ev' :: rest) [eff] false

/-- The consumer process after its restart: the log set of every event of the service instance, and whether a proxy
for this instance already prepared the rollback (…:102-116). -/
structure Proc where
  events : List (List Node)
  prepared : Bool
  deriving DecidableEq, Repr

/-- Outcome of creating one proxy. -/
inductive Out where
  | abort
  | ok
  | error
  deriving DecidableEq, Repr

/-- RollbackTransactionLogs (…:99-139), called when a proxy is created (lola/proxy.cpp:224-250). -/
def create (id : Nat) (p : Proc) : Proc × List (List Eff) × Out :=
  let events := if p.prepared then p.events else p.events.map (mark id)
  match rollbackEvents id events with
  | .abort => ({ events := events, prepared := true }, [], .abort)
  | .done ev eff true => ({ events := ev, prepared := true }, eff, .ok)
  | .done ev eff false => ({ events := ev, prepared := true }, eff, .error)

/-- The nth event's log set is changed by registering: the first free node gets the id and is not marked
(transaction_log_set.cpp:125-143, 225-270 without interference). -/
def registerIn (id : Nat) : List Node → List Node
  | [] => []
  | x :: rest => if x.id = 0 then { x with id := id, rb := false } :: rest else x :: registerIn id rest

/-- What the restarted process does: create proxies, and subscribe with them. -/
inductive Op where
  | create
  /-- register a log for event `e` (subscribe) -/
  | register (e : Nat)

/-- Apply an operation of the process with application id `id`. -/
def step (id : Nat) (p : Proc) : Op → Proc × Option Out
  | .create => let r := create id p; (r.1, some r.2.2)
  | .register e => ({ p with events := p.events.modify e (registerIn id) }, none)

/-- Run operations, collecting the outcomes of proxy creations. -/
def run (id : Nat) : Proc → List Op → Proc × List Out
  | p, [] => (p, [])
  | p, op :: ops =>
    let r := step id p op
    let t := run id r.1 ops
    (t.1, r.2.toList ++ t.2)

end Verif.Rollback
