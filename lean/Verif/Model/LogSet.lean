import Verif.Lib.Fn
/-!
Interleaving model of registration in `TransactionLogSet` (lola/transaction_log_set.cpp:27-60 for the node,
125-171 for RegisterProxyElement and Unregister, 225-270 for AcquireNextAvailableSlot).

Any number of actors (proxies in any number of processes) register and unregister. Each atomic access to
`transaction_log_id_` and each write of `needs_rollback_` is one step. A process may die at any moment;
its log is given back by the rollback of its successor. Sequential consistency.

Simplification: the content of a log is one flag `dirty` (`ContainsTransactions`), changed by its owner at
any time (the content itself is in Model/EventCtrl.lean and Model/SubCtrl.lean).
-/
namespace Verif.LogSet
open Verif

/-- What an actor is doing. -/
inductive Pc where
  | idle
  /-- `AcquireNextAvailableSlot`, pass `retry`, about to do the CAS on node `i` (transaction_log_set.cpp:232-256) -/
  | acquire (retry i id : Nat)
  /-- CAS succeeded, about to clear `needs_rollback_` (…:259) -/
  | mark (i : Nat)
  /-- holds the registration guard of node `i` -/
  | registered (i : Nat)
  /-- `Reset` of node `i`: `needs_rollback_` cleared, about to release the id (…:53-54) -/
  | release (i : Nat)
  /-- process died while owning node `i` -/
  | dead (i : Nat)
  /-- last registration reported `kMaxSubscribersExceeded` -/
  | full
  /-- process terminated itself: assertion of `Reset` (…:50-52) on node `i` -/
  | abortReset (i : Nat)
  /-- process terminated itself: assertion of `RegisterProxyElement` (…:138-140) on node `i` -/
  | abortReuse (i : Nat)
  deriving DecidableEq, Repr

/-- The log set with `n` nodes and all actors. `ids i = 0` stands for `kInvalidTransactionLogId`. -/
structure St where
  n : Nat
  ids : Nat → Nat
  rb : Nat → Bool
  dirty : Nat → Bool
  act : Nat → Pc

/-- All nodes free (lola/transaction_log_set.h:80-85). -/
def init (n : Nat) : St :=
  { n := n, ids := fun _ => 0, rb := fun _ => false, dirty := fun _ => false, act := fun _ => .idle }

/-- Next step of actor `a`. -/
def go (s : St) (a : Nat) : St :=
  match s.act a with
  | .acquire retry i id =>
    if retry < s.n then
      if i < s.n then
        if s.ids i = 0 then { s with ids := upd s.ids i id, act := upd s.act a (.mark i) }
        else { s with act := upd s.act a (.acquire retry (i + 1) id) }
      else { s with act := upd s.act a (.acquire (retry + 1) 0 id) }
    else { s with act := upd s.act a .full }
  | .mark i =>
    if s.dirty i then { s with rb := upd s.rb i false, act := upd s.act a (.abortReuse i) }
    else { s with rb := upd s.rb i false, act := upd s.act a (.registered i) }
  | .release i => { s with ids := upd s.ids i 0, act := upd s.act a .idle }
  | _ => s

/-- `Reset` (…:48-55) of node `i` by actor `a`: the log must be empty. -/
def startReset (s : St) (a i : Nat) : St :=
  if s.dirty i then { s with act := upd s.act a (.abortReset i) }
  else { s with rb := upd s.rb i false, act := upd s.act a (.release i) }

/-- Node owned by an actor in this state. -/
def Pc.owns : Pc → Option Nat
  | .mark i | .registered i | .release i | .dead i | .abortReset i | .abortReuse i => some i
  | _ => none

/-- Calls and scheduler choices. -/
inductive Op where
  /-- actor `a` calls RegisterProxyElement with the id of its application (not the invalid id) -/
  | register (a id : Nat)
  | go (a : Nat)
  /-- the owner changes the content of its log -/
  | use (a : Nat) (dirty : Bool)
  | unregister (a : Nat)
  /-- the process of actor `a` dies -/
  | crash (a : Nat)
  /-- the successor of dead actor `a` rolled the log back and resets the node; it is then idle -/
  | recover (a : Nat)

/-- One step. Operations that are not possible in a state change nothing. -/
def step (s : St) : Op → St
  | .register a id =>
    if (s.act a = .idle ∨ s.act a = .full) ∧ id ≠ 0 then { s with act := upd s.act a (.acquire 0 0 id) } else s
  | .go a => go s a
  | .use a d =>
    match s.act a with
    | .registered i => { s with dirty := upd s.dirty i d }
    | _ => s
  | .unregister a =>
    match s.act a with
    | .registered i => startReset s a i
    | _ => s
  | .crash a =>
    match (s.act a).owns with
    | some i => { s with act := upd s.act a (.dead i) }
    | none => { s with act := upd s.act a .idle }
  | .recover a =>
    match s.act a with
    | .dead i => { s with dirty := upd s.dirty i false, rb := upd s.rb i false, act := upd s.act a (.release i) }
    | .abortReset i => { s with dirty := upd s.dirty i false, rb := upd s.rb i false, act := upd s.act a (.release i) }
    | .abortReuse i => { s with dirty := upd s.dirty i false, rb := upd s.rb i false, act := upd s.act a (.release i) }
    | _ => s

/-- Run a schedule. -/
def run (s : St) (ops : List Op) : St := ops.foldl step s

end Verif.LogSet
