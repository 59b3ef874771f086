import Verif.Lib.Fn
/-!
Interleaving model of the shared subscription state of one event and of the subscription part of the
transaction logs.

Modelled code:
* lola/event_subscription_control.cpp (Subscribe, Unsubscribe),
* lola/transaction_log_local_view.cpp:73-108 (Subscribe/Unsubscribe transactions), 243-270
  (RollbackSubscribeTransactions),
* the order in which lola/subscription_not_subscribed_states.cpp:60-87, 157-170 calls them.

Every atomic access to the shared word is one step, every write of a log bit is one step, a process may
die between any two steps. Sequential consistency. The number `m` of proxies is fixed; each proxy has
its own log (C18). Fields marked *ghost* do not exist in the code.

Simplification: the setting and resetting of `subscription_max_sample_count_` is part of the step that
writes the neighbouring bit.
-/
namespace Verif.Sub
open Verif

/-- `current_subscription_state_` (lola/event_subscription_control.h). -/
abbrev Word := BitVec 32

/-- `GetSubscribersFromState` (lola/event_subscription_control.cpp:22-30): uint8. -/
def subsOf (w : Word) : BitVec 8 := (w >>> 16).setWidth 8
/-- `GetSubscribedSamplesFromState` (lola/event_subscription_control.cpp:32-40): uint16. -/
def samplesOf (w : Word) : BitVec 16 := (w &&& 0x0000FFFF#32).setWidth 16
/-- `CreateState` (lola/event_subscription_control.cpp:42-49). -/
def create (subs : BitVec 8) (samples : BitVec 16) : Word := (subs.setWidth 32 <<< 16) + samples.setWidth 32

/-- Result of `Subscribe` (lola/event_subscription_control.h). -/
inductive Res where
  | success | maxSubscribersOverflow | slotOverflow | updateRetryFailure
  deriving DecidableEq, Repr

/-- What a proxy is doing. -/
inductive Pc where
  | idle
  /-- in `Subscribe(n)`, about to load, after `r` failed tries (lola/event_subscription_control.cpp:77-80) -/
  | subLoad (r n : Nat)
  /-- about to do the CAS that follows the load of `w` (…:103) -/
  | subCas (r n : Nat) (w : Word)
  /-- CAS done, about to call `SubscribeTransactionCommit` -/
  | subCommit
  /-- `Subscribe` failed, about to call `SubscribeTransactionAbort` -/
  | subAbort
  /-- in `Unsubscribe(n)`, about to load (…:127-130) -/
  | unLoad (r n : Nat)
  /-- about to do the CAS (…:150) -/
  | unCas (r n : Nat) (w : Word)
  /-- CAS done, about to call `UnsubscribeTransactionCommit` -/
  | unCommit
  /-- process died -/
  | crashed
  /-- process terminated itself: subscriber count already 0 (…:132-137) or too few slots (…:139-145) -/
  | underflow
  /-- process terminated itself: retry limit of `Unsubscribe` (…:158-160) -/
  | retryLimit
  /-- process terminated itself: precondition of the transaction log violated -/
  | assertFailed
  /-- rollback reported `kCouldNotRestartProxy` -/
  | rbFailed
  deriving DecidableEq, Repr

/-- One proxy and its log. -/
structure Proxy where
  pc : Pc
  /-- begin bit of `subscribe_transactions_`, in shared memory -/
  b : Bool
  /-- end bit of `subscribe_transactions_`, in shared memory -/
  e : Bool
  /-- `subscription_max_sample_count_`, in shared memory -/
  logged : Nat
  /-- `subscription_data_.max_sample_count_` of a live subscription -/
  want : Option Nat
  /-- result of the last `Subscribe` on the shared word -/
  res : Option Res
  /-- *ghost*: this proxy is accounted for in the shared word -/
  counted : Bool

/-- Whole system. -/
structure St where
  word : Word
  /-- `max_subscribable_slots_` (uint16) -/
  maxSlots : BitVec 16
  /-- `max_subscribers_` (uint8) -/
  maxSubs : BitVec 8
  /-- `enforce_max_samples_` -/
  enforce : Bool
  m : Nat
  px : Nat → Proxy

/-- A proxy with an empty log. -/
def Proxy.fresh : Proxy :=
  { pc := .idle, b := false, e := false, logged := 0, want := none, res := none, counted := false }

/-- Nobody subscribed (lola/event_subscription_control.cpp:53-62). -/
def init (maxSlots : BitVec 16) (maxSubs : BitVec 8) (enforce : Bool) (m : Nat) : St :=
  { word := 0#32, maxSlots := maxSlots, maxSubs := maxSubs, enforce := enforce, m := m, px := fun _ => Proxy.fresh }

/-- `max_retries` of `Subscribe` (…:75): `2 * max_subscribers_` as uint16, cannot overflow. -/
def subRetries (s : St) : Nat := 2 * s.maxSubs.toNat
/-- `max_retries` of `Unsubscribe` (…:125). -/
def unRetries (s : St) : Nat := 3 * s.maxSubs.toNat

/-- Loop head of `Subscribe` (…:77, 110). -/
def subNext (s : St) (r n : Nat) (x : Proxy) : Proxy :=
  if r < subRetries s then { x with pc := .subLoad r n } else { x with pc := .subAbort, res := some .updateRetryFailure }

/-- Loop head of `Unsubscribe` (…:127, 158-160). -/
def unNext (s : St) (r n : Nat) (x : Proxy) : Proxy :=
  if r < unRetries s then { x with pc := .unLoad r n } else { x with pc := .retryLimit }

/-- Next atomic step of a proxy; `spurious` lets a weak CAS fail. -/
def proxyStep (s : St) (x : Proxy) (spurious : Bool) : Proxy × Word :=
  match x.pc with
  | .subLoad r n =>
    -- …:80-95
    if (subsOf s.word).toNat ≥ s.maxSubs.toNat then
      ({ x with pc := .subAbort, res := some .maxSubscribersOverflow }, s.word)
    else if s.enforce ∧ (samplesOf s.word).toNat + n > s.maxSlots.toNat then
      ({ x with pc := .subAbort, res := some .slotOverflow }, s.word)
    else ({ x with pc := .subCas r n s.word }, s.word)
  | .subCas r n w =>
    -- …:97-109; both new fields are truncated to their types
    if s.word = w ∧ spurious = false then
      ({ x with pc := .subCommit, res := some .success, counted := true },
        create (subsOf w + 1#8) (samplesOf w + BitVec.ofNat 16 n))
    else (subNext s (r + 1) n x, s.word)
  | .subCommit =>
    -- SubscribeTransactionCommit (transaction_log_local_view.cpp:81-86); the subscription is now live
    if x.b = true ∧ x.e = false then ({ x with e := true, want := some x.logged, pc := .idle }, s.word)
    else ({ x with pc := .assertFailed }, s.word)
  | .subAbort =>
    -- SubscribeTransactionAbort (transaction_log_local_view.cpp:88-93)
    if x.b = true ∧ x.e = false then ({ x with b := false, pc := .idle }, s.word)
    else ({ x with pc := .assertFailed }, s.word)
  | .unLoad r n =>
    -- …:130-145
    if (subsOf s.word).toNat = 0 then ({ x with pc := .underflow }, s.word)
    else if (samplesOf s.word).toNat < n then ({ x with pc := .underflow }, s.word)
    else ({ x with pc := .unCas r n s.word }, s.word)
  | .unCas r n w =>
    -- …:147-156
    if s.word = w ∧ spurious = false then
      ({ x with pc := .unCommit, counted := false },
        create (subsOf w - 1#8) (samplesOf w - BitVec.ofNat 16 n))
    else (unNext s (r + 1) n x, s.word)
  | .unCommit =>
    -- UnsubscribeTransactionCommit (transaction_log_local_view.cpp:102-108)
    if x.b = false ∧ x.e = true then ({ x with e := false, logged := 0, want := none, pc := .idle }, s.word)
    else ({ x with pc := .assertFailed }, s.word)
  | _ => (x, s.word)

/-- Calls and scheduler choices. -/
inductive Op where
  /-- proxy `p`, not subscribed, calls Subscribe with max sample count `n` -/
  | subscribe (p n : Nat)
  /-- proxy `p`, subscribed, calls Unsubscribe -/
  | unsubscribe (p : Nat)
  /-- next step of the call of proxy `p` -/
  | go (p : Nat) (spurious : Bool)
  /-- process of proxy `p` dies -/
  | crash (p : Nat)
  /-- the restarted process rolls back the log of proxy `p` -/
  | recover (p : Nat)

/-- Start of a Subscribe call (lola/proxy_event_common.cpp:45-52,
lola/subscription_not_subscribed_states.cpp:64-71). -/
def startSub (s : St) (n : Nat) (x : Proxy) : Proxy :=
  if n > 255 then { x with pc := .assertFailed }
  else if x.b = false ∧ x.e = false then subNext s 0 n { x with b := true, logged := n, res := none }
  else { x with pc := .assertFailed }

/-- Start of an Unsubscribe call or of a rollback with sample count `n`: `UnsubscribeTransactionBegin`
(transaction_log_local_view.cpp:95-100). -/
def startUn (s : St) (n : Nat) (x : Proxy) : Proxy :=
  if x.b = true ∧ x.e = true then unNext s 0 n { x with b := false } else { x with pc := .assertFailed }

/-- `RollbackSubscribeTransactions` (transaction_log_local_view.cpp:243-270); the log that has no
transaction is simply given back. -/
def rollback (s : St) (x : Proxy) : Proxy :=
  if x.b = true ∧ x.e = true then startUn s x.logged x
  else if x.b = true ∧ x.e = false then { x with pc := .rbFailed }
  else if x.b = false ∧ x.e = true then { x with pc := .rbFailed }
  else { x with pc := .idle, want := none }

/-- The process runs its normal code. -/
def Pc.alive : Pc → Bool
  | .crashed | .underflow | .retryLimit | .assertFailed | .rbFailed => false
  | _ => true

/-- One step of the system. Operations that are not possible in a state change nothing. -/
def step (s : St) : Op → St
  | .subscribe p n =>
    if p < s.m ∧ (s.px p).pc = .idle ∧ (s.px p).want = none then
      { s with px := upd s.px p (startSub s n (s.px p)) }
    else s
  | .unsubscribe p =>
    if p < s.m ∧ (s.px p).pc = .idle then
      match (s.px p).want with
      | some n => { s with px := upd s.px p (startUn s n (s.px p)) }
      | none => s
    else s
  | .go p spurious =>
    if p < s.m then
      let r := proxyStep s (s.px p) spurious
      { s with px := upd s.px p r.1, word := r.2 }
    else s
  | .crash p =>
    if p < s.m ∧ (s.px p).pc.alive then
      let x := s.px p
      { s with px := upd s.px p { x with pc := .crashed, want := none } }
    else s
  | .recover p =>
    if p < s.m ∧ (s.px p).pc.alive = false ∧ (s.px p).pc ≠ .rbFailed then
      let x := s.px p
      { s with px := upd s.px p (rollback s { x with want := none }) }
    else s

/-- Run a schedule. -/
def run (s : St) (ops : List Op) : St := ops.foldl step s

end Verif.Sub
