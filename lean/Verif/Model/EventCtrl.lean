import Verif.Lib.Fn
import Verif.Model.EventSlotStatus
/-!
Interleaving model of the event control slots: one provider, any number of consumers.

Modelled code:
* lola/provider_event_data_control_local_view.cpp (AllocateNextSlot, FindOldestUnusedSlot,
  TryAllocateSlot, EventReady, Discard, RemoveAllocationsForWriting),
* lola/consumer_event_data_control_local_view.cpp (ReferenceNextEvent, DereferenceEvent),
* lola/slot_collector.cpp (CollectSlots, GetNewSamplesSlotIndices),
* lola/transaction_log_local_view.cpp (Reference*/Dereference* transactions and
  RollbackIncrementTransactions),
* lola/proxy_event.h:214-262 (hand-out of the collected slots),
* lola/skeleton_event_common.h:392-445 (Send, UpdateCurrentTimestamp).

Every atomic access to a slot is one step. The two bits of a transaction log slot are written by
separate steps. A process may crash between any two steps.

Simplifications: one subscription per consumer process at a time (a consumer that was rolled back
starts again with a fresh collector); `RemoveAllocationsForWriting` together with
`UpdateCurrentTimestamp` is one step because nobody but the provider writes to slots that are
being written; sequential consistency; the number of slots `n` and consumers `m` is fixed.
The fields marked *ghost* do not exist in the code.
-/
namespace Verif.Ctrl
open Verif Verif.Slot

/-- Numeric timestamp of a word. -/
abbrev tsN (w : Word) : Nat := (getTimeStamp w).toNat
/-- Numeric reference count of a word. -/
abbrev rcN (w : Word) : Nat := (getReferenceCount w).toNat

/-- `TIMESTAMP_MAX` as a number (lola/event_slot_status.h:54). -/
def tsMax : Nat := 2 ^ 32 - 1

/-- Word `(timestamp, 0)`; the timestamp is a 32-bit counter. -/
def readyWord (ts : Nat) : Word := make (BitVec.ofNat 32 ts) 0#32

/-- Readable: neither invalid nor in writing. -/
def readable (w : Word) : Bool := !(isInWriting w) && !(isInvalid w)

/-- `IsTimeStampBetween` with numeric bounds (lola/event_slot_status.cpp:74-84). -/
def between (w : Word) (lo hi : Nat) : Bool :=
  readable w && decide (lo < tsN w) && decide (tsN w < hi)

/-- `MAX_ALLOCATE_RETRIES` (lola/provider_event_data_control_local_view.cpp:29). -/
def maxAllocateRetries : Nat := 100
/-- `MAX_REFERENCE_RETRIES` (lola/consumer_event_data_control_local_view.cpp:30). -/
def maxReferenceRetries : Nat := 100
/-- `kRetryCount` of `WaitForTransactionEndToBecomeFalse` (lola/transaction_log_local_view.cpp:33). -/
def maxEndWaits : Nat := 10

/-- Provider program counter. -/
inductive PPc where
  | idle
  /-- inside `FindOldestUnusedSlot`, about to load slot `k`
  (lola/provider_event_data_control_local_view.cpp:73-107). -/
  | find (retry k oldest : Nat) (best : Option (Nat × Word))
  /-- about to do the CAS of `TryAllocateSlot` (…local_view.cpp:146-163). -/
  | cas (retry i : Nat) (w : Word)
  deriving DecidableEq, Repr

/-- Progress of a release (`DereferenceEvent`) of one slot
(lola/consumer_event_data_control_local_view.cpp:220-239). -/
inductive Rel where
  | none
  /-- `DereferenceTransactionBegin` done -/
  | begun
  /-- `fetch_sub` done -/
  | subbed
  deriving DecidableEq, Repr

/-- Local variables of `CollectSlots` (lola/slot_collector.cpp:55-82): remaining count,
`current_highest`, collected slots (newest first). -/
structure Ctx where
  rem : Nat
  high : Nat
  coll : List Nat
  deriving DecidableEq, Repr

/-- Consumer program counter of the thread running `GetNewSamples`, or of the recovery. -/
inductive CPc where
  | idle
  /-- scan of `ReferenceNextEvent`, about to load slot `k`
  (lola/consumer_event_data_control_local_view.cpp:65-94). -/
  | scan (cx : Ctx) (retry k : Nat) (cand : Option (Nat × Word))
  /-- in `ReferenceTransactionBegin` (lola/transaction_log_local_view.cpp:115-122), after
  `spin` unsuccessful checks of the end bit. -/
  | begin (cx : Ctx) (retry spin i : Nat) (w : Word)
  /-- about to do the CAS (lola/consumer_event_data_control_local_view.cpp:126). -/
  | cas (cx : Ctx) (retry i : Nat) (w : Word)
  /-- CAS succeeded, about to commit (…:129). -/
  | commit (cx : Ctx) (i : Nat)
  /-- CAS failed, about to abort the transaction (…:132). -/
  | abort (cx : Ctx) (retry i : Nat)
  /-- about to load the status of the referenced slot (lola/slot_collector.cpp:70-71). -/
  | loadTs (cx : Ctx) (i : Nat)
  /-- computing `newest_delivered` (lola/slot_collector.cpp:40-48). -/
  | final (coll todo : List Nat) (newest : Nat)
  /-- handing out the samples, oldest first (lola/proxy_event.h:223-258). -/
  | deliver (todo : List Nat)
  /-- process crashed -/
  | crashed
  /-- process terminated itself because a precondition of the transaction log was violated -/
  | assertFailed
  /-- process terminated itself in `WaitForTransactionEndToBecomeFalse`
  (lola/transaction_log_local_view.cpp:43-45) -/
  | waitTimeout
  /-- process terminated itself because Unsubscribe found the log non-empty: the user still holds
  samples (impl/proxy_event_base.cpp:115-152) or is still releasing one
  (lola/transaction_log_set.cpp:159-171) -/
  | unsubAbort
  /-- recovery: about to examine log slot `k` (lola/transaction_log_local_view.cpp:209-241). -/
  | rbAt (k : Nat)
  | rbBegun (k : Nat)
  | rbSubbed (k : Nat)
  /-- recovery reported `kCouldNotRestartProxy` -/
  | rbFailed
  deriving DecidableEq, Repr

/-- One consumer: transaction log bits, release threads, samples in the hands of the user. -/
structure Cons (V : Type) where
  /-- transaction-begin bits (lola/transaction_log_slot.h:45), in shared memory -/
  b : Nat → Bool
  /-- transaction-end bits (lola/transaction_log_slot.h:46), in shared memory -/
  e : Nat → Bool
  /-- *ghost*: this consumer's reference is currently included in the slot's reference count -/
  cnt : Nat → Bool
  rel : Nat → Rel
  /-- the user holds a SamplePtr for this slot -/
  held : Nat → Bool
  pc : CPc
  /-- `last_ts_` (lola/slot_collector.cpp:24) -/
  last : Nat
  /-- *ghost*: timestamp and data of the samples handed to the user in this subscription, latest
  first -/
  delivered : List (Nat × V)

/-- Whole system. `V` is the type of sample data. -/
structure St (V : Type) where
  n : Nat
  m : Nat
  slots : Nat → Word
  data : Nat → V
  ppc : PPc
  /-- slots for which the provider's user holds a SampleAllocateePtr -/
  alloc : Nat → Bool
  /-- `current_timestamp_` (lola/skeleton_event_common.h) -/
  cur : Nat
  cons : Nat → Cons V
  /-- *ghost*: timestamp and data of all samples sent so far, latest first -/
  sent : List (Nat × V)

/-- A consumer before its first subscription: empty log. -/
def Cons.fresh {V : Type} : Cons V where
  b := fun _ => false
  e := fun _ => false
  cnt := fun _ => false
  rel := fun _ => .none
  held := fun _ => false
  pc := .idle
  last := 0
  delivered := []

/-- Initial state: all slots invalid. -/
def init {V : Type} (n m : Nat) (v0 : V) : St V where
  n := n
  m := m
  slots := fun _ => invalidEvent
  data := fun _ => v0
  ppc := .idle
  alloc := fun _ => false
  cur := 0
  cons := fun _ => Cons.fresh
  sent := []

/-- Process death: threads vanish, shared memory (log bits) stays. -/
def Cons.die {V : Type} (c : Cons V) (pc : CPc) : Cons V :=
  { c with rel := fun _ => .none, held := fun _ => false, pc := pc }

/-- `CollectSlots` continues with the next `ReferenceNextEvent` or ends
(lola/slot_collector.cpp:62-81); on the end, the loop of lines 43-48 starts with the oldest. -/
def collectNext (last : Nat) (cx : Ctx) : CPc :=
  if cx.rem = 0 then .final cx.coll cx.coll.reverse last
  else .scan cx 0 0 none

/-- `CollectSlots` ends. -/
def collectEnd (last : Nat) (cx : Ctx) : CPc := .final cx.coll cx.coll.reverse last

/-- `GetLatestTimestamp` over the slots below `n`
(lola/event_data_control_composite.cpp:237-260). -/
def latestTs (slots : Nat → Word) : Nat → Nat
  | 0 => 0
  | k + 1 => if readable (slots k) then max (latestTs slots k) (tsN (slots k)) else latestTs slots k

/-- `GetNumNewEvents` over the slots below `n`
(lola/consumer_event_data_control_local_view.cpp:196-217), called with `last_ts_` by
`SlotCollector::GetNumNewSamplesAvailable` (lola/slot_collector.cpp:29-32). -/
def numNewEvents (slots : Nat → Word) (last : Nat) : Nat → Nat
  | 0 => 0
  | k + 1 => numNewEvents slots last k + (if between (slots k) last tsMax then 1 else 0)

/-- Timestamp of the best candidate so far (`candidate_slot_status`,
lola/consumer_event_data_control_local_view.cpp:71, 82-86). -/
def candTs (last : Nat) : Option (Nat × Word) → Nat
  | none => last
  | some (_, w) => tsN w

/-- One load of `FindOldestUnusedSlot` (…provider…local_view.cpp:86-104); the scan has
`n` slots. -/
def provFind (n : Nat) (slots : Nat → Word) (retry k oldest : Nat) (best : Option (Nat × Word)) : PPc :=
  if k < n then
    let w := slots k
    if isInvalid w then .cas retry k w
    else if rcN w = 0 ∧ isInWriting w = false ∧ tsN w < oldest then
      .find retry (k + 1) (tsN w) (some (k, w))
    else .find retry (k + 1) oldest best
  else match best with
    | some (i, w) => .cas retry i w
    | none => if retry < maxAllocateRetries then .find (retry + 1) 0 tsMax none else .idle

/-- Scheduler choices and API calls. -/
inductive Op (V : Type) where
  /-- provider calls Allocate -/
  | provAlloc
  /-- provider's next atomic step inside Allocate -/
  | provStep
  /-- provider writes sample data through its SampleAllocateePtr -/
  | provWrite (i : Nat) (v : V)
  /-- provider calls Send for an allocated sample -/
  | provSend (i : Nat)
  /-- provider destroys an unsent SampleAllocateePtr -/
  | provDiscard (i : Nat)
  /-- provider crashed and was restarted -/
  | provRestart
  /-- consumer `c` calls GetNewSamples; `k` is the minimum of the number of available guards
  (lola/proxy_event.h:218) and the size of `collected_slots_` (lola/slot_collector.cpp:75-78) -/
  | consGet (c k : Nat)
  /-- next atomic step of that call; `spurious` lets a weak CAS fail -/
  | consStep (c : Nat) (spurious : Bool)
  /-- the user of consumer `c` destroys a SamplePtr: `DereferenceTransactionBegin` -/
  | consRelease (c i : Nat)
  /-- next atomic step of that destruction -/
  | consRelStep (c i : Nat)
  /-- consumer `c` unsubscribes and subscribes again -/
  | consResubscribe (c : Nat)
  /-- process of consumer `c` dies -/
  | consCrash (c : Nat)
  /-- the restarted process of consumer `c` starts to roll back the log -/
  | consRecover (c : Nat)
  
/-- Provider step inside Allocate. -/
def provStep {V : Type} (s : St V) : St V :=
  match s.ppc with
  | .idle => s
  | .find retry k oldest best => { s with ppc := provFind s.n s.slots retry k oldest best }
  | .cas retry i w =>
    if s.slots i = w then
      { s with slots := upd s.slots i inWriting, alloc := upd s.alloc i true, ppc := .idle }
    else if retry < maxAllocateRetries then { s with ppc := .find (retry + 1) 0 tsMax none }
    else { s with ppc := .idle }

/-- One step of the getter thread (or of the recovery) of a consumer; returns the new consumer and
the new slots. -/
def getterStep {V : Type} (n : Nat) (slots : Nat → Word) (data : Nat → V) (c : Cons V) (spurious : Bool) :
    Cons V × (Nat → Word) :=
  match c.pc with
  | .idle => (c, slots)
  | .scan cx retry k cand =>
    if k < n then
      let w := slots k
      if between w (candTs c.last cand) cx.high then
        ({ c with pc := .scan cx retry (k + 1) (some (k, w)) }, slots)
      else ({ c with pc := .scan cx retry (k + 1) cand }, slots)
    else match cand with
      | none => ({ c with pc := collectEnd c.last cx }, slots)
      | some (i, w) =>
        -- assertion of …:109-112: the word must not be all ones
        if w = BitVec.allOnes 64 then (c.die .assertFailed, slots)
        else ({ c with pc := .begin cx retry 0 i w }, slots)
  | .begin cx retry spin i w =>
    if c.b i then (c.die .assertFailed, slots)
    else if c.e i then
      if spin + 1 < maxEndWaits then ({ c with pc := .begin cx retry (spin + 1) i w }, slots)
      else (c.die .waitTimeout, slots)
    else ({ c with b := upd c.b i true, pc := .cas cx retry i w }, slots)
  | .cas cx retry i w =>
    if slots i = w ∧ spurious = false then
      ({ c with cnt := upd c.cnt i true, pc := .commit cx i }, upd slots i (w + 1#64))
    else ({ c with pc := .abort cx retry i }, slots)
  | .commit cx i =>
    if c.b i = true ∧ c.e i = false then
      ({ c with e := upd c.e i true, pc := .loadTs cx i }, slots)
    else (c.die .assertFailed, slots)
  | .abort cx retry i =>
    if c.b i = true ∧ c.e i = false then
      if retry + 1 < maxReferenceRetries then
        ({ c with b := upd c.b i false, pc := .scan cx (retry + 1) 0 none }, slots)
      else ({ c with b := upd c.b i false, pc := collectEnd c.last cx }, slots)
    else (c.die .assertFailed, slots)
  | .loadTs cx i =>
    ({ c with pc := collectNext c.last { rem := cx.rem - 1, high := tsN (slots i), coll := cx.coll ++ [i] } },
      slots)
  | .final coll todo newest =>
    match todo with
    | [] => ({ c with last := newest, pc := .deliver coll.reverse }, slots)
    | i :: rest => ({ c with pc := .final coll rest (max newest (tsN (slots i))) }, slots)
  | .deliver todo =>
    match todo with
    | [] => ({ c with pc := .idle }, slots)
    | i :: rest =>
      ({ c with held := upd c.held i true, delivered := (tsN (slots i), data i) :: c.delivered,
                pc := .deliver rest }, slots)
  | .rbAt k =>
    if k < n then
      if c.b k = true ∧ c.e k = true then ({ c with b := upd c.b k false, pc := .rbBegun k }, slots)
      else if c.b k = true ∨ c.e k = true then ({ c with pc := .rbFailed }, slots)
      else ({ c with pc := .rbAt (k + 1) }, slots)
    else
      -- log is empty again, the restarted proxy may subscribe
      ({ c with pc := .idle, last := 0, delivered := [] }, slots)
  | .rbBegun k =>
    ({ c with cnt := upd c.cnt k false, pc := .rbSubbed k }, upd slots k (slots k - 1#64))
  | .rbSubbed k => ({ c with e := upd c.e k false, pc := .rbAt (k + 1) }, slots)
  | .crashed => (c, slots)
  | .assertFailed => (c, slots)
  | .waitTimeout => (c, slots)
  | .unsubAbort => (c, slots)
  | .rbFailed => (c, slots)

/-- Next step of the release of slot `i` (`DereferenceEvent`,
lola/consumer_event_data_control_local_view.cpp:220-239). -/
def relStep {V : Type} (slots : Nat → Word) (c : Cons V) (i : Nat) : Cons V × (Nat → Word) :=
  match c.rel i with
  | .none => (c, slots)
  | .begun =>
    ({ c with cnt := upd c.cnt i false, rel := upd c.rel i .subbed }, upd slots i (slots i - 1#64))
  | .subbed =>
    -- DereferenceTransactionCommit with its preconditions (transaction_log_local_view.cpp:166-173)
    if c.b i = false ∧ c.e i = true then
      ({ c with e := upd c.e i false, rel := upd c.rel i .none }, slots)
    else (c.die .assertFailed, slots)

/-- Start of the release: SamplePtr destroyed; `DereferenceTransactionBegin` with its preconditions
(lola/transaction_log_local_view.cpp:157-164). -/
def relStart {V : Type} (c : Cons V) (i : Nat) : Cons V :=
  if c.held i = true then
    if c.b i = true ∧ c.e i = true then
      { c with held := upd c.held i false, b := upd c.b i false, rel := upd c.rel i .begun }
    else c.die .assertFailed
  else c

/-- `!DoesLogContainIncrementOrDecrementTransactions` for the first `n` log slots
(lola/transaction_log_local_view.cpp:48-60). -/
def logEmpty {V : Type} (c : Cons V) : Nat → Bool
  | 0 => true
  | k + 1 => logEmpty c k && !(c.b k) && !(c.e k)

/-- The process of this consumer is running its normal code. -/
def CPc.live : CPc → Bool
  | .crashed | .assertFailed | .waitTimeout | .unsubAbort | .rbAt _ | .rbBegun _ | .rbSubbed _ | .rbFailed => false
  | _ => true

/-- One step of the system. Operations that are not possible in a state change nothing. -/
def step {V : Type} (s : St V) : Op V → St V
  | .provAlloc => if s.ppc = .idle then { s with ppc := .find 0 0 tsMax none } else s
  | .provStep => provStep s
  | .provWrite i v => if s.alloc i then { s with data := upd s.data i v } else s
  | .provSend i =>
    -- lola/skeleton_event_common.h:392-408, uint32 counter; EventReady stores (ts, 0)
    if s.alloc i ∧ s.ppc = .idle then
      let ts := (s.cur + 1) % 2 ^ 32
      { s with cur := ts, slots := upd s.slots i (readyWord ts), alloc := upd s.alloc i false,
               sent := (ts, s.data i) :: s.sent }
    else s
  | .provDiscard i =>
    -- lola/provider_event_data_control_local_view.cpp:129-138
    if s.alloc i ∧ s.ppc = .idle then
      { s with slots := if isInWriting (s.slots i) then upd s.slots i invalidEvent else s.slots,
               alloc := upd s.alloc i false }
    else s
  | .provRestart =>
    -- RemoveAllocationsForWriting (…:182-209), then UpdateCurrentTimestamp
    let cleared := fun i => if isInWriting (s.slots i) then invalidEvent else s.slots i
    { s with slots := cleared, alloc := fun _ => false, ppc := .idle, cur := latestTs cleared s.n }
  | .consGet c k =>
    if c < s.m ∧ (s.cons c).pc = .idle then
      let x := s.cons c
      let pc := collectNext x.last { rem := k, high := tsMax, coll := [] }
      { s with cons := upd s.cons c { x with pc := pc } }
    else s
  | .consStep c spurious =>
    if c < s.m then
      let r := getterStep s.n s.slots s.data (s.cons c) spurious
      { s with cons := upd s.cons c r.1, slots := r.2 }
    else s
  | .consRelease c i =>
    if c < s.m ∧ (s.cons c).pc.live then { s with cons := upd s.cons c (relStart (s.cons c) i) } else s
  | .consRelStep c i =>
    if c < s.m then
      let r := relStep s.slots (s.cons c) i
      { s with cons := upd s.cons c r.1, slots := r.2 }
    else s
  | .consResubscribe c =>
    -- lola/transaction_log_set.cpp:159-171: the log must be empty when it is given back; the new
    -- subscription starts with a fresh SlotCollector
    if c < s.m ∧ (s.cons c).pc = .idle then
      let x := s.cons c
      if logEmpty x s.n then { s with cons := upd s.cons c { x with last := 0, delivered := [] } }
      else { s with cons := upd s.cons c (x.die .unsubAbort) }
    else s
  | .consCrash c =>
    if c < s.m then
      match (s.cons c).pc with
      | .rbFailed => s
      | _ => { s with cons := upd s.cons c ((s.cons c).die .crashed) }
    else s
  | .consRecover c =>
    if c < s.m then
      match (s.cons c).pc with
      | .crashed | .assertFailed | .waitTimeout | .unsubAbort =>
        let x := s.cons c
        { s with cons := upd s.cons c { x with pc := .rbAt 0 } }
      | _ => s
    else s

/-- Run a schedule. -/
def run {V : Type} (s : St V) (ops : List (Op V)) : St V := ops.foldl step s

end Verif.Ctrl
