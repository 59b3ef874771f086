import Verif.Model.EventCtrl
/-!
Interleaving model of `EventDataControlComposite`: an ASIL-B capable provider that keeps one array of
control slots for QM consumers and one for ASIL-B consumers.

Modelled code:
* lola/event_data_control_composite.cpp (GetNextFreeMultiSlot, AllocateNextMultiSlot,
  AllocateNextSlot, EventReady, Discard, GetLatestTimestamp),
* lola/provider_event_data_control_local_view.cpp (AllocateNextSlot for the fall-back, TryAllocateSlot,
  SetSlotValue, EventReady, Discard, RemoveAllocationsForWriting),
* lola/skeleton_memory_manager.cpp:376-393 (CleanupSharedMemoryAfterCrash).

Every atomic access to a slot is one step. The provider is one thread (assumption of use stated in
lola/provider_event_data_control_local_view.cpp:124-125).

Simplifications: consumers are reduced to what they may do to a slot word: increment or decrement the
reference count of a readable slot (a superset of what `ReferenceNextEvent`, `ReferenceSpecificEvent`
and `DereferenceEvent` do, those are modelled in Model/EventCtrl.lean). Load and store of `Discard` are
one step per control. The clean-up after a crash is one step. Sequential consistency.
-/
namespace Verif.Comp
open Verif Verif.Slot Verif.Ctrl

/-- `MAX_MULTI_ALLOCATE_RETRY_COUNT` (lola/event_data_control_composite.cpp:25). -/
def maxMultiRetries : Nat := 100

/-- Provider program counter. -/
inductive Pc where
  | idle
  /-- `GetNextFreeMultiSlot`, about to load QM slot `k` (lola/event_data_control_composite.cpp:66-67) -/
  | findQm (retry k oldest : Nat) (best : Option (Nat × Word))
  /-- QM slot `k` had value `qw`, about to load ASIL-B slot `k` (…:68) -/
  | findB (retry k oldest : Nat) (best : Option (Nat × Word)) (qw : Word)
  /-- about to do the CAS on the QM slot (…:116) -/
  | casQm (retry i : Nat) (w : Word)
  /-- about to do the CAS on the ASIL-B slot (…:121) -/
  | casB (retry i : Nat) (w : Word)
  /-- about to give the QM slot back (…:124-125) -/
  | restore (retry i : Nat) (w : Word)
  /-- fall-back to the ASIL-B control alone (…:145, 158): `AllocateNextSlot` of that control -/
  | bAlloc (p : PPc)
  /-- `EventReady`: ASIL-B slot written, about to write the QM slot (…:173-176) -/
  | sendQm (i : Nat) (ts : Nat)
  /-- `Discard`: ASIL-B slot written, about to write the QM slot (…:187-190) -/
  | discardQm (i : Nat)
  /-- the provider process terminated itself because of the assertion in …:84-90 -/
  | aborted
  deriving DecidableEq, Repr

/-- Both controls, the provider and what its user holds. -/
structure St where
  n : Nat
  qm : Nat → Word
  b : Nat → Word
  /-- `ignore_qm_control_` (lola/event_data_control_composite.h), not in shared memory -/
  ignore : Bool
  pc : Pc
  /-- slots for which the provider's user holds a SampleAllocateePtr -/
  alloc : Nat → Bool
  /-- `current_timestamp_` (lola/skeleton_event_common.h) -/
  cur : Nat
  /-- result of the last Allocate call: `none` while it is running -/
  res : Option (Option Nat)

/-- All slots of both controls invalid. -/
def init (n : Nat) : St where
  n := n
  qm := fun _ => invalidEvent
  b := fun _ => invalidEvent
  ignore := false
  pc := .idle
  alloc := fun _ => false
  cur := 0
  res := none

/-- `AllocateNextMultiSlot` tries again, or gives up: then `ignore_qm_control_` is set and the ASIL-B
control alone is used (lola/event_data_control_composite.cpp:112-133, 147-159). -/
def nextTry (s : St) (retry : Nat) : St :=
  if retry + 1 < maxMultiRetries then { s with pc := .findQm (retry + 1) 0 tsMax none }
  else { s with ignore := true, pc := .bAlloc (.find 0 0 tsMax none) }

/-- Decision of `GetNextFreeMultiSlot` for slot `k` with QM value `qw` and ASIL-B value `bw`
(lola/event_data_control_composite.cpp:75-95). -/
def decideSlot (s : St) (retry k oldest : Nat) (best : Option (Nat × Word)) (qw bw : Word) : St :=
  if isInvalid bw ∧ isInvalid qw = false then nextTry s retry
  else if isUsed qw = false ∧ isUsed bw = false ∧ tsN bw < oldest then
    if qw = bw then { s with pc := .findQm retry (k + 1) (tsN bw) (some (k, qw)) }
    else { s with pc := .aborted }
  else { s with pc := .findQm retry (k + 1) oldest best }

/-- The provider's next atomic step. -/
def provStep (s : St) : St :=
  match s.pc with
  | .idle => s
  | .aborted => s
  | .findQm retry k oldest best =>
    if k < s.n then { s with pc := .findB retry k oldest best (s.qm k) }
    else match best with
      | some (i, w) => { s with pc := .casQm retry i w }
      | none => nextTry s retry
  | .findB retry k oldest best qw => decideSlot s retry k oldest best qw (s.b k)
  | .casQm retry i w =>
    if s.qm i = w then { s with qm := upd s.qm i inWriting, pc := .casB retry i w }
    else nextTry s retry
  | .casB retry i w =>
    if s.b i = w then
      { s with b := upd s.b i inWriting, alloc := upd s.alloc i true, pc := .idle, res := some (some i) }
    else { s with pc := .restore retry i w }
  | .restore retry i w => nextTry { s with qm := upd s.qm i w } retry
  | .bAlloc .idle => { s with pc := .idle, res := some none }
  | .bAlloc (.find retry k oldest best) =>
    { s with pc := .bAlloc (provFind s.n s.b retry k oldest best) }
  | .bAlloc (.cas retry i w) =>
    if s.b i = w then
      { s with b := upd s.b i inWriting, alloc := upd s.alloc i true, pc := .idle, res := some (some i) }
    else if retry < maxAllocateRetries then { s with pc := .bAlloc (.find (retry + 1) 0 tsMax none) }
    else { s with pc := .bAlloc .idle }
  | .sendQm i ts => { s with qm := upd s.qm i (readyWord ts), pc := .idle }
  | .discardQm i =>
    { s with qm := if isInWriting (s.qm i) then upd s.qm i invalidEvent else s.qm, pc := .idle }

/-- Reference count up, as a consumer that found the slot readable does it
(lola/consumer_event_data_control_local_view.cpp:117-126, 172-182). -/
def addRef (w : Word) : Word := if readable w ∧ rcN w + 1 < 2 ^ 32 then w + 1#64 else w
/-- Reference count down (lola/consumer_event_data_control_local_view.cpp:234-239). -/
def dropRef (w : Word) : Word := if readable w ∧ 0 < rcN w then w - 1#64 else w

/-- Slots that were being written become invalid (`RemoveAllocationsForWriting`,
lola/provider_event_data_control_local_view.cpp:182-209). -/
def cleared (slots : Nat → Word) (i : Nat) : Word := if isInWriting (slots i) then invalidEvent else slots i

/-- API calls and scheduler choices. -/
inductive Op where
  /-- provider calls Allocate -/
  | alloc
  /-- next atomic step of the provider's call -/
  | prov
  /-- provider calls Send for an allocated sample -/
  | send (i : Nat)
  /-- provider destroys an unsent SampleAllocateePtr -/
  | discard (i : Nat)
  /-- provider process dies and is started again -/
  | restart
  | qmRef (i : Nat)
  | qmDeref (i : Nat)
  | bRef (i : Nat)
  | bDeref (i : Nat)
  /-- a misbehaving QM process stores any reference count -/
  | qmScribble (i : Nat) (rc : BitVec 32)
  /-- a misbehaving QM process stores any word -/
  | qmCorrupt (i : Nat) (w : Word)

/-- One step. Operations that are not possible in a state change nothing. -/
def step (s : St) : Op → St
  | .alloc =>
    -- lola/event_data_control_composite.cpp:137-161 with ASIL-B control present
    if s.pc = .idle then
      if s.ignore then { s with pc := .bAlloc (.find 0 0 tsMax none), res := none }
      else { s with pc := .findQm 0 0 tsMax none, res := none }
    else s
  | .prov => provStep s
  | .send i =>
    -- lola/skeleton_event_common.h:392-408, then composite EventReady (164-177): ASIL-B first
    if s.pc = .idle ∧ s.alloc i then
      let ts := (s.cur + 1) % 2 ^ 32
      { s with cur := ts, b := upd s.b i (readyWord ts), alloc := upd s.alloc i false,
               pc := if s.ignore then .idle else .sendQm i ts }
    else s
  | .discard i =>
    -- composite Discard (180-191): ASIL-B first
    if s.pc = .idle ∧ s.alloc i then
      { s with b := if isInWriting (s.b i) then upd s.b i invalidEvent else s.b,
               alloc := upd s.alloc i false,
               pc := if s.ignore then .idle else .discardQm i }
    else s
  | .restart =>
    -- CleanupSharedMemoryAfterCrash (skeleton_memory_manager.cpp:376-393), a new composite object
    -- (ignore_qm_control_ = false, event_data_control_composite.cpp:36-44), UpdateCurrentTimestamp
    { s with qm := cleared s.qm, b := cleared s.b, ignore := false, pc := .idle,
             alloc := fun _ => false, cur := latestTs (cleared s.b) s.n, res := none }
  | .qmRef i => { s with qm := upd s.qm i (addRef (s.qm i)) }
  | .qmDeref i => { s with qm := upd s.qm i (dropRef (s.qm i)) }
  | .bRef i => { s with b := upd s.b i (addRef (s.b i)) }
  | .bDeref i => { s with b := upd s.b i (dropRef (s.b i)) }
  | .qmScribble i rc => { s with qm := upd s.qm i (setReferenceCount (s.qm i) rc) }
  | .qmCorrupt i w => { s with qm := upd s.qm i w }

/-- Run a schedule. -/
def run (s : St) (ops : List Op) : St := ops.foldl step s

end Verif.Comp
