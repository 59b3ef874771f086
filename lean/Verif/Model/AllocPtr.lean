/-!
# Sample pointers of the provider: `Allocate`, zero-copy `Send`, `StopOfferService`

The steps are what a provider does with the events of a skeleton and with variables of type
`SampleAllocateePtr`, one after the other: the API is single threaded
(lola/skeleton_event.h 53-54).

Simplifications:
* One quality level: the two levels are the subject of `Model/Composite.lean`.
* Which slot `AllocateNextSlot` finds is an input, but it is never one that is in writing.
  Consumers and their reference counts are the subject of `Model/EventCtrl.lean`.
* Time stamps do not overflow (see `Model/Stamp.lean`); there are fewer than 65535 slots.
* No tracing, no mocks.
* A variable that has ended is a pointer that is empty for good.
-/
namespace Verif.AllocPtr

/-- What a slot of the control block says (event_slot_status.h). -/
inductive Slot where
  | invalid
  | writing
  | ready (stamp : Nat)
deriving DecidableEq, Repr

/-- One event of a skeleton. -/
structure Event (V : Type) where
  /-- the object exists -/
  live : Bool := true
  /-- `service_offered_flag_` (skeleton_event_base.h 93) -/
  offered : Bool := false
  /-- `event_data_control_composite_` and the local views have a value, the memory is mapped
  (skeleton_event_common.h 168-176) -/
  comp : Bool := false
  /-- how often memory has been mapped -/
  memory : Nat := 0
  /-- the slots in the memory -/
  slots : List Slot := []
  /-- the samples in the memory -/
  data : Nat → Option V := fun _ => none
  /-- `current_timestamp_` -/
  stamp : Nat := 0
  /-- the number of slots that is configured -/
  size : Nat
  /-- `SampleAllocateeTracker::allocated_count_` (sample_allocatee_tracker.h 63) -/
  count : Nat := 0

/-- `lola::SampleAllocateePtr` (lola/sample_allocatee_ptr.h 196-201). -/
structure Binding where
  /-- `managed_object_`: event, memory and slot of the sample it points to -/
  obj : Option (Nat × Nat × Nat) := none
  /-- `event_slot_index_`; `none` is `kUninitialisedEventSlotIndex` -/
  slot : Option Nat := none
  /-- `event_data_control_ptr_`: the event in which the object lies -/
  ctl : Option Nat := none
deriving DecidableEq, Repr

/-- `impl::SampleAllocateePtr` (plumbing/sample_allocatee_ptr.h 164-168). -/
structure Ptr where
  /-- `internal_`; `none` is `blank` -/
  bin : Option Binding := none
  /-- `allocatee_guard_`: the event whose tracker it points to -/
  guard : Option Nat := none
deriving DecidableEq, Repr

/-- How the process ends. -/
inductive Fault where
  /-- a failed assertion, or `std::terminate` -/
  | assertion
  /-- access to an object or to memory that is no more -/
  | undefined
deriving DecidableEq, Repr

/-- What a call returns. -/
inductive Ret where
  | ok
  | notOffered
  | bindingFailure
deriving DecidableEq, Repr

structure World (V : Type) where
  events : Nat → Event V
  ptrs : List Ptr := []
  /-- the results of the calls of `Allocate` and `Send` -/
  log : List Ret := []
  fault : Option Fault := none

variable {V : Type}

def World.fail (w : World V) (f : Fault) : World V := { w with fault := some f }

def World.setEvent (w : World V) (e : Nat) (v : Event V) : World V :=
  { w with events := fun x => if x = e then v else w.events x }

def World.ret (w : World V) (r : Ret) : World V := { w with log := w.log ++ [r] }

/-- What follows, if the process goes on. -/
def World.andThen (w : World V) (f : World V → World V) : World V := if w.fault.isSome then w else f w

/-- `EventDataControlComposite::Discard` (event_data_control_composite.cpp 180-191,
provider_event_data_control_local_view.cpp 129-138), through a pointer to the member of the
event. -/
def discard (w : World V) (e s : Nat) : World V :=
  let v := w.events e
  if !v.live || !v.comp then w.fail .undefined
  else
    match v.slots[s]? with
    | none => w.fail .assertion
    | some .writing => w.setEvent e { v with slots := v.slots.set s .invalid }
    | some _ => w

/-- `internal_delete` (lola/sample_allocatee_ptr.h 181-194). -/
def dropBinding (w : World V) (b : Binding) : World V :=
  match b.slot with
  | none => w
  | some s =>
    match b.ctl with
    | none => w.fail .assertion
    | some e => discard w e s

/-- What `internal_delete` leaves of the pointer. -/
def Binding.cleared (b : Binding) : Binding := { b with obj := none, slot := none }

/-- `~SampleAllocateeGuard` (sample_allocatee_guard.cpp 51-64, sample_allocatee_tracker.cpp
49-53). -/
def dropGuard (w : World V) (g : Option Nat) : World V :=
  match g with
  | none => w
  | some e =>
    let v := w.events e
    if !v.live then w.fail .undefined
    else if v.count = 0 then w.fail .assertion
    else w.setEvent e { v with count := v.count - 1 }

/-- The rest of a pointer: nothing if the variant is blank. -/
def dropInternal (w : World V) (b : Option Binding) : World V :=
  match b with
  | none => w
  | some b => dropBinding w b

/-- `~SampleAllocateePtr`: the members end in the opposite order of their declaration
(plumbing/sample_allocatee_ptr.h 166-168). -/
def destroyPtr (w : World V) (p : Ptr) : World V :=
  (dropGuard w p.guard).andThen fun w => dropInternal w p.bin

/-- `SampleAllocateePtr::reset` (plumbing/sample_allocatee_ptr.h 194-216). -/
def resetPtr (w : World V) (p : Ptr) : World V :=
  (dropInternal w p.bin).andThen fun w => dropGuard w p.guard

/-- What `reset` leaves of the pointer. -/
def Ptr.cleared (p : Ptr) : Ptr := { bin := p.bin.map Binding.cleared, guard := none }

/-- The pointer variable gets another value. -/
def World.put (w : World V) (i : Nat) (p : Ptr) : World V := { w with ptrs := w.ptrs.set i p }

/-- The pointer that `lola::SkeletonEvent::Allocate` makes (lola/skeleton_event.h 173-190). -/
def newPtr (e memory s : Nat) : Ptr :=
  { bin := some { obj := some (e, memory, s), slot := some s, ctl := some e }, guard := some e }

/-- `AllocateNextSlot` takes this slot, if there is one that is not in writing. -/
def takes (v : Event V) : Option Nat → Option Nat
  | none => none
  | some s =>
    match v.slots[s]? with
    | none => none
    | some .writing => none
    | some _ => some s

/-- `SkeletonEvent::Allocate` (impl/skeleton_event.h 239-262, lola/skeleton_event.h 173-190,
skeleton_event_common.h 351-389). -/
def allocate (w : World V) (e : Nat) (pick : Option Nat) : World V × Ret :=
  let v := w.events e
  if !v.offered then (w, .notOffered)
  else if !v.comp then (w, .bindingFailure)
  else
    match takes v pick with
    | none => (w, .bindingFailure)
    | some s =>
      ({ w.setEvent e { v with slots := v.slots.set s .writing, count := v.count + 1 } with
          ptrs := w.ptrs ++ [newPtr e v.memory s] }, .ok)

/-- `*ptr = value` (plumbing/sample_allocatee_ptr.h 286-302). -/
def write (w : World V) (i : Nat) (x : V) : World V :=
  match w.ptrs[i]? with
  | none => w
  | some p =>
    match p.bin with
    | none => w.fail .assertion
    | some b =>
      match b.obj with
      | none => w.fail .undefined
      | some (e, m, s) =>
        let v := w.events e
        if v.live && v.comp && v.memory == m then
          w.setEvent e { v with data := fun y => if y = s then some x else v.data y }
        else w.fail .undefined

/-- `SkeletonEventCommon::Send` (skeleton_event_common.h 392-408) with `EventReady`
(provider_event_data_control_local_view.cpp 117-126). -/
def ready (w : World V) (e : Nat) (b : Option Binding) : World V :=
  match b with
  | none => w.fail .assertion
  | some b =>
    match b.slot with
    | none => w.fail .assertion
    | some s =>
      let v := w.events e
      if s < v.slots.length then
        w.setEvent e { v with slots := v.slots.set s (.ready (v.stamp + 1)), stamp := v.stamp + 1 }
      else w.fail .assertion

/-- `SkeletonEvent::Send(std::move(ptr))` (impl/skeleton_event.h 211-236, lola/skeleton_event.h
151-170): the pointer moves to the parameter, which ends with the call. -/
def send (w : World V) (e i : Nat) : World V × Ret :=
  match w.ptrs[i]? with
  | none => (w, .ok)
  | some p =>
    let w := w.put i {}
    if !(w.events e).offered then (destroyPtr w p, .notOffered)
    else ((ready w e p.bin).andThen fun w => destroyPtr w p, .ok)

/-- `SkeletonEvent::Send(value)` (impl/skeleton_event.h 184-208, lola/skeleton_event.h
134-148). -/
def sendCopy (w : World V) (e : Nat) (x : V) (pick : Option Nat) : World V × Ret :=
  match allocate w e pick with
  | (w', .ok) => ((write w' w.ptrs.length x).andThen fun w'' => (send w'' e w.ptrs.length).1, .ok)
  | (w', r) => (w', r)

/-- The newest time stamp in the memory: `GetLatestTimestamp` (event_data_control_composite.cpp
237-260). -/
def latest : List Slot → Nat
  | [] => 0
  | .ready t :: l => max t (latest l)
  | _ :: l => latest l

/-- `RemoveAllocationsForWriting` (provider_event_data_control_local_view.cpp 182-197). -/
def cleaned : Slot → Slot
  | .writing => .invalid
  | s => s

/-- `SkeletonEventBase::PrepareOffer` (skeleton_event_base.h 55-63, skeleton_event_common.h
229-288).  The memory is new, or it is still there from the last time. -/
def offer (w : World V) (e : Nat) (fresh : Bool) : World V :=
  let v := w.events e
  if !v.live || v.offered then w
  else
    let slots := if fresh then List.replicate v.size .invalid else v.slots.map cleaned
    let data := if fresh then fun _ => none else v.data
    w.setEvent e
      { v with offered := true, comp := true, memory := v.memory + 1, slots, data, stamp := latest slots }

/-- `SkeletonEventBase::PrepareStopOffer` (skeleton_event_base.h 67-74, skeleton_event_common.h
319-347). -/
def stopOffer (w : World V) (e : Nat) : World V :=
  let v := w.events e
  if v.offered then w.setEvent e { v with offered := false, comp := false } else w

/-- The end of an event: `~SampleAllocateeTracker` (sample_allocatee_tracker.cpp 24-33). -/
def destroyEvent (w : World V) (e : Nat) : World V :=
  let v := w.events e
  if !v.live then w
  else if v.count = 0 then w.setEvent e { v with live := false, offered := false, comp := false }
  else w.fail .assertion

inductive Step (V : Type) where
  /-- `Allocate`; the pointer is the next variable -/
  | allocate (e : Nat) (pick : Option Nat)
  /-- a new variable takes over from another: `SampleAllocateePtr p{std::move(q)}` -/
  | move (i : Nat)
  /-- `p = std::move(q)` -/
  | assign (i j : Nat)
  /-- `p.reset()`, `p = nullptr` -/
  | reset (i : Nat)
  /-- a variable ends -/
  | drop (i : Nat)
  /-- `*p = value` -/
  | write (i : Nat) (x : V)
  /-- `Send(std::move(p))` -/
  | send (e i : Nat)
  /-- `Send(value)` -/
  | sendCopy (e : Nat) (x : V) (pick : Option Nat)
  | offer (e : Nat) (fresh : Bool)
  | stopOffer (e : Nat)
  | destroyEvent (e : Nat)

/-- The move constructor: the new pointer is blank and swaps (plumbing/sample_allocatee_ptr.h
172-176). -/
def move (w : World V) (i : Nat) : World V :=
  match w.ptrs[i]? with
  | none => w
  | some p => { w with ptrs := w.ptrs.set i {} ++ [p] }

/-- The move assignment swaps (plumbing/sample_allocatee_ptr.h 179-184 and 219-224). -/
def assign (w : World V) (i j : Nat) : World V :=
  match w.ptrs[i]?, w.ptrs[j]? with
  | some p, some q => (w.put i q).put j p
  | _, _ => w

def reset (w : World V) (i : Nat) : World V :=
  match w.ptrs[i]? with
  | none => w
  | some p => resetPtr (w.put i p.cleared) p

def drop (w : World V) (i : Nat) : World V :=
  match w.ptrs[i]? with
  | none => w
  | some p => destroyPtr (w.put i {}) p

/-- The call returns. -/
def finish : World V × Ret → World V
  | (w, r) => if w.fault.isSome then w else w.ret r

/-- A call of a function of an event that exists. -/
def call (w : World V) (e : Nat) (v : World V) : World V := if (w.events e).live then v else w

def step (w : World V) (x : Step V) : World V :=
  if w.fault.isSome then w else
  match x with
  | .allocate e pick => call w e (finish (allocate w e pick))
  | .move i => move w i
  | .assign i j => assign w i j
  | .reset i => reset w i
  | .drop i => drop w i
  | .write i x => write w i x
  | .send e i => call w e (finish (send w e i))
  | .sendCopy e x pick => call w e (finish (sendCopy w e x pick))
  | .offer e fresh => offer w e fresh
  | .stopOffer e => stopOffer w e
  | .destroyEvent e => destroyEvent w e

/-- A program that starts with events of these sizes. -/
def run (size : Nat → Nat) (l : List (Step V)) : World V :=
  l.foldl step { events := fun e => { size := size e } }

end Verif.AllocPtr
