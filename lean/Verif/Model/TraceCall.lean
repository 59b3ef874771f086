/-!
# Calls of the trace subsystem and how their failures are handled

`TracingRuntime` passes traces to an external subsystem.  Shared memory objects are registered
with it once per service instance; a trace names the object and the offset of the data.  Failures
set a flag (reported with later traces), switch a trace point off or switch tracing off.

Threads trace at the same time.  Every access to a member that is shared by them is a step.

Simplifications:
* The subsystem is an external library: its answers are parameters of the operations.
* The members `data_loss_flag_` and the maps of the binding are not synchronised in the code; an access
  to them is one step here, so data races on them are left out.
* Instances, elements, addresses, handles and file descriptors are numbers.
* One binding (LoLa).  Which slot a sample gets is modelled in `TraceSlots`; here the answer whether
  there is one is a parameter.  Log messages and their debouncing are left out.
-/
namespace Verif.TraceCall

/-- `MAX_CONSECUTIVE_ACCEPTABLE_TRACE_FAILURES` (impl/tracing/tracing_runtime.h 80). -/
def maxFailures : Nat := 2 ^ 32 - 1

/-- An answer of the subsystem; a terminal error is also a non-recoverable one. -/
inductive Answer where
  | ok
  | recoverable
  | nonRecoverable
  | terminal
  deriving DecidableEq, Repr

/-- A trace point of an element of an instance. -/
structure Point where
  inst : Nat
  elem : Nat
  kind : Nat
  deriving DecidableEq, Repr

/-- A key of the cache of failed registrations (`ServiceElementInstanceIdentifierView`): the
identification of the shared memory object of an instance, which has a dummy name, or
of an element. -/
inductive Key where
  | shm (inst : Nat)
  | elem (inst elem : Nat)
  deriving DecidableEq, Repr

/-- What a trace call describes: shared memory (handle and offset; the address of the data is
history) or local data. -/
inductive Data where
  | shm (handle offset address : Nat)
  | loc
  deriving DecidableEq, Repr

/-- Where a thread is in `TracingRuntime::Trace`. -/
inductive Pc where
  | idle
  /-- trace of the point `p`; address of the data in shared memory or none -/
  | enter (p : Point) (address : Option Nat)
  /-- before `CreateMetaInfo` -/
  | info (p : Point) (d : Data)
  /-- before `EmplaceTypeErasedSamplePtr`, with the data loss bit -/
  | slot (p : Point) (d : Data) (loss : Bool)
  /-- before the call of the subsystem -/
  | call (p : Point) (d : Data) (loss : Bool)
  /-- in `ProcessTraceCallResult` after success, before the flag is cleared -/
  | okFlag
  /-- before the counter is cleared -/
  | okCount
  /-- after a failure, before the counter is incremented -/
  | failCount (p : Point) (hard : Bool)
  /-- before the flag is set -/
  | failFlag (p : Point) (hard : Bool)
  /-- before the counter is compared -/
  | failCheck (p : Point) (hard : Bool)
  deriving DecidableEq, Repr

/-- What happened, in this order. -/
inductive Ev where
  /-- the shared memory object of an instance was registered: handle and start address -/
  | registered (inst handle start : Nat)
  | unregistered (inst : Nat)
  /-- a call (other than a trace) failed with a terminal error -/
  | fatal
  /-- a registration failed with a recoverable error -/
  | registerFailed (inst : Nat)
  /-- the subsystem was called for a trace -/
  | called (p : Point) (d : Data) (loss : Bool) (a : Answer)
  /-- a trace was dropped because there was no slot -/
  | dropped (p : Point)
  /-- a trace was not made because there is no shared memory object -/
  | missing (p : Point)
  deriving DecidableEq, Repr

structure St where
  /-- `atomic_state_.is_tracing_enabled` -/
  enabled : Bool := true
  /-- `atomic_state_.consecutive_failure_counter` -/
  counter : Nat := 0
  /-- `data_loss_flag_` -/
  flag : Bool := false
  /-- `shm_object_handle_map_`: handle and start address -/
  handles : Nat → Option (Nat × Nat) := fun _ => none
  /-- `failed_shm_object_registration_cache_`: file descriptor and start address -/
  cache : Key → Option (Nat × Nat) := fun _ => none
  /-- the trace points of all elements that are on -/
  on : Point → Bool
  pc : Nat → Pc := fun _ => .idle
  /-- the process was ended -/
  dead : Bool := false
  /-- history -/
  log : List Ev := []

inductive Op where
  /-- the shared memory object of an instance is created; answer of the subsystem -/
  | register (inst fd start handle : Nat) (a : Answer)
  /-- it is removed -/
  | unregister (inst : Nat) (a : Answer)
  /-- thread `t` passes trace point `p` -/
  | trace (t : Nat) (p : Point) (address : Option Nat)
  /-- a step of thread `t`: is there a slot, the answer of the subsystem and the handle it gives -/
  | next (t : Nat) (slot : Bool) (a : Answer) (handle : Nat)
  deriving DecidableEq, Repr

def St.setPc (s : St) (t : Nat) (p : Pc) : St := { s with pc := fun u => if u = t then p else s.pc u }

def St.setHandle (s : St) (i : Nat) (v : Option (Nat × Nat)) : St :=
  { s with handles := fun j => if j = i then v else s.handles j }

def St.setCache (s : St) (k : Key) (v : Option (Nat × Nat)) : St :=
  { s with cache := fun j => if j = k then v else s.cache j }

def St.add (s : St) (e : Ev) : St := { s with log := s.log ++ [e] }

/-- `TraceErrorDisableTracePointInstance` in `UpdateTracingDataFromTraceResult`
(skeleton_event_tracing.cpp 39-58): the trace point is switched off. -/
def St.pointOff (s : St) (p : Point) : St := { s with on := fun q => if q = p then false else s.on q }

/-- `TraceErrorDisableAllTracePoints` (the same function): all trace points of the element are
switched off (`DisableAllTracePoints`, skeleton_event_tracing_data.cpp 18-22). -/
def St.elemOff (s : St) (p : Point) : St :=
  { s with on := fun q => if q.inst = p.inst ∧ q.elem = p.elem then false else s.on q }

/-- `TracingRuntime::RegisterShmObject` (impl/tracing/tracing_runtime.cpp 340-391) with the binding's
`RegisterShmObject` and `CacheFileDescriptorForReregisteringShmObject`
(lola/tracing/tracing_runtime.cpp 179-227); the key is that of the shared memory object
(skeleton_memory_manager.cpp 724-746). -/
def St.register (s : St) (i fd start handle : Nat) (a : Answer) : St :=
  if !s.enabled then s
  else match a with
    | .ok =>
      if (s.handles i).isSome then { s with dead := true }
      else (s.setHandle i (some (handle, start))).add (.registered i handle start)
    | .terminal => { s with enabled := false }.add .fatal
    | .nonRecoverable => s
    | .recoverable =>
      if (s.cache (.shm i)).isSome then { s with dead := true }
      else (s.setCache (.shm i) (some (fd, start))).add (.registerFailed i)

/-- `TracingRuntime::UnregisterShmObject` (impl/tracing/tracing_runtime.cpp 400-448). -/
def St.unregister (s : St) (i : Nat) (a : Answer) : St :=
  if !s.enabled then s
  else match s.handles i with
    | none => s.setCache (.shm i) none
    | some _ =>
      let s := (s.setHandle i none).add (.unregistered i)
      if a = .terminal then { s with enabled := false }.add .fatal else s

/-- One step of `TracingRuntime::Trace`.
`enter`: the check and, for shared memory, `GetRegisteredShmObject` and `GetShmRegionStartAddress`
(impl/tracing/tracing_runtime.cpp 452-502, 519-539, 605-616); the registration is looked up under the
key of the shared memory object (lola/tracing/tracing_runtime.cpp 328-354), the cache under the
key of the element (229-239).  `info`: `CreateMetaInfo` (173-192).  `slot`: 551-593.
`call`: 595-602, 625-626.  The others: `ProcessTraceCallResult` (257-294). -/
def St.step (s : St) (t : Nat) (slot : Bool) (a : Answer) (handle : Nat) : St :=
  match s.pc t with
  | .idle => s
  | .enter p none => if !s.enabled then (s.elemOff p).setPc t .idle else s.setPc t (.info p .loc)
  | .enter p (some x) =>
    if !s.enabled then (s.elemOff p).setPc t .idle
    else match s.handles p.inst with
      | some (h, start) => s.setPc t (.info p (.shm h (x - start) x))
      | none =>
        match s.cache (.elem p.inst p.elem) with
        | none => ((s.pointOff p).setPc t .idle).add (.missing p)
        | some _ =>
          match a with
          | .ok => { s with dead := true }
          | .terminal => ({ (s.elemOff p) with enabled := false }.setPc t .idle).add .fatal
          | _ => (((s.setCache (.elem p.inst p.elem) none).pointOff p).setPc t .idle).add (.missing p)
  | .info p .loc => s.setPc t (.call p .loc s.flag)
  | .info p (.shm h off x) => s.setPc t (.slot p (.shm h off x) s.flag)
  | .slot p d loss =>
    if slot then s.setPc t (.call p d loss) else ({ s with flag := true }.setPc t .idle).add (.dropped p)
  | .call p d loss =>
    let s := s.add (.called p d loss a)
    match a with
    | .ok => s.setPc t .okFlag
    | .terminal => ({ s with enabled := false }.elemOff p).setPc t .idle
    | .nonRecoverable => s.setPc t (.failCount p true)
    | .recoverable => s.setPc t (.failCount p false)
  | .okFlag => { s with flag := false }.setPc t .okCount
  | .okCount => { s with counter := 0 }.setPc t .idle
  | .failCount p hard => { s with counter := (s.counter + 1) % 2 ^ 32 }.setPc t (.failFlag p hard)
  | .failFlag p hard => { s with flag := true }.setPc t (.failCheck p hard)
  | .failCheck p hard =>
    if s.counter ≥ maxFailures then ({ s with enabled := false }.elemOff p).setPc t .idle
    else if hard then (s.pointOff p).setPc t .idle
    else s.setPc t .idle

/-- An operation; a busy thread makes no other call, and trace points that are off are passed without
a call (`TraceSend`, skeleton_event_tracing.h 135-175). -/
def St.next' (s : St) : Op → St
  | .register i fd start handle a => s.register i fd start handle a
  | .unregister i a => s.unregister i a
  | .trace t p x => if s.pc t = .idle ∧ s.on p = true then s.setPc t (.enter p x) else s
  | .next t slot a handle => s.step t slot a handle

def St.op (s : St) (o : Op) : St := if s.dead then s else s.next' o

def run (s : St) (ops : List Op) : St := ops.foldl St.op s

/-- `TracingRuntime::TracingRuntime` (impl/tracing/tracing_runtime.cpp 304-324, registration with the
subsystem succeeded) and the trace points that are enabled by the configuration. -/
def start (on : Point → Bool) : St := { on := on }

end Verif.TraceCall
