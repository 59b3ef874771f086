/-!
# Slots for traced samples

A sample that is traced is read by the trace subsystem after the call that sent
it.  A slot of the tracing runtime holds a reference to the sample until the
subsystem reports that it is done.

Threads call the runtime; the code under the mutex of a slot is one step.

Simplifications:
* The reference (`TypeErasedSamplePtr`) is the number of the sample.
* The trace subsystem is an external library: it works on the traces in `flight`
  and reports each of them as done at any later time, on any thread.
* `RegisterServiceElement` is one step.
-/
namespace Verif.TraceSlots

/-- Where a thread is. -/
inductive Pc where
  | idle
  /-- `GetTraceContextId` for element `e`, about to look at slot `i` -/
  | pick (e x i : Nat)
  /-- in `EmplaceTypeErasedSamplePtr`, slot `c` was seen free -/
  | put (e x c : Nat)
  /-- about to call the trace subsystem -/
  | call (e x c : Nat)
  /-- the subsystem refused: `ClearTypeErasedSamplePtr` -/
  | undo (e c : Nat)
  /-- `ClearTypeErasedSamplePtrs` of element `e`, about to clear slot `i` -/
  | stop (e i : Nat)
  /-- the callback of the subsystem: `IsTracingSlotUsed` -/
  | check (c : Nat)
  /-- the callback of the subsystem: `ClearTypeErasedSamplePtr` -/
  | clear (c : Nat)
  deriving DecidableEq, Repr

structure St where
  /-- `type_erased_sample_ptrs_.size()` -/
  size : Nat
  /-- `type_erased_sample_ptrs_` -/
  slots : Nat → Option Nat := fun _ => none
  /-- `next_available_position_for_new_service_element_range_start_` -/
  next : Nat := 0
  /-- the ranges given to the elements: start and number of slots -/
  ranges : List (Nat × Nat) := []
  pc : Nat → Pc := fun _ => .idle
  /-- the traces on which the subsystem works: slot and sample -/
  flight : List (Nat × Nat) := []
  /-- history: traces for which there was no slot: thread and sample -/
  lost : List (Nat × Nat) := []
  /-- the process was ended -/
  dead : Bool := false

/-- A call or a step. -/
inductive Op where
  /-- an element with `n` slots is created -/
  | register (n : Nat)
  /-- thread `t` sends sample `x` of element `e` -/
  | trace (t e x : Nat)
  /-- thread `t` stops offering element `e` -/
  | stop (t e : Nat)
  /-- the subsystem is done with trace number `k` and calls back on thread `t` -/
  | finish (t k : Nat)
  /-- thread `t` makes a step; `ok` is the answer of the subsystem -/
  | next (t : Nat) (ok : Bool)
  deriving DecidableEq, Repr

def St.setPc (s : St) (t : Nat) (p : Pc) : St := { s with pc := fun u => if u = t then p else s.pc u }

def St.setSlot (s : St) (c : Nat) (v : Option Nat) : St :=
  { s with slots := fun d => if d = c then v else s.slots d }

/-- `TracingRuntime::RegisterServiceElement` (lola/tracing/tracing_runtime.cpp
141-177). -/
def St.register (s : St) (n : Nat) : St :=
  if n = 0 then { s with dead := true }
  else if s.next + n - 1 ≥ s.size then { s with dead := true }
  else { s with next := s.next + n, ranges := s.ranges ++ [(s.next, n)] }

/-- One step of a thread.
`pick`, `put`: `GetTraceContextId`, `EmplaceTypeErasedSamplePtr`
(lola/tracing/tracing_runtime.cpp 363-427); `call`, `undo`: `TracingRuntime::Trace`
(impl/tracing/tracing_runtime.cpp 553-603); `stop`: `ClearTypeErasedSamplePtrs`
(lola/tracing/tracing_runtime.cpp 436-445), called by the guard of the event when
offering stops (lola/type_erased_sample_ptrs_guard.cpp 27-35,
lola/skeleton_event_common.h 460-468); `check`, `clear`: the callback
(lola/tracing/tracing_runtime.cpp 98-124) with `IsTracingSlotUsed` (356-361) and
`ClearTypeErasedSamplePtr` (429-434). -/
def St.step (s : St) (t : Nat) (ok : Bool) : St :=
  match s.pc t with
  | .idle => s
  | .pick e x i =>
    match s.ranges[e]? with
    | none => { s with dead := true }
    | some (a, n) =>
      if i = a + n then { s.setPc t .idle with lost := s.lost ++ [(t, x)] }
      else if i ≥ s.size then { s with dead := true }
      else if (s.slots i).isSome then s.setPc t (.pick e x (i + 1))
      else s.setPc t (.put e x i)
  | .put e x c =>
    if (s.slots c).isSome then { s with dead := true }
    else (s.setSlot c (some x)).setPc t (.call e x c)
  | .call e x c =>
    if ok then { s.setPc t .idle with flight := s.flight ++ [(c, x)] } else s.setPc t (.undo e c)
  | .undo _ c => (s.setSlot c none).setPc t .idle
  | .stop e i =>
    match s.ranges[e]? with
    | none => { s with dead := true }
    | some (a, n) =>
      if i = a + n then s.setPc t .idle
      else if i ≥ s.size then { s with dead := true }
      else (s.setSlot i none).setPc t (.stop e (i + 1))
  | .check c =>
    if c ≥ s.size then { s with dead := true }
    else if (s.slots c).isSome then s.setPc t (.clear c)
    else s.setPc t .idle
  | .clear c => (s.setSlot c none).setPc t .idle

/-- An operation; calls of threads that are busy and of elements that do not exist
are not made. -/
def St.next' (s : St) : Op → St
  | .register n => s.register n
  | .trace t e x =>
    match s.pc t, s.ranges[e]? with
    | .idle, some (a, _) => s.setPc t (.pick e x a)
    | _, _ => s
  | .stop t e =>
    match s.pc t, s.ranges[e]? with
    | .idle, some (a, _) => s.setPc t (.stop e a)
    | _, _ => s
  | .finish t k =>
    match s.pc t, s.flight[k]? with
    | .idle, some (c, _) => { s.setPc t (.check c) with flight := s.flight.eraseIdx k }
    | _, _ => s
  | .next t ok => s.step t ok

/-- An operation of a process that has not been ended. -/
def St.op (s : St) (o : Op) : St := if s.dead then s else s.next' o

def run (s : St) (ops : List Op) : St := ops.foldl St.op s

/-- `TracingRuntime::TracingRuntime` (lola/tracing/tracing_runtime.cpp 64-76). -/
def start (size : Nat) : St := { size := size }

end Verif.TraceSlots
