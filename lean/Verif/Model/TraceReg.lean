import Verif.Model.TraceCall

/-!
# Offers of traced services and the registration of their memory

`OfferService` registers the data memory of a service instance with the trace subsystem, and
`StopOfferService` removes it from there, if a trace point of an element of the instance is on.

Built on `Model/TraceCall.lean`: its trace calls of threads can happen at any time between the
offers.

Simplifications:
* One call of `OfferService` or `StopOfferService` is one step.  What the memory, the elements, the
  service discovery and the subsystem answer are parameters.
* Two skeletons of the same instance do not exist at the same time (see C77), so that the key of a
  registration (service type and instance specifier, skeleton_tracing.cpp 110-120) is the instance.
* Mocks are left out.
-/
namespace Verif.TraceReg
open Verif.TraceCall (Answer Point Key)

/-- The data memory of an instance as it is mapped by the provider. -/
structure Mem where
  fd : Nat
  start : Nat
  /-- `IsShmInTypedMemory` -/
  typed : Bool
  deriving DecidableEq, Repr

/-- What one call of `OfferService` meets. -/
structure World where
  /-- the data memory that is created or opened; `none`: marker file, control or data memory failed.
  `typed`: typed memory is available (created) or the memory lies in it (opened) -/
  mem : Option Mem
  /-- the memory is created (otherwise that of an earlier provider is opened) -/
  fresh : Bool
  /-- the answer of the subsystem to the registration and the handle it gives -/
  answer : Answer
  handle : Nat
  /-- the handlers of methods could be registered -/
  methods : Bool
  /-- the elements are prepared, all handlers are there and the service discovery has listed the service -/
  listed : Bool
  deriving DecidableEq, Repr

structure St where
  tr : TraceCall.St
  /-- the events and fields of the skeleton of each instance -/
  elems : Nat → List Nat
  /-- `SkeletonBase::service_offered_flag_` -/
  offered : Nat → Bool := fun _ => false
  /-- the data memory that is mapped (`storage_resource_`) -/
  mem : Nat → Option Mem := fun _ => none

/-- The trace points `enable_send` and `enable_send_with_allocate`. -/
def sendPoint : Nat := 0
def allocPoint : Nat := 1

def St.setOffered (s : St) (i : Nat) (b : Bool) : St :=
  { s with offered := fun j => if j = i then b else s.offered j }

def St.setMem (s : St) (i : Nat) (m : Option Mem) : St :=
  { s with mem := fun j => if j = i then m else s.mem j }

/-- `IsTracingEnabledForInstance` (impl/tracing/skeleton_tracing.cpp 31-93; there is a
tracing runtime). -/
def St.wanted (s : St) (i : Nat) : Bool :=
  (s.elems i).any fun e => s.tr.on ⟨i, e, sendPoint⟩ || s.tr.on ⟨i, e, allocPoint⟩

/-- The end of `CreateSharedMemoryForData` and `OpenSharedMemoryForData`
(lola/skeleton_memory_manager.cpp 690-751, 799-845): typed memory is asked for if there is a callback, and
the callback is called if the memory lies in typed memory.  `wanted`: there is a callback
(`CreateRegisterShmObjectCallback`, impl/tracing/skeleton_tracing.cpp 97-130). -/
def St.take (s : St) (i : Nat) (w : World) (m : Mem) : St :=
  let cb := s.wanted i
  let m := if w.fresh then { m with typed := cb && m.typed } else m
  let s := s.setMem i (some m)
  if cb && m.typed then { s with tr := s.tr.register i m.fd m.start w.handle w.answer } else s

/-- `SkeletonBase::OfferService` (impl/skeleton_base.cpp 150-215) with `lola::Skeleton::PrepareOffer`
(lola/skeleton.cpp 286-420).  If `PrepareOffer` of the binding fails, nothing is undone.  If a later
step fails, the guard calls `PrepareStopOffer({})`, that is without a callback; `used`: consumers
use the memory, which is kept then (lola/skeleton.cpp 428-520).  The result is whether the
service is offered. -/
def St.offer (s : St) (i : Nat) (w : World) (used : Bool) : St × Bool :=
  match w.mem with
  | none => (s, false)
  | some m =>
    let s := s.take i w m
    if s.tr.dead then (s, false)
    else if !w.methods then (s, false)
    else if !w.listed then (if used then s else s.setMem i none, false)
    else (s.setOffered i true, true)

/-- `SkeletonBase::StopOfferService` (impl/skeleton_base.cpp 217-246) with
`CreateUnregisterShmObjectCallback` (impl/tracing/skeleton_tracing.cpp 132-160) and
`lola::Skeleton::PrepareStopOffer` (lola/skeleton.cpp 428-520).  `a`: the answer of the
subsystem; `used`: consumers use the memory. -/
def St.stop (s : St) (i : Nat) (a : Answer) (used : Bool) : St :=
  if !s.offered i then s
  else
    let s := if s.wanted i then { s with tr := s.tr.unregister i a } else s
    let s := if used then s else s.setMem i none
    s.setOffered i false

inductive Op where
  | offer (i : Nat) (w : World) (used : Bool)
  | stop (i : Nat) (a : Answer) (used : Bool)
  /-- thread `t` passes trace point `p` -/
  | trace (t : Nat) (p : Point) (address : Option Nat)
  /-- a step of thread `t` in a trace call -/
  | next (t : Nat) (slot : Bool) (a : Answer) (handle : Nat)
  deriving DecidableEq, Repr

def St.next' (s : St) : Op → St
  | .offer i w used => (s.offer i w used).1
  | .stop i a used => s.stop i a used
  | .trace t p x => { s with tr := s.tr.op (.trace t p x) }
  | .next t slot a h => { s with tr := s.tr.op (.next t slot a h) }

def St.op (s : St) (o : Op) : St := if s.tr.dead then s else s.next' o

def run (s : St) (ops : List Op) : St := ops.foldl St.op s

/-- The process starts: the elements of the instances and the trace points that are on. -/
def start (elems : Nat → List Nat) (on : Point → Bool) : St := { tr := TraceCall.start on, elems := elems }

end Verif.TraceReg
