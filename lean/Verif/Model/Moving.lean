/-!
# Moving proxies and skeletons

A variable of type `AsProxy<I>` or `AsSkeleton<I>` holds the base object and, as members, the
service elements.  The base object finds its elements through references on the heap, because
the elements change their address when the variable is moved (reference_to_moveable.h,
enable_reference_to_moveable_from_this.h).  The steps are what a program does with such
variables, one after the other: the API is single threaded.

Simplifications:
* The elements are events; fields and methods are moved in the same way.
* A binding that is asked to subscribe or to offer succeeds; failures are the subject of
  `Model/SkelOffer.lean` and `Model/ProxyCalls.lean`.  No mocks, no tracing.
* The address of a variable is its number; numbers are not used again.
* A `std::map` that was moved from is empty.
* Whether a sample pointer of a provider may outlive `StopOfferService` is the subject of
  `Model/AllocPtr.lean`; here it only counts in the tracker.
-/
namespace Verif.Moving

inductive Kind where
  | proxy
  | skeleton
deriving DecidableEq, Repr

/-- A service element: `ProxyEventBase` (proxy_event_base.h), `SkeletonEventBase`
(skeleton_event_base.h 87-100). -/
structure Elem where
  /-- `ptr_wrapper_.reference_to_moveable_`: the reference on the heap
  (enable_reference_to_moveable_from_this.h 75, reference_to_moveable.h 149) -/
  ref : Option Nat := none
  /-- `binding_base_`, `binding_`: service and number of the element that it binds -/
  bind : Option (Nat × Nat) := none
  /-- `is_subscribed_flag_`, `service_offered_flag_` -/
  flag : Bool := false
  /-- `tracker_`, `sample_allocatee_tracker_`: the tracker on the heap -/
  tracker : Option Nat := none
deriving DecidableEq, Repr

/-- A variable: `ProxyWrapperClass`, `SkeletonWrapperClass` (traits.h 182-317, 327-454). -/
structure Obj where
  alive : Bool := false
  kind : Kind := .proxy
  /-- the number of elements -/
  n : Nat := 0
  /-- `is_proxy_owner_`, `is_service_owner_` -/
  owner : Bool := false
  /-- `proxy_binding_`, `binding_`: the service -/
  service : Option Nat := none
  /-- `SkeletonBase::service_offered_flag_` (skeleton_base.h 115) -/
  offered : Bool := false
  /-- `events_`: the references of the elements -/
  map : Nat → Option Nat := fun _ => none
  elems : Nat → Elem := fun _ => {}

inductive Fault where
  /-- a failed assertion, or `std::terminate` -/
  | assertion
  /-- access to an object that is no more, or through a null pointer -/
  | undefined
deriving DecidableEq, Repr

structure World where
  objs : Nat → Obj := fun _ => {}
  nobj : Nat := 0
  /-- the references on the heap: variable and number of the element; `none` if there is none -/
  refs : Nat → Option (Nat × Nat) := fun _ => none
  /-- the trackers on the heap: how many samples are held -/
  trks : Nat → Option Nat := fun _ => none
  nref : Nat := 0
  /-- the samples that were obtained: the tracker, `none` if the sample has ended -/
  samples : List (Option Nat) := []
  /-- what the binding of a service has: the element is subscribed or offered -/
  active : Nat → Nat → Bool := fun _ _ => false
  /-- the binding of a service may not end now: a proxy that is not deinitialized
  (lola/proxy.cpp 466-474), a skeleton that is offered (lola/skeleton.cpp 522-530) -/
  opened : Nat → Bool := fun _ => false
  nsvc : Nat := 0
  fault : Option Fault := none

def World.fail (w : World) (f : Fault) : World := { w with fault := some f }

/-- What follows, if the process goes on. -/
def World.andThen (w : World) (f : World → World) : World := if w.fault.isSome then w else f w

def World.setObj (w : World) (v : Nat) (o : Obj) : World :=
  { w with objs := fun x => if x = v then o else w.objs x }

def Obj.setElem (o : Obj) (k : Nat) (e : Elem) : Obj := { o with elems := fun x => if x = k then e else o.elems x }

/-- The binding of an element starts or stops. -/
def World.setActive (w : World) (s k : Nat) (b : Bool) : World :=
  { w with active := fun x y => if x = s ∧ y = k then b else w.active x y }

def World.setOpened (w : World) (s : Nat) (b : Bool) : World :=
  { w with opened := fun x => if x = s then b else w.opened x }

def World.setTrk (w : World) (t : Nat) (u : Option Nat) : World :=
  { w with trks := fun x => if x = t then u else w.trks x }

/-- The flag of an element and what its binding has. -/
def World.mark (w : World) (v k s j : Nat) (b : Bool) : World :=
  (w.setActive s j b).setObj v ((w.objs v).setElem k { (w.objs v).elems k with flag := b })

/-- `ProxyEventBase::Unsubscribe` (proxy_event_base.cpp 115-152) and
`SkeletonEventBase::PrepareStopOffer` (skeleton_event_base.h 67-74). -/
def stopElem (w : World) (v k : Nat) : World :=
  if !(w.objs v).alive || (w.objs v).n ≤ k then w.fail .undefined
  else if !((w.objs v).elems k).flag then w
  else
    match ((w.objs v).elems k).bind with
    | none => w.fail .assertion
    | some (s, j) =>
      match (w.objs v).kind with
      | .skeleton => w.mark v k s j false
      | .proxy =>
        match ((w.objs v).elems k).tracker.bind w.trks with
        | none => w.fail .undefined
        | some 0 => w.mark v k s j false
        | some _ => w.fail .assertion

/-- `ProxyEventBase::Subscribe` (proxy_event_base.cpp 76-113) and
`SkeletonEventBase::PrepareOffer` (skeleton_event_base.h 55-63). -/
def startElem (w : World) (v k : Nat) : World :=
  if !(w.objs v).alive || (w.objs v).n ≤ k then w.fail .undefined
  else
    match ((w.objs v).elems k).bind with
    | none => w.fail .undefined
    | some (s, j) => w.mark v k s j true

/-- `event.second.get().Get()`: through the reference on the heap to the element
(reference_to_moveable.h 93-109). -/
def viaRef (f : World → Nat → Nat → World) (w : World) : Option Nat → World
  | none => w
  | some r =>
    match w.refs r with
    | none => w.fail .undefined
    | some (v, k) => f w v k

/-- The loop over the first elements in the map of the base object. -/
def forAll (f : World → Nat → Nat → World) (map : Nat → Option Nat) : Nat → World → World
  | 0, w => w
  | k + 1, w => (forAll f map k w).andThen fun w => viaRef f w (map k)

/-- `ProxyBase::Deinitialize` (proxy_base.cpp 190-208) with `PrepareDeinitialize` and
`FinalizeDeinitialize` (lola/proxy.cpp 942-979). -/
def deinitialize (w : World) (v : Nat) : World :=
  match (w.objs v).service with
  | none => forAll stopElem (w.objs v).map (w.objs v).n w
  | some s =>
    if !w.opened s then w.fail .assertion
    else (forAll stopElem (w.objs v).map (w.objs v).n w).andThen fun w => w.setOpened s false

/-- The end of `SkeletonBase::StopOfferService`: the binding, and the flag (skeleton_base.cpp
243-246). -/
def endOffer (w : World) (v : Nat) : World :=
  match (w.objs v).service with
  | none => w.fail .undefined
  | some s => (w.setOpened s false).setObj v { w.objs v with offered := false }

/-- `SkeletonBase::StopOfferService` (skeleton_base.cpp 223-248). -/
def stopOffer (w : World) (v : Nat) : World :=
  if (w.objs v).offered then
    (forAll stopElem (w.objs v).map (w.objs v).n w).andThen fun w => endOffer w v
  else w

/-- What a wrapper does before it ends or takes over from another (traits.h 253-259, 274-277,
350-356, 371-374). -/
def retire (w : World) (v : Nat) : World :=
  if (w.objs v).owner then
    match (w.objs v).kind with
    | .proxy => deinitialize w v
    | .skeleton => stopOffer w v
  else w

/-- `SkeletonBase::OfferService` (skeleton_base.cpp 151-221). -/
def offer (w : World) (v : Nat) : World :=
  match (w.objs v).service with
  | none => w.fail .undefined
  | some s =>
    (forAll startElem (w.objs v).map (w.objs v).n (w.setOpened s true)).andThen fun w =>
      w.setObj v { w.objs v with offered := true }

/-- A tracker ends.  `SampleAllocateeTracker` looks whether it is in use
(sample_allocatee_tracker.cpp 24-33); for `SampleReferenceTracker` this is done by
`~ProxyEventBase` only (proxy_event_base.cpp 56-65). -/
def freeTracker (check : Bool) (w : World) : Option Nat → World
  | none => w
  | some t =>
    match check, w.trks t with
    | true, some (_ + 1) => w.fail .assertion
    | _, _ => w.setTrk t none

/-- A reference ends: `~unique_ptr<Reference>`. -/
def freeRef (w : World) : Option Nat → World
  | none => w
  | some r => { w with refs := fun x => if x = r then none else w.refs x }

/-- The first elements give up what they have on the heap. -/
def freeElems (check : Bool) (elems : Nat → Elem) : Nat → World → World
  | 0, w => w
  | k + 1, w => (freeElems check elems k w).andThen fun w => freeTracker check (freeRef w (elems k).ref) (elems k).tracker

/-- The binding ends (lola/proxy.cpp 466-474, lola/skeleton.cpp 522-530). -/
def freeBinding (w : World) : Option Nat → World
  | none => w
  | some s => if w.opened s then w.fail .assertion else w

/-- The old content of a variable ends. -/
def free (check : Bool) (w : World) (v : Nat) : World :=
  (freeBinding w (w.objs v).service).andThen fun w => freeElems check (w.objs v).elems (w.objs v).n w

/-- `ptr_wrapper_.Update(*this)` for the first elements, which are now in the variable `v`
(enable_reference_to_moveable_from_this.h 54-67): there must be a reference. -/
def retarget (v : Nat) (elems : Nat → Elem) : Nat → (Nat → Option (Nat × Nat)) → Option (Nat → Option (Nat × Nat))
  | 0, refs => some refs
  | k + 1, refs =>
    match retarget v elems k refs, (elems k).ref with
    | some refs, some r => some fun x => if x = r then some (v, k) else refs x
    | _, _ => none

/-- What is left of a variable that was moved from (flag_owner.h 33-51). -/
def Obj.moved (o : Obj) : Obj := { alive := o.alive, kind := o.kind, n := o.n }

/-- The variable `v` gets the content of `i` (traits.h 264-268, 279-280, 361-365, 376-377). -/
def takeOver (w : World) (v i : Nat) : World :=
  match retarget v (w.objs i).elems (w.objs i).n w.refs with
  | none => w.fail .undefined
  | some refs => { (w.setObj v (w.objs i)).setObj i (w.objs i).moved with refs }

/-- `Create` (traits.h 225-251, 388-427): the elements register with the base object. -/
def create (w : World) (kind : Kind) (n : Nat) : World :=
  { w with
    objs := fun x => if x = w.nobj then
        { alive := true, kind, n, owner := true, service := some w.nsvc
          map := fun k => if k < n then some (w.nref + k) else none
          elems := fun k => if k < n then { ref := some (w.nref + k), bind := some (w.nsvc, k), tracker := some (w.nref + k) }
            else {} }
      else w.objs x
    nobj := w.nobj + 1
    refs := fun x => if w.nref ≤ x ∧ x < w.nref + n then some (w.nobj, x - w.nref) else w.refs x
    trks := fun x => if w.nref ≤ x ∧ x < w.nref + n then some 0 else w.trks x
    nref := w.nref + n
    opened := fun x => if x = w.nsvc then kind == .proxy else w.opened x
    nsvc := w.nsvc + 1 }

/-- `SampleReferenceTracker::Allocate`, `SampleAllocateeTracker::Allocate`: a sample is
obtained (proxy_event.h 191, skeleton_event.h 238-260).  Nothing is obtained from an element that
is not active. -/
def hold (w : World) (v k : Nat) : World :=
  if ((w.objs v).elems k).flag then
    match ((w.objs v).elems k).tracker with
    | none => w.fail .undefined
    | some t =>
      match w.trks t with
      | none => w.fail .undefined
      | some u => { w.setTrk t (some (u + 1)) with samples := w.samples ++ [some t] }
  else w

/-- A sample ends (sample_reference_tracker.cpp 64-76, sample_allocatee_guard.cpp 51-64). -/
def release (w : World) (m : Nat) : World :=
  match w.samples[m]? with
  | some (some t) =>
    match w.trks t with
    | none => w.fail .undefined
    | some 0 => w.fail .assertion
    | some (u + 1) => { w.setTrk t (some u) with samples := w.samples.set m none }
  | _ => w

inductive Step where
  | create (kind : Kind) (n : Nat)
  /-- `T b{std::move(a)}`: the new variable is the next one -/
  | move (i : Nat)
  /-- `a = std::move(b)` -/
  | assign (i j : Nat)
  /-- a variable ends -/
  | destroy (i : Nat)
  | subscribe (i k : Nat)
  | unsubscribe (i k : Nat)
  | offer (i : Nat)
  | stopOffer (i : Nat)
  | hold (i k : Nat)
  | release (m : Nat)
deriving Repr

/-- The destructor of a wrapper. -/
def destroy (w : World) (i : Nat) : World :=
  (retire w i).andThen fun w => (free true w i).andThen fun w => w.setObj i {}

/-- The move constructor of a wrapper. -/
def move (w : World) (i : Nat) : World :=
  (takeOver w w.nobj i).andThen fun w => { w with nobj := w.nobj + 1 }

/-- The move assignment of a wrapper (traits.h 270-283, 367-380).  The trackers are replaced by
the move assignment of `std::unique_ptr`. -/
def assign (w : World) (i j : Nat) : World :=
  if i = j then w
  else (retire w i).andThen fun w =>
    (free ((w.objs i).kind == .skeleton) w i).andThen fun w => takeOver w i j

/-- The types agree. -/
def sameType (a b : Obj) : Bool := a.kind == b.kind && a.n == b.n

/-- One step; it is nothing if the types do not fit, or if a variable is not there. -/
def step (w : World) (x : Step) : World :=
  if w.fault.isSome then w else
  match x with
  | .create kind n => create w kind n
  | .move i => if (w.objs i).alive then move w i else w
  | .assign i j => if (w.objs i).alive && (w.objs j).alive && sameType (w.objs i) (w.objs j) then assign w i j else w
  | .destroy i => if (w.objs i).alive then destroy w i else w
  | .subscribe i k => if (w.objs i).alive && (w.objs i).kind == .proxy && k < (w.objs i).n then startElem w i k else w
  | .unsubscribe i k => if (w.objs i).alive && (w.objs i).kind == .proxy && k < (w.objs i).n then stopElem w i k else w
  | .offer i => if (w.objs i).alive && (w.objs i).kind == .skeleton && !(w.objs i).offered then offer w i else w
  | .stopOffer i => if (w.objs i).alive && (w.objs i).kind == .skeleton then stopOffer w i else w
  | .hold i k => if (w.objs i).alive && k < (w.objs i).n then hold w i k else w
  | .release m => release w m

def run (l : List Step) : World := l.foldl step {}

end Verif.Moving
