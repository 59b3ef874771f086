/-!
The pointers to samples that a consumer gets from GetNewSamples (/repo/score/mw/com/impl/plumbing/sample_ptr.h,
bindings/lola/sample_ptr.h, bindings/lola/slot_decrementer.{h,cpp}, sample_reference_tracker.{h,cpp}).

One provider with `n` slots, any number of subscriptions `c`, each with its SampleReferenceTracker, and the variables of type
SamplePtr of the program. The binding is lola's. Counters do not wrap (C01, C24).
-/
namespace Verif.SamplePtr

/-- impl::SamplePtr (plumbing/sample_ptr.h:199-201) with the lola::SamplePtr in it (lola/sample_ptr.h:136-138).
`lola` says that the variant holds a lola::SamplePtr and not a blank; `obj` is managed_object_, given as the slot it points
to; `dec` is the SlotDecrementer, with the subscription and the slot, where `none` also stands for one without a control
(slot_decrementer.h:37-38, moved from); `guard` is the tracker of the SampleReferenceGuard. A variable whose lifetime is over is
an empty one. -/
structure Ptr where
  lola : Bool := false
  obj : Option Nat := none
  dec : Option (Nat × Nat) := none
  stamp : Nat := 0
  guard : Option Nat := none
  deriving DecidableEq, Repr

inductive Fault where
  /-- An assertion. -/
  | assertion
  /-- The reference count of a slot goes below zero and the status of the slot is overwritten. -/
  | underflow
  deriving DecidableEq, Repr

/-- The slots of the event (time stamp, 0 if none; reference count; content) with the stamp last given, the trackers
(available_samples_ and max_num_samples_, sample_reference_tracker.h:128-129) and the variables. -/
structure World (V : Type) where
  n : Nat
  clock : Nat
  stamp : Nat → Nat
  refs : Nat → Nat
  data : Nat → V
  avail : Nat → Nat
  max : Nat → Nat
  ptrs : List Ptr
  fault : Option Fault

section
variable {V : Type}

/-- At the beginning: `n` slots, subscriptions with `max c` samples, no variables. -/
def init (n : Nat) (max : Nat → Nat) (v : V) : World V :=
  { n, clock := 0, stamp := fun _ => 0, refs := fun _ => 0, data := fun _ => v, avail := max, max, ptrs := [], fault := none }

/-- The variable `i`. -/
def World.get (w : World V) (i : Nat) : Ptr := w.ptrs.getD i {}

def World.put (w : World V) (i : Nat) (p : Ptr) : World V := { w with ptrs := w.ptrs.set i p }

def World.fail (w : World V) (f : Fault) : World V := { w with fault := some f }

/-- Deallocate of the guard and the tracker (sample_reference_tracker.cpp:69-76, 180-187). -/
def dropGuard (w : World V) (p : Ptr) : World V :=
  match p.guard with
  | none => w
  | some c =>
    let w := { w with avail := fun x => if x = c then w.avail x + 1 else w.avail x }
    if w.avail c ≤ w.max c then w else w.fail .assertion

/-- SlotDecrementer::internal_delete (slot_decrementer.cpp:62-68) with DereferenceEventWithoutTransactionLogging
(consumer_event_data_control_local_view.cpp:234-239). -/
def dropSlot (w : World V) (p : Ptr) : World V :=
  match p.dec with
  | none => w
  | some (_, s) =>
    if w.refs s = 0 then w.fail .underflow
    else { w with refs := fun x => if x = s then w.refs x - 1 else w.refs x }

/-- The destructor of SamplePtr (plumbing/sample_ptr.h:87): members are destroyed in reverse order, the guard first. -/
def destroy (w : World V) (p : Ptr) : World V := dropSlot (dropGuard w p) p

/-- Whether the provider may write to slot `s`: nobody refers to it (C02 has the state machine of a slot). -/
def publish (w : World V) (s : Nat) (x : V) : World V :=
  if s < w.n ∧ w.refs s = 0 then
    { w with clock := w.clock + 1, stamp := fun y => if y = s then w.clock + 1 else w.stamp y,
             data := fun y => if y = s then x else w.data y }
  else w

/-- The slots that ProxyEventCommon::GetNewSamplesSlotIndices may return: published ones, at most `k`. Which of them and in which
order is C05 to C08; here it is any list. -/
def ready (w : World V) (k : Nat) (l : List Nat) : List Nat :=
  (l.filter fun s => decide (s < w.n) && decide (0 < w.stamp s)).take k

/-- The references of GetNewSamplesSlotIndices. -/
def refer (w : World V) (l : List Nat) : World V := { w with refs := fun s => w.refs s + l.count s }

/-- The pointer that the receiver gets (lola/proxy_event.h:244-257, lola/sample_ptr.h:47-53). -/
def fresh (w : World V) (c s : Nat) : Ptr := { lola := true, obj := some s, dec := some (c, s), stamp := w.stamp s, guard := some c }

inductive Ret where
  | ok
  | maxReached
  deriving DecidableEq, Repr

/-- ProxyEvent::GetNewSamples (impl/proxy_event.h:191-230, lola/proxy_event.h:214-262): guards for at most `k` samples are taken
(sample_reference_tracker.cpp:137-172), the slots are referred to, the receiver gets a pointer to each, and the guards that are
left are returned (sample_reference_tracker.cpp:90-96). The receiver keeps every pointer in a new variable; what else it does
happens afterwards. -/
def getNew (w : World V) (c k : Nat) (l : List Nat) : World V × Ret :=
  let k := min k (w.avail c)
  if k = 0 then (w, .maxReached)
  else
    let l := ready w k l
    let w := refer w l
    ({ w with avail := fun x => if x = c then w.avail x - k + (k - l.length) else w.avail x,
              ptrs := w.ptrs ++ l.map (fresh w c) }, .ok)

/-- The move constructor (plumbing/sample_ptr.h:73-77): a new variable, and a blank is assigned to the old one. The guard is
moved (sample_reference_tracker.cpp:44-47). -/
def move (w : World V) (i : Nat) : World V :=
  let p := w.get i
  let w := w.put i {}
  { w with ptrs := w.ptrs ++ [p] }

/-- What the move assignment leaves in the source (plumbing/sample_ptr.h:79, lola/sample_ptr.h:71): the alternative of the variant and
managed_object_ are as before, the SlotDecrementer (slot_decrementer.cpp:49-60) and the guard
(sample_reference_tracker.cpp:49-62) are empty. -/
def left (p : Ptr) : Ptr := { p with dec := none, guard := none }

/-- The defaulted move assignment (plumbing/sample_ptr.h:79): the variant first, then the guard. Assigning a blank destroys what
was held; between two lola::SamplePtr the members are assigned one after the other. Self assignment changes nothing. -/
def assign (w : World V) (i j : Nat) : World V :=
  if i = j then w
  else
    let a := w.get i
    let b := w.get j
    let w := (w.put i {}).put j (left b)
    let w := dropGuard (dropSlot w a) a
    w.put i b

/-- Swap (plumbing/sample_ptr.h:178-185). -/
def swap (w : World V) (i j : Nat) : World V :=
  let a := w.get i
  let b := w.get j
  ((w.put i {}).put j a).put i b

/-- The end of a variable (plumbing/sample_ptr.h:87); also Reset() and `= nullptr` (plumbing/sample_ptr.h:81-85, 187-190): the content is
swapped with a blank argument, which ends. -/
def drop (w : World V) (i : Nat) : World V := destroy (w.put i {}) (w.get i)

/-- Reset(std::move(other)) (plumbing/sample_ptr.h:187-190): the argument is constructed from the other variable, swapped, and ends. -/
def resetTo (w : World V) (i j : Nat) : World V :=
  let b := w.get j
  let w := w.put j {}
  let a := w.get i
  destroy (w.put i b) a

/-- The destructor in two steps, for what another thread may do between them: first the guard, -/
def endBegin (w : World V) (i : Nat) : World V := dropGuard (w.put i { w.get i with guard := none }) (w.get i)

/-- then the rest. -/
def endFinish (w : World V) (i : Nat) : World V :=
  if (w.get i).guard = none then dropSlot (w.put i {}) (w.get i) else w

/-- operator bool (plumbing/sample_ptr.h:173-176). -/
def Ptr.bool (p : Ptr) : Bool := p.lola

/-- get (plumbing/sample_ptr.h:96-121): the slot that the pointer leads to. -/
def Ptr.target (p : Ptr) : Option Nat := if p.lola then p.obj else none

/-- operator< (plumbing/sample_ptr.h:146-158, lola/sample_ptr.h:108-116). -/
def Ptr.lt (p q : Ptr) : Bool := p.lola && q.lola && p.obj.isSome && q.obj.isSome && decide (p.stamp < q.stamp)

/-- operator> (plumbing/sample_ptr.h:160-172, lola/sample_ptr.h:121-128). -/
def Ptr.gt (p q : Ptr) : Bool := p.lola && q.lola && p.obj.isSome && q.obj.isSome && decide (p.stamp > q.stamp)

/-- What a program, its threads and the provider do. -/
inductive Step (V : Type) where
  | publish (s : Nat) (x : V)
  | getNew (c k : Nat) (l : List Nat)
  | move (i : Nat)
  | assign (i j : Nat)
  | swap (i j : Nat)
  | drop (i : Nat)
  | resetTo (i j : Nat)
  | endBegin (i : Nat)
  | endFinish (i : Nat)

/-- One step; variables that do not exist are not used. -/
def step (w : World V) : Step V → World V
  | .publish s x => publish w s x
  | .getNew c k l => (getNew w c k l).1
  | .move i => if i < w.ptrs.length then move w i else w
  | .assign i j => if i < w.ptrs.length ∧ j < w.ptrs.length then assign w i j else w
  | .swap i j => if i < w.ptrs.length ∧ j < w.ptrs.length then swap w i j else w
  | .drop i => if i < w.ptrs.length then drop w i else w
  | .resetTo i j => if i < w.ptrs.length ∧ j < w.ptrs.length then resetTo w i j else w
  | .endBegin i => if i < w.ptrs.length then endBegin w i else w
  | .endFinish i => if i < w.ptrs.length then endFinish w i else w

def run (w : World V) (l : List (Step V)) : World V := l.foldl step w

end
end Verif.SamplePtr
