import Verif.Lib.Fn
/-!
The consumer's sample counter (/repo/score/mw/com/impl/sample_reference_tracker.cpp) and the provider's count of
outstanding allocatee pointers (/repo/score/mw/com/impl/sample_allocatee_tracker.cpp), with any number of threads.

An execution is a list of atomic steps; a step names the thread that takes it. A step that the thread cannot take leaves
the state unchanged.
-/
namespace Verif.Tracker

/-- Where a thread is.
`casing want got av`: inside Allocate's loop (sample_reference_tracker.cpp:146-169) with `num_samples = want`,
`num_allocated_samples = got`, `num_samples_available = av`.
`factory k refs`: holds a TrackerGuardFactory with `k` guards; `refs` slots are already referenced by the slot collector
(slot_collector.cpp:57-84) but not yet wrapped into SamplePtrs (proxy_event.h:217-260).
`check next`: between the fetch_add of Deallocate and the load for its assertion (sample_reference_tracker.cpp:182-186);
`unref g`: in ~SamplePtr of object g after the guard was destroyed, before the slot is dereferenced. -/
inductive Pc where
  | idle
  | casing (want got av : Nat)
  | factory (k refs : Nat)
  | check
  | checkUnref (g : Nat)
  | unref (g : Nat)
  deriving DecidableEq, Repr

/-- `avail`/`max`: available_samples_, max_num_samples_ (sample_reference_tracker.h). `guard g`: the SampleReferenceGuard
inside the SamplePtr object `g` has a tracker; `ref g`: the SamplePtr object `g` holds a slot reference
(plumbing/sample_ptr.h:199-201). `dead`: an assertion failed.
std::size_t is modelled by Nat: C24 proves `avail ≤ max`, so no value leaves the range of size_t. -/
structure St where
  avail : Nat
  max : Nat
  pc : Nat → Pc
  guard : Nat → Bool
  ref : Nat → Bool
  dead : Bool

/-- Constructor / Reset before the first sample (sample_reference_tracker.cpp:120-123, 174-178). -/
def init (max : Nat) : St :=
  { avail := max, max := max, pc := fun _ => .idle, guard := fun _ => false, ref := fun _ => false, dead := false }

/-- Atomic steps.
`allocLoad n`: Allocate(n) begins by loading the counter (sample_reference_tracker.cpp:137-140).
`cas ok`: one compare_exchange_weak (lines 157-158), `ok = false` is a spurious failure.
`allocDone`: the loop condition fails and the factory is returned (lines 146, 171).
`collect`: the slot collector references one more slot; it takes at most `k` (slot_collector.cpp:65-82).
`deliver g`: TakeGuard and construction of the SamplePtr `g` (lines 103-118; proxy_event.h:243-262).
`factoryDtor`: ~TrackerGuardFactory (lines 90-96); by then every collected slot has been delivered (the loop in
GetNewSamplesImpl runs to its end).
`destroy g`: ~SamplePtr first destroys the guard, since it is declared last (plumbing/sample_ptr.h:199-201): fetch_add.
`finish`: the assertion of Deallocate (line 183-186), or dereferencing the slot.
`move src dst`: move construction of an empty `dst` (sample_reference_tracker.cpp:44-47; plumbing/sample_ptr.h:73-77).
`assign src dst`: move assignment (sample_reference_tracker.cpp:49-61; plumbing/sample_ptr.h:79, members in order of
declaration: the old slot is dereferenced, then the old guard released). -/
inductive Act where
  | allocLoad (n : Nat)
  | cas (ok : Bool)
  | allocDone
  | collect
  | deliver (g : Nat)
  | factoryDtor
  | destroy (g : Nat)
  | finish
  | move (src dst : Nat)
  | assign (src dst : Nat)
  deriving DecidableEq, Repr

/-- One atomic step of thread `t`; lines as in `Act`. `T` threads and `G` SamplePtr objects. -/
def step (T G : Nat) (s : St) (t : Nat) (a : Act) : St :=
  if s.dead = true ∨ T ≤ t then s else
  match a, s.pc t with
  | .allocLoad n, .idle => { s with pc := upd s.pc t (.casing n 0 s.avail) }
  | .cas ok, .casing want got av =>
    if 0 < want ∧ 0 < av then
      if ok = true ∧ s.avail = av then
        { s with avail := s.avail - min av want, pc := upd s.pc t (.casing (want - min av want) (got + min av want) av) }
      else { s with pc := upd s.pc t (.casing want got s.avail) }
    else s
  | .allocDone, .casing want got av =>
    if 0 < want ∧ 0 < av then s else { s with pc := upd s.pc t (.factory got 0) }
  | .collect, .factory k refs => if refs < k then { s with pc := upd s.pc t (.factory k (refs + 1)) } else s
  | .deliver g, .factory (k + 1) (refs + 1) =>
    if g < G ∧ s.guard g = false ∧ s.ref g = false then
      { s with pc := upd s.pc t (.factory k refs), guard := upd s.guard g true, ref := upd s.ref g true }
    else s
  | .factoryDtor, .factory k 0 =>
    if 0 < k then { s with avail := s.avail + k, pc := upd s.pc t .check }
    else { s with pc := upd s.pc t .idle }
  | .destroy g, .idle =>
    if g < G ∧ s.ref g = true ∧ (∀ u, u < T → s.pc u ≠ .unref g ∧ s.pc u ≠ .checkUnref g) then
      if s.guard g = true then
        { s with avail := s.avail + 1, guard := upd s.guard g false, pc := upd s.pc t (.checkUnref g) }
      else { s with pc := upd s.pc t (.unref g) }
    else s
  | .finish, .check => if s.avail ≤ s.max then { s with pc := upd s.pc t .idle } else { s with dead := true }
  | .finish, .checkUnref g => if s.avail ≤ s.max then { s with pc := upd s.pc t (.unref g) } else { s with dead := true }
  | .finish, .unref g => { s with ref := upd s.ref g false, pc := upd s.pc t .idle }
  | .move src dst, .idle =>
    if src < G ∧ dst < G ∧ src ≠ dst ∧ s.ref dst = false ∧ s.guard dst = false ∧
        (∀ u, u < T → s.pc u ≠ .unref src ∧ s.pc u ≠ .checkUnref src) then
      { s with guard := upd (upd s.guard dst (s.guard src)) src false, ref := upd (upd s.ref dst (s.ref src)) src false }
    else s
  | .assign src dst, .idle =>
    if src < G ∧ dst < G ∧ src ≠ dst ∧
        (∀ u, u < T → s.pc u ≠ .unref src ∧ s.pc u ≠ .checkUnref src ∧ s.pc u ≠ .unref dst ∧ s.pc u ≠ .checkUnref dst) then
      if s.guard dst = true then
        { s with avail := s.avail + 1, pc := upd s.pc t .check,
                 guard := upd (upd s.guard dst (s.guard src)) src false, ref := upd (upd s.ref dst (s.ref src)) src false }
      else
        { s with guard := upd (upd s.guard dst (s.guard src)) src false, ref := upd (upd s.ref dst (s.ref src)) src false }
    else s
  | _, _ => s

def run (T G : Nat) (s : St) (l : List (Nat × Act)) : St := l.foldl (fun s x => step T G s x.1 x.2) s

/-- Samples reserved by thread `t`: allocated inside the loop, or still in its factory. -/
def reserved (p : Pc) : Nat :=
  match p with
  | .casing _ got _ => got
  | .factory k _ => k
  | _ => 0

/-- Slots referenced by the collector but not yet delivered. -/
def refsOf (p : Pc) : Nat :=
  match p with
  | .factory _ r => r
  | _ => 0

/-- Thread is between releasing the sample count and dereferencing the slot of a SamplePtr. -/
def unrefing (p : Pc) : Bool :=
  match p with
  | .unref _ | .checkUnref _ => true
  | _ => false

/-! The provider's tracker (/repo/score/mw/com/impl/sample_allocatee_tracker.cpp:26-56 and sample_allocatee_guard.cpp). -/
namespace Alloc

/-- `count`: allocated_count_. `guard g`: guard object `g` has a tracker. `allocs`/`releases`: ghost counters. -/
structure St where
  count : Nat
  guard : Nat → Bool
  allocs : Nat
  releases : Nat
  dead : Bool

def init : St := { count := 0, guard := fun _ => false, allocs := 0, releases := 0, dead := false }

/-- `allocate g`: Allocate (sample_allocatee_tracker.cpp:38-42), the guard becomes object `g`.
`destroy g`: ~SampleAllocateeGuard / Deallocate (sample_allocatee_guard.cpp:51-63, sample_allocatee_tracker.cpp:49-53).
`move`/`assign`: sample_allocatee_guard.cpp:29-49. Each has a single access to shared data, so threads need no state.
`dtor`: ~SampleAllocateeTracker (sample_allocatee_tracker.cpp:26-35). -/
inductive Act where
  | allocate (g : Nat)
  | destroy (g : Nat)
  | move (src dst : Nat)
  | assign (src dst : Nat)
  | dtor
  deriving DecidableEq, Repr

/-- fetch_sub and the assertion on the previous value (sample_allocatee_tracker.cpp:49-53). -/
def dealloc (s : St) : St :=
  { s with count := s.count - 1, releases := s.releases + 1, dead := s.count = 0 }

/-- Lines as in `Act`. `G` guard objects. -/
def step (G : Nat) (s : St) (a : Act) : St :=
  if s.dead then s else
  match a with
  | .allocate g =>
    if g < G ∧ s.guard g = false then { s with count := s.count + 1, allocs := s.allocs + 1, guard := upd s.guard g true } else s
  | .destroy g =>
    if g < G ∧ s.guard g = true then { dealloc s with guard := upd s.guard g false } else s
  | .move src dst =>
    if src < G ∧ dst < G ∧ src ≠ dst ∧ s.guard dst = false then
      { s with guard := upd (upd s.guard dst (s.guard src)) src false } else s
  | .assign src dst =>
    if src < G ∧ dst < G ∧ src ≠ dst then
      if s.guard dst = true then { dealloc s with guard := upd (upd s.guard dst (s.guard src)) src false }
      else { s with guard := upd (upd s.guard dst (s.guard src)) src false }
    else s
  | .dtor => { s with dead := s.count ≠ 0 }

def run (G : Nat) (s : St) (l : List Act) : St := l.foldl (step G) s

end Alloc
end Verif.Tracker
