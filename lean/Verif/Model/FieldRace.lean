/-!
# Get, Set and Update of a field at the same time

The value of a field is kept in the slots of an event.  `Update` of the provider and the handler of a `Set`
of a consumer both send a new value: they search the oldest unused slot, write it and give it the next
timestamp.  A `Get` of a consumer searches the slot with the newest timestamp, takes a reference, copies
the value and gives the reference back.  Consumers that have subscribed take and give back references as
well.  The searches look at one slot after the other while the others go on.

Simplifications:
* Atomic accesses take effect one after the other in one order for all threads.
* One quality level only.  Timestamps do not run out (see C11), reference counts do not overflow.
* The transaction log of the getter and notifications are left out (see C14 - C18, C57).
* The calls of `Get` are serialised by `get_handler_mutex_` (impl/skeleton_field.h 475), those of the set
  handlers by `set_handler_mutex_` (184), so that there is one of each at a time.  The provider calls
  `Update` from one thread.
-/
namespace Verif.FieldRace

/-- Status of a slot (lola/event_slot_status.h): timestamp and number of references once it is ready. -/
inductive W where
  | invalid
  | writing
  | ready (ts rc : Nat)
  deriving DecidableEq, Repr

/-- `MAX_ALLOCATE_RETRIES` (lola/provider_event_data_control_local_view.cpp 29). -/
def maxAllocateRetries : Nat := 100
/-- `MAX_REFERENCE_RETRIES` (lola/consumer_event_data_control_local_view.cpp 30). -/
def maxReferenceRetries : Nat := 100

/-- Where a `Send` of the value `v` is (lola/skeleton_event.h 134-170, lola/skeleton_event_common.h 390-407). -/
inductive WPc (V : Type) where
  | idle
  /-- in `FindOldestUnusedSlot`, about to look at slot `k`; the oldest so far -/
  | find (v : V) (retry k : Nat) (best : Option (Nat × W))
  /-- about to allocate slot `i`, which had status `w` -/
  | cas (v : V) (retry i : Nat) (w : W)
  /-- about to write the value to slot `i` -/
  | write (v : V) (i : Nat)
  /-- about to load `current_timestamp_` for the increment -/
  | load (v : V) (i : Nat)
  /-- about to store the increment of `x` -/
  | store (v : V) (i x : Nat)
  /-- about to load `current_timestamp_` as argument of `EventReady` -/
  | reload (v : V) (i : Nat)
  /-- about to make the slot ready -/
  | ready (v : V) (i x : Nat)
  deriving DecidableEq, Repr

/-- Where a `Get` is (impl/skeleton_field.h 471-485, lola/skeleton_event.h 196-226,
lola/consumer_event_data_control_local_view.cpp 55-146). -/
inductive GPc (V : Type) where
  | idle
  /-- in `ReferenceNextEvent`, about to look at slot `k`; the newest so far: slot, timestamp, references -/
  | find (retry k : Nat) (best : Option (Nat × Nat × Nat))
  /-- about to take the reference -/
  | cas (retry i ts rc : Nat)
  /-- has the reference, about to copy the value -/
  | copy (i ts : Nat)
  /-- about to give the reference back -/
  | release (i ts : Nat) (v : V)
  deriving DecidableEq, Repr

/-- How a `Get` is answered. -/
inductive Ans (V : Type) where
  /-- the value; history: the timestamp of its sample -/
  | value (ts : Nat) (v : V)
  /-- error: no slot was seen ready -/
  | noSample
  /-- error: the reference could not be taken in 100 attempts -/
  | busy
  deriving DecidableEq, Repr

/-- History: a completed `Get` with all that had been sent before it began and before it ended. -/
structure Got (V : Type) where
  before : List (Nat × V)
  after : List (Nat × V)
  ans : Ans V
  deriving DecidableEq, Repr

/-- The field. -/
structure St (V : Type) where
  /-- number of slots (lola/skeleton_event_properties.h 42-47) -/
  n : Nat
  /-- `state_slots_` -/
  slots : Nat → W
  /-- `event_data_storage_` -/
  data : Nat → V
  /-- `current_timestamp_` -/
  cur : Nat
  /-- the `Update` of the provider -/
  upd : WPc V
  /-- the handler of a `Set` -/
  set : WPc V
  /-- the `Get` -/
  get : GPc V
  /-- references of each slot that consumers hold -/
  held : Nat → Nat
  /-- history: timestamps and values sent, the last one first -/
  sent : List (Nat × V)
  /-- history: what had been sent when the running `Get` began -/
  before : List (Nat × V)
  /-- history: the completed calls of `Get`, the last one first -/
  gets : List (Got V)

/-- After the slots have been created. -/
def start {V : Type} (n : Nat) (v0 : V) : St V where
  n := n
  slots := fun _ => .invalid
  data := fun _ => v0
  cur := 0
  upd := .idle
  set := .idle
  get := .idle
  held := fun _ => 0
  sent := []
  before := []
  gets := []

/-- Changes one place. -/
def put {α : Type} (f : Nat → α) (i : Nat) (a : α) : Nat → α := fun j => if j = i then a else f j

/-- A `Send` is running on this thread. -/
def St.pc {V : Type} (s : St V) (isSet : Bool) : WPc V := if isSet then s.set else s.upd
/-- The thread goes on. -/
def St.goto {V : Type} (s : St V) (isSet : Bool) (p : WPc V) : St V :=
  if isSet then { s with set := p } else { s with upd := p }

/-- A slot with timestamp `ts` is older than the oldest so far
(lola/provider_event_data_control_local_view.cpp 98). -/
def older (ts : Nat) : Option (Nat × W) → Bool
  | some (_, .ready t _) => ts < t
  | _ => true

/-- The next attempt, or the end of `AllocateNextSlot` without a slot
(lola/provider_event_data_control_local_view.cpp 51-70). -/
def again {V : Type} (v : V) (retry : Nat) : WPc V :=
  if retry < maxAllocateRetries then .find v (retry + 1) 0 none else .idle

/-- `FindOldestUnusedSlot` looks at slot `k` or, behind the last one, ends
(lola/provider_event_data_control_local_view.cpp 73-106). -/
def findOldest {V : Type} (n : Nat) (slots : Nat → W) (v : V) (retry k : Nat) (best : Option (Nat × W)) : WPc V :=
  if k < n then
    match slots k with
    | .invalid => .cas v retry k .invalid
    | .writing => .find v retry (k + 1) best
    | .ready ts rc =>
      if rc = 0 ∧ older ts best = true then .find v retry (k + 1) (some (k, .ready ts rc))
      else .find v retry (k + 1) best
  else match best with
    | some (i, w) => .cas v retry i w
    | none => again v retry

/-- The next step of a `Send`: `AllocateNextSlot` (lola/provider_event_data_control_local_view.cpp 46-71),
`TryAllocateSlot` (146-163), the copy of the value (lola/skeleton_event.h 145), the increment of the
timestamp and `EventReady` (lola/skeleton_event_common.h 405-406). -/
def St.send {V : Type} (s : St V) (b : Bool) : St V :=
  match s.pc b with
  | .idle => s
  | .find v retry k best => s.goto b (findOldest s.n s.slots v retry k best)
  | .cas v retry i w =>
    if s.slots i = w then ({ s with slots := put s.slots i .writing } : St V).goto b (.write v i)
    else s.goto b (again v retry)
  | .write v i => ({ s with data := put s.data i v } : St V).goto b (.load v i)
  | .load v i => s.goto b (.store v i s.cur)
  | .store v i x => ({ s with cur := x + 1 } : St V).goto b (.reload v i)
  | .reload v i => s.goto b (.ready v i s.cur)
  | .ready v i x =>
    ({ s with slots := put s.slots i (.ready x 0), sent := (x, v) :: s.sent } : St V).goto b .idle

/-- The timestamp of the newest so far, `last_search_time` at first
(lola/consumer_event_data_control_local_view.cpp 71, lola/skeleton_event.h 217). -/
def newest : Option (Nat × Nat × Nat) → Nat
  | none => 0
  | some (_, ts, _) => ts

/-- The end of a `Get`. -/
def St.answer {V : Type} (s : St V) (a : Ans V) : St V :=
  { s with get := .idle, gets := ⟨s.before, s.sent, a⟩ :: s.gets }

/-- `ReferenceNextEvent` looks at slot `k` or, behind the last one, goes on to take the reference
(lola/consumer_event_data_control_local_view.cpp 78-99). -/
def St.findNewest {V : Type} (s : St V) (retry k : Nat) (best : Option (Nat × Nat × Nat)) : St V :=
  if k < s.n then
    match s.slots k with
    | .ready ts rc =>
      if newest best < ts then { s with get := .find retry (k + 1) (some (k, ts, rc)) }
      else { s with get := .find retry (k + 1) best }
    | _ => { s with get := .find retry (k + 1) best }
  else match best with
    | none => s.answer .noSample
    | some (i, ts, rc) => { s with get := .cas retry i ts rc }

/-- The next step of a `Get`.  `spurious`: the weak exchange fails without reason.  The release is that of
the `SamplePtr` at the end of the handler (impl/skeleton_field.h 485). -/
def St.getStep {V : Type} (s : St V) (spurious : Bool) : St V :=
  match s.get with
  | .idle => s
  | .find retry k best => s.findNewest retry k best
  | .cas retry i ts rc =>
    if s.slots i = .ready ts rc ∧ spurious = false then
      { s with slots := put s.slots i (.ready ts (rc + 1)), get := .copy i ts }
    else if retry + 1 < maxReferenceRetries then { s with get := .find (retry + 1) 0 none }
    else s.answer .busy
  | .copy i ts => { s with get := .release i ts (s.data i) }
  | .release i ts v =>
    match s.slots i with
    | .ready t rc => ({ s with slots := put s.slots i (.ready t (rc - 1)) } : St V).answer (.value ts v)
    | _ => s.answer (.value ts v)

/-- Calls and steps of the threads. -/
inductive Op (V : Type) where
  /-- the provider calls `Update`, or with `true` a `Set` arrives and its handler has made `v` of the value -/
  | send (isSet : Bool) (v : V)
  /-- next step of that -/
  | sendStep (isSet : Bool)
  /-- a `Get` arrives -/
  | get
  | getStep (spurious : Bool)
  /-- a consumer takes a reference of slot `i` for a sample -/
  | take (i : Nat)
  /-- a consumer gives a sample in slot `i` back -/
  | drop (i : Nat)
  deriving DecidableEq, Repr

/-- One step.  What is not possible in a state changes nothing. -/
def step {V : Type} (s : St V) : Op V → St V
  | .send b v =>
    match s.pc b with
    | .idle => s.goto b (.find v 0 0 none)
    | _ => s
  | .sendStep b => s.send b
  | .get =>
    match s.get with
    | .idle => { s with get := .find 0 0 none, before := s.sent }
    | _ => s
  | .getStep sp => s.getStep sp
  | .take i =>
    match s.slots i with
    | .ready ts rc => { s with slots := put s.slots i (.ready ts (rc + 1)), held := put s.held i (s.held i + 1) }
    | _ => s
  | .drop i =>
    match s.slots i with
    | .ready ts rc =>
      if s.held i = 0 then s
      else { s with slots := put s.slots i (.ready ts (rc - 1)), held := put s.held i (s.held i - 1) }
    | _ => s

/-- A schedule. -/
def run {V : Type} (s : St V) (ops : List (Op V)) : St V := ops.foldl step s

end Verif.FieldRace
