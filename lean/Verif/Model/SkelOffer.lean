/-!
# The provider side of a service: `OfferService`, `StopOfferService` and fields

Model of `SkeletonBase::OfferService`/`StopOfferService`, of the parts of
`SkeletonEventBase`, `SkeletonFieldBase` and `SkeletonField` they use, and of
what the LoLa binding does below them.  The steps are the API calls of the
provider and the `Get`/`Set` calls of consumers that reach the provider.

Simplifications, valid for the whole file:
* Every step runs to its end before the next one starts.  The one overlap that
  is modelled is that of consumer calls with `StopOfferService`.
* Of the samples of one event only the newest one is kept (`Ev.val`).  Which
  slot it lives in and whether a consumer may refer to it is the subject of
  `Model/EventCtrl.lean`.
* Whether a slot can be allocated, whether the claim of the marker file and the
  creation of the memory succeed, and whether consumers use the memory are
  inputs of the steps.
* No tracing, no mocks, one quality level, no gateway-forwarded memory, no
  zero-copy `Allocate`/`Send`.
-/
namespace Verif.SkelOffer

/-- The error codes the modelled calls return (impl/com_error.h). -/
inductive Err where
  | notOffered
  | bindingFailure
  | fieldValueIsNotValid
  | setHandlerNotSet
  deriving DecidableEq, Repr

/-- The ways in which a call can end the process: a failed assertion
(`std::abort`) and undefined behaviour (access to memory that is no longer
mapped, access to an empty `std::optional`). -/
inductive Crash where
  | assertion
  | undefined
  deriving DecidableEq, Repr

/-- One event on the provider side.  Members of `impl::SkeletonEventBase`
(impl/skeleton_event_base.h 81-101) and `lola::SkeletonEventCommon`
(impl/bindings/lola/skeleton_event_common.h 162-200). -/
structure Ev (V : Type) where
  /-- `SkeletonEventBase::service_offered_flag_` -/
  flag : Bool := false
  /-- the memory `event_data_control_composite_` and the local views refer to;
  `none`: the optionals are empty -/
  views : Option Nat := none
  /-- the memory in which `transaction_log_registration_guard_qm_` has
  registered a log; `none`: no guard -/
  log : Option Nat := none
  /-- the newest sample in the current memory -/
  val : Option V := none

/-- One field on the provider side.  Members of `SkeletonFieldBase`
(impl/skeleton_field_base.h) and `SkeletonFieldImpl` (impl/skeleton_field.h
310-337). -/
structure Fld (V : Type) where
  /-- `kHasGetter` -/
  getter : Bool
  /-- `kHasSetter` -/
  setter : Bool
  /-- `skeleton_event_dispatch_` -/
  ev : Ev V := {}
  /-- `initial_field_value_` -/
  initial : Option V := none
  /-- `was_prepare_offer_called_` -/
  prepared : Bool := false
  /-- `is_set_handler_registered_` with the handler of `set_method_` -/
  handler : Option (V → V) := none
  /-- `get_method_` has a handler -/
  getHandler : Bool := false

/-- The skeleton of one service instance. -/
structure St (V : Type) where
  events : List (Ev V)
  fields : List (Fld V)
  /-- for each method that does not belong to a field: it has a handler -/
  methods : List Bool
  /-- the shared memory that exists for the instance, identified by a number;
  `none`: there is none -/
  mem : Option Nat := none
  /-- the number of the next shared memory -/
  next : Nat := 0
  /-- `lola::Skeleton::service_instance_usage_marker_file_` has a value -/
  marker : Bool := false
  /-- method calls of consumers are passed on (the scopes of `lola::Skeleton`
  are not expired) -/
  bound : Bool := false
  /-- the service discovery has a flag file for the instance -/
  listed : Bool := false
  /-- `SkeletonBase::service_offered_flag_` -/
  offered : Bool := false

/-! ## Events -/

/-- `SkeletonEventBase::PrepareOffer` (impl/skeleton_event_base.h 55-63) with
`lola::SkeletonEvent::PrepareOffer` (lola/skeleton_event.h 239-253) and
`PrepareOfferCommon` (lola/skeleton_event_common.h 229-316).  `useLog` is
`field_getter_enabled_`.  The registration of the log asserts that none is
active in the same memory (lola/transaction_log_set.cpp 145-157), and replacing
the old guard unregisters in the memory the old guard belongs to.  `ok` is the
result of the binding, which for LoLa is always success. -/
def Ev.prepare {V : Type} (m : Option Nat) (useLog ok : Bool) (e : Ev V) :
    Except Crash (Bool × Ev V) :=
  if ok then
    if useLog then
      match e.log with
      | none => .ok (true, { e with flag := true, views := m, log := m })
      | some g => .error (if some g = m then .assertion else .undefined)
    else .ok (true, { e with flag := true, views := m })
  else .ok (false, e)

/-- `SkeletonEventBase::PrepareStopOffer` (impl/skeleton_event_base.h 67-74)
with `PrepareStopOfferCommon` (lola/skeleton_event_common.h 319-344) and
`ResetGuards` (460-468), which unregisters the log in the memory it belongs
to. -/
def Ev.stop {V : Type} (m : Option Nat) (e : Ev V) : Except Crash (Ev V) :=
  if e.flag then
    match e.log with
    | none => .ok { e with flag := false, views := none }
    | some g =>
      if some g = m then .ok { e with flag := false, views := none, log := none }
      else .error .undefined
  else .ok e

/-- `SkeletonEvent::Send` with a value (impl/skeleton_event.h 184-208) with
`lola::SkeletonEvent::Send` (lola/skeleton_event.h 134-166) and
`SkeletonEventCommon::AllocateSlot`/`Send` (lola/skeleton_event_common.h
351-408).  `slot`: a slot could be allocated. -/
def Ev.send {V : Type} (m : Option Nat) (v : V) (slot : Bool) (e : Ev V) :
    Except Crash (Option Err × Ev V) :=
  if e.flag then
    match e.views with
    | none => .ok (some .bindingFailure, e)
    | some g =>
      if some g = m then
        if slot then .ok (none, { e with val := some v })
        else .ok (some .bindingFailure, e)
      else .error .undefined
  else .ok (some .notOffered, e)

/-- `lola::SkeletonEvent::GetLatestSample` (lola/skeleton_event.h 197-230): the
local view must exist (`GetConsumerEventDataControlLocalView`,
lola/skeleton_event_common.h 125-135).  `found`: the reference to the newest
sample could be taken (it can fail under contention only). -/
def Ev.latest {V : Type} (m : Option Nat) (found : Bool) (e : Ev V) :
    Except Crash (Option V) :=
  match e.views with
  | none => .error .assertion
  | some g =>
    if some g = m then .ok (if found then e.val else none)
    else .error .undefined

/-! ## Fields -/

/-- `SkeletonFieldImpl::IsSetHandlerMissing` (impl/skeleton_field.h 221-228). -/
def Fld.setHandlerMissing {V : Type} (f : Fld V) : Bool :=
  f.setter && f.handler.isNone

/-- `SkeletonFieldImpl::DoDeferredUpdate` (impl/skeleton_field.h 425-439) after
the event's `PrepareOffer`, and the assignment of `was_prepare_offer_called_`
(impl/skeleton_field_base.h 88-96).  The
first sample of a new memory always finds a slot. -/
def Fld.deferred {V : Type} (m : Option Nat) (slot : Bool) (f : Fld V) :
    Except Crash (Option Err × Fld V) :=
  match f.initial with
  | none => .error .assertion
  | some v =>
    match f.ev.send m v (slot || f.ev.val.isNone) with
    | .error c => .error c
    | .ok (some e, ev) => .ok (some e, { f with ev := ev })
    | .ok (none, ev) => .ok (none, { f with ev := ev, initial := none, prepared := true })

/-- `SkeletonFieldBase::PrepareOffer` (impl/skeleton_field_base.h 55-99).  `ok`: result of the binding of the event;
`slot`: a slot could be allocated for the initial value. -/
def Fld.prepare {V : Type} (m : Option Nat) (ok slot : Bool) (f : Fld V) :
    Except Crash (Option Err × Fld V) :=
  if f.prepared then
    match f.ev.prepare m f.getter ok with
    | .error c => .error c
    | .ok (true, ev) => .ok (none, { f with ev := ev })
    | .ok (false, ev) => .ok (some .bindingFailure, { f with ev := ev })
  else if f.setHandlerMissing then .ok (some .setHandlerNotSet, f)
  else if f.initial.isNone then .ok (some .fieldValueIsNotValid, f)
  else
    match f.ev.prepare m f.getter ok with
    | .error c => .error c
    | .ok (false, ev) =>
      .ok (some .bindingFailure, { f with ev := ev, getHandler := f.getHandler || f.getter })
    | .ok (true, ev) =>
      Fld.deferred m slot { f with ev := ev, getHandler := f.getHandler || f.getter }

/-- `SkeletonFieldBase::PrepareStopOffer` (impl/skeleton_field_base.h 101-104). -/
def Fld.stop {V : Type} (m : Option Nat) (f : Fld V) : Except Crash (Fld V) :=
  match f.ev.stop m with
  | .error c => .error c
  | .ok ev => .ok { f with ev := ev }

/-- `SkeletonFieldImpl::Update` with a value (impl/skeleton_field.h 368-381). -/
def Fld.update {V : Type} (m : Option Nat) (v : V) (slot : Bool) (f : Fld V) :
    Except Crash (Option Err × Fld V) :=
  if f.prepared then
    match f.ev.send m v slot with
    | .error c => .error c
    | .ok (e, ev) => .ok (e, { f with ev := ev })
  else .ok (none, { f with initial := some v })

/-! ## The binding of the skeleton -/

/-- How far `lola::Skeleton::PrepareOffer` gets. -/
inductive Bind where
  /-- the marker file could not be opened -/
  | noMarker
  /-- the memory could not be created or opened -/
  | noMemory
  /-- the registration of the method subscription handlers failed -/
  | noHandlers
  | ok
  deriving DecidableEq, Repr

/-- The newest samples are gone. -/
def Ev.clear {V : Type} (e : Ev V) : Ev V := { e with val := none }

/-- All memory contents are gone. -/
def St.wipe {V : Type} (s : St V) : St V :=
  { s with events := s.events.map Ev.clear,
           fields := s.fields.map fun f => { f with ev := f.ev.clear } }

/-- The strategy of `lola::Skeleton::PrepareOffer` (lola/skeleton.cpp 286-370):
if no consumer uses the old memory it is removed and a new one is created,
otherwise the old one is opened.  `created`: the creation succeeds. -/
def St.setUpMemory {V : Type} (unused created : Bool) (s : St V) : Bool × St V :=
  if unused then
    if created then (true, { s.wipe with mem := some s.next, next := s.next + 1 })
    else (false, { s.wipe with mem := none })
  else (s.mem.isSome && created, s)

/-- `lola::Skeleton::PrepareOffer` (lola/skeleton.cpp 286-420).  `unused`: the
exclusive claim of the usage marker succeeded.  After a failed registration of
the handlers the memory stays. -/
def St.bindPrepare {V : Type} (b : Bind) (unused : Bool) (s : St V) : Bool × St V :=
  if b = .noMarker then (false, { s with marker := false })
  else
    match ({ s with marker := true } : St V).setUpMemory unused (b != .noMemory) with
    | (false, t) => (false, t)
    | (true, t) => if b = .noHandlers then (false, t) else (true, { t with bound := true })

/-- `lola::Skeleton::PrepareStopOffer` (lola/skeleton.cpp 428-520): the marker
file is accessed without a test for its existence; if no consumer uses the
memory, memory and marker file are removed. -/
def St.bindStop {V : Type} (unused : Bool) (s : St V) : Except Crash (St V) :=
  if s.marker then
    if unused then .ok { s.wipe with mem := none, marker := false, bound := false }
    else .ok { s with bound := false }
  else .error .undefined

/-- `lola::Skeleton::VerifyAllMethodHandlersRegistered` (lola/skeleton.cpp
567-572): all methods, those of the fields included, have a handler. -/
def St.allHandlers {V : Type} (s : St V) : Bool :=
  s.methods.all id &&
    s.fields.all fun f => (!f.getter || f.getHandler) && (!f.setter || f.handler.isSome)

/-! ## Offering -/

/-- `SkeletonBase::OfferServiceEvents` (impl/skeleton_base.cpp 103-123): on a
failure the guards of the events already prepared stop these events. -/
def offerEvents {V : Type} (m : Option Nat) (ok : Nat → Bool) :
    Nat → List (Ev V) → Except Crash (Bool × List (Ev V))
  | _, [] => .ok (true, [])
  | i, e :: es =>
    match e.prepare m false (ok i) with
    | .error c => .error c
    | .ok (false, e') => .ok (false, e' :: es)
    | .ok (true, e') =>
      match offerEvents m ok (i + 1) es with
      | .error c => .error c
      | .ok (true, es') => .ok (true, e' :: es')
      | .ok (false, es') =>
        match e'.stop m with
        | .error c => .error c
        | .ok e'' => .ok (false, e'' :: es')

/-- `SkeletonBase::OfferServiceFields` (impl/skeleton_base.cpp 125-149): like the
events; only the code for a missing initial value is passed on. -/
def offerFields {V : Type} (m : Option Nat) (ok slot : Nat → Bool) :
    Nat → List (Fld V) → Except Crash (Option Err × List (Fld V))
  | _, [] => .ok (none, [])
  | i, f :: fs =>
    match f.prepare m (ok i) (slot i) with
    | .error c => .error c
    | .ok (some e, f') =>
      .ok (some (if e = .fieldValueIsNotValid then e else .bindingFailure), f' :: fs)
    | .ok (none, f') =>
      match offerFields m ok slot (i + 1) fs with
      | .error c => .error c
      | .ok (none, fs') => .ok (none, f' :: fs')
      | .ok (some e, fs') =>
        match f'.stop m with
        | .error c => .error c
        | .ok f'' => .ok (some e, f'' :: fs')

/-- All events are stopped (impl/skeleton_base.cpp 234-237 and the guards of
118-120). -/
def stopEvents {V : Type} (m : Option Nat) : List (Ev V) → Except Crash (List (Ev V))
  | [] => .ok []
  | e :: es =>
    match e.stop m with
    | .error c => .error c
    | .ok e' =>
      match stopEvents m es with
      | .error c => .error c
      | .ok es' => .ok (e' :: es')

/-- All fields are stopped (impl/skeleton_base.cpp 238-241 and the guards of
144-146). -/
def stopFields {V : Type} (m : Option Nat) : List (Fld V) → Except Crash (List (Fld V))
  | [] => .ok []
  | f :: fs =>
    match f.stop m with
    | .error c => .error c
    | .ok f' =>
      match stopFields m fs with
      | .error c => .error c
      | .ok fs' => .ok (f' :: fs')

/-- What the environment contributes to one `OfferService`. -/
structure Env where
  bind : Bind := .ok
  /-- at the start: no consumer uses the memory -/
  unused : Bool := true
  /-- the binding of the n-th event accepts `PrepareOffer` -/
  evOk : Nat → Bool := fun _ => true
  /-- the binding of the n-th field accepts `PrepareOffer` -/
  fldOk : Nat → Bool := fun _ => true
  /-- the n-th field finds a slot for its initial value -/
  slot : Nat → Bool := fun _ => true
  /-- the flag files could be created -/
  disc : Bool := true
  /-- at the end of a failing call: no consumer uses the memory -/
  unusedEnd : Bool := true

/-- The answer of a call. -/
inductive Ret (V : Type) where
  | done
  | err (e : Err)
  | value (v : V)
  /-- the call does not reach the provider's application code -/
  | unreached
  deriving DecidableEq, Repr

/-- `SkeletonBase::OfferService` from the point where only the binding is
prepared and something failed: the guard of the binding
(impl/skeleton_base.cpp 171-173). -/
def St.failBind {V : Type} (env : Env) (e : Err) (s : St V) :
    Except Crash (St V × Ret V) :=
  match s.bindStop env.unusedEnd with
  | .error c => .error c
  | .ok t => .ok (t, .err e)

/-- As `failBind`, with all events prepared: their guards run first. -/
def St.failEvents {V : Type} (env : Env) (e : Err) (s : St V) :
    Except Crash (St V × Ret V) :=
  match stopEvents s.mem s.events with
  | .error c => .error c
  | .ok es => ({ s with events := es } : St V).failBind env e

/-- As `failEvents`, with all fields prepared: their guards run first. -/
def St.failFields {V : Type} (env : Env) (e : Err) (s : St V) :
    Except Crash (St V × Ret V) :=
  match stopFields s.mem s.fields with
  | .error c => .error c
  | .ok fs => ({ s with fields := fs } : St V).failEvents env e

/-- The end of `SkeletonBase::OfferService` (impl/skeleton_base.cpp 187-221): the
check of the method handlers and the registration with the service discovery,
which refuses an instance that is already listed
(lola/service_discovery/client/service_discovery_client.cpp 157-167). -/
def St.offerEnd {V : Type} (env : Env) (s : St V) : Except Crash (St V × Ret V) :=
  if s.allHandlers then
    if env.disc && !s.listed then
      .ok ({ s with listed := true, offered := true }, .done)
    else s.failFields env .bindingFailure
  else s.failFields env .bindingFailure

/-- `SkeletonBase::OfferService` after the events (impl/skeleton_base.cpp
181-221). -/
def St.offerFieldsOn {V : Type} (env : Env) (s : St V) : Except Crash (St V × Ret V) :=
  match offerFields s.mem env.fldOk env.slot 0 s.fields with
  | .error c => .error c
  | .ok (some e, fs) => ({ s with fields := fs } : St V).failEvents env e
  | .ok (none, fs) => ({ s with fields := fs } : St V).offerEnd env

/-- `SkeletonBase::OfferService` after the binding (impl/skeleton_base.cpp
175-221). -/
def St.offerEventsOn {V : Type} (env : Env) (s : St V) : Except Crash (St V × Ret V) :=
  match offerEvents s.mem env.evOk 0 s.events with
  | .error c => .error c
  | .ok (false, es) => ({ s with events := es } : St V).failBind env .bindingFailure
  | .ok (true, es) => ({ s with events := es } : St V).offerFieldsOn env

/-- `SkeletonBase::OfferService` (impl/skeleton_base.cpp 151-221). -/
def St.offer {V : Type} (env : Env) (s : St V) : Except Crash (St V × Ret V) :=
  match s.bindPrepare env.bind env.unused with
  | (false, t) => .ok (t, .err .bindingFailure)
  | (true, t) => t.offerEventsOn env

/-! ## Calls of consumers -/

/-- A call of a consumer that arrives at the provider. -/
inductive Call (V : Type) where
  | get (i : Nat) (found : Bool)
  | set (i : Nat) (v : V) (slot : Bool)

/-- Replaces the n-th field. -/
def St.putField {V : Type} (s : St V) (i : Nat) (f : Fld V) : St V :=
  { s with fields := s.fields.set i f }

/-- The handler of a getter (impl/skeleton_field.h 471-484).  An error of
`GetLatestSample` is passed on. -/
def St.doGet {V : Type} (s : St V) (f : Fld V) (found : Bool) :
    Except Crash (St V × Ret V) :=
  match f.ev.latest s.mem found with
  | .error c => .error c
  | .ok none => .ok (s, .err .bindingFailure)
  | .ok (some v) => .ok (s, .value v)

/-- The handler of a setter (impl/skeleton_field.h 176-201): the handler of the
application changes the value, which then is sent; an error is passed on. -/
def St.doSet {V : Type} (s : St V) (i : Nat) (f : Fld V) (h : V → V) (v : V)
    (slot : Bool) : Except Crash (St V × Ret V) :=
  match f.ev.send s.mem (h v) slot with
  | .error c => .error c
  | .ok (some e, ev) => .ok (s.putField i { f with ev := ev }, .err e)
  | .ok (none, ev) => .ok (s.putField i { f with ev := ev }, .value (h v))

/-- A call of a consumer.  It reaches the handler of the field only while the
scope of the method calls is not expired (lola/skeleton_method.cpp 73-95) and
only if the field has the method (lola/skeleton_method.cpp 145-155). -/
def St.call {V : Type} (s : St V) : Call V → Except Crash (St V × Ret V)
  | .get i found =>
    match s.fields[i]? with
    | none => .ok (s, .unreached)
    | some f =>
      if s.bound && f.getter && f.getHandler then s.doGet f found else .ok (s, .unreached)
  | .set i v slot =>
    match s.fields[i]? with
    | none => .ok (s, .unreached)
    | some f =>
      match f.handler with
      | none => .ok (s, .unreached)
      | some h => if s.bound && f.setter then s.doSet i f h v slot else .ok (s, .unreached)

/-- Several calls of consumers one after the other; the answers are not kept. -/
def St.calls {V : Type} : List (Call V) → St V → Except Crash (St V)
  | [], s => .ok s
  | c :: cs, s =>
    match s.call c with
    | .error e => .error e
    | .ok (t, _) => St.calls cs t

/-! ## Stopping -/

/-- `SkeletonBase::StopOfferService` (impl/skeleton_base.cpp 223-248).  `during`
are the calls of consumers that arrive after the events and fields have been
stopped and before the binding has been stopped; they run on another thread. -/
def St.stopOffer {V : Type} (unused : Bool) (during : List (Call V)) (s : St V) :
    Except Crash (St V × Ret V) :=
  if s.offered then
    match stopEvents s.mem s.events with
    | .error c => .error c
    | .ok es =>
      match stopFields s.mem s.fields with
      | .error c => .error c
      | .ok fs =>
        match St.calls during { s with listed := false, events := es, fields := fs } with
        | .error c => .error c
        | .ok t =>
          match t.bindStop unused with
          | .error c => .error c
          | .ok u => .ok ({ u with offered := false }, .done)
  else .ok (s, .done)

/-! ## The system -/

/-- The steps. -/
inductive Op (V : Type) where
  | offer (env : Env)
  | stopOffer (unused : Bool) (during : List (Call V))
  /-- `Send` on the n-th event -/
  | send (i : Nat) (v : V) (slot : Bool)
  /-- `Update` on the n-th field -/
  | update (i : Nat) (v : V) (slot : Bool)
  /-- `RegisterSetHandler` on the n-th field -/
  | setHandler (i : Nat) (h : V → V)
  /-- `RegisterHandler` on the n-th method -/
  | method (i : Nat)
  | call (c : Call V)

/-- The answer of `Send` and `Update`. -/
def Ret.ofErr {V : Type} : Option Err → Ret V
  | none => .done
  | some e => .err e

/-- One step.  Calls on events, fields or methods that do not exist cannot be
written in C++; here they have no effect. -/
def St.step {V : Type} (s : St V) : Op V → Except Crash (St V × Ret V)
  | .offer env => s.offer env
  | .stopOffer unused during => s.stopOffer unused during
  | .send i v slot =>
    match s.events[i]? with
    | none => .ok (s, .unreached)
    | some e =>
      match e.send s.mem v slot with
      | .error c => .error c
      | .ok (r, e') => .ok ({ s with events := s.events.set i e' }, Ret.ofErr r)
  | .update i v slot =>
    match s.fields[i]? with
    | none => .ok (s, .unreached)
    | some f =>
      match f.update s.mem v slot with
      | .error c => .error c
      | .ok (r, f') => .ok (s.putField i f', Ret.ofErr r)
  | .setHandler i h =>
    match s.fields[i]? with
    | none => .ok (s, .unreached)
    | some f =>
      if f.setter then .ok (s.putField i { f with handler := some h }, .done)
      else .ok (s, .unreached)
  | .method i => .ok ({ s with methods := s.methods.set i true }, .done)
  | .call c => s.call c

/-- A run: the final state and the calls with their answers. -/
def run {V : Type} : St V → List (Op V) → Except Crash (St V × List (Op V × Ret V))
  | s, [] => .ok (s, [])
  | s, o :: os =>
    match s.step o with
    | .error c => .error c
    | .ok (t, r) =>
      match run t os with
      | .error c => .error c
      | .ok (u, tr) => .ok (u, (o, r) :: tr)

/-- The tags of a field: with getter, with setter (impl/skeleton_field.h
230-231). -/
structure Tags where
  getter : Bool
  setter : Bool

/-- The state after the construction of the skeleton (impl/skeleton_field.h
347-354, lola/skeleton_event_common.h 215-226).  `old` is the memory of an
earlier process that still is in use by consumers, with the newest sample of
each field. -/
def start {V : Type} (events : Nat) (fields : List Tags) (methods : Nat)
    (old : Option (Nat → Option V)) : St V :=
  { events := List.replicate events {},
    fields := fields.zipIdx.map fun (t, i) =>
      { getter := t.getter, setter := t.setter, ev := { val := old.bind (· i) } },
    methods := List.replicate methods false,
    mem := old.map fun _ => 0,
    next := 1 }

end Verif.SkelOffer
