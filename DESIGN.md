# Formal model of eclipse-score/communication in Lean 4

`properties.jsonl` lists the properties (C01, C02, ...). `MANIFEST.json` maps each of them to theorem names. `seeded/LOG.jsonl`
records the wrong programs the theorems were tested against. This file says how the model is built, what is trusted, what is not
modelled, and what was found out about the code.

## Layout

* `lean/Verif/Model/*.lean`: executable definitions that follow the C++ code function by function. Every definition cites file and
  lines in `/repo`, and says where it simplifies.
* `lean/Verif/Spec/*.lean`: the small vocabularies in which the properties are stated (what a history asks for, what an observer
  sees). They do not use the helpers of the proofs.
* `lean/Verif/Proofs/*.lean`: helper lemmas and invariants.
* `lean/Verif/Props/*.lean`: the property theorems (namespace `Verif.Props.Cxx`), each with an `example` or a demo run showing that
  its hypotheses are met by a concrete non-trivial state. Witness theorems show that a claim fails, or that a hypothesis is needed.
* `lean/Verif/Lib/*.lean`: function update, counting and sums over natural numbers.

Paths in comments are abbreviated: `lola/` = `score/mw/com/impl/bindings/lola/`, `impl/` = `score/mw/com/impl/`,
`mp/` = `score/message_passing/`, `gw/` = `score/mw/com/gateway/`, `shm/` = `score/memory/shared/`.

## Modelling rules

* Each atomic operation on shared memory (load, store, CAS, fetch_add, fetch_sub) is one step of a transition system. Interleavings
  are arbitrary lists of steps of the participating threads or processes; the theorems quantify over all such lists.
* A step that is not possible in the present state leaves the state unchanged, so every list of steps is an execution.
* Sequential consistency is assumed. The code uses `acquire`, `release`, `acq_rel` and, in the region table, relaxed loads;
  weaker effects are not modelled.
* A spuriously failing `compare_exchange_weak` is an additional step where it is used.
* `std::terminate`, failed assertions and preconditions (`SCORE_LANGUAGE_FUTURECPP_*_PRD`) and undefined behaviour are outcomes of
  their own (`none`, `aborted`, `dead`, `crashed`, ...), never assumed away.
* Code that runs completely under one mutex is one step. Where the code releases the mutex in between, the parts are separate steps.
* Fixed-width integers are `BitVec`, or `Nat`/`Int` with explicit `% 2^n` where a wrap can be observed; the comment says so.
* Crashes of a process are steps that may happen between any two atomic steps.
* Histories that only the theorems look at (logs of calls, of messages, of holders) are extra fields, marked as ghost or history.

## Trusted base

* The kernel of Lean 4.33.0.
* The axioms `propext` (P), `Classical.choice` (C) and `Quot.sound` (Q), as listed per theorem below. No axiom is added. There is no
  `sorry`, no `native_decide`, no `bv_decide`. `decide +kernel` is used for concrete examples and witnesses only.
* That the hand-written model says what the C++ text says. There is no mechanical link between the two.
* Sequential consistency of the atomics; the containers and algorithms of the C++ standard library do what the standard says.
* System calls behave as the comments say: sockets deliver bytes in order, inotify delivers events in order and does not reuse watch
  descriptors, shared memory mappings of one object show the same bytes, process ids are unique among living processes.

## What is modelled

| Area | Code in `/repo` | Model |
|------|-----------------|-------|
| control slots of events | lola/event_slot_status, provider_/consumer_event_data_control_local_view, slot_collector, event_data_control_composite | EventSlotStatus, EventCtrl, Composite |
| transaction logs, recovery | lola/transaction_log_local_view, transaction_log_set, transaction_log_rollback_executor | EventCtrl, LogSet, LogRollback |
| subscriptions | lola/event_subscription_control, subscription_state_machine and states, subscription_helpers, impl/proxy_event_base | SubCtrl, Ssm |
| process registration | lola/application_id_pid_mapping | PidMap |
| samples in use | impl/sample_reference_tracker, lola sample allocatee bookkeeping | Tracker |
| keys and names | lola/element_fq_id, impl/instance_specifier, lola/methods/offered_state_machine | ElementFqId, InstanceSpecifier, OfferedState |
| message passing | mp/timed_command_queue, client_connection, unix_domain engine, client and server | TimedQueue, Client, ClientState, UnixFrame, SizedSend |
| notification of events | lola/messaging/message_passing_service_instance (event part), node_identifier_copier | NotifyFlag, NotifyNodes, EventNotif |
| service methods | lola/methods/*, skeleton.cpp (method part), message_passing_service_instance (method part), impl/error_serializer | CallQueue, MethodRes, MethodSub, MethodReply |
| consumer's side of method calls | impl/methods/proxy_method*.h, method_signature_element_ptr.h | ProxyCalls |
| service discovery (finding) | lola/service_discovery/* | Discovery |
| service discovery (offering) | lola/service_discovery/client/service_discovery_client (OfferService, StopOfferService), flag_file | Offer |
| claim and memory of a service instance | lola/skeleton.cpp (Create, destructor, PrepareOffer, PrepareStopOffer), skeleton_memory_manager (creating, opening, removing), proxy.cpp (Create, destructor), shm/shared_memory_factory_impl, shared_memory_resource (CreateImpl, OpenImpl, acquireLockFile), lock_file | Marker, ShmLife |
| size of the shared memory | lola/skeleton_memory_manager (CalculateShmResourceStorageSizes, both calculation modes, creation of data and control), service_data_storage, service_data_control, event_control, transaction_log_set, plumbing/skeleton_service_element_binding_factory_impl.h (CreateSkeletonEventProperties), lola_event_instance_deployment (GetNumberOfSampleSlots), memory/shared/new_delete_delegate_resource | Sizing |
| shared memory | shm/pointer_arithmetic_util, offset_ptr, offset_ptr_bounds_check, memory_region_map, memory_resource_registry, shared_memory_resource (allocation) | Arith, OffsetPtr, RegionTable, RegionVersions, Registry, ShmAlloc |
| gateway | gw/gateway_application, gw/transport_layer/sample | GwSerial, GwFramer, GwTransport, GwApp |
| offering a service and its fields | impl/skeleton_base.cpp (OfferService, StopOfferService), impl/skeleton_event_base.h, impl/skeleton_field_base.h, impl/skeleton_field.h (Update, deferred update, set and get handlers), lola/skeleton.cpp (PrepareOffer, PrepareStopOffer), lola/skeleton_event.h, lola/skeleton_event_common.h | SkelOffer |
| timestamps of concurrent Update and Set | lola/skeleton_event_common.h (Send), impl/skeleton_field.h (set handler) | Stamp |
| names of shared objects, files and endpoints; socket addresses | path_builder.cpp, shm_path_builder.cpp, partial_restart_path_builder.cpp, flag_file.cpp, flag_file_crawler.cpp, message_passing_client_cache.cpp, unix_domain_socket_address.h | Model/Paths |
| tracing slots of samples | lola/tracing/tracing_runtime.cpp (slots), impl/tracing/tracing_runtime.cpp (Trace with slots, done callback), type_erased_sample_ptrs_guard.cpp | TraceSlots |
| trace filter, number of tracing slots, elements asking for slots | tracing_filter_config.cpp, tracing_filter_config_parser.cpp (after JSON), skeleton_event_tracing.cpp (generation), configuration_json_parsing_strategy.cpp 519-576 | TracePlan |
| calls of the trace subsystem, failures | impl/tracing/tracing_runtime.cpp, lola/tracing/tracing_runtime.cpp, skeleton_event_tracing.cpp | `TraceCall` |
| Cache of connections to other processes | impl/bindings/lola/messaging/message_passing_client_cache.cpp 44-191, message_passing/client_connection.cpp 292-450, 575-626 (states only, calls on the callback thread and elsewhere) | ClientCache |
| storage of method arguments and results | impl/util/type_erased_storage.h, impl/methods/{proxy_method, proxy_method_with_in_args_and_return, skeleton_method}.h (the storage of a call) | ArgStore |
| sessions of a Unix domain server, polling loop, start and stop | message_passing/unix_domain/unix_domain_engine.cpp, unix_domain_server.cpp | Model/UnixServer |
| instance identifiers: text, comparison, hash, creation; instance specifiers | impl/instance_identifier.cpp, instance_specifier.cpp, configuration/{service_instance_deployment, service_type_deployment, lola_service_instance_deployment, lola_service_type_deployment, lola_event/field/method_*_deployment, service_identifier_type, configuration_common_resources, configuration}.cpp (the JSON part and the comparisons); printing and parsing of JSON text itself is not modelled, a text is a JSON value or no JSON | Model/Json, Model/Ident |
| configuration: merging, validating, resolving; threads that load add-ons | impl/configuration/configuration.cpp, impl/runtime.cpp (Initialize, add-ons, resolve); parsing is in the row below | Model/Config, Model/ConfigRun |
| access control: permissions of shared memory, owner checks, methods | lola/skeleton_memory_manager.cpp 690-790, proxy.cpp 165-200, 713-793, skeleton.cpp 688-695, 792-818, message_passing_service_instance.cpp 672-752, memory/shared/shared_memory_resource.cpp 273-296, 899-926, shared_memory_factory_impl.cpp 66-80, 137-181; the rule of the operating system is trusted | Access |
| sample pointers of a provider, zero-copy Send | plumbing/sample_allocatee_ptr.h, lola/sample_allocatee_ptr.h, sample_allocatee_guard.cpp, sample_allocatee_tracker.cpp, impl/skeleton_event.h, lola/skeleton_event.h, lola/skeleton_event_common.h | AllocPtr |
| moving proxies and skeletons | traits.h, reference_to_moveable.h, enable_reference_to_moveable_from_this.h, flag_owner.h, proxy_base.cpp (Deinitialize), skeleton_base.cpp, proxy_event_base.cpp, skeleton_event_base.h, sample_allocatee_tracker.cpp | Moving |
| the place of samples in shared memory | linear_search_map.h, service_data_storage.h, event_meta_info.h, skeleton_memory_manager.{h,cpp} (creation and retrieval of event data), skeleton_event.h and generic_skeleton_event.cpp (place of a slot), proxy.cpp (tables), proxy_event.h, generic_proxy_event.cpp, generic_proxy.cpp (FillEventMap) | Layout |
| sample pointers of consumers | plumbing/sample_ptr.h, lola/sample_ptr.h, lola/slot_decrementer.{h,cpp}, sample_reference_tracker.cpp (guards), impl/proxy_event.h and lola/proxy_event.h (GetNewSamples) | SamplePtr |
| trace filter and trace calls of elements | tracing/configuration/{tracing_filter_config_parser,tracing_filter_config}.cpp, trace_point_key.h, configuration/tracing_configuration.cpp, tracing/{proxy_event_tracing,skeleton_event_tracing}.{h,cpp}, proxy_event_base.cpp (calls), runtime.cpp (ParseTraceConfig) | TraceFilter |
| Offers of traced services | skeleton_base.cpp, tracing/skeleton_tracing.cpp, lola/skeleton.cpp, lola/skeleton_memory_manager.cpp (callbacks) | Model/TraceReg |
| the way from server to client on QNX | qnx_dispatch/qnx_dispatch_server.cpp (30-136, 198-269), qnx_dispatch_engine.cpp (785-826: `io_msg`), client_connection.cpp (452-507) | `Model/QnxConn.lean` |
| pulses and endpoints of clients on QNX | qnx_dispatch/qnx_dispatch_engine.cpp (88-100, 199-231, 302-428, 525-536) | `Model/QnxPoll.lean` |
| Concurrent Get, Set and Update of a field | skeleton_field.h, lola/skeleton_event.h, skeleton_event_common.h, provider/consumer_event_data_control_local_view.cpp | Model/FieldRace: findOldest, St.send, St.findNewest, St.getStep, step |
| sessions of a server on QNX | qnx_dispatch/qnx_dispatch_server.cpp (145-195, 272-397), qnx_dispatch/qnx_dispatch_engine.cpp (574-851) | `Model/QnxServer.lean` |
| threads that send on one Unix domain connection, writes cut short | unix_domain/unix_domain_engine.cpp (190-219), client_connection.cpp (118-121), unix_domain/unix_domain_server.cpp (73-94) | `Model/UnixWrite.lean` |
| shared memory factory and lock file | shared_memory_factory_impl.cpp (67-405), shared_memory_resource.cpp (157-234, 308-350, 499-639, 938-1011), memory_resource_registry.cpp (50-100), lock_file.cpp | `Model/ShmFactory.lean` |
| configuration file: parsing | configuration/configuration_json_parsing_strategy.cpp, instance_specifier.cpp (names), tracing_configuration.cpp (slots); reading the file, JSON text and numbers with a fraction are not modelled | Model/ConfigParse |
| clean-up of an owner in the engines | score/message_passing/unix_domain/unix_domain_engine.cpp, qnx_dispatch/qnx_dispatch_engine.cpp (CleanUpOwner, ProcessCleanup, ProcessQueue) | Model/EngineClean.lean |
| receiving with the Rust API | score/mw/com/impl/rust/com-api/com-api-runtime-lola/consumer.rs (try_receive, cancellable_receive, to_stream, ReceiveFuture, SampleStream), score_com_concept/concept.rs (SampleContainer); one subscription and one task; the wakers and the runtime are taken as documented | Model/RustReceive.lean |
| asynchronous search of the Rust API | score/mw/com/impl/rust/com-api/com-api-runtime-lola/consumer.rs (get_available_instances_async, ServiceDiscoveryFuture), com-api-ffi-lola/registry_bridge_macro.cpp (start and stop of a search) | Model/RustFind.lean |
| initialisation of the runtime, path of the configuration | score/mw/com/impl/runtime.cpp (Initialize, getInstanceInternal), score/mw/com/runtime_configuration.cpp | Model/RuntimeInit.lean |
| starting and stopping searches, calls of the handlers | score/mw/com/impl/service_discovery.cpp (StartFindService, StopFindService), score/mw/com/impl/bindings/lola/service_discovery/client/service_discovery_client.cpp (the mutex, StartFindService, StopFindService, the calls in HandleEvents); what is found is C61 and C62 | Model/FindCalls.lean |
| configuration of the gateway | score/mw/com/gateway/gateway_application/configuration/gateway_config_parser.cpp, transport_layer/sample/configuration/sample_transport_config_parser.cpp, transport_layer/transport_factory.cpp, gateway_application.cpp (Setup, StartServiceDiscovery, IsServiceInstanceAccepted); the text of a JSON file and the class of the IP address are left out | Model/GwConfig.lean |
| thread of an engine | score/message_passing/qnx_dispatch/dispatch_thread_runner.cpp and .h, qnx_dispatch_engine.cpp (constructor, destructor); the engine for Unix domain sockets has the same shape | Model/EngineThread.lean |
| subscription of the Rust API | score/mw/com/impl/rust/com-api/com-api-runtime-lola/consumer.rs (new, subscribe, unsubscribe, the drops), proxy_event_base.cpp (Unsubscribe, destructor), proxy_base.cpp (Deinitialize), proxy_event_common.cpp (Subscribe) | Model/RustSub.lean |

## What is not modelled

Memory orders weaker than sequential consistency; time except as explicit arguments; failing allocations of local memory; QNX
dispatch except the computation of its waiting time; logging; tracing back-ends; JSON configuration parsing; file permissions; the
Rust bindings; partial `sendmsg` writes of the Unix domain engine; poll bookkeeping of the engine; the contents of
shared memory objects when they are created; typed memory; the hypervisor memory of the gateway's sample transport; generic (type-erased) proxies and skeletons;
`SampleAllocateePtr` objects kept over `StopOfferService`; `SkeletonBase`/`ProxyBase` wiring other than listed above.

## Status of the properties

| Id | Property | Status | Theorems in | How |
|----|----|----|----|----|
| C01 | Slot status word is lossless | proved | `Props/EventSlotStatus.lean` | bit-level lemmas for all 64-bit words |
| C02 | A slot given to the provider is not being read | proved | `Props/EventCtrl.lean` | one inductive invariant over all interleavings: reference counts = holders + program counters + log bits |
| C03 | Sample data stays stable while a consumer holds it | proved | `Props/EventCtrl.lean` | one inductive invariant over all interleavings: reference counts = holders + program counters + log bits |
| C04 | GetNewSamples delivers strictly increasing samples without duplicates | proved | `Props/EventCtrl.lean` | one inductive invariant over all interleavings: reference counts = holders + program counters + log bits |
| C05 | GetNewSamples returns the newest unseen samples | proved | `Props/EventCtrlSeq.lean` | characterisation of the scans by list induction, pigeonhole |
| C06 | GetNumNewSamplesAvailable agrees with GetNewSamples | proved | `Props/EventCtrlSeq.lean` | characterisation of the scans by list induction, pigeonhole |
| C07 | Allocate succeeds when a slot is free, and only then | proved | `Props/EventCtrlSeq.lean` | characterisation of the scans by list induction, pigeonhole |
| C08 | Allocate evicts the oldest free sample | proved | `Props/EventCtrlSeq.lean` | characterisation of the scans by list induction, pigeonhole |
| C09 | QM consumers cannot block ASIL-B delivery | proved | `Props/Composite.lean` | invariant of the two-array system; witnesses |
| C10 | QM and ASIL-B consumers see the same samples | proved | `Props/Composite.lean` | invariant of the two-array system; witnesses |
| C11 | Send order timestamps increase, also across a provider restart | partial | `Props/EventCtrl.lean` | invariant; witnesses for restart and wrap |
| C12 | Provider restart reclaims unfinished allocations | proved | `Props/EventCtrl.lean` | one inductive invariant over all interleavings: reference counts = holders + program counters + log bits |
| C13 | Subscription limits are respected | proved | `Props/SubCtrl.lean` | inductive invariant over interleavings with crashes |
| C14 | Subscription accounting is exact | proved | `Props/SubCtrl.lean` | inductive invariant over interleavings with crashes |
| C15 | No sample reference leaks when a consumer crashes | proved | `Props/EventCtrl.lean` | one inductive invariant over all interleavings: reference counts = holders + program counters + log bits |
| C16 | Rollback refuses ambiguous logs | proved | `Props/EventCtrl.lean` | one inductive invariant over all interleavings: reference counts = holders + program counters + log bits |
| C17 | No subscription leaks when a consumer crashes | proved | `Props/SubCtrl.lean` | inductive invariant over interleavings with crashes |
| C18 | Each subscriber has its own transaction log | proved | `Props/LogSet.lean` | inductive invariant |
| C19 | A restarted consumer's logs are all rolled back | partial | `Props/LogRollback.lean` | list induction; witness |
| C20 | Application-id to pid registration is unique | proved | `Props/PidMap.lean` | inductive invariant; packing lossless |
| C21 | Subscribe/Unsubscribe resource balance | proved | `Props/Ssm.lean` | invariants over all event histories, refinement to the asked-for state; witnesses |
| C22 | Subscription state follows provider availability | proved | `Props/Ssm.lean` | invariants over all event histories, refinement to the asked-for state; witnesses |
| C23 | An unset receive handler is never called again | partial | `Props/Ssm.lean` | invariants over all event histories, refinement to the asked-for state; witnesses |
| C24 | A subscriber never holds more samples than it subscribed for | proved | `Props/Tracker.lean` | conservation invariants over interleavings |
| C25 | A provider's allocatee guards are balanced | proved | `Props/Tracker.lean` | conservation invariants over interleavings |
| C26 | Every accepted request is answered exactly once | partial | `Props/Client.lean` | invariants over interleavings; stronger ones for orderly executions; witnesses |
| C27 | Queued messages keep their order and are not lost | partial | `Props/Client.lean` | invariants over interleavings; stronger ones for orderly executions; witnesses |
| C28 | At most one request is outstanding | partial | `Props/Client.lean` | invariants over interleavings; stronger ones for orderly executions; witnesses |
| C29 | The send queue capacity is never lost | partial | `Props/Client.lean` | invariants over interleavings; stronger ones for orderly executions; witnesses |
| C30 | Connection state diagram | partial | `Props/ClientState.lean` | invariant relating both atomics to the threads; witnesses |
| C31 | Connect retry back-off is monotone and bounded | proved | `Props/TimedQueue.lean` | induction on the attempts |
| C32 | Timed commands run in due order, once, never early | proved | `Props/TimedQueue.lean` | queue invariants over histories |
| C33 | Clean-up of a null owner removes nothing | partial | `Props/TimedQueue.lean` | queue invariants over histories |
| C34 | Unix-domain frames are received as sent | partial | `Props/UnixFrame.lean` | round-trip law over streams; injectivity; history invariants; invariant over interleavings of several writers and pieces; witnesses |
| C35 | Distinct services get distinct socket addresses | partial | `Props/UnixFrame.lean` | round-trip law over streams; injectivity; history invariants; witnesses |
| C36 | Size limits are enforced | proved | `Props/UnixFrame.lean` | round-trip law over streams; injectivity; history invariants; witnesses |
| C37 | Gateway messages survive serialisation | partial | `Props/GwSerial.lean` | round-trip laws over a universe of types; frame property of reads; induction on chunks |
| C38 | Deserialisation never reads past the buffer | proved | `Props/GwSerial.lean` | round-trip laws over a universe of types; frame property of reads; induction on chunks |
| C39 | Framing is independent of chunking | proved | `Props/GwSerial.lean` | round-trip laws over a universe of types; frame property of reads; induction on chunks |
| C40 | Acknowledgements are matched to their request | proved | `Props/GwTransport.lean` | invariants over interleavings and histories; witnesses |
| C41 | Requests are sent at most five times and a success means delivery | proved | `Props/GwTransport.lean` | invariants over interleavings and histories; witnesses |
| C42 | Requests are dispatched in arrival order, acknowledged first | proved | `Props/GwTransport.lean` | invariants over interleavings and histories; witnesses |
| C43 | Only whitelisted services cross the gateway | proved | `Props/GwApp.lean` | history invariants with abort outcomes; witnesses |
| C44 | Remote input cannot abort the gateway | partial | `Props/GwApp.lean` | history invariants with abort outcomes; witnesses |
| C45 | One notification registration per event | proved | `Props/GwApp.lean` | history invariants with abort outcomes; witnesses |
| C46 | Aligned sizes are exact | proved | `Props/Arith.lean` | arithmetic over all 64-bit values |
| C47 | Offset arithmetic is exact or aborts | proved | `Props/Arith.lean` | arithmetic over all 64-bit values |
| C48 | OffsetPtr designates the same object wherever it is copied | proved | `Props/OffsetPtr.lean` | arithmetic of addresses and offsets for all contents; witnesses |
| C49 | A corrupted OffsetPtr cannot leave its region | partial | `Props/OffsetPtr.lean` | arithmetic of addresses and offsets for all contents; witnesses |
| C50 | Null OffsetPtr reads as nullptr | partial | `Props/OffsetPtr.lean` | arithmetic of addresses and offsets for all contents; witnesses |
| C51 | Region lookup finds exactly the containing region | partial | `Props/Regions.lean` | table invariants, inductive invariant over interleavings, history invariants; witnesses |
| C52 | Region table readers see a consistent version | proved | `Props/Regions.lean` | table invariants, inductive invariant over interleavings, history invariants; witnesses |
| C53 | Registry insert/remove pairing | partial | `Props/Regions.lean` | table invariants, inductive invariant over interleavings, history invariants; witnesses |
| C54 | Shared-memory allocations never overlap | proved | `Props/ShmAlloc.lean` | inductive invariant over interleavings; witnesses |
| C55 | Providers with interested consumers notify them | partial | `Props/NotifyFlag.lean` | invariants over interleavings and histories; list induction over changing sets; witnesses |
| C56 | Every interested node is notified exactly once per update | partial | `Props/NotifyNodes.lean` | invariants over interleavings and histories; list induction over changing sets; witnesses |
| C57 | Every local receive handler is called per update | partial | `Props/EventNotif.lean` | invariants over interleavings and histories; list induction over changing sets; witnesses |
| C58 | Only allowed consumers can subscribe to or call methods | proved | `Props/MethodSub.lean` | inductive invariant over all message histories; witnesses |
| C59 | Every method message gets one defined reply | partial | `Props/MethodReply.lean` | decision logic and byte-level round trips for all messages; witnesses |
| C60 | Remote registration is reference counted | partial | `Props/EventNotif.lean` | invariants over interleavings and histories; list induction over changing sets; witnesses |
| C61 | Find results match the offered instances | partial | `Props/Discovery.lean` | structural invariant for all runs, content invariant for calm runs, history invariant; witness |
| C62 | Find handlers are only called on changes and never after StopFindService | proved | `Props/Discovery.lean` | structural invariant for all runs, content invariant for calm runs, history invariant; witness |
| C63 | Instance specifiers are validated | proved | `Props/Small.lean` | complete characterisation |
| C64 | Element identifiers are totally ordered | proved | `Props/Small.lean` | complete characterisation |
| C65 | Method call slots do not overlap | partial | `Props/CallQueue.lean` | arithmetic, containment and disjointness; witness |
| C66 | Method resources of a restarted proxy are replaced | proved | `Props/MethodRes.lean` | refinement to a specification over the history |
| C67 | Re-offer detection for methods | proved | `Props/Small.lean` | complete characterisation |
| C68 | Restarted provider with both controls keeps running | partial | `Props/Composite.lean` | invariant of the two-array system; witnesses |
| C69 | A consumer's slot references stay within its subscription | partial | `Props/Tracker.lean` | conservation invariants over interleavings |
| C70 | The engine wakes up for pending timed commands | partial | `Props/TimedQueue.lean` | arithmetic of the waiting time; witnesses |
| C71 | A method handler only uses mapped memory | partial | `Props/MethodSub.lean` | inductive invariant over all message histories; witnesses |
| C72 | A method subscription never terminates the provider | partial | `Props/MethodSub.lean` | inductive invariant over all message histories; witnesses |
| C73 | A subscribed consumer's method calls are served | proved | `Props/MethodSub.lean` | frame lemma for every step, unique-key invariant of the handler table |
| C74 | Arguments and results of method calls are not touched while they are held | proved | `Props/ProxyCalls.lean` | inductive invariant: flags = held pointers, one pointer per cell; storage frame lemmas |
| C75 | Offering a service makes it visible exactly while it is offered | partial | `Props/Offer.lean` | accounting invariant of flag files for all runs; per-instance invariant with frame lemmas for orderly runs; progress by induction on the files to remove; witnesses |
| C76 | A receive handler that is set is called, until it is unset or the user unsubscribes | partial | `Props/Ssm.lean` | refinement of the handler bookkeeping to an observer of the calls, by induction over histories; witnesses |
| C77 | A service instance has at most one provider | partial | `Props/Marker.lean` | invariant: lock, path and object agree, for orderly runs; witness of two objects |
| C78 | The memory of a connected consumer stays the memory of the service | partial | `Props/ShmLife.lean` | invariant over interleavings (lock exclusion, held memory = named memory, contents initialised), consumers and provider separately; witnesses |
| C79 | A service can be offered again, and be connected to | partial | `Props/ShmLife.lean` | ownership invariant of lock files; step-by-step simulation of OfferService from an arbitrary state; witnesses |
| C80 | Stopping an unused service removes its memory, stopping a used one does not | partial | `Props/ShmLife.lean` | invariant of the removal phase, step-by-step simulation of StopOfferService |
| C81 | The calculated size of the shared memory is enough to offer the service | partial | `Props/Sizing.lean` | layout arithmetic: both calculations and the bump allocator equal one ideal layout, by induction over the allocations; strictness for the failing cases |
| C82 | A field that is offered has a value and Get returns the last accepted one | partial | `Props/SkelOffer.lean` | invariant over all call sequences relating the field to the value given last in the history; two restricted invariants for its presence; witnesses |
| C83 | OfferService is all or nothing and StopOfferService undoes it | partial | `Props/SkelOffer.lean` | case analysis of every end of OfferService, invariants 'offered' and 'not offered' over all orderly call sequences; witness |
| C84 | No sequence of API calls ends the process of the provider | partial | `Props/SkelOffer.lean` | progress from an invariant over all careful call sequences; witnesses for each excluded case |
| C85 | No accepted value of a field is hidden by another one | partial | `Props/Stamp.lean` | invariant over interleavings (one sender at a time, counter = number of samples); mutex argument for the set handlers; witnesses |
| C86 | Different things never share a name, and names are read back as written | proved | `Props/Paths.lean` | injectivity of every name by cancelling digits and separators; reading as the inverse of writing; no bound on the numbers |
| C87 | Servers with different identifiers have different addresses | partial | `Props/Paths.lean` | injectivity up to 106 characters; witness family for longer identifiers |
| C88 | Traced samples stay alive until the trace subsystem is done, and are released afterwards | partial | `Props/TraceSlots.lean` | invariants over all interleavings: every used slot is in flight or some thread will release it (unrestricted); one thread per element and slot (restricted); witnesses for both restrictions |
| C89 | Tracing slots suffice for every configured element | partial | `Props/TracePlan.lean` | the parsed maps are characterised by membership; the count is the sum over a duplicate-free list that is a permutation of the traced pairs; composition with the invariants of C88 |
| C90 | A traced sample is described by its registered memory | partial | `Props/TraceCall.lean` | Model of the calls of the trace subsystem with threads that interleave at every access to shared members. Invariants over all executions: the handles are those of the history of registrations, no cache entry exists under the key of an element, every call has a trace of the program and an earlier registration as its source. Current object: invariant for calls that do not overlap. Progress: computed from any reachable state. Negations by witnesses: removed handle, registration that is not retried. |
| C91 | Failures of tracing are reported and switch off only what they must | partial | `Props/TraceCall.lean` | Same model. Phase invariant for calls that do not overlap (flag and counter agree with folds over the history); unrestricted invariants for why a point is off, for points that must be off and for tracing that is off. Negation by a witness with two threads: a loss that is never reported. |
| C92 | Connections to another process are shared and replaced when broken | proved | `Props/ClientCache.lean` | State machine of the cache, its mutex, the connections and the callback thread, with a clock. Invariants over all schedules: every open connection is the entry of its process or the one waited for; the entries are those of the history; a stop never stays pending in an entry when the callback thread removes; the time and number of looks of a waiting call are bounded by the doubled delays. Progress computed from any reachable state. Negation by a witness: remove on another thread. Finding proved for all schedules: the callback thread waits in vain. |
| C93 | FindService returns what is offered during the call | proved | `Props/Discovery.lean` | induction over the looks of the crawler, each tied to the state at its moment; invariant that flag files are in directories |
| C94 | Method arguments and results arrive unchanged | proved | `Props/ArgStore.lean` | offsets that do not depend on the address, induction over the arguments; round trip through memory seen at two addresses; witness |
| C95 | Sessions of a server are orderly, served and end only for a reason | partial | `Props/UnixServer.lean` | State machine of the engine (polled slots, sessions, open descriptors, queue, position in the loop) with callbacks as trees of acts that run nested. Invariant over all runs that ties slots, objects, descriptors and the log of each session together; service by following a ready slot through the loop. |
| C96 | StopListening ends all sessions and returns | proved | `Props/UnixServer.lean` | The same machine. Invariant that each stop event in the log comes after the end of all sessions of its server and each connection after a start; progress by computation of the cleanup. |
| C97 | Instance identifiers survive being turned into text | partial | `Props/Ident.lean` | JSON objects as association lists, with one writer and one reader per class. A reader lemma per class for any object that has the written keys, composed to a round trip; Create as a function of the configuration, whose generations are followed through addEntry. |
| C98 | Instance identifiers can be kept in sets and maps | partial | `Props/Ident.lean` | Decision logic: equality, order and hash are computed over deployments and characterised by a small specification; the strict order by a case analysis of binding and quality. |
| C99 | Exactly the documented names are instance specifiers | proved | `Props/Ident.lean` | Characterisation of the character loop by positions, proved by induction over the string. |
| C100 | Add-on configurations extend the configuration and change nothing else | partial | `Props/Config.lean` | Configurations as lists of generations of maps; the flattened map is shown to have what a lookup finds, merging to give the union of lookups; stability by induction over the history. |
| C101 | A process runs with a consistent configuration only | partial | `Props/Config.lean` | Decision logic: validate = none iff a specification over lookups; invariant over add-ons. |
| C102 | Names resolve while add-ons are being loaded | proved | `Props/Config.lean` | Interleavings of atomic loads and stores with a mutex; invariant that each published instance has its type and that threads have seen what is there; answers by following the log from the moment a name is known. |
| C103 | Only allowed users use a service instance | partial | `Props/Access.lean` | decision logic, for all permissions and users: who can open which memory is characterised exactly, then compared with the documented rule |
| C104 | A provider fills a sample in place and publishes exactly that sample | partial | `Props/AllocPtr.lean` | invariant over all tidy programs, closed under permutation of the variables: each pointer is empty or owns a reserved slot, owners differ, each reserved slot has an owner; a second invariant over all programs: the tracker counts the guards |
| C105 | Proxies and skeletons can be moved | partial | `Props/Moving.lean` | invariant over all programs: the map of a variable leads through the heap to its own elements, trackers count the held samples, services are unique to variables; loops over elements are computed in closed form |
| C106 | Provider and consumers agree on where every sample is | partial | `Props/Layout.lean` | invariant over the registrations: the tables list the elements in order, their arrays follow each other in memory and have room for the aligned samples; lookup and arithmetic without wrapping follow from it |
| C107 | A consumer's pointer keeps its sample and gives it back once | partial | `Props/SamplePtr.lean` | invariant over all programs and interleavings: reference counts and free samples equal the counts over the variables; a second invariant for the variables that may be read: not null means referring to the slot |
| C108 | Exactly what the trace filter file asks for is traced | partial | `Props/TraceFilter.lean` | for every JSON value and configuration: what the parser adds, by induction over the lists of the file, compared with the switches of the specification; logs of trace calls for all sequences of steps compared with the history of what happened |
| C109 | The trace subsystem knows the memory of a service exactly while the service is offered | partial | `Props/TraceReg.lean` | Built on the model of trace calls (TraceCall): offers and stops with all their failures as steps between the steps of tracing threads. Invariant over histories: what is registered or cached belongs to an offered service, or tracing is off for it. Exact condition under which a call ends the process. |
| C110 | On QNX every message of the server reaches the client once and in order | partial | `Props/QnxConn.lean` | Model of a server connection on QNX (queue, pool, pulses under way, the two halves of the announcement) with the reading client. Invariants by induction over all interleavings: sent = got ++ queue, and queue length against pulses under way (exact lag). Violations by witness. |
| C111 | On QNX a wake-up reaches the client it was sent to, and no other | partial | `Props/QnxPoll.lean` | Model of the table of endpoints with slots, nonces and packed pulse values. Round trip of the packing; invariant that ties each slot to its last registration and each pulse to its registration; disconnect count and order of callbacks by induction. The wrap of the nonce by a witness of 65536 registrations (by induction). |
| C112 | Get of a field is atomic while Update and Set are running | partial | `Props/FieldRace.lean` | Interleaving model of Get, Update, set handler and consumers on the slots at the level of single loads and exchanges. An invariant for all schedules relates references, writers and sent values. A second one, for schedules in which sends do not overlap, gives increasing unique timestamps. From a moment without a running send a counting argument (slots not in use have different timestamps) shows that no sample sent since is overwritten, which makes the search of Get find one that is current; decreasing measures bound the steps; three concrete schedules show the violations. |
| C113 | Sessions of a server on QNX live in order and get every message | partial | `Props/QnxServer.lean` | State machine of a server as a resource manager: attachments, sessions, message buffer and the log of callbacks. An invariant ties every open session to an orderly prefix of its callbacks; progress theorems for open, write, close and stop; absence of undefined behaviour by induction for complete headers. Violations by concrete runs, the size limit for every message. |
| C114 | Shared memory of a path is initialised once, before anyone gets it, and is the same for all | partial | `Props/ShmFactory.lean` | State machine of all processes at the steps of the lock file protocol, with kills at every point. Invariant: at most one live owner of the lock file, and the object under the path is initialised or its maker holds the lock. A second invariant ties everything that fresh processes get to the name. |
| C115 | Create, CreateOrOpen and Open of shared memory succeed when they can and leave the process alive | partial | `Props/ShmFactory.lean` | Symbolic execution of a call in an arbitrary reachable state; an invariant that blocks all processes behind a lock file left behind; decreasing count of looks at the lock file; concrete schedules for the violations. |
| C116 | A process maps the shared memory of a path once, keeps it registered and checks its provider | partial | `Props/ShmFactory.lean` | Per-process invariant: every held resource is the one in the map and in the registry; invariant on the recorded owner of resources and the creators of objects; concrete runs for the violations. |
| C117 | The configuration of a process is what its configuration file says | partial | `Props/ConfigParse.lean` | The parser as functions from a JSON tree to an optional configuration; a separate relation says, member by member, what a file says, and another what a configuration must fulfil. The parser is shown to give a configuration exactly if the file says it and it is valid; lookups, ids and traced elements follow from that. |
| C118 | Nothing of an owner runs after its clean-up, the clean-up returns, and nothing else is lost | partial | `Props/EngineClean.lean` | Invariant by induction over every interleaving of callers and the engine's thread: a thread whose promise is fulfilled waits for an owner of which nothing registered before the call is left. Progress by induction over the queue: without another clean-up of the owner, steps of the engine's thread alone fulfil the promise. Violations by concrete runs, with an invariant for what never happens afterwards. |
| C119 | Receiving with the Rust API: nothing is missed, mixed up or counted wrong | partial | `Props/RustReceive.lean` | Invariants by induction over every interleaving: one for wake-ups (a waiting future or stream is woken, or a call of the handler is outstanding, if there is a sample), one for order and numbers, one for the results. What a whole poll does is stated outright for every reachable state. Violations by concrete runs. |
| C120 | Looking for services with the asynchronous Rust API: the result is the latest, and the search ends | partial | `Props/RustFind.lean` | One invariant by induction over every interleaving of the call, polls, callbacks and the drop; what a whole poll does is stated outright for every reachable state. Violations: an invariant for what never happens after a drop before the first poll, and for the closure. |
| C121 | The configuration in use is the one named last before the first use | partial | `Props/RuntimeInit.lean` | The search of the command line is a function on lists, told by the first key in the list. Runtime::Initialize and the making of the runtime are threads with steps, which meet at the mutex and at the guard of the static variable. An invariant ties the kept configuration to the events seen so far; each call is shown to return by giving the schedule. |
| C122 | Starting and stopping a search, and the calls of its handler | partial | `Props/FindCalls.lean` | Threads with stacks of frames (nested calls from handlers), a recursive mutex, a log. Invariants by induction over every interleaving: who has the mutex, what the log says about callbacks and searches. Stopping: an invariant from the call on (the thread is still in the call, or nobody is in the handler). Progress: the owner of the mutex can always go on, by a weight of the stacks. Violations: a second stop, an unknown name. |
| C123 | The gateway has what its configuration files say | partial | `Props/GwConfig.lean` | The parsers are functions on JSON values. A small specification says what a file says, by membership in the objects and not by look-up; parser and specification are equivalent for every value without repeated members. The schemas are predicates; that they are accepted is a theorem, with the numbers in range. Violations: ports out of range, no transport layer, misspelled members. |
| C124 | An engine calls handlers only during its life, and its destructor ends its thread | partial | `Props/EngineThread.lean` | A state machine of the owner (constructor and destructor, step by step), the thread of the engine, and a queue as the channel, with a log. One invariant by induction over every interleaving. Progress: a weight of the queue and the place of the thread gets smaller with every step of the thread. Violations: an invariant of the states without quit pulse from which the destructor cannot return, and the destructor called in a handler. |
| C125 | A Rust subscription is in force just as long as its object exists | partial | `Props/RustSub.lean` | A state machine of the object that the user has, the proxy, the subscription of the event, the guard and the samples, with a log. One invariant by induction over all sequences. The result of subscribe is stated outright for every outcome. A careful user is a predicate on each step; the process then never ends. Violations: held samples, a forgotten future, and 256 samples or more, each for all cases of its kind. |

### Notes: what is missing, and why

* **C01** (proved): The 64-bit slot word: every accessor and every flag, for all words and values.
* **C02** (proved): Interleaving model of one quality level's control; consumers and one provider, any schedule, crashes and restarts.
* **C03** (proved): Same model; the sample data is a cell per slot that only the writing provider changes.
* **C04** (proved): Includes the proof that no transaction-log precondition fails in the getter, and a witness of the wait-timeout termination.
* **C09** (proved): Interleaving model of both controls; QM reference counts adversarial at every step; ASIL-B consumers quiet during the call (their contention is bounded by 100 retries, see C07/C08). A corrupted QM timestamp terminates the provider (witness).
* **C10** (proved): Same model, all schedules of well-behaved consumers.
* **C11** (partial): True without restarts and below 2^32 sends; false otherwise, with witnesses proved (restart_reuses_timestamp, counter_exhausted).
* **C12** (proved): Crash of the provider at any atomic step.
* **C13** (proved): Every schedule of Subscribe/Unsubscribe, crashes and recoveries of any number of processes; 16-bit counters as in the code.
* **C14** (proved): Counters exact when no call is in progress; a call that loses too many CAS races terminates the process (witness contention_terminates).
* **C15** (proved): Crash of any consumer at any atomic step; rollback of the reference log.
* **C17** (proved): Crash at every step of Subscribe/Unsubscribe.
* **C18** (proved): Every schedule of any number of actors. Success and failure of a registration are proved for calls not overlapped by other steps.
* **C19** (partial): False as stated (witness one_creation_is_not_enough): one creation rolls back one log per event. Proved for as many creations as old logs.
* **C20** (proved): PID registration map: at most one live entry per user id under any interleaving of registrations, each registration returns the entry's previous pid, other entries unchanged, key lossless.
* **C21** (proved): Every history of the proxy event operations that does not terminate the process.
* **C22** (proved): State equals the one the history asks for; never_terminates covers all histories that alternate stop-offer and re-offer; double_stop_offer_terminates is the witness that the alternation is needed.
* **C23** (partial): Handlers set before UnsetReceiveHandler are never called after it (full). The registration itself is removed unless the subscription is pending; registration_survives_while_pending shows the code violates the property there.
* **C24** (proved): Any number of threads and SamplePtr objects, including moves and move assignments.
* **C25** (proved): Any interleaving of allocations, moves, assignments and destructions of guards.
* **C26** (partial): Proved in every execution: a callback is called at most once. Exactly once (after stop, or when everything is idle), and never after an error, for executions in which no send call is in progress while the connection is torn down and the server replies only to requests. Witnesses show that otherwise the claim fails: callback after SendWaitReply returned, empty callback called, command queued twice, connection blocked forever after a restart.
* **C27** (partial): Proved for executions in which no send call is in progress while the connection is torn down and the server replies only to requests. all_transmitted_partial (nothing is lost) is about the moments at which nothing is going on any more.
* **C28** (partial): Proved for executions in which no send call is in progress while the connection is torn down and the server replies only to requests. A witness shows a misdelivered reply when the connection is stopped and restarted during a SendWaitReply.
* **C29** (partial): Every entry is accounted for in every execution; the capacity equals the configured one as long as no connection is torn down with messages queued. A witness shows that such entries are lost after stop and restart.
* **C30** (partial): The stop reason is always the first reported. The diagram is followed if Stop() is not called while an attempt to connect or a Restart() is in progress or due. A witness shows Stopping to Ready after Restart() followed by Stop() in one thread.
* **C31** (proved): All attempts; also the exact growth law and the final value.
* **C32** (proved): ProcessQueue as interleavable turns; clean-up modelled as one step.
* **C33** (partial): Holds at the engine's interface; the queue's own CleanUpOwner(nullptr) violates its documentation (queue_null_owner_removes).
* **C34** (partial): Proved for limits up to 65535 bytes, with and without a broken connection, for any number of threads that send messages small enough for the operating system to store them at once (sent_together_partial), and for pieces of any size as long as nothing comes between them (undisturbed_partial); order of each thread and return of calls for every schedule (in_order, call_returns). The configuration accepts larger limits, for which witnesses show loss of framing (oversized_payload_is_read_as_messages, buffer_of_65536_rejects_everything); a broken header is delivered as an empty message (broken_header_is_a_message, header_cut_fails). Large messages of several threads mix (interleaved_fails), and a write that a signal cuts short is reported as success (cut_short_fails).
* **C35** (partial): Proved for identifiers of at most 106 bytes without NUL and for all channels of the LoLa binding; longer identifiers are cut and collide (long_identifiers_collide).
* **C36** (proved): All histories of API calls, transmissions and replies.
* **C37** (partial): Proved for all messages whose texts are non-empty C strings, at the level of the transmitted members. Missing because false: empty texts and texts with NUL (empty_text_is_rejected, nul_is_cut), and names of provided events, of which only the address is transmitted (event_names_are_not_transmitted).
* **C38** (proved): All byte strings, all memories; also for arbitrary nested serialisable types.
* **C39** (proved): Chunk independence for every byte stream; reassembly for all sendable messages; a witness shows that retrying after a partial send loses the framing.
* **C40** (proved): All interleavings of sender threads, deliveries, losses, retries and disconnections. Uniqueness of numbers holds for the first 2^32 requests (the counter wraps).
* **C41** (proved): Bound and number for all executions. Findings: received_twice (receiver does not recognise repetitions), failed_but_received.
* **C42** (proved): Finding: acknowledged_but_dropped (queued acknowledged requests are lost at shutdown).
* **C43** (proved): For every sequence of peer messages interleaved with local reports. Names are opaque; the hypervisor shared memory placeholders of the sample transport are not modelled.
* **C44** (partial): Proved under four restrictions on the input. Findings: the peer aborts the gateway with one message naming another element type (peer_aborts_by_unregister, peer_aborts_by_notify); a lost acknowledgement or failed proxy creation followed by the disappearance of the service aborts (lost_acknowledgement_aborts); two data races (proxy_race, subscription_race).
* **C45** (proved): Registrations caused by subscription changes; re-registrations after a repeated provide message are counted separately (repeated_only_if_outstanding, repeated_once_per_provide, all_registered_again). Finding: failed_registration_is_not_repeated.
* **C46** (proved): Exact for all alignments when it returns; abort condition exact for powers of two, aborts_early is a witness for other alignments.
* **C47** (proved): safe_math::Abs is outside the repository and modelled as exact.
* **C48** (proved): Designation by creation, chains of copies, remapping and moving, for all addresses; get returns the designated object wherever the checks permit.
* **C49** (partial): get, -> and * for every content. Partial: [] with a representable element offset; copies on the stack unless a null one is moved. Violations: index_is_undefined, swap_escapes, moved_null_escapes.
* **C50** (partial): Partial: in a region only if an object of the pointed-to type would fit behind the OffsetPtr's first byte. Violation: null_aborts. Finding index_of_null.
* **C51** (partial): Over every history of successful changes of the table. Partial: the end address of a region (one past its last byte) is attributed to the region (end_is_found); everything else is as stated.
* **C52** (proved): One writer, any number of readers, all interleavings under sequential consistency. Findings: lookups_go_back, version_lost / lost_version_stays_lost.
* **C53** (partial): Partial: without refused registrations. With them the property is violated: removal_aborts, reinsertion_is_ineffective, removal_of_another.
* **C54** (proved): aligned, inside and disjoint over every interleaving of any number of threads with their own mappings; terminates_only_if and returns_if_it_fits characterise failures. Findings: a corrupted counter makes allocate return memory outside of the region; 32 disturbed attempts terminate the process although there is space; alignments above the page size do not carry over to other mappings.
* **C55** (partial): Calls and messages are steps of any number of threads. The flag is right whenever no status report is pending or overtaken; three witnesses show how an overtaken report silences an event (callbacks run after the table lock is released).
* **C56** (partial): Every interested node is told at most once per notification; exactly once with at most 5100 nodes registered throughout; too_many_nodes shows that the 8-bit loop counter stops at 255 buffers of 20 nodes.
* **C57** (partial): Handlers are called exactly if registered, for at most five handlers per event and fewer than 2^32 registrations. Witnesses: the sixth handler is never called; after the registration number has wrapped a handler cannot be unregistered.
* **C58** (proved): Proved for every sequence of messages of any callers. Findings outside of the statement: unsubscriptions are not checked (anyone_can_unsubscribe), application ids are not checked against the sender (allowed_consumer_can_take_over).
* **C59** (partial): Exactly one defined reply for every message and every handler state while the instance lives; requests, refusals and malformed messages treated completely, with the byte layout. Witnesses: a message during destruction crashes the provider after the reply (value() of an empty optional); a failed subscription closes the connection (error number of another enumeration); an undefined reply aborts the consumer.
* **C60** (partial): Start and stop messages alternate and match the handlers for orderly histories (and for all histories of setting and unsetting handlers while the provider process stays). Five witnesses show histories in which the provider is told to stop too early or never.
* **C61** (partial): Proved for runs in which no batch holds the creation and then the removal of the same flag file (CalmRun); phantom_instance shows that the claim fails in the others. never_aborts and reported_matches hold for all runs. Handlers may start and stop searches to any depth; StartFindService may fail. Missing: queue overflow and failing system calls while events are handled.
* **C62** (proved): All runs of the discovery client model: StartFindService (succeeding or failing) and StopFindService, also from handlers to any depth, reading and handling of batches, file system activities at any point.
* **C63** (proved): For the C locale.
* **C64** (proved): Strict weak ordering whose equivalence is operator==; the element type is not part of the key (type_ignored).
* **C65** (partial): Rejection of positions outside of the queue and the position of the whole queue in the region are proved for all sizes; disjointness, containment, alignment and acceptance for all sizes whose product with the queue size is below 2^64. Finding: the products are not checked for overflow (overflow_escapes). Missing: nothing else; queue size and data pointers that a consumer corrupts in shared memory are not covered.
* **C66** (proved): Proved as a refinement: the table holds exactly the entries that a specification over the history of operations prescribes, one process per application.
* **C67** (proved): Complete characterisation of all histories.
* **C68** (partial): False in general: three witnesses are proved. The partial theorem covers crashes between calls while QM is connected.
* **C69** (partial): Bound proved with one extra slot per thread inside a SamplePtr destructor; slots_referenced_exceeded shows the code violates the bound itself (guard destroyed before the slot is dereferenced).
* **C70** (partial): Holds while the first pending command is overdue by less than 2 ms (Unix) or not overdue (QNX); blocks_forever and qnx_blocks show the violation otherwise.
* **C71** (partial): False as stated: stale_handler_uses_unmapped_memory and foreign_unsubscribe_unmaps_used_memory are counterexamples. Proved: the only causes, and the property if no other process of the application subscribes and nobody unsubscribes the proxy.
* **C72** (partial): False as stated: a restarted consumer that creates its proxies in another order, a subscription during a stop, and a consumer's own memory can terminate the provider (three findings). Proved: the only causes, and that well-behaved consumers that are not restarted never terminate it.
* **C73** (proved): C73.subscription_registers, stays_registered and call_is_served together: a processed subscription registers a handler per method, it stays callable under all other activity, and a call with it runs the handler. Same model as C58.
* **C74** (proved): Every theorem is for histories in which the application passes to a call only pointers it holds (precondition in the statement); moved_out_argument_breaks and result_as_argument_breaks show what happens otherwise.
* **C75** (partial): Partial: visibility, uniqueness, invisibility after stopping, success of a call left alone and absence of termination are proved for histories in which the calls for one instance do not overlap and no two processes offer it at the same time. The code does not enforce this: concurrent_offers_break shows two overlapping OfferService calls that both succeed and leave no flag file, and a later StopOfferService that terminates the process. failed_offer_leaves_file, qm_offer_keeps_stale_b and qm_stop_blocks_offer are further findings. every_file_has_an_owner holds for all histories.
* **C76** (partial): handler_called and registered_with_provider are proved for all histories. unsubscribe_removes_partial covers Unsubscribe calls made outside receive handlers; from within a receive handler the claim is false of the code (called_after_unsubscribe).
* **C77** (partial): one_provider_partial and second_refused_partial hold for runs in which no object is created while another one is destroyed (Orderly). Without that the property is false: two_providers. can_be_created holds for all runs.
* **C78** (partial): The theorems hold for orderly runs: no consumer is between opening and locking the marker file at the moment at which the provider removes its name, and nobody opens memory in a process in which a proxy is being destroyed. Ends of processes and failing file operations are allowed anywhere. Without these restrictions the property is false: removed_in_use, apart_from_provider, stale_memory.
* **C79** (partial): can_offer holds for all runs. survives_partial needs orderly and tidy runs; can_connect_partial and can_join_partial need orderly runs and no lock file; the code violates the full property: offering_again_ends_process, retry_ends_process, killed_consumer_ends_others, not_always_survived.
* **C80** (partial): Holds for orderly runs (as C78). left_behind shows that memory kept for a consumer is not removed when this consumer leaves.
* **C81** (partial): Proved for sample types that are not over-aligned and, in the analysis mode, for services without getters and setters of fields. Both exceptions are real: accessor_ends_process, missing_subscribers_ends_process and over_aligned_ends_process prove that offering ends the process. Sizes and alignments of library types are parameters.
* **C82** (partial): get_is_last, set_is_handler and offer_done_has_value hold for all call sequences. That Get is answered with a value while the service is offered is proved for services offered once and for services whose memory is always in use; it is false otherwise (reoffer_loses_value, retry_loses_value). set_answers_partial needs that OfferService is not called on an offered service.
* **C83** (partial): offer_all, offer_errors and stop_all hold for all call sequences. offer_none_partial and stays_offered_partial need that OfferService is called only while the service is not offered; otherwise they are false (second_offer_breaks). offer_succeeds_partial speaks about careful runs (see C84) and memory that no consumer uses.
* **C84** (partial): Proved for careful call sequences. Each excluded case is witnessed: double_offer_crashes, full_field_crashes, get_in_stop_crashes.
* **C85** (partial): all_published and waits_for_set hold for all runs. Increasing timestamps are proved when no Update overlaps with another send, in particular for any number of concurrent set handlers alone. False for an Update that overlaps with a Set (overlap_hides, overlap_hides_later).
* **C86** (proved): All names (Linux prefixes) with no bound on the numbers; socket addresses for process ids below 2^32; instance ids below 65536 for reading.
* **C87** (partial): Proved for identifiers of at most 106 characters without a zero character. Missing: longer identifiers, for which it is false (long_identifiers_collide).
* **C88** (partial): Unrestricted: no reference is forgotten, slots of elements differ. With non-overlapping calls per element: lifetime (if also no element is stopped with traces in flight), release by stop, no assertion, no needless loss. Both restrictions are needed; witnesses are proved.
* **C89** (partial): Enabling and the number of slots are proved without restriction. That the process lives is proved if no element is created twice and calls for one element do not overlap; creating an element again ends the process (witness).
* **C90** (partial): Source, offset and order of the registration, and that a trace is made, are proved for all interleavings. Missing: the object is still registered at the call only if calls do not overlap (unregistered_handle is the witness otherwise), and a failed registration is not retried (not_retried), so that clause is false of the code.
* **C91** (partial): Reasons for points that are off and the finality of switching tracing off hold for all interleavings. Missing: the report of losses and the exact condition for tracing being off are proved for calls that do not overlap; with overlap the report is false of the code (loss_not_reported).
* **C92** (proved): All claims hold in the model. Assumption: connections are removed by the callback thread only (process_lives), as the code does; the witness remove_elsewhere_ends shows that it is needed. Finding: handler_waits_in_vain.
* **C93** (proved): For every reachable state and all activities between the looks of the crawler. A failing listing of directories (FindService returns an error) is not modelled.
* **C94** (proved): call_arrives and arguments_are_objects build on the call queue of C65. wide_alignment_differs shows that the limit on the alignment is needed. A value is the list of its bytes; handlers that change their arguments are not modelled.
* **C95** (partial): Order of the callbacks, delivery, service of ready sessions, reasons to end, closed descriptors and offered requests are proved for all runs. Partial: callbacks of a session overlap when a message callback ends its own session (callbacks_overlap), so one_at_a_time_partial excludes this; no_fault_partial excludes three cases that are shown to fail: a failing accept, RequestDisconnect from another thread, and an error returned after the callback has ended its own session.
* **C96** (proved): Proved for all runs of the model; the order in which queued commands are processed is arbitrary in it.
* **C97** (partial): The round trip is proved for all deployments, up to the tracing slots, and every text that is no JSON object is refused. The code violates the rest: tracing slots are not part of the text, and Create terminates the process when the service is known, when a text is read twice, for a second instance of the same service and for a JSON object that is no identifier.
* **C98** (partial): Equality, compatibility and that the order is strict are proved for all identifiers; that containers work is proved for identifiers of which those with the same service and id have the same binding. The code violates the rest: equal identifiers may have different hashes, and the order is not a strict weak order.
* **C99** (proved): Proved for all strings.
* **C100** (partial): Proved for all configurations, add-ons and histories. The code violates one case: an identifier created from text is not checked, and the next add-on, compatible or not, then terminates the process (created_breaks_addon_fails).
* **C101** (partial): The check is characterised exactly, and a process started by InitializeRuntime keeps a consistent configuration. The code violates the rest: the default configuration is not checked, and methods are not checked.
* **C102** (proved): Proved for all interleavings. InstanceIdentifier::Create, which changes the maps without the mutex, is not part of the concurrent model.
* **C103** (partial): Violated in four cases, each with a witness: an empty provider list without strict checks refuses every other user (empty_provider_list_fails), a list for one quality keeps others from the data of an unrestricted quality (other_list_restricts_fails), an empty consumer list without strict checks refuses methods to everybody (empty_list_refuses_methods_fails), and a proxy of the provider's own user connects but cannot subscribe to methods (same_user_has_no_methods_fails). Without those cases unrestricted users do connect and subscribe (unrestricted_connect_partial, allowed_subscribe_partial). That only allowed users connect, and that listed ones do, is proved without restriction.
* **C104** (partial): Proved for programs that withdraw or end an event only when no pointer is left, that send a sample with the event from which it is, and that do not send or write through an empty pointer. Each rule is needed: five of the six _fails theorems show what happens without it (undefined behaviour after StopOfferService, two pointers to one slot after a new offer, a slot of the wrong event published, end of the process). The sixth shows that the move assignment swaps and does not release. event_outlives, event_ends and allocate_refused hold for all programs.
* **C105** (partial): Proved for every program while the process runs; that it never ends by a fault is proved for programs that do nothing but end or assign to a moved-from variable and give back samples in time. Moving or using a moved-from variable is undefined (move_again_fails, call_moved_from_fails).
* **C106** (partial): Agreement of provider and consumers, separation, alignment, refusal of other types and absent elements, and progress are proved for all lists of elements with less than 2^63 bytes of samples. Violated without that bound (wrap_fails), for a restart with another sample type (reopen_other_type_fails) and for a typed provider on memory of a generic one (typed_after_generic_fails).
* **C107** (partial): Proved for all programs and interleavings: no reference is lost or given back twice, readable pointers keep their samples, moves, swaps, resets and ends have exactly their effects, comparison is by time. Violated: the source of a move assignment is not null and dangles (assigned_from_fails); a subscription can exceed its maximum while a pointer is being destroyed (limit_fails).
* **C108** (partial): Violated for the trace points of the subscription state, which are accepted but never recorded, for names with a zero character, and for names longer than 1022 bytes; proved for everything else.
* **C109** (partial): Proved for histories in which services are not offered twice, offers fail only before the memory exists, and tracing is still on for the service when it is stopped; stop_unregisters_partial, untraced_is_never_registered, typed_iff and ends_iff hold for all histories. Violated otherwise: an offer that fails after the registration leaves it and the next offer ends the process (failed_offer_fails); a second offer ends the process (second_offer_fails); a stop after the trace points were switched off leaves the registration (switched_off_fails).
* **C110** (partial): Partial: all_arrive_partial and in_order_partial need at most one message queued when the client announces its pulses; otherwise violated, with witnesses and the exact number of messages left behind (left_behind).
* **C111** (partial): Partial only because of the 16-bit nonce (nonce_wraps_fails); stale_is_ignored_partial holds for fewer than 65536 registrations in between.
* **C112** (partial): Violated in three ways, each with a schedule: get_without_value_fails (a Get of a field with the recommended two slots fails although the field always had a value), goes_back_fails (a later Get is answered with an older value than an earlier one, although Update and Set do not overlap), set_is_lost_fails (Update and Set overlap, get the same timestamp, and Get does not see the Set that ended last). Proved for every schedule: answers_were_sent, not_torn, answered, send_ends, sent_by (what is sent is what was given to the call), given_back (a Get gives its reference back), send_alone (a send goes through if a slot is free and nobody interferes). Proved when Update and Set do not overlap each other: stamps_partial, undisturbed_partial, alone_partial, and, when there are more slots than overlapping sends and slots in use, atomic_partial and never_backwards_partial. The error after 100 failed attempts to take the reference stays possible in atomic_partial and undisturbed_partial; alone_partial excludes it without overlap.
* **C113** (partial): Violated in seven ways, each with a witness: long_message_fails, stale_bytes_fails, out_of_buffer_fails, second_start_fails, failed_start_fails, accepted_but_gone_fails, second_request_fails. Proved for every run: orderly, offered, ends_for_a_reason, close_ends, listening. delivered_partial needs a message that fits into the fixed buffer; only_what_was_written_partial and defined_partial need complete headers; stop_ends_all_partial and defined_partial need StartListening not to be called while listening.
* **C114** (partial): Proved for every interleaving and kill point without RemoveStaleArtefacts (initialised_partial, once_partial, held_partial) and, for the same memory, without Remove (same_partial). RemoveStaleArtefacts breaks it (stale_fails). Missing: statements for runs with RemoveStaleArtefacts beyond the witness.
* **C115** (partial): Progress is proved for calls during which no other process does anything, in every reachable state; there_is_got_partial adds that with any number of other processes a call gets memory that is there and stays there, patient that nobody gives up waiting early, and lock_given_back that a lock file is there only while a process is in a call or was killed in one; survives_partial says what can end a process. Calls that overlap can fail without reason (both_fail_fails, open_disturbs_create_fails), a long callback or a killed process ends the others (slow_callback_fails, killed_blocks_fails, killed_ends_fails).
* **C116** (partial): Proved for processes that do not call Remove and do not call while a destructor runs (one_partial), and if all calls ask the daemon or none is for typed memory (provider_partial). Memory stays as long as a caller has it (kept). The other cases are violations with concrete runs.
* **C117** (partial): Proved for every file whose numbers are integers and whose objects have no member twice (as_written_partial and the theorems after it); reading the text of the file is not modelled. Where the README or the schema say something else than the parser there are concrete files (_fails): default of tracing and of getters and setters, several instances under one specifier, unknown members, further bindings, zero sample slots, equal service ids.
* **C118** (partial): Nothing of the owner after the call (on an ordinary thread; in a callback: nothing is started again), endpoints are told once, commands run at most once and are not lost: proved for every interleaving. Missing: the call returns only if no other clean-up of the same owner is asked for meanwhile (both_wait_fails, callback_cleans_fails), and on QNX a clean-up in a callback of a server returns while a callback of the owner runs (server_thread_fails).
* **C119** (partial): Every clause is proved for all interleavings except two. The process does not end only with a container that can hold all samples subscribed for (no_panic_partial, small_container_fails). The container at the end of a receive over several polls does not hold the samples that were counted (several_polls_fails); resolves says exactly what each poll does to it. full_window_fails, not_shrunk_fails and full_stream_fails show where the documentation is not met.
* **C120** (partial): Proved for every interleaving, except that a future that is dropped before its first poll does not stop the search (stopped_partial, not_polled_fails) and that the memory of the callback is never released (closure_leaks_fails). That no callback starts after the search is stopped is taken from C62.
* **C121** (partial): Configurations are values of any type with the result of Validate; parsing is C117, add-ons are C102. Violated in part: the default file is not validated (used_is_valid_fails).
* **C122** (partial): Proved for every interleaving, except: quiet_after_stop_partial needs that nobody else is already stopping the search; second_stop_fails shows that it is false otherwise. unknown_name_fails: an unknown name is not an error. The destructor of the service discovery is not modelled.
* **C123** (partial): Parser and specification are equivalent for every file. Partial because files of the schemas are not always accepted (port_fails, no_layer_fails) and files that the schema forbids are not refused (misspelled_fails). The IP address is kept as text.
* **C124** (partial): Everything but the return of the destructor holds without conditions. The destructor returns if no handler calls it and the quit pulse is sent; both exceptions are proved as violations.
* **C125** (partial): What is in force, the result of subscribe and the samples hold for all sequences. Giving up without ending the process holds without held samples and forgotten futures; the exceptions are proved as violations.

## Findings

Each finding has a witness theorem, named in the notes above, unless it is marked (read): those were found by reading the code.

* Timestamps restart after a restart of the provider, and the 32-bit counter ends (C11).
* One creation of a proxy rolls back one old transaction log per event only (C19).
* A crash of the provider between the two arrays of a multi-slot allocation or send makes the next start terminate (C68).
* A guard is destroyed before its slot is dereferenced, so more slots can be referenced than a consumer may hold (C69).
* `UnsetReceiveHandler` while the subscription is pending leaves the registration in place (C23).
* Client connection: stop during a send queues a command twice or blocks the connection forever; unsolicited replies call an empty
  callback; restart during a send misdelivers a reply; queued entries are lost on restart (C26 to C29). `Restart` then `Stop` reaches
  `Ready` from `Stopping` (C30).
* An overdue command makes the engine's wait endless (C70). `UnixDomainEngine::CleanUpOwner` called on the engine's thread while a
  callback of the owner runs can wait for itself (unix_domain_engine.cpp:164-188) (read).
* Unix domain framing is lost for limits above 65535 bytes (C34). Long identifiers collide (C35).
* Gateway: empty texts are rejected, embedded NULs cut, event names not transmitted (C37); a retry after a partial send loses the framing
  (C39); a request can be executed twice, or executed although reported as failed (C41); acknowledged requests are dropped at shutdown
  (C42); the peer can abort the gateway (C44); a failed registration is not repeated (C45).
* `CalculateAlignedSize` aborts early for alignments that are no powers of two (C46).
* `OffsetPtr`: `operator[]` has undefined behaviour, swapped and moved-from-null pointers escape the checks (C49); a null `OffsetPtr` at
  the end of a region aborts (C50). The end address of a region counts as inside (C51).
* The region table loses versions for good, and lookups can go back in time (C52). A refused registration breaks the removal (C53).
* A corrupted allocation counter makes `allocate` return memory outside of the region; 32 disturbed attempts terminate (C54).
* Status reports of notification handlers run after the table lock is released: an overtaken report silences an event. An outdated node
  id is removed without a status report (C55). More than 5100 nodes are not all notified (C56). Only five handlers per event are called;
  after the registration number has wrapped, binary search fails (C57).
* The application id in method messages is not checked against the sender; unsubscriptions are not checked at all (C58).
* A message during the destruction of the instance crashes the provider; errors of two enumerations are confused; undefined reply
  numbers abort the consumer (C59). The padding of method messages is sent uninitialised (read).
* A provider is told to stop too early or never in five kinds of histories (C60). A stop message is skipped if the connection is not ready.
* A flag file created and removed within one inotify batch is reported as offered for good (C61).
* Call queue sizes are multiplied without overflow check (C65). The handler table for method calls has no service instance in its key,
  and the proxy counter restarts with the process: restarted consumers terminate the provider, stale handlers use unmapped memory
  (C71, C72). A failed `OnServiceMethodsSubscribed` leaves the region in the table (read).
* Two overlapping `OfferService` calls for one instance both succeed and leave no flag file; `StopOfferService` then terminates the
  process. If setting the permissions fails, the flag file stays although `OfferService` fails. A QM offer leaves the ASIL-B flag file of
  a crashed provider in place. After `StopOfferService` for QM only, the instance cannot be offered again (C75).
* A method can be called with pointers that have been moved out of, or with a pointer to a result; then results are no longer protected
  (C74).
* A receive handler set while the provider is away survives `Unsubscribe`: it is registered again on the next `Subscribe`, and if
  `Unsubscribe` was called from within a receive handler it is even called again (C76).
* The existence marker is unlinked after it is unlocked, and Create does not check that the file it has locked is still the one that the
  path names: two skeleton objects can exist for one service instance (C77).
* The usage marker has the same weakness: a consumer that has opened it before the provider removes it locks a file that nobody else
  sees. The memory of a connected consumer is then removed or replaced (C78).
* A proxy releases its lock before its memory: another proxy of the same process can get the old memory from the cache of the process
  after the provider has replaced it (C78).
* A provider that stopped while a consumer was connected, or whose `OfferService` failed after one memory object was created, keeps the
  memory: the next `OfferService` of the same object ends the process when no consumer is connected (C79).
* A process that is killed while it opens the memory leaves a lock file: every process that connects later is ended after 500 ms (C79).
* Memory that was kept for a connected consumer is not removed when this consumer leaves; it stays until the next offer (C80).
* With the shared memory size found by analysis, the additional slots of fields with a getter or a setter are not counted: offering such a
  service ends the process when the last service element is such a field, and in general unless padding makes up for it (C81).
* Over-aligned sample types can be under-sized in both calculation modes: the analysis assumes that the memory starts at offset 0 and the
  simulation that it starts at a page boundary, but the user space starts after the management block, at 16 modulo 64 (C81).
* A field with a getter only needs no maximum number of subscribers, but the analysis ends the process when none is configured (C81).
* The number of control slots is narrowed to 16 bits: 65535 configured slots plus one for a getter give no control slots (example in C81).
* A field that is offered again while no consumer is connected has no value, although `OfferService` succeeds; `Update` is refused
  before (C82).
* The same after an `OfferService` that failed late and is tried again (C82).
* `OfferService` on an offered service fails and stops its events, but the service stays listed (C83); the following
  `StopOfferService` accesses an empty optional (C84).
* If the initial value of a field with getter finds no slot, the event of the field stays prepared; the next `OfferService` fails an
  assertion (C84).
* A `Get` processed while `StopOfferService` runs fails an assertion (C84).
* `Update` and `Set` increment the timestamp without synchronisation: values can get equal or old timestamps and stay hidden (C85).
* A `SampleAllocateePtr` kept over `StopOfferService` and a new `OfferService` refers to memory that is gone (read).
* Service identifiers of more than 106 characters are cut without an error: two servers with different identifiers can get the same address (C87).
* A trace callback that comes after `StopOfferService` and a new `OfferService` releases the slot of a newer sample on which the trace subsystem still works (C88, `late_callback_releases_other_sample`).
* Two threads that send traced samples of one element at once (a field's set handler and `Update`) can choose the same tracing slot; an assertion then ends the process (C88, `two_senders_end_process`).
* Tracing slots are never given back: a traced skeleton that is destroyed and created again ends the process (C89, `created_again_ends_process`).
* C90: a registration of a shared memory object that failed with a recoverable error is not tried again. The failure is stored under the identifier of the shared memory object (dummy name), but `GetCachedFileDescriptorForReregisteringShmObject` looks it up under the identifier of the element. The log message says "Will retry once on next Trace call"; the next trace switches the trace point off instead (`Verif.Props.C90.not_retried`). If the lookup did find an entry, a successful retry would end the process, because the binding's `RegisterShmObject` asserts the dummy name.
* C90: a trace in progress may name a handle that was given back to the subsystem meanwhile (`Verif.Props.C90.unregistered_handle`).
* C91: with two threads a loss may never be reported. One thread has read the flag, another one fails and sets it, the first succeeds and clears it (`Verif.Props.C91.loss_not_reported`). Read, not modelled: `data_loss_flag_` is a plain `bool` and the maps of handles are not synchronised although several threads use them, which is a data race.
* C92: a call for a connection on the callback thread (for example an event that is sent by a method handler) that has to create the connection waits for at least 500 ms although nothing can connect meanwhile, and always returns a connection that is still starting (`handler_waits_in_vain`). The message that was to be sent is not sent then. All other messages of the process wait for the same mutex.
* C92: `RemoveMessagePassingClient` ends the process if the callback thread is busy for 450 ms and another thread calls it (`remove_elsewhere_ends`). The only caller in the code is a message handler, on the callback thread, for which `process_lives` holds. Read, not modelled: the last reference of a connection that is stopped by another thread may be dropped on the callback thread, whose destructor then waits for itself.
* C94: method argument types aligned to more than a page are read at the wrong place by a process that has mapped the memory at an address with another remainder (`wide_alignment_differs`): DeserializeArgs pads by address, not by offset.
* C94: the check of SerializeArgs that an argument is not inside of the target buffer looks at the address of a copy of the argument, because its lambda takes it by value (type_erased_storage.h:124). It never notices an argument inside of the buffer, and can only fail for arguments that happen to be copied next to the buffer.
* C95: `UnixDomainServer::ProcessConnect` takes `.value()` of the result of `accept`, so a client that goes away between `poll` and `accept`, or a lack of descriptors, terminates the server process (`failed_accept_terminates`). `RequestDisconnect` asserts that it runs on the callback thread although client-server.md calls it thread-safe (`disconnect_outside_terminates`). A message callback that ends its own session and returns an error lets the engine use the destroyed session (`error_after_disconnect_fails`). The disconnection callback is called while the message callback of the same session still runs if that one calls `RequestDisconnect` (`callbacks_overlap`).
* C97: `LolaEventInstanceDeployment::Serialize` does not write the number of tracing slots, so it is 0 in the identifier that is read (`tracing_slots_are_lost_fails`). instance_identifier.h documents that `Create` returns an error, but it terminates the process if the service type is known already, if the same text is read a second time, if the text of another instance of the same service is read, and if the text is a JSON object without the expected keys (`known_service_terminates_fails`, `second_time_terminates_fails`, `second_instance_terminates_fails`, `empty_object_terminates_fails`).
* C98: the hash of an identifier covers the name of the instance, the comparison does not: equal identifiers may have different hashes (`equal_but_different_hash_fails`). `operator<` compares qualities only if the deployments are equal: "neither is less" is not transitive (`order_is_not_weak_fails`), and different identifiers may be the same in a set (`different_but_not_ordered_fails`).
* C100: `InstanceIdentifier::Create` adds deployments without checking them. An ASIL-B identifier in a QM process makes the next add-on terminate the process, because it validates everything (`created_breaks_addon_fails`). `Create` also changes the maps without the mutex, which is a data race with `resolve` and add-ons on other threads (not modelled).
* C101: when the application does not call `InitializeRuntime`, `Runtime::getInstanceInternal` parses the default configuration and never calls `Validate` (runtime.cpp 189-192, `default_is_not_checked_fails`). `CrossCheckServiceInstancesToTypes` looks at events and fields but not at methods (`methods_are_not_checked_fails`).
* C103: The documentation says that an empty list of users means no restriction unless the checks are strict. An empty `allowedProvider` list refuses every provider of another user (`empty_provider_list_fails`), and an empty `allowedConsumer` list refuses methods to everybody while events work (`empty_list_refuses_methods_fails`).
* C103: The data memory is shared by the qualities. If only one quality has a list of consumers, the unrestricted other quality is closed for everybody who is not on that list (`other_list_restricts_fails`).
* C103: A proxy of the provider's own user connects even if it is not listed, but its method subscription is refused (`same_user_has_no_methods_fails`).
* C104: a `SampleAllocateePtr` that is left when the event is withdrawn refers to a composite that has been reset: its end, and also `Send`, which should return `kNotOffered`, have undefined behaviour (`ends_after_stop_offer_fails`, `send_after_stop_offer_fails`). If the event is offered again, the old pointer gives back the slot of a new one, and two pointers share a slot (`kept_pointer_fails`). `Send` does not check that the sample is from this event (`other_event_fails`), and an empty pointer ends the process (`empty_pointer_fails`). The move assignment swaps, so the old sample stays reserved (`assign_keeps_fails`).
* C105: a proxy or skeleton that was moved from can only end or be assigned to. Moving it again (`std::swap`, growth of a `std::vector`) updates a reference through a null pointer, and `OfferService` or `Subscribe` on it dereference a null binding.
* C106: `RetrieveEventDataFromOpenedSharedMemory` does not compare the sample type with the meta information in the memory. A provider that is restarted with a larger sample type while consumers are connected writes over the samples of other events. A typed provider that takes over the memory of a generic one ends the process in `DynamicArray::at`, because the array has as many elements as `std::max_align_t` fit. The number of bytes of a generic event (`size * slots`) is not checked for overflow.
* C107: after `a = std::move(b)` the pointer `b` is not null and `get()` still returns the sample, because the move assignments of both `SamplePtr` classes are defaulted and `managed_object_` is a raw pointer. Once `a` ends, `b` leads to memory that the provider overwrites. The move constructor, `Swap` and `Reset` leave null.
* C107: `~SamplePtr` destroys the guard before the reference to the slot. Another thread that calls `GetNewSamples` in between makes the subscription refer to more slots than it asked for, so that a provider with exactly the configured number of slots may find none free.
* C108: the trace filter file can ask for the trace points of the subscription state (`trace_subscription_state_changed`, `..._handler_registered`, `..._deregistered`, `..._callback`). The parser accepts them and reports them as enabled, but no code ever traces them. The same holds for the trace points of getters and setters of fields.
* C108: `GetOrInsertStringInSet` (tracing_filter_config.cpp:32-49) makes the stored view from `data()`. For a name that contains a zero character the trace point is stored under the part before it, so that it is not enabled for its element.
* C108: `std::hash<TracePointKey>` (trace_point_key.h:68-93) ends the process if the names of service and element have together more than 1022 bytes. No check of the configuration limits their length.
* C109: if `OfferService` fails after the data memory was registered with the trace subsystem (a handler is missing, an element or the service discovery fails), the guard calls `PrepareStopOffer({})` without a callback. The registration stays, and the next `OfferService` ends the process (`Could not insert shm object handle`, lola/tracing/tracing_runtime.cpp 195-200). `failed_offer_fails`. The same happens when `OfferService` is called twice (`second_offer_fails`).
* C109: `StopOfferService` unregisters the memory only if a trace point is still on. If the trace points were switched off by failures, memory that is gone stays registered. `switched_off_fails`.
* C110: on QNX the server answers the announcement of the client's pulses with one pulse however many messages are queued, and the client reads one message per pulse. With k messages queued at that moment (sent in the connect callback, or a reply to a request sent before) the client stays k-1 messages behind for the rest of the connection: the last messages are never delivered, a client that waits for a reply waits for ever, and empty notifications overtake messages (`stays_behind_fails`, `behind_forever_fails`, `reply_stays_behind_fails`, `ping_overtakes_fails`). `io_msg` stores the pulses without the lock (`message_overtakes_fails`). A second `Reply` before the first was read links the one reply message twice (`second_reply_fails`).
* C111: the nonce of an endpoint slot has 16 bits. After 65536 registrations in a slot a pulse that is still under way for the first one calls back the last one (`nonce_wraps_fails`); the client treats that as a spurious wake-up, a ping as an empty notification.
* C112: `GetLatestSample` looks at the slots one after the other.  With two slots (getter and `numberOfSampleSlots` 1, the case recommended in skeleton_event_properties.h) it can look at each slot just when an `Update` writes to it; Get then fails with `kBindingFailure` although the field had a value all the time (`get_without_value_fails`).
* C112: With three slots, one of them held by a subscriber, a Get can be answered with the old value in the held slot after an earlier Get has been answered with a newer one (`goes_back_fails`).
* C112: The set handler sends under `set_handler_mutex_`, `Update` of the provider without it, and both increment `current_timestamp_`, which is not atomic.  The sender has to be single-threaded by assumption of use, but the provider cannot know when a Set arrives.  Both values can get the same timestamp; Get then may be answered with the one that was replaced, and a subscriber receives only one of them (`set_is_lost_fails`).
* C113: `ServerConfig::max_receive_size` is not looked at on QNX: the dispatch buffer has 2088 bytes and a message of 2072 bytes or more is always refused with EMSGSIZE (`long_message_fails`).
* C113: `io_write` subtracts the size of the header from the length of the received message and casts the result to an unsigned type. A client that writes fewer than 16 bytes gets the check of the length passed: the callback is given bytes another client wrote before (`stale_bytes_fails`) or bytes behind the buffer (`out_of_buffer_fails`).
* C113: `StartListening` of a server that listens makes a second attachment and forgets the first one. After `StopListening` clients still connect and get callbacks, and after the destruction of the server they make it use freed memory (`second_start_fails`). A `StartListening` that fails has already replaced the callbacks (`failed_start_fails`).
* C113: If the operating system does not attach a session that the connect callback has accepted, no disconnect callback follows (`accepted_but_gone_fails`).
* C113: The documentation promises that a session does not process a second message with reply before the first one is replied to; on QNX it does (`second_request_fails`).
* C34: SendProtocolMessage of the Unix domain engine takes every number of bytes that `sendmsg` returns for success. When a signal comes after a part of a message has been stored, Send, Reply or Notify return success and the receiver takes the following messages apart wrongly (`cut_short_fails`).
* C34: Send of a client that is neither fully_ordered nor truly_async, Reply and Notify write without a lock. The operating system stores large messages in pieces, and pieces of different threads mix (`interleaved_fails`). Messages that are stored at once are safe (`sent_together_partial`).
* C34: When a signal ends the first `recvmsg` of ReceiveProtocolMessage after one byte, the receiver gets an empty message that nobody sent and loses the framing (`header_cut_fails`). For the payload the length is checked (`payload_cut_is_noticed`).
* C114: `RemoveStaleArtefacts` removes the lock file before the object. If the creator was killed in its initialisation callback, a process that opens the path between the two gets memory that was never initialised (`stale_fails`).
* C115: `CreateOrOpen` holds the lock file while it looks whether the object exists, and `CreateImpl` gives up at once when the lock file is there. Two processes that call `CreateOrOpen` at the same time can both get a null pointer with no object made (`both_fail_fails`); `Create` fails while another process only tries to open (`open_disturbs_create_fails`).
* C115: A process that is killed while it has the lock file leaves it behind. From then on every Open and CreateOrOpen ends its process after 500 ms (`killed_ends_fails`), and nobody gets the memory until `RemoveStaleArtefacts` is called (`killed_blocks_fails`). An initialisation callback of more than 500 ms has the same effect on processes that open meanwhile (`slow_callback_fails`).
* C116: The destructor of a resource takes the entry of its path from the registry, whichever resource it is for. After `Remove`, an `Open` that fails unregisters the memory that is still held (`failed_open_unregisters_fails`), and a `Create` ends the process (`create_again_ends_fails`).
* C116: The map of the factory holds weak pointers. While the last pointer is being given up by another thread, `Open` finds an expired one, maps the memory again and ends the process in `insert_resource` (`open_while_released_ends_fails`).
* C116: `CreateOrOpen` without `prefer_typed_memory` does not ask the typed memory daemon for the creator. It refuses memory of an allowed provider, and accepts any provider if the user of the daemon is in the list (`typed_fails`).
* C117: the parser and the documents of the configuration file differ. Tracing without "enable" is off, the schema says on (`tracing_default_fails`). "useGetIfAvailable" and "useSetIfAvailable" are true by default, the README says false (`use_default_fails`). Several "instances" of one specifier end the process, the README offers them to consumers (`several_instances_fails`).
* C117: faulty files are accepted. Unknown or misspelt members are passed over, although the schema rules them out (`unknown_member_fails`). Only the first binding of a service type is read (`second_binding_fails`). Zero sample slots are accepted (`no_slots_fails`). Two service types may share a service id (`same_service_id_fails`).
* C118 (`both_wait_fails`, `callback_cleans_fails`): the command that CleanUpOwner registers carries the owner that is cleaned up. If two threads clean up the same owner, or a callback does so while a thread waits, the first clean-up removes the command of the second one, and that thread is blocked forever.
* C118 (`server_thread_fails`): on QNX IsOnCallbackThread is true on the server thread as well. CleanUpOwner in a callback of a server therefore does not wait for the client thread, which may be in a callback of the owner.
* C119 (`several_polls_fails`): a Rust `receive` that needs several polls passes `max_samples - total_received` as the limit of the sliding window of the container, not only as the limit of the fetch. The samples of earlier polls are dropped: `receive(3, 3)` on an empty container with three samples that come one after the other returns `Ok(3)` and a container with one sample.
* C119 (`small_container_fails`): a container whose capacity is below `max_samples` ends the process with an assertion instead of an error.
* C119 (`full_window_fails`, `not_shrunk_fails`): the documentation of `try_receive` says that samples in the container make room and that the container is cut to `max_samples` even if nothing is new. A container that holds all samples of the subscription makes the call fail, and without new samples nothing is cut.
* C119 (`full_stream_fails`): while the user holds all samples of the subscription, each poll of a stream yields an error at once, even with nothing to receive.
* C120 (`not_polled_fails`): `get_available_instances_async` starts the search in the call, but the object whose drop stops it is made in the first poll. A future that is dropped before it was polled leaves the search active for the life of the process.
* C120 (`closure_leaks_fails`): `RustBoxedCallable::dispose` for the callback of a search is empty, and the Rust side gives its box away. The closure and what it holds (the state of the search with the last handles, the waker) are never released.
* C121: without a call of `InitializeRuntime` the default file is parsed but not validated (runtime.cpp 195-200), while `Initialize` validates (runtime.cpp 126). A configuration that `InitializeRuntime` would refuse is used: `C121.used_is_valid_fails`. The search of the command line also looks at the name of the program and at the values of other options.
* C122 (`second_stop_fails`): the second `StopFindService` for a handle finds no instance any more and returns at once, without the mutex of the binding. It returns although the handler is still running, for example if the handler is just stopping its own search.
* C122 (`unknown_name_fails`): `StartFindService` with an instance specifier that is not in the configuration returns a handle and nothing ever happens (service_discovery.cpp 79-131: the loops over no identifiers do nothing), while `FindService` returns an error for it (service_discovery.cpp 345-351).
* C123 (`port_fails`): the schema of the sample transport allows every integer as a port or a timeout, but the parser ends the process for a port above 65535 or below 0.
* C123 (`no_layer_fails`): the schema of the gateway does not require `transport-layer`, but without it `TransportFactory::Create` ends the process. A `transport-layer` that is not an object is taken for a missing one.
* C123 (`misspelled_fails`): members that the schema forbids are ignored, so that a misspelled `forwarded-services` forwards nothing, without a message.
* C124: the result of sending the quit pulse is ignored (dispatch_thread_runner.cpp 183-187); if the system refuses it, the destructor of the engine waits without end (`lost_pulse_fails`).
* C124: a handler that gives up the last owner of the engine ends the process, since the thread joins itself in a `noexcept` function (`own_thread_fails`). i_client_connection.h allows to destruct a connection in its state callback, and the connection shares the ownership of the engine.
* C125: `LolaSample` has no lifetime, so that safe code can give up the subscription before its samples, which ends the process (`held_samples_fails`).
* C125: after `mem::forget` of a receive future that was polled, the next receive and the drop of the subscription panic (`forgotten_future_fails`).
* C125: `subscribe` with 256 to 2^32-1 samples ends the process in an assertion of the binding, although larger numbers are refused with an error (`many_samples_fails`).

## What the seeded edits show

Each line of `seeded/LOG.jsonl` has a field `evidence`. "refuted" means that a property statement (named in the field `refuted`) was
evaluated on a concrete run of the edited model and found false; the run is given in the field `run`. That is more than a failing
proof: a proof can break although the statement is still true, and a lemma under `Proofs` that breaks stops the build before the property
theorem is reached. Lines that begin with "not a bug" are edits after which the claim is still true of the program. One line says
"survived": no property depends on the number of retries of an allocation. Edits that a statement did not notice led to stronger
statements; they are named in the field `tightened`.

## Axioms per theorem

P = `propext`, C = `Classical.choice`, Q = `Quot.sound`, - = none.

* C01: PCQ: store_read, read_store, set_reference_count, set_timestamp, used; PQ: states, valid_timestamp_readable, timestamp_between
* C02: PCQ: no_reader, allocate_result, consumers_keep_off
* C03: PCQ: stable, held_is_sent
* C04: PCQ: increasing, subsequence, no_assertion; PQ: release_delay_terminates
* C05: PCQ: newest_unseen
* C06: PCQ: agrees
* C07: PCQ: iff_free, enough_slots
* C08: PCQ: evicts_oldest
* C09: PCQ: allocate_succeeds, never_terminated, timestamps_agree; PQ: timestamp_corruption_terminates
* C10: PCQ: same_slots, same_samples
* C11: PQ: no_restart_partial, restart_reuses_timestamp; PCQ: above_visible_partial, counter_exhausted
* C12: PCQ: restart, cleanup_undisturbed
* C13: PCQ: max_subscribers, max_samples, subscribe_decision, no_subscriber_overflow
* C14: PCQ: exact_at_rest, bounds, no_underflow; PQ: contention_terminates
* C15: PCQ: exact_count, exact_at_rest, recovered
* C16: PCQ: refused, decides
* C17: PCQ: exact_after_recovery, rollback_subscribed; PQ: rollback_otherwise
* C18: PCQ: exclusive, at_most_n, registers_first_free, fails_when_full, free_iff_unheld, reused_log_is_empty; PQ: unregister_frees
* C19: PCQ: old_logs_recovered_partial, pending_shrinks, error_iff, effects, no_abort; P: one_creation_is_not_enough; PQ: held_slots
* C20: PQ: one_entry, result, own_entry, entry_pid, key_lossless; PCQ: which_result
* C21: PQ: resources_balanced, one_registration
* C22: PQ: state_follows, reported_state, never_terminates; P: double_stop_offer_terminates
* C23: PQ: never_called_again, registration_removed_partial; P: registration_survives_while_pending
* C24: PQ: balanced, never_terminates, all_given_back; PCQ: limit, reserves_what_is_left; P: destroy_gives_one
* C25: PQ: reported; P: counted_once; PCQ: destroyed_while_in_use
* C26: PQ: callback_at_most_once, failed_transmission_violates_debug_assertion; PCQ: answered_when_stopped_partial, answered_when_idle_partial, no_callback_after_error_partial, no_undefined_behaviour_partial; P: callback_after_return, unsolicited_reply_calls_empty_callback, stop_during_sends_queues_command_twice, stop_during_send_blocks_connection_forever
* C27: PCQ: wire_in_order_partial, all_transmitted_partial; PQ: order_is_order_of_admission
* C28: PCQ: one_outstanding_request_partial, reply_to_its_request_partial; P: restart_during_send_misdelivers
* C29: PQ: entries_accounted, rejected_iff_full_partial, capacity_lost
* C30: PQ: follows_diagram_partial; P: first_reason_wins, restart_then_stop_reaches_ready, stop_during_restart_reaches_starting
* C31: PCQ: bounds, growth; PQ: limit
* C32: PCQ: exactly_once, only_registered, never_early, in_order, all_due_run, progress; PQ: clean_up
* C33: P: engine_null_owner_partial; -: queue_null_owner_removes; PQ: queue_null_owner
* C34: PCQ: received_as_sent_partial, client_to_server_partial, server_to_client_partial, buffer_fits, broken_connection_partial, sent_together_partial, undisturbed_partial, in_order; PQ: broken_header_is_a_message, oversized_payload_is_read_as_messages, buffer_of_65536_rejects_everything, call_returns, interleaved_fails, cut_short_fails, payload_cut_is_noticed; P: header_cut_fails
* C35: PQ: distinct_addresses_partial, same_address_iff, long_identifiers_collide; PCQ: lola_channels_distinct
* C36: P: too_long_rejected; PQ: fitting_not_rejected, client_respects_limit, server_respects_limits, server_rejects_iff, reply_fits_buffer
* C37: PCQ: survives_partial, empty_text_is_rejected, nul_is_cut, event_names_are_not_transmitted; PQ: too_large_refused
* C38: PCQ: reads_only_the_span, reads_only_the_span_any_type, depends_on_span_only
* C39: PCQ: independent_of_chunking, reassembled, retry_after_partial_send_loses_framing; P: send_all
* C40: PCQ: own_acknowledgement; PQ: others_unaffected, numbers_are_unique
* C41: PCQ: at_most_five_times, success_means_delivered, success_means_received; P: received_twice, failed_but_received
* C42: PQ: in_arrival_order, acknowledged_first, acknowledged_is_kept, acknowledged_but_dropped; P: next_is_oldest
* C43: PQ: only_listed, only_known_events, no_other_skeleton, refused, provided
* C44: PQ: abort_causes, never_aborts_partial, peer_aborts_by_unregister, peer_aborts_by_notify, lost_acknowledgement_aborts, proxy_race, subscription_race
* C45: PCQ: one_outstanding, follows_subscription, repeated_only_if_outstanding, repeated_once_per_provide, all_registered_again; PQ: failed_registration_is_not_repeated
* C46: PQ: result_exact, aborts_early, sequence_fits; PCQ: aborts_iff, sequence_exact; P: zero_alignment
* C47: PQ: add_exact, absolute_exact, cast_round_trip; -: sub_exact; PCQ: add_signed_exact, sub_pointers_exact, add_mixed_exact, sub_mixed_exact
* C48: PCQ: created, creation_aborts_iff, get_outside, get_inside, copied, copying_succeeds, copied_get, moved; PQ: remapped; P: null_everywhere
* C49: PCQ: get_stays_inside, deref_stays_inside, index_stays_inside_partial, copy_stays_inside_partial; -: index_is_undefined; P: swap_escapes, moved_null_escapes
* C50: PCQ: outside, in_region_partial; P: copied_null, unchecked, null_aborts; -: index_of_null
* C51: PCQ: inside_is_found, found_is_registered, nothing_otherwise_partial, regions_are_disjoint, refused_iff_overlapping, end_is_found
* C52: PCQ: never_overwritten_while_read, unchanged_while_read, sees_a_complete_version, result_is_right, attempt_fails_only_after_a_change, lost_version_stays_lost; P: lookups_go_back, version_lost
* C53: PCQ: never_aborts_partial, reinserted_partial; P: removal_aborts, reinsertion_is_ineffective, removal_of_another
* C54: PCQ: aligned, inside, disjoint, aligned_elsewhere, terminates_only_if, returns_if_it_fits, reported_bytes; P: corrupted_counter_escapes, disturbed_allocation_terminates; PQ: not_aligned_elsewhere
* C55: PCQ: flag_set_partial, flag_set_or_pending_partial, flag_reset; PQ: overtaken_report_silences_event, overtaken_message_silences_event, outdated_node_silences_event
* C56: PQ: at_most_once, interested_throughout_partial; PCQ: exactly_once_partial, who_is_notified, too_many_nodes
* C57: PQ: calls_all_partial, calls_first_five, sixth_handler_not_called, called_only_if_registered, unregistered_not_called, number_wrap_breaks_unregister
* C58: PCQ: subscribe_only_allowed, call_only_subscriber; PQ: anyone_can_unsubscribe, allowed_consumer_can_take_over
* C59: PQ: one_reply_partial, malformed_message_closes, message_during_destruction_crashes, failed_subscription_closes_connection, undefined_reply_aborts_consumer; PCQ: request_is_served, refused_request, requests_are_distinct, one_reply_per_message_partial, consumer_result
* C60: PCQ: told_exactly_partial, told_iff_handler_partial; P: same_process_offers_again, replaced_handler_is_not_counted, reregistration_is_dropped, late_proxy_takes_registration_away; -: messages_out_of_order
* C61: PCQ: reported_is_offered_partial, never_aborts, reported_matches; PQ: phantom_instance
* C62: PCQ: called_on_change_and_not_after_stop, called_only_if_started, handles_are_new, goes_on_until_stopped; PQ: start_is_recorded
* C63: PCQ: accepted_iff; P: keeps_text
* C64: PCQ: strict_weak, incomparable_iff_equal, total; -: type_ignored, raw_type
* C65: PQ: position_outside_rejected; PCQ: position_inside_accepted_partial, slot_inside_partial, slots_apart_partial, queue_inside_region; -: overflow_escapes
* C66: PCQ: holds_exactly, one_incarnation, no_empty_entries; PQ: insert_needs_clean_up
* C67: PCQ: rejected_iff, state_iff
* C68: PCQ: restart_safe_partial; PQ: crash_in_send_terminates, crash_in_allocate_terminates, crash_after_disconnect_terminates
* C69: PQ: slots_referenced_partial, slots_referenced_quiet; P: slots_referenced_exceeded
* C70: PQ: wakes_up_partial, blocks_forever, qnx_wakes_up_partial, qnx_blocks; P: nothing_pending
* C71: PCQ: unmapped_only_if, mapped_partial, registered_is_mapped; PQ: stale_handler_uses_unmapped_memory, foreign_unsubscribe_unmaps_used_memory
* C72: PCQ: terminates_only_if, never_terminates_partial; PQ: restart_in_other_order_terminates, subscription_during_stop_terminates_later, consumer_memory_terminates
* C73: PCQ: subscription_registers, stays_registered, call_is_served
* C74: PCQ: allocated_position_unused, full_iff, held_value_stays, held_distinct, call_passes_arguments, copying_call_passes_arguments, plain_call_position_unused, call_result; -: moved_out_argument_breaks, result_as_argument_breaks
* C75: PCQ: offered_is_visible_partial, visible_is_offered_partial, every_file_has_an_owner, stopped_is_invisible_partial, one_provider_partial, no_termination_partial, offer_succeeds_partial; P: concurrent_offers_break, failed_offer_leaves_file, qm_stop_blocks_offer; -: qm_offer_keeps_stale_b
* C76: PCQ: handler_called; PQ: registered_with_provider, unsubscribe_removes_partial; P: called_after_unsubscribe, registered_after_unsubscribe
* C77: PCQ: one_provider_partial, second_refused_partial, can_be_created; P: two_providers, two_providers_wherever
* C78: PCQ: works_partial, same_memory_partial, stays_same_partial; P: removed_in_use, apart_from_provider, stale_memory
* C79: PCQ: survives_partial, lock_file_owned_partial, can_take_over_partial, can_connect_partial, can_join_partial, killed_consumer_ends_others; PQ: can_offer, offering_again_ends_process, retry_ends_process, not_always_survived
* C80: PCQ: removed_partial, stop_removes_partial, stop_keeps_partial, left_behind
* C81: PCQ: enough_partial, offered_partial, accessor_ends_process; PQ: missing_subscribers_ends_process, over_aligned_ends_process
* C82: PQ: get_is_last, set_is_handler, offer_done_has_value; PCQ: get_answers_once_partial, get_answers_used_partial, set_answers_partial; P: reoffer_loses_value, retry_loses_value
* C83: PQ: offer_all, offer_errors; PCQ: stays_offered_partial, offer_none_partial, offer_succeeds_partial, stop_all; P: second_offer_breaks
* C84: PCQ: no_crash_partial; P: double_offer_crashes, full_field_crashes, get_in_stop_crashes
* C85: PQ: increasing_partial, sets_increasing_partial, all_published, waits_for_set, overlap_hides_later; PCQ: all_given_partial; P: overlap_hides
* C86: PCQ: names_differ, search_paths_differ, instance_is_read_back, addresses_differ; PQ: quality_is_read_back, match_is_exact
* C87: PCQ: identifiers_differ_partial; -: long_identifiers_collide
* C88: PCQ: kept_partial, numbers_differ_partial, all_released, process_lives_partial, traced_if_free_partial; PQ: stop_releases_partial, slots_of_elements_differ, own_slot_exists, send_is_traced, late_callback_releases_other_sample, two_senders_end_process
* C89: PCQ: enabled_iff_asked, slots_exact, element_asks, created_once_lives_partial; PQ: created_again_ends_process
* C90: PCQ: data_of_registered_object, local_data, data_is_current_partial; P: unregistered_handle, not_retried; PQ: trace_is_made
* C91: PQ: off_is_final, loss_not_reported, only_for_a_reason, point_is_off; PCQ: off_iff_partial, loss_reported_partial, off_point_is_not_traced
* C92: PQ: one_connection, right_process, found_is_current, ready_is_reused, broken_is_replaced, user_is_connected, user_is_refused, call_returns, looks_bounded, process_lives, removed_at_once; PCQ: removed_is_stopped, handler_waits_in_vain; P: remove_elsewhere_ends
* C93: PQ: found_was_offered, each_once; PCQ: offered_is_found
* C94: PQ: like_a_struct, wide_alignment_differs; PCQ: arguments_are_objects, call_arrives, serialized_is_found, serialize_stays_inside
* C95: PCQ: session_is_orderly, open_is_polled, descriptors_are_closed, server_is_polled, request_is_offered, received_is_delivered, ready_is_served, only_ready_is_read, session_lasts, failure_ends_session, one_at_a_time_partial, no_fault_partial; PQ: unidentified_is_rejected, failed_accept_terminates, disconnect_outside_terminates; P: callbacks_overlap, error_after_disconnect_fails
* C96: PCQ: stop_ends_sessions, stop_is_quiet, offered_only_when_started, stop_returns, others_go_on
* C97: PCQ: text_round_trip_partial, untraced_round_trip_partial, text_tells_apart, created_is_known, bad_text_is_refused, accepted_has_version, needs_configuration, tracing_slots_are_lost_fails, known_service_terminates_fails, second_time_terminates_fails, second_instance_terminates_fails, empty_object_terminates_fails
* C98: PCQ: equal_iff_same, equal_is_equivalence, less_iff, less_is_strict, sets_work_partial, compatible_is, equal_but_different_hash_fails, order_is_not_weak_fails, different_but_not_ordered_fails; PQ: same_hash_partial
* C99: PCQ: valid_iff, name_is_kept
* C100: PCQ: loaded_iff_compatible, loaded_is_union, failed_merge_keeps, entries_stay, names_stay, created_breaks_addon_fails; PQ: resolves_to, configured_resolve
* C101: PQ: accepted_iff_consistent, error_is_there, default_is_not_checked_fails; PCQ: started_is_consistent; P: methods_are_not_checked_fails
* C102: PCQ: known_names_resolve, no_termination, loading_ends; PQ: answers_are_right, loaded_is_there, loaded_is_checked, entries_stay
* C103: PQ: only_allowed_connect, listed_connect, data_is_for_consumers, unrestricted_connect_partial, strict_is_closed, empty_list_refuses_methods_fails; P: control_is_separate, data_is_read_only, only_allowed_subscribe, allowed_subscribe_partial, calls_are_private, calls_come_from_subscriber, calls_are_opened, only_subscriber_calls; -: empty_provider_list_fails, other_list_restricts_fails, same_user_has_no_methods_fails
* C104: PCQ: no_fault_partial, own_place_partial, no_leak_partial, allocate_partial, send_partial, send_refused, send_copy_partial, give_back_partial, write_partial, event_outlives, event_ends, content_partial; PQ: allocate_refused, published_stays, offer_frees; P: ends_after_stop_offer_fails, send_after_stop_offer_fails, kept_pointer_fails, other_event_fails, empty_pointer_fails, assign_keeps_fails
* C105: PCQ: no_fault_partial, own_elements, one_variable, moved_from_is_empty, nothing_is_left, move_keeps, assign_replaces, destroy_ends, held_sample_blocks, release_is_fine, offer_is_own, stop_offer_is_own, subscribe_is_own, unsubscribe_is_own; PQ: assign_self; P: move_again_fails, call_moved_from_fails
* C106: PCQ: same_place_partial, apart_partial, kept_apart_partial, offers, distinct, wrong_type_refused, provided_iff, generic_events, sample_size, reopen_partial, generic_after_typed; P: reopen_other_type_fails, typed_after_generic_fails; -: wrap_fails
* C107: PCQ: kept_partial, no_fault, nothing_lost, drop_gives_back, assign_replaces, reset_replaces, reusable, limit_partial, compare_by_time; PQ: get_new, move_moves; P: swap_swaps, null_compares, assigned_from_fails, limit_fails
* C108: PCQ: enabled_iff_partial, loads_partial, calls_traced_partial, calls_only_wanted, sends_traced_partial, sends_only_wanted, no_filter_no_trace, calls_switched_off, sends_switched_off, state_points_fails, nul_fails, long_fails
* C109: PCQ: follows_partial, alive_partial, offer_registers_partial, until_stop_partial; PQ: stop_unregisters_partial, untraced_is_never_registered, offer_succeeds_iff, stop_ends_offer, typed_iff, ends_iff; P: failed_offer_fails, second_offer_fails, switched_off_fails
* C110: PCQ: no_loss_no_repeat, pings_arrive, notify_answers, reply_answers, replies_are_awaited, left_behind, pulses_are_handled, all_arrive_partial, in_order_partial, behind_forever_fails; P: stays_behind_fails; PQ: reply_stays_behind_fails; -: ping_overtakes_fails, message_overtakes_fails, second_reply_fails
* C111: PCQ: pulse_value_round_trip, reaches_its_endpoint, pulse_is_sent, slot_is_given, stale_is_ignored_partial, values_differ, only_registered, disconnected_once, nothing_after_disconnect, cleaned_up, unregistered, nonce_wraps_fails
* C112: PCQ: answers_were_sent, not_torn, sent_by, given_back, send_alone, answered, send_ends, undisturbed_partial, alone_partial, atomic_partial, never_backwards_partial, stamps_partial; P: get_without_value_fails, set_is_lost_fails; PQ: goes_back_fails
* C113: PCQ: orderly, offered, only_what_was_written_partial, stop_ends_all_partial, defined_partial; PQ: delivered_partial, ends_for_a_reason, close_ends, listening, long_message_fails, stale_bytes_fails, out_of_buffer_fails, second_start_fails, failed_start_fails, accepted_but_gone_fails, second_request_fails
* C114: -: initialised_partial, once_partial, held_partial, same_partial, stays, stale_fails
* C115: -: creates_partial, opens_partial, lock_given_back, there_is_got_partial, again, both_fail_fails, open_disturbs_create_fails, slow_callback_fails, killed_blocks_fails, killed_ends_fails, patient, survives_partial
* C116: -: one_partial, kept, failed_open_unregisters_fails, create_again_ends_fails, open_while_released_ends_fails, provider_partial, typed_fails, writable, writable_needs_consistency
* C117: PCQ: as_written_partial, one_meaning, section_found, found_is_written, type_found, ids_differ, event_traced_iff, field_traced_iff, tracing_default_fails, use_default_fails, several_instances_fails, unknown_member_fails, second_binding_fails, no_slots_fails, same_service_id_fails
* C118: PCQ: nothing_after, returns_partial, told_once, endpoint_kept, endpoint_called, at_most_once, command_kept; PQ: nothing_after_here, both_wait_fails, callback_cleans_fails, server_thread_fails; P: null_owner
* C119: PCQ: no_lost_wakeup, in_order, bounded, counts, resolves, try_receive, giving_up, handler_refused, validation, cancellation, stream_complete, next_item, no_panic_partial; P: stream_begins, cancel_wakes, several_polls_fails, small_container_fails, full_window_fails, not_shrunk_fails, full_stream_fails
* C120: PCQ: no_lost_wakeup, poll_result, result_is_latest, stopped_partial, error_means_not_started, not_polled_fails, closure_leaks_fails
* C121: PCQ: path_named, path_missing, used_is_expected, one_runtime, kept_is_read, ignored_only_after_use, call_returns, used_is_valid_partial, used_is_valid_fails; PQ: goes_on
* C122: PCQ: handlers_one_at_a_time, no_call_after_stop, quiet_after_stop_partial, handles_unique, start_result, known_is_told, news_is_told, unknown_name_fails, calls_return; P: second_stop_fails
* C123: PQ: gateway_as_written, accepted_iff, misspelled_fails; PCQ: socket_as_written, comes_up_iff, forwarded_searched, schema_accepted_partial, port_fails; P: no_layer_fails
* C124: PCQ: no_call_after_destructor, handlers_on_known_thread, nothing_bad, in_order, events_handled, destructor_returns_partial, lost_pulse_fails, own_thread_fails
* C125: PQ: in_force, samples_within, giving_up_partial, held_samples_fails, forgotten_future_fails, many_samples_fails; PCQ: subscribe_result, process_lives_partial
