{"id": "C01", "title": "Slot status word is lossless", "statement": "For every timestamp and reference count that can be stored in the 64-bit slot status word, reading back the timestamp and the reference count yields exactly the stored values; changing the reference count never alters the timestamp; and the three states 'invalid', 'being written' and 'readable' are mutually exclusive.", "quantifier": "all 2^64 words and all pairs of 32-bit timestamp / reference count", "why_tests_cant": "2^64 words cannot be enumerated; unit tests sample a handful", "anchors": ["score/mw/com/impl/bindings/lola/event_slot_status.h: EventSlotStatus", "score/mw/com/impl/bindings/lola/event_slot_status.cpp: GetReferenceCount, GetTimeStamp, SetReferenceCount, SetTimeStamp, IsInvalid, IsInWriting, IsUsed, IsTimeStampBetween"]}
{"id": "C02", "title": "A slot given to the provider is not being read", "statement": "Whenever the provider's Allocate call returns a slot, no consumer holds a SamplePtr to that slot, and no consumer can obtain one until the provider sends or discards the sample.", "quantifier": "every interleaving of the atomic steps of one provider and any number of consumers, any number of slots, any length of history", "why_tests_cant": "depends on the schedule of lock-free CAS/fetch operations of several processes; a test runs a few schedules", "anchors": ["score/mw/com/impl/bindings/lola/provider_event_data_control_local_view.cpp: AllocateNextSlot, TryAllocateSlot, FindOldestUnusedSlot, EventReady, Discard", "score/mw/com/impl/bindings/lola/consumer_event_data_control_local_view.cpp: ReferenceNextEvent, DereferenceEvent"]}
{"id": "C03", "title": "Sample data stays stable while a consumer holds it", "statement": "As long as a consumer holds a SamplePtr, the bytes it can read through it are exactly the bytes the provider sent for that sample: they are never overwritten by a later Allocate/Send.", "quantifier": "every interleaving of provider writes and consumer reads, any number of slots/consumers/sends", "why_tests_cant": "torn or overwritten samples only show up under particular interleavings", "anchors": ["score/mw/com/impl/bindings/lola/provider_event_data_control_local_view.cpp", "score/mw/com/impl/bindings/lola/consumer_event_data_control_local_view.cpp", "score/mw/com/impl/bindings/lola/slot_decrementer.cpp", "score/mw/com/impl/bindings/lola/sample_ptr.h", "score/mw/com/impl/bindings/lola/skeleton_event_common.h: Send"]}
{"id": "C04", "title": "GetNewSamples delivers strictly increasing samples without duplicates", "statement": "Over the life of a subscription, the concatenation of the samples handed to the GetNewSamples callback is strictly increasing in send order: no sample is delivered twice, and never an older one after a newer one.", "quantifier": "every sequence of GetNewSamples calls with arbitrary max counts, whatever the provider and the other consumers do to the slots between and during the calls", "why_tests_cant": "ranges over all concurrent modifications of the slots during the scan", "anchors": ["score/mw/com/impl/bindings/lola/slot_collector.cpp: GetNewSamplesSlotIndices, CollectSlots", "score/mw/com/impl/bindings/lola/consumer_event_data_control_local_view.cpp: ReferenceNextEvent"]}
{"id": "C05", "title": "GetNewSamples returns the newest unseen samples", "statement": "With no concurrent activity, GetNewSamples(n) delivers exactly the min(n, available) newest samples the consumer has not seen yet, in send order; samples older than the last one seen are never delivered.", "quantifier": "every slot content and every max count", "why_tests_cant": "slot contents are unbounded combinations of states, timestamps and reference counts", "anchors": ["score/mw/com/impl/bindings/lola/slot_collector.cpp: CollectSlots", "score/mw/com/impl/bindings/lola/consumer_event_data_control_local_view.cpp: ReferenceNextEvent"]}
{"id": "C06", "title": "GetNumNewSamplesAvailable agrees with GetNewSamples", "statement": "With no concurrent activity, GetNumNewSamplesAvailable returns the number of samples an immediately following GetNewSamples with sufficient max count delivers.", "quantifier": "every slot content and last-seen timestamp", "why_tests_cant": "two separate scans must agree on every slot content", "anchors": ["score/mw/com/impl/bindings/lola/consumer_event_data_control_local_view.cpp: GetNumNewEvents", "score/mw/com/impl/bindings/lola/slot_collector.cpp: GetNumNewSamplesAvailable"]}
{"id": "C07", "title": "Allocate succeeds when a slot is free, and only then", "statement": "With no concurrent activity, Allocate succeeds exactly if some slot is neither being written nor referenced; in particular it succeeds whenever there are more slots than outstanding SamplePtrs plus allocated samples.", "quantifier": "every slot content, any number of slots and references", "why_tests_cant": "pigeonhole over unbounded numbers of slots and references", "anchors": ["score/mw/com/impl/bindings/lola/provider_event_data_control_local_view.cpp: AllocateNextSlot, FindOldestUnusedSlot"]}
{"id": "C08", "title": "Allocate evicts the oldest free sample", "statement": "If Allocate reuses a slot holding a readable sample, then no never-used slot was available and no other free slot held an older sample.", "quantifier": "every slot content", "why_tests_cant": "ranges over all slot contents", "anchors": ["score/mw/com/impl/bindings/lola/provider_event_data_control_local_view.cpp: FindOldestUnusedSlot"]}
{"id": "C09", "title": "QM consumers cannot block ASIL-B delivery", "statement": "Whatever QM consumers do to the reference counts of the QM control slots, an ASIL-B provider's Allocate succeeds whenever the ASIL-B control has a free slot.", "quantifier": "every QM slot content that differs only in reference counts and every ASIL-B slot content", "why_tests_cant": "adversarial QM behaviour is unbounded", "anchors": ["score/mw/com/impl/bindings/lola/event_data_control_composite.cpp: AllocateNextSlot, AllocateNextMultiSlot, GetNextFreeMultiSlot"]}
{"id": "C10", "title": "QM and ASIL-B consumers see the same samples", "statement": "As long as the QM side was never disconnected, after every Send/Discard each slot has the same timestamp in the QM and in the ASIL-B control, so both kinds of consumers see the same set of samples.", "quantifier": "every sequence of provider operations and reference/dereference operations of QM and ASIL-B consumers", "why_tests_cant": "depends on unbounded histories", "anchors": ["score/mw/com/impl/bindings/lola/event_data_control_composite.cpp: AllocateNextSlot, EventReady, Discard"]}
{"id": "C11", "title": "Send order timestamps increase, also across a provider restart", "statement": "Every sample sent gets a timestamp greater than that of every sample sent before, including samples sent before the provider process restarted, so that consumers do not miss samples.", "quantifier": "every history of sends, discards and restarts, of any length", "why_tests_cant": "counter wrap-around needs 2^32 sends; restart histories are unbounded", "anchors": ["score/mw/com/impl/bindings/lola/skeleton_event_common.h: Send, UpdateCurrentTimestamp", "score/mw/com/impl/bindings/lola/event_data_control_composite.cpp: GetLatestTimestamp"]}
{"id": "C12", "title": "Provider restart reclaims unfinished allocations", "statement": "After a provider crash at any point and restart, no slot remains in the 'being written' state and every other slot is unchanged.", "quantifier": "every crash point and slot content", "why_tests_cant": "crash points are unbounded", "anchors": ["score/mw/com/impl/bindings/lola/provider_event_data_control_local_view.cpp: RemoveAllocationsForWriting"]}
{"id": "C13", "title": "Subscription limits are respected", "statement": "At every moment the number of successful subscriptions does not exceed max_subscribers and, when enforced, the sum of the subscribed sample counts does not exceed the number of slots.", "quantifier": "every interleaving of concurrent Subscribe and Unsubscribe calls of any number of proxies", "why_tests_cant": "CAS retry loops of several processes; schedules are unbounded", "anchors": ["score/mw/com/impl/bindings/lola/event_subscription_control.cpp: Subscribe, Unsubscribe"]}
{"id": "C14", "title": "Subscription accounting is exact", "statement": "The shared subscription state always equals the number of currently subscribed proxies and the sum of their sample counts; a matching Unsubscribe therefore never terminates the process because of an underflow.", "quantifier": "every interleaving and history of matched Subscribe/Unsubscribe calls", "why_tests_cant": "16-bit wrap-around and interleavings are not reachable by samples", "anchors": ["score/mw/com/impl/bindings/lola/event_subscription_control.cpp: Subscribe, Unsubscribe"]}
{"id": "C15", "title": "No sample reference leaks when a consumer crashes", "statement": "If a consumer process dies at any point while taking or releasing sample references and its transaction log is rolled back successfully, the slots' reference counts are exactly the references held by the surviving consumers.", "quantifier": "every crash point, every history of reference/dereference operations, any number of slots and surviving consumers", "why_tests_cant": "crash points between any two atomic steps", "anchors": ["score/mw/com/impl/bindings/lola/transaction_log_local_view.cpp: ReferenceTransactionBegin/Commit/Abort, DereferenceTransactionBegin/Commit, RollbackProxyElementLog", "score/mw/com/impl/bindings/lola/consumer_event_data_control_local_view.cpp"]}
{"id": "C16", "title": "Rollback refuses ambiguous logs", "statement": "If a consumer died between the begin and the end of a reference transaction, rollback reports an error rather than decrementing a reference count that might not have been incremented.", "quantifier": "every crash point and log content", "why_tests_cant": "crash points between any two atomic steps", "anchors": ["score/mw/com/impl/bindings/lola/transaction_log_local_view.cpp: RollbackIncrementTransactions, RollbackSubscribeTransactions"]}
{"id": "C17", "title": "No subscription leaks when a consumer crashes", "statement": "If a consumer dies at any point of subscribing or unsubscribing and its log is rolled back successfully, the shared subscription state accounts exactly for the surviving subscribers.", "quantifier": "every crash point", "why_tests_cant": "crash points between any two atomic steps", "anchors": ["score/mw/com/impl/bindings/lola/transaction_log_local_view.cpp: SubscribeTransactionBegin/Commit/Abort, UnsubscribeTransactionBegin/Commit, RollbackSubscribeTransactions", "score/mw/com/impl/bindings/lola/subscription_helpers.cpp", "score/mw/com/impl/bindings/lola/subscription_not_subscribed_states.cpp"]}
{"id": "C18", "title": "Each subscriber has its own transaction log", "statement": "Two live registrations never share a transaction log, the number of live registrations never exceeds the configured maximum, registration succeeds as long as a log is free, and an unregistered log can be used again.", "quantifier": "every interleaving of register/unregister calls of any number of processes", "why_tests_cant": "concurrent CAS acquisition; unbounded histories", "anchors": ["score/mw/com/impl/bindings/lola/transaction_log_set.cpp: RegisterProxyElement, AcquireNextAvailableSlot, Unregister"]}
{"id": "C19", "title": "A restarted consumer's logs are all rolled back", "statement": "After a proxy for a service instance is created by a restarted consumer, every transaction log left behind by its previous incarnation for that element is either rolled back and free again, or an error was reported.", "quantifier": "every content of the log set and number of old logs", "why_tests_cant": "unbounded numbers of leftover logs and failure combinations", "anchors": ["score/mw/com/impl/bindings/lola/transaction_log_set.cpp: MarkTransactionLogsNeedRollback, RollbackProxyTransactions", "score/mw/com/impl/bindings/lola/transaction_log_rollback_executor.cpp"]}
{"id": "C20", "title": "Application-id to pid registration is unique", "statement": "Concurrent pid registrations never create two entries for the same application id, and each registering application reads back the pid of its previous incarnation if there is an entry for it when it calls, and its own pid otherwise.", "quantifier": "every interleaving of concurrent registrations by distinct applications", "why_tests_cant": "CAS-based slot acquisition; schedules are unbounded", "anchors": ["score/mw/com/impl/bindings/lola/application_id_pid_mapping.cpp: RegisterPid, TryUpdatePidForExistingId", "score/mw/com/impl/bindings/lola/application_id_pid_mapping_entry.cpp"]}
{"id": "C21", "title": "Subscribe/Unsubscribe resource balance", "statement": "In every history of Subscribe, Unsubscribe, provider disappearance and reappearance, the proxy event holds exactly one subscription (with its slots and transaction log) while it is subscribed or pending and none otherwise.", "quantifier": "every sequence of API calls and service availability events", "why_tests_cant": "unbounded histories", "anchors": ["score/mw/com/impl/bindings/lola/subscription_state_machine.cpp", "score/mw/com/impl/bindings/lola/subscription_not_subscribed_states.cpp", "score/mw/com/impl/bindings/lola/subscription_subscribed_states.cpp", "score/mw/com/impl/bindings/lola/subscription_subscription_pending_states.cpp"]}
{"id": "C22", "title": "Subscription state follows provider availability", "statement": "While subscribed, the reported subscription state is kSubscribed exactly if the provider is available, and kSubscriptionPending otherwise; without Subscribe it is kNotSubscribed.", "quantifier": "every sequence of API calls and availability events that alternates stop-offer and re-offer", "why_tests_cant": "unbounded histories", "anchors": ["score/mw/com/impl/bindings/lola/subscription_state_machine.cpp", "score/mw/com/impl/bindings/lola/subscription_subscription_pending_states.cpp"]}
{"id": "C23", "title": "An unset receive handler is never called again", "statement": "After UnsetReceiveHandler returned, no notification registration for the handler remains or is re-established, unless SetReceiveHandler is called again.", "quantifier": "every sequence of API calls and availability events", "why_tests_cant": "unbounded histories", "anchors": ["score/mw/com/impl/bindings/lola/subscription_subscription_pending_states.cpp: UnsetReceiveHandler, ReOfferEvent", "score/mw/com/impl/bindings/lola/subscription_subscribed_states.cpp: UnsetReceiveHandler"]}
{"id": "C24", "title": "A subscriber never holds more samples than it subscribed for", "statement": "The number of SamplePtrs alive plus reserved guards never exceeds the max sample count of the subscription, the counter never exceeds its maximum, and every destroyed SamplePtr gives exactly one slot back.", "quantifier": "every interleaving of GetNewSamples calls and SamplePtr destructions from any number of threads", "why_tests_cant": "CAS loops and concurrent destruction", "anchors": ["score/mw/com/impl/sample_reference_tracker.cpp: Allocate, Deallocate, TakeGuard, TrackerGuardFactory"]}
{"id": "C25", "title": "A provider's allocatee guards are balanced", "statement": "The number of outstanding SampleAllocateePtrs reported by the tracker always equals allocations minus releases.", "quantifier": "every interleaving", "why_tests_cant": "concurrent increments/decrements", "anchors": ["score/mw/com/impl/sample_allocatee_tracker.cpp", "score/mw/com/impl/sample_allocatee_guard.cpp"]}
{"id": "C26", "title": "Every accepted request is answered exactly once", "statement": "For every SendWaitReply / SendWithCallback that was accepted, the reply callback is invoked exactly once - with the reply or with an error - no matter when the connection is closed or stopped.", "quantifier": "every history of sends, replies, errors, stops and restarts, for every configuration", "why_tests_cant": "unbounded histories, queueing and disconnect points", "anchors": ["score/message_passing/client_connection.cpp: SendWithCallback, ProcessInputEvent, ProcessSendQueueUnderLock, SwitchToStopState"]}
{"id": "C27", "title": "Queued messages keep their order and are not lost", "statement": "With fully ordered mode, messages reach the wire in the order in which the Send* calls were accepted, and while the connection stays up and transmissions succeed every accepted message reaches it.", "quantifier": "every history of calls and replies", "why_tests_cant": "unbounded histories", "anchors": ["score/message_passing/client_connection.cpp: Send, SendWithCallback, ProcessSendQueueUnderLock"]}
{"id": "C28", "title": "At most one request is outstanding", "statement": "The client never has two requests on the wire whose replies are both outstanding, so a reply is always delivered to the callback of the request it answers.", "quantifier": "every history of calls, replies and errors", "why_tests_cant": "unbounded histories", "anchors": ["score/message_passing/client_connection.cpp: SendWithCallback, ProcessInputEvent, ProcessSendQueueUnderLock"]}
{"id": "C29", "title": "The send queue capacity is never lost", "statement": "The number of messages that can be queued concurrently equals the configured capacity at all times, also after the connection was stopped and restarted.", "quantifier": "every history including stop and restart", "why_tests_cant": "unbounded histories", "anchors": ["score/message_passing/client_connection.cpp: TryQueueMessage, ProcessSendQueueUnderLock, SwitchToStopState, DoRestart"]}
{"id": "C30", "title": "Connection state diagram", "statement": "GetState only moves along the documented diagram: Starting->Ready, Starting/Ready->Stopping, Stopping->Stopped, Stopped->Starting (Restart); the stop reason is the first reason reported.", "quantifier": "every interleaving of Stop/Restart calls with the engine's connect and input processing", "why_tests_cant": "races between user thread and engine thread", "anchors": ["score/message_passing/client_connection.cpp: Stop, Restart, TryConnect, TrySetStopReason, ProcessStateChange, SwitchToStopState", "score/message_passing/i_client_connection.h: State"]}
{"id": "C31", "title": "Connect retry back-off is monotone and bounded", "statement": "The delays between connect attempts start at 50 ms, never decrease, grow until the limit and never exceed 5000 ms.", "quantifier": "every number of failed attempts", "why_tests_cant": "unbounded number of retries", "anchors": ["score/message_passing/client_connection.cpp: TryConnect, kConnectRetryMsStart, kConnectRetryT, kConnectRetryMsMax"]}
{"id": "C32", "title": "Timed commands run in due order, once, never early", "statement": "Every registered timed command is run exactly once unless its owner was cleaned up first; commands run in the order of their due time, with equal due times in registration order, never before they are due and all due ones are run.", "quantifier": "every sequence of registrations, clean-ups and processing calls with any times", "why_tests_cant": "unbounded histories", "anchors": ["score/message_passing/timed_command_queue.cpp: RegisterTimedEntry, ProcessQueue, CleanUpOwner"]}
{"id": "C33", "title": "Clean-up of a null owner removes nothing", "statement": "CleanUpOwner(nullptr) leaves every pending command in the queue (documented behaviour).", "quantifier": "every queue content", "why_tests_cant": "every queue content", "anchors": ["score/message_passing/timed_command_queue.h: CleanUpOwner", "score/message_passing/timed_command_queue.cpp: CleanUpOwner"]}
{"id": "C34", "title": "Unix-domain frames are received as sent", "statement": "Every sequence of messages sent over a connection is received as the same sequence of codes and payloads, for every payload the API accepts.", "quantifier": "every sequence of messages with sizes up to the configured maximum", "why_tests_cant": "payload sizes and sequences are unbounded", "anchors": ["score/message_passing/unix_domain/unix_domain_engine.cpp: SendProtocolMessage, ReceiveProtocolMessage"]}
{"id": "C35", "title": "Distinct services get distinct socket addresses", "statement": "Two different service identifiers never map to the same socket address.", "quantifier": "every pair of identifiers", "why_tests_cant": "pairs of strings are unbounded", "anchors": ["score/message_passing/unix_domain/unix_domain_socket_address.h: UnixDomainSocketAddress"]}
{"id": "C36", "title": "Size limits are enforced", "statement": "No message longer than the negotiated maximum is ever put on the wire by Send, SendWaitReply, SendWithCallback, Reply or Notify; such calls fail with EMSGSIZE and have no other effect.", "quantifier": "every message size and connection state", "why_tests_cant": "sizes and states are unbounded", "anchors": ["score/message_passing/client_connection.cpp: Send, SendWaitReply, SendWithCallback", "score/message_passing/unix_domain/unix_domain_server.cpp: Reply, Notify"]}
{"id": "C37", "title": "Gateway messages survive serialisation", "statement": "Every gateway message (provide/offer/stop-offer service, notification register/unregister/update, acknowledge) deserialises to an equal message.", "quantifier": "all field values (strings, lists, integers) that fit the payload limit", "why_tests_cant": "unbounded strings and lists", "anchors": ["score/mw/com/gateway/transport_layer/sample/messages/serialization.h", "score/mw/com/gateway/transport_layer/sample/messages/gateway_messages.cpp"]}
{"id": "C38", "title": "Deserialisation never reads past the buffer", "statement": "For every byte string received from the peer, deserialisation terminates with a message or an error and never reads outside the received bytes.", "quantifier": "all byte strings", "why_tests_cant": "all byte strings", "anchors": ["score/mw/com/gateway/transport_layer/sample/messages/serialization.h: Deserialize"]}
{"id": "C39", "title": "Framing is independent of chunking", "statement": "Messages sent over a byte stream are reassembled identically whatever the chunk sizes in which the stream is delivered.", "quantifier": "every sequence of messages and every chunking of the stream", "why_tests_cant": "chunkings are unbounded", "anchors": ["score/mw/com/gateway/transport_layer/sample/message_framer.cpp: SendAll, ReceiveAll, SendMessage, ReceiveMessage"]}
{"id": "C40", "title": "Acknowledgements are matched to their request", "statement": "A request succeeds only if an acknowledgement carrying its own sequence number arrived while it was pending; acknowledgements for other requests never complete it.", "quantifier": "every interleaving of requests and acknowledgements", "why_tests_cant": "concurrent requests and late acknowledgements", "anchors": ["score/mw/com/gateway/transport_layer/sample/pending_request_tracker.cpp", "score/mw/com/gateway/transport_layer/sample/bidirectional_transport.cpp: SendRequest, HandleIncomingMessage"]}
{"id": "C41", "title": "Requests are sent at most five times and a success means delivery", "statement": "SendRequest transmits a request at most five times, always with the same sequence number; if it reports success, the peer has received the request at least once.", "quantifier": "every pattern of send failures, lost acks and disconnects", "why_tests_cant": "failure patterns are unbounded", "anchors": ["score/mw/com/gateway/transport_layer/sample/bidirectional_transport.cpp: SendRequest"]}
{"id": "C42", "title": "Requests are dispatched in arrival order, acknowledged first", "statement": "Incoming requests are handled in arrival order and each handled request was acknowledged before.", "quantifier": "every sequence of incoming messages", "why_tests_cant": "unbounded sequences", "anchors": ["score/mw/com/gateway/transport_layer/sample/bidirectional_transport.cpp: HandleIncomingMessage, DispatchLoop"]}
{"id": "C43", "title": "Only whitelisted services cross the gateway", "statement": "No skeleton is created or offered on behalf of the remote side for a service instance that is not in the configured list.", "quantifier": "every sequence of remote requests", "why_tests_cant": "unbounded sequences of remote input", "anchors": ["score/mw/com/gateway/gateway_application/gateway_application.cpp: ProvideService, IsServiceInstanceAccepted, OfferService"]}
{"id": "C44", "title": "Remote input cannot abort the gateway", "statement": "No sequence of well-formed messages from the peer gateway and no sequence of local service availability changes terminates the gateway process.", "quantifier": "every sequence of peer messages and availability events", "why_tests_cant": "adversarial sequences are unbounded", "anchors": ["score/mw/com/gateway/gateway_application/gateway_application.cpp: UnregisterUpdateNotification, NotifyUpdate, OnServiceUnavailable, PropagateService"]}
{"id": "C45", "title": "One notification registration per event", "statement": "For every event at most one register-notification request is outstanding at the peer, however often local subscription states change. When the peer provides a service again, exactly the outstanding registrations are repeated, each once.", "quantifier": "every sequence of subscription state changes and peer messages", "why_tests_cant": "unbounded sequences", "anchors": ["score/mw/com/gateway/gateway_application/gateway_application.cpp: OnSubscriptionStateChanged, ReRegisterActiveEventSubscriptions"]}
{"id": "C46", "title": "Aligned sizes are exact", "statement": "CalculateAlignedSize(size, align) returns the smallest multiple of align that is at least size, or aborts; for power-of-two alignments it aborts exactly if that multiple is not representable. The size of a sequence accommodates each element at an aligned offset behind its predecessors and is the smallest end of such a placement.", "quantifier": "all 64-bit sizes, alignments and sequences", "why_tests_cant": "the domain is too large to enumerate; overflow boundaries", "anchors": ["score/memory/shared/pointer_arithmetic_util.h: CalculateAlignedSize", "score/memory/shared/pointer_arithmetic_util.cpp: CalculateAlignedSizeOfSequence"]}
{"id": "C47", "title": "Offset arithmetic is exact or aborts", "statement": "Adding/subtracting offsets to/from addresses and mixing signed and unsigned offsets yields the mathematically exact result, or aborts exactly when it is not representable.", "quantifier": "all 64-bit operands", "why_tests_cant": "2^128 operand pairs", "anchors": ["score/memory/shared/pointer_arithmetic_util.cpp: AddOffsetToPointerAsInteger, AddSignedOffsetToPointerAsInteger, SubtractOffsetFromPointerAsInteger, SubtractPointersBytes", "score/memory/shared/pointer_arithmetic_util.h: AddUnsignedToSigned, SubtractUnsignedFromSigned, AbsoluteValue, UndoSignedToUnsignedIntegerCast"]}
{"id": "C48", "title": "OffsetPtr designates the same object wherever it is copied", "statement": "An OffsetPtr created from a pointer returns this pointer; copying it to any other address - inside the same region, to another mapping of the region, or onto the stack - still designates the same object.", "quantifier": "all addresses, regions and chains of copies", "why_tests_cant": "address pairs and copy chains are unbounded", "anchors": ["score/memory/shared/offset_ptr.h: CalculateOffsetFromPointer, CalculatePointerFromOffset, CopyFrom, get"]}
{"id": "C49", "title": "A corrupted OffsetPtr cannot leave its region", "statement": "Dereferencing an OffsetPtr residing in a shared-memory region either yields an object lying completely inside that region or aborts, for every offset value an untrusted process may have written.", "quantifier": "all offsets, addresses and region tables", "why_tests_cant": "2^64 offsets times all region layouts", "anchors": ["score/memory/shared/offset_ptr_bounds_check.cpp: DoesOffsetPtrInSharedMemoryPassBoundsChecks, DoesOffsetPtrNotInSharedMemoryPassBoundsChecks", "score/memory/shared/offset_ptr.h: GetPointerWithBoundsCheck"]}
{"id": "C50", "title": "Null OffsetPtr reads as nullptr", "statement": "get() on a null OffsetPtr returns nullptr wherever the OffsetPtr resides.", "quantifier": "all addresses and region tables", "why_tests_cant": "all region layouts", "anchors": ["score/memory/shared/offset_ptr.h: get, GetPointerWithBoundsCheck"]}
{"id": "C51", "title": "Region lookup finds exactly the containing region", "statement": "GetBoundsFromAddress returns the bounds of the registered region containing the address, if any, and nothing otherwise.", "quantifier": "every history of region registration/removal and every address", "why_tests_cant": "unbounded histories", "anchors": ["score/memory/shared/memory_region_map.cpp: UpdateKnownRegion, RemoveKnownRegion, GetBoundsFromAddress"]}
{"id": "C52", "title": "Region table readers see a consistent version", "statement": "A lookup that runs concurrently with registrations sees some complete version of the table, which is not modified while it is read.", "quantifier": "every interleaving of one writer and any number of readers", "why_tests_cant": "lock-free multi-version scheme; schedules are unbounded", "anchors": ["score/memory/shared/memory_region_map.cpp: AcquireLatestRegionVersionForRead, AcquireRegionVersionForOverwrite, UpdateKnownRegion"]}
{"id": "C53", "title": "Registry insert/remove pairing", "statement": "A memory resource whose registration was rejected can be removed (or re-inserted) without aborting the process.", "quantifier": "every history of insert/remove", "why_tests_cant": "unbounded histories", "anchors": ["score/memory/shared/memory_resource_registry.cpp: insert_resource, remove_resource"]}
{"id": "C54", "title": "Shared-memory allocations never overlap", "statement": "All blocks returned by allocate on a shared memory resource are aligned as requested, lie inside the usable part of the region, and are pairwise disjoint.", "quantifier": "every interleaving of allocations by any number of threads/processes with any sizes and alignments", "why_tests_cant": "CAS loop of several processes; schedules are unbounded", "anchors": ["score/memory/shared/shared_memory_resource.cpp: do_allocate_with_indirector, do_allocation_algorithm, initializeControlBlock"]}
{"id": "C55", "title": "Providers with interested consumers notify them", "statement": "The 'somebody wants notifications' flag a provider event uses to decide whether to send update notifications is true whenever the event is offered and a local handler or an interested remote node is registered, and false once the offer has been withdrawn.", "quantifier": "every interleaving of register/unregister calls and messages", "why_tests_cant": "callbacks run outside the locks; schedules are unbounded", "anchors": ["score/mw/com/impl/bindings/lola/messaging/message_passing_service_instance.cpp: RegisterEventNotification, UnregisterEventNotification, HandleRegisterNotificationMsg, HandleUnregisterNotificationMsg, HandleOutdatedNodeIdMsg"]}
{"id": "C56", "title": "Every interested node is notified exactly once per update", "statement": "NotifyEvent sends exactly one notification to every interested node.", "quantifier": "every set of interested nodes", "why_tests_cant": "sets of nodes are unbounded; buffer boundaries", "anchors": ["score/mw/com/impl/bindings/lola/messaging/message_passing_service_instance.cpp: NotifyEventRemote", "score/mw/com/impl/bindings/lola/messaging/node_identifier_copier.h: CopyNodeIdentifiers"]}
{"id": "C57", "title": "Every local receive handler is called per update", "statement": "An update notification calls all receive handlers registered for the event.", "quantifier": "every number of registered handlers", "why_tests_cant": "unbounded numbers of handlers", "anchors": ["score/mw/com/impl/bindings/lola/messaging/message_passing_service_instance.cpp: NotifyEventLocally"]}
{"id": "C58", "title": "Only allowed consumers can subscribe to or call methods", "statement": "A service method handler is only invoked for a caller whose uid is allowed (subscribe) or is the uid that subscribed (call).", "quantifier": "every sequence of messages by any callers", "why_tests_cant": "adversarial message sequences", "anchors": ["score/mw/com/impl/bindings/lola/messaging/message_passing_service_instance.cpp: CallSubscribeServiceMethodLocally, CallServiceMethodLocally"]}
{"id": "C59", "title": "Every method message gets one defined reply", "statement": "Each method message with reply leads to exactly one reply; a recoverable error keeps the connection, an unrecoverable one closes it; no undefined behaviour, also while the service is being destroyed.", "quantifier": "every message, handler result and destruction point", "why_tests_cant": "races with destruction", "anchors": ["score/mw/com/impl/bindings/lola/messaging/message_passing_service_instance.cpp: CreateSendMessageWithReplyCallback, MessageCallbackWithReply"]}
{"id": "C60", "title": "Remote registration is reference counted", "statement": "The remote provider is told to start notifying when the first local handler for the event registers and to stop when the last one unregisters - never twice in a row, and nothing in between.", "quantifier": "every sequence of register/unregister/re-register calls", "why_tests_cant": "unbounded histories", "anchors": ["score/mw/com/impl/bindings/lola/messaging/message_passing_service_instance.cpp: RegisterEventNotificationRemote, UnregisterEventNotificationRemote, ReregisterEventNotification"]}
{"id": "C61", "title": "Find results match the offered instances", "statement": "After all file-system events have been processed, the set of instances reported to a FindService handler is the set of instances currently offered.", "quantifier": "every sequence of offers/stop-offers and every batching of events", "why_tests_cant": "batchings and histories are unbounded", "anchors": ["score/mw/com/impl/bindings/lola/service_discovery/client/service_discovery_client.cpp: HandleEvents, HandleDeletionEvents, HandleCreationEvents, CallHandlers", "score/mw/com/impl/bindings/lola/service_discovery/known_instances_container.cpp"]}
{"id": "C62", "title": "Find handlers are only called on changes and never after StopFindService", "statement": "A FindService handler is called only with a result different from the previous one, and never again after StopFindService returned.", "quantifier": "every sequence of events and API calls", "why_tests_cant": "unbounded histories", "anchors": ["score/mw/com/impl/bindings/lola/service_discovery/client/service_discovery_client.cpp: CallHandlers, StopFindService, TransferObsoleteSearchRequests"]}
{"id": "C63", "title": "Instance specifiers are validated", "statement": "InstanceSpecifier::Create accepts exactly the non-empty strings of letters, digits, underscore and single slashes that start with a letter, underscore or slash and do not end with a slash.", "quantifier": "all strings", "why_tests_cant": "all strings", "anchors": ["score/mw/com/impl/instance_specifier.cpp: IsShortNameValid, Create"]}
{"id": "C64", "title": "Element identifiers are totally ordered", "statement": "The ordering of element ids used as map key is a strict weak ordering whose equivalence is element equality.", "quantifier": "all element ids", "why_tests_cant": "all triples of ids", "anchors": ["score/mw/com/impl/bindings/lola/element_fq_id.cpp: operator<, operator=="]}
{"id": "C65", "title": "Method call slots do not overlap", "statement": "For every queue size and argument size, the storage of different queue positions is disjoint, inside the queue storage, and positions outside of the queue are rejected.", "quantifier": "all sizes and positions", "why_tests_cant": "unbounded sizes", "anchors": ["score/mw/com/impl/bindings/lola/methods/type_erased_call_queue.cpp: GetElement, AllocateQueue"]}
{"id": "C66", "title": "Method resources of a restarted proxy are replaced", "statement": "The table of method memory regions never holds regions of two incarnations of the same application, and contains exactly the regions inserted and not removed for the current one.", "quantifier": "every history of insert/remove/clean-up", "why_tests_cant": "unbounded histories", "anchors": ["score/mw/com/impl/bindings/lola/methods/method_resource_map.cpp: Insert, Remove, CleanUpOldRegions, Contains"]}
{"id": "C67", "title": "Re-offer detection for methods", "statement": "The offer state machine reports 're-offered' exactly if the service was offered again after a stop, 'stop-offered' exactly if the last event was a stop, and rejects (terminates) exactly the histories with a repeated stop or, once stopped, a repeated offer.", "quantifier": "every history of Offer/StopOffer", "why_tests_cant": "histories are unbounded", "anchors": ["score/mw/com/impl/bindings/lola/methods/offered_state_machine.cpp: OfferedStateMachine"]}
{"id": "C68", "title": "Restarted provider with both controls keeps running", "statement": "A provider that serves QM and ASIL-B consumers and crashed at any point can be restarted: its calls to Allocate and Send are not terminated because the two controls disagree.", "quantifier": "every history of provider calls and consumer activity and every crash point of the provider", "why_tests_cant": "the crash points between the two atomic writes of Send, Discard and Allocate, and the histories before them, are unbounded", "anchors": ["score/mw/com/impl/bindings/lola/event_data_control_composite.cpp: GetNextFreeMultiSlot, AllocateNextMultiSlot, EventReady", "score/mw/com/impl/bindings/lola/skeleton_memory_manager.cpp: CleanupSharedMemoryAfterCrash"]}
{"id": "C69", "title": "A consumer's slot references stay within its subscription", "statement": "At no time are more event slots referenced on behalf of a proxy event than the number of samples it subscribed for, so that the provider's slot budget (sum of all subscriptions) is never exceeded.", "quantifier": "every interleaving of GetNewSamples calls and SamplePtr destructions from any number of threads", "why_tests_cant": "The overshoot exists only between two member destructors of one SamplePtr while another thread calls GetNewSamples", "anchors": ["score/mw/com/impl/plumbing/sample_ptr.h: member order", "score/mw/com/impl/sample_reference_tracker.cpp", "score/mw/com/impl/bindings/lola/slot_collector.cpp: CollectSlots"]}
{"id": "C70", "title": "The engine wakes up for pending timed commands", "statement": "While a timed command is pending, the engine's thread never waits without limit or substantially beyond the due time of the first pending command.", "quantifier": "all due times and clock readings, that is all durations of callbacks and preemptions", "why_tests_cant": "Needs a command to become due between two readings of the clock", "anchors": ["score/message_passing/unix_domain/unix_domain_engine.cpp: ProcessTimerQueue, RunOnThread", "score/message_passing/qnx_dispatch/qnx_dispatch_engine.cpp: ProcessTimerQueue"]}
{"id": "C71", "title": "A method handler only uses mapped memory", "statement": "When a service method handler runs for a call, the shared memory in which the caller has put the arguments is still mapped by the provider.", "quantifier": "every interleaving of subscriptions, unsubscriptions, calls, restarts of consumers and stops of services", "why_tests_cant": "needs every interleaving of several message-processing threads and every order of restarts", "anchors": ["score/mw/com/impl/bindings/lola/skeleton.cpp: OnServiceMethodsSubscribed, OnServiceMethodsUnsubscribed, PrepareStopOffer", "score/mw/com/impl/bindings/lola/skeleton_method.cpp: OnProxyMethodSubscribeFinished, CleanUpOldHandlers", "score/mw/com/impl/bindings/lola/messaging/message_passing_service_instance.cpp: CallServiceMethodLocally"]}
{"id": "C72", "title": "A method subscription never terminates the provider", "statement": "Whatever consumers subscribe to, in whatever order they are started, restarted and stopped, processing a method subscription does not terminate the provider's process.", "quantifier": "every sequence of subscriptions of any consumers, any contents of their memory", "why_tests_cant": "unbounded histories of crashes and restarts, adversarial memory", "anchors": ["score/mw/com/impl/bindings/lola/messaging/message_passing_service_instance.cpp: RegisterMethodCallHandler", "score/mw/com/impl/bindings/lola/skeleton.cpp: SubscribeMethods", "score/mw/com/impl/bindings/lola/skeleton_method.cpp: OnProxyMethodSubscribeFinished"]}
{"id": "C73", "title": "A subscribed consumer's method calls are served", "statement": "Once a provider has processed a consumer's method subscription, every call of a subscribed method by that consumer runs the method's handler, until the service is stopped, the proxy is unsubscribed, or another process of the same application subscribes; nothing that other consumers do takes the service away.", "quantifier": "every sequence and interleaving of subscriptions, unsubscriptions, calls, offers and stops of any consumers and services", "why_tests_cant": "unbounded histories of other consumers, all interleavings of message-processing threads", "anchors": ["score/mw/com/impl/bindings/lola/skeleton_method.cpp: OnProxyMethodSubscribeFinished, CleanUpOldHandlers", "score/mw/com/impl/bindings/lola/messaging/message_passing_service_instance.cpp: CallServiceMethodLocally", "score/mw/com/impl/bindings/lola/skeleton.cpp: OnServiceMethodsUnsubscribed, SubscribeMethods"]}
{"id": "C74", "title": "Arguments and results of method calls are not touched while they are held", "statement": "As long as the application holds a pointer to an argument or to the result of a method call, the value there changes only by a write through this pointer, and no other call is given its storage; a call hands over exactly the argument values that the application has written; storage becomes available again as soon as all pointers to it have ended, whether calls succeed or fail. (The application does not use pointers that it has moved out of.)", "quantifier": "every sequence of allocations, writes, moves, calls and drops, every number of call queue positions and arguments, every behaviour of the binding", "why_tests_cant": "unbounded histories of pointers with every order of drops and failures", "anchors": ["score/mw/com/impl/methods/proxy_method.h: DetermineNextAvailableQueueSlot, AllocateImpl, GetCommonQueuePosition", "score/mw/com/impl/methods/method_signature_element_ptr.h: MethodSignatureElementPtr", "score/mw/com/impl/methods/proxy_method_with_in_args_and_return.h: operator()"]}
{"id": "C75", "title": "Offering a service makes it visible exactly while it is offered", "statement": "After OfferService has returned success, and until StopOfferService is called or the provider ends, consumers can find the service instance in exactly the offered qualities, and find exactly one provider for each. After StopOfferService the instance cannot be found any more. What remains visible otherwise is only what a provider that has ended left behind, and the next provider replaces it. OfferService succeeds when no file operation fails, and stopping never ends the process.", "quantifier": "every number of processes, threads, instances and offers, every interleaving of the single file operations of the calls, every failure of a file operation and every point at which a process ends and starts again", "why_tests_cant": "Tests run one provider with a mocked file system; the claim is about all interleavings of file operations of several threads and processes, and about crashes between any two of them.", "anchors": ["score/mw/com/impl/bindings/lola/service_discovery/client/service_discovery_client.cpp: ServiceDiscoveryClient::OfferService, StopOfferService", "score/mw/com/impl/bindings/lola/service_discovery/flag_file.cpp: FlagFile::Make, FlagFile::~FlagFile, RemoveMatchingFlagFiles, GetMatchingFlagFilePaths"]}
{"id": "C76", "title": "A receive handler that is set is called, until it is unset or the user unsubscribes", "statement": "While a consumer is subscribed to an offered event, a notification calls exactly the receive handler set last, unless UnsetReceiveHandler or Unsubscribe was called since; the notification is registered with the process that offers the event now, also after the provider restarted. A handler set before Unsubscribe is not called after it.", "quantifier": "every sequence of API calls and availability events", "why_tests_cant": "unbounded histories; the handler may be set in any state and has to survive any number of provider restarts", "anchors": ["score/mw/com/impl/proxy_event_base.cpp: SetReceiveHandler, UnsetReceiveHandler, Unsubscribe", "score/mw/com/impl/proxy_event_base.h: Unsubscribe", "score/mw/com/impl/bindings/lola/subscription_helpers.cpp: EventReceiveHandlerManager", "score/mw/com/impl/bindings/lola/subscription_not_subscribed_states.cpp: SubscribeEvent, SetReceiveHandler", "score/mw/com/impl/bindings/lola/subscription_subscription_pending_states.cpp: ReOfferEvent, SetReceiveHandler"]}
{"id": "C77", "title": "A service instance has at most one provider", "statement": "At no time do two skeleton objects exist for the same service instance, in all processes together: while one exists, Create of another one fails. When none exists, Create succeeds, whatever happened before.", "quantifier": "every number of processes and skeleton objects, every interleaving of the file operations of creation and destruction, every failure of opening the marker file and every point at which a process ends", "why_tests_cant": "Tests create two skeletons one after the other; whether two can exist depends on the interleaving of single file operations of different processes.", "anchors": ["score/mw/com/impl/bindings/lola/skeleton.cpp: Skeleton::Create, ~Skeleton, CreateOrOpenServiceInstanceExistenceMarkerFile", "score/memory/shared/lock_file.cpp: CreateOrOpen, ~LockFile", "score/memory/shared/flock/flock_mutex.cpp: try_lock"]}
{"id": "C78", "title": "The memory of a connected consumer stays the memory of the service", "statement": "The shared memory that a connected consumer uses is initialised and is the memory that is found under the names of the service instance; all connected consumers and the provider that offers the service use the same memory; and this memory stays the same as long as a consumer is connected, also when the provider ends, stops or offers the service again.", "quantifier": "every number of consumers in every number of processes, every sequence of providers, every interleaving of the file operations of OfferService, StopOfferService, the creation and destruction of proxies, every failing file operation and every point at which a process ends", "why_tests_cant": "The claim is about interleavings of file operations of several processes and about the points at which they end.", "anchors": ["score/mw/com/impl/bindings/lola/skeleton.cpp: PrepareOffer, PrepareStopOffer", "score/mw/com/impl/bindings/lola/skeleton_memory_manager.cpp: CreateSharedMemory, OpenExistingSharedMemory, CleanupSharedMemoryAfterCrash, RemoveSharedMemory", "score/mw/com/impl/bindings/lola/proxy.cpp: Proxy::Create", "score/mw/com/impl/bindings/lola/proxy.h: order of the members", "score/memory/shared/shared_memory_factory_impl.cpp: Open, Create, Remove, RemoveStaleArtefacts", "score/memory/shared/shared_memory_resource.cpp: CreateImpl, OpenImpl, acquireLockFile"]}
{"id": "C79", "title": "A service can be offered again, and be connected to", "statement": "After any history a provider can offer the service: when no consumer uses it, with new memory, whatever files have been left behind; when consumers use it, with the memory of these consumers. A consumer can connect whenever the service is offered, and whenever another consumer is connected, whatever the provider does; it then uses the same memory. Offering, stopping and connecting never end a process.", "quantifier": "every history of providers and consumers, every interleaving of file operations, every failing file operation and every point at which a process ends", "why_tests_cant": "The claim ranges over all debris that ended processes can leave and over all earlier calls of the same objects.", "anchors": ["score/mw/com/impl/bindings/lola/skeleton.cpp: PrepareOffer, PrepareStopOffer", "score/mw/com/impl/skeleton_base.cpp: OfferService, StopOfferService", "score/memory/shared/shared_memory_factory_impl.cpp: RemoveStaleArtefacts", "score/memory/shared/shared_memory_resource.cpp: acquireLockFile"]}
{"id": "C80", "title": "Stopping an unused service removes its memory, stopping a used one does not", "statement": "When StopOfferService is called while no consumer is connected, the shared memory and the usage marker file are removed. When a consumer is connected, they stay as they are and the consumer can go on using them.", "quantifier": "every history of providers and consumers, every interleaving of file operations and every point at which a process ends", "why_tests_cant": "Whether the memory may be removed depends on consumers in other processes that connect and disconnect at any time.", "anchors": ["score/mw/com/impl/bindings/lola/skeleton.cpp: PrepareStopOffer, DetermineShmRemovalStrategy", "score/mw/com/impl/bindings/lola/skeleton_memory_manager.cpp: RemoveSharedMemory", "score/mw/com/impl/bindings/lola/proxy.cpp: Proxy::Create"]}
{"id": "C81", "title": "The calculated size of the shared memory is enough to offer the service", "statement": "For every service interface and deployment, the shared memory sizes the library determines for the data object and the control objects are enough for everything that offering the service allocates in them: OfferService never ends the process because its own memory is too small. Configured sizes that are not below the calculated ones do not change this.", "quantifier": "every list of events and fields with any sample types, numbers of slots, subscribers and tracing slots, typed and generic, QM and ASIL-B, both calculation modes, and every address the objects are mapped at", "why_tests_cant": "The size depends on the sum of aligned sizes of unboundedly many combinations of service elements; tests cover a few services at a few addresses.", "anchors": ["score/mw/com/impl/bindings/lola/skeleton_memory_manager.cpp: CalculateShmResourceStorageSizes, CalculateDataShmResourceStorageSize, CalculateControlShmResourceStorageSize, CreateSharedMemory", "score/mw/com/impl/bindings/lola/service_data_storage.cpp: CalculateServiceDataStorageShmSize", "score/mw/com/impl/bindings/lola/service_data_control.cpp: CalculateServiceDataControlShmSize", "score/mw/com/impl/plumbing/skeleton_service_element_binding_factory_impl.h: CreateSkeletonEventProperties", "score/memory/shared/new_delete_delegate_resource.cpp: do_allocate"]}
{"id": "C82", "title": "A field that is offered has a value and Get returns the last accepted one", "statement": "While a service is offered, Get on a field with getter is answered with a value, and this is the value that was given last by an accepted Update of the provider or an accepted Set of a consumer. Set is answered with what the registered set handler makes of the requested value. OfferService does not succeed while a field has never been given a value.", "quantifier": "all numbers of events, fields and methods, all combinations of getter and setter, all sequences of API calls of provider and consumers, all failures of OfferService at any stage, any number of offers and stops, with and without connected consumers, memory left by an earlier process", "why_tests_cant": "The value is lost only for particular histories of offers, stops, failures and connected consumers; the number of such histories is unbounded.", "anchors": ["score/mw/com/impl/skeleton_field.h: Update, DoDeferredUpdate, RegisterSetHandler", "score/mw/com/impl/skeleton_field_base.h: PrepareOffer", "score/mw/com/impl/skeleton_base.cpp: OfferService, StopOfferService", "score/mw/com/impl/bindings/lola/skeleton.cpp: PrepareOffer, PrepareStopOffer"]}
{"id": "C83", "title": "OfferService is all or nothing and StopOfferService undoes it", "statement": "After a successful OfferService the service can be found and all its events and fields can be sent, until StopOfferService. After a failed OfferService and after StopOfferService the service cannot be found, no event can be sent and no call of a consumer reaches the provider. The error of OfferService says truthfully whether the value of a field is missing. OfferService succeeds when all values and handlers have been given and nothing outside the skeleton prevents it.", "quantifier": "all numbers of events, fields and methods, all failures at any stage of OfferService, all sequences of API calls, consumer calls processed at any time, also within StopOfferService", "why_tests_cant": "The roll-back must be right for a failure at every stage and in every state reached by earlier calls.", "anchors": ["score/mw/com/impl/skeleton_base.cpp: OfferService, OfferServiceEvents, OfferServiceFields, StopOfferService", "score/mw/com/impl/skeleton_event_base.h: PrepareOffer, PrepareStopOffer", "score/mw/com/impl/bindings/lola/skeleton.cpp: PrepareOffer, PrepareStopOffer"]}
{"id": "C84", "title": "No sequence of API calls ends the process of the provider", "statement": "Whatever sequence of OfferService, StopOfferService, Send, Update, registration of handlers and consumer calls is made, no call ends the process of the provider by a failed assertion or undefined behaviour.", "quantifier": "all numbers of events, fields and methods, all sequences of API calls, all failures of OfferService, consumer calls processed at any time, also within StopOfferService", "why_tests_cant": "A crash depends on the whole history of calls and on the moment at which a consumer call is processed.", "anchors": ["score/mw/com/impl/skeleton_base.cpp: OfferService, StopOfferService", "score/mw/com/impl/bindings/lola/skeleton_event_common.h: PrepareOfferCommon, PrepareStopOfferCommon, GetConsumerEventDataControlLocalView", "score/mw/com/impl/bindings/lola/skeleton.cpp: PrepareStopOffer", "score/mw/com/impl/bindings/lola/transaction_log_set.cpp: RegisterSkeletonTracingElement"]}
{"id": "C85", "title": "No accepted value of a field is hidden by another one", "statement": "When Update of the provider and Set calls of consumers run at the same time, every published value gets a timestamp greater than those of all values published before, so that a consumer that has seen a value is given all later ones. Every value whose call has returned has been published exactly once. Set handlers exclude each other, and one that cannot start waits for another one that runs.", "quantifier": "all numbers of threads, all interleavings of Update calls and set handlers, all numbers of values below the range of the timestamp", "why_tests_cant": "The outcome depends on the interleaving of two instructions of different threads.", "anchors": ["score/mw/com/impl/bindings/lola/skeleton_event_common.h: Send", "score/mw/com/impl/skeleton_field.h: Update, RegisterSetHandler"]}
{"id": "C86", "title": "Different things never share a name, and names are read back as written", "statement": "The shared memory objects, lock files, usage and existence markers, flag files, search directories and message passing endpoints of all services, instances, qualities, proxies and processes have pairwise different names, and different endpoints have different socket addresses. A consumer that reads a flag file or a directory gets the quality and the instance for which it was created, and a search for the flag files of one quality matches exactly those.", "quantifier": "all service, instance, application, process and proxy numbers, all qualities, all pairs of things", "why_tests_cant": "Injectivity is a statement about all pairs of numbers; a test compares a few.", "anchors": ["score/mw/com/impl/bindings/lola/path_builder.cpp: AppendServiceAndInstance", "score/mw/com/impl/bindings/lola/shm_path_builder.cpp: GetDataChannelShmName, GetControlChannelShmName, GetMethodChannelShmName", "score/mw/com/impl/bindings/lola/partial_restart_path_builder.cpp: GetServiceInstanceUsageMarkerFilePath, GetServiceInstanceExistenceMarkerFilePath", "score/mw/com/impl/bindings/lola/service_discovery/flag_file.cpp: GetFlagFilePath, GetMatchingFlagFilePaths, GetSearchPathForIdentifier", "score/mw/com/impl/bindings/lola/service_discovery/flag_file_crawler.cpp: ConvertFromStringToInstanceId, ParseQualityTypeFromString", "score/mw/com/impl/bindings/lola/messaging/message_passing_client_cache.cpp: CreateMessagePassingName", "score/memory/shared/shared_memory_resource.cpp: GetLockFilePath"]}
{"id": "C87", "title": "Servers with different identifiers have different addresses", "statement": "Two message passing servers whose service identifiers differ listen at different addresses, so that a client reaches the server it names.", "quantifier": "all service identifiers", "why_tests_cant": "The claim is about all pairs of identifiers of any length; a test compares a few short ones.", "anchors": ["score/message_passing/unix_domain/unix_domain_socket_address.h: UnixDomainSocketAddress", "score/message_passing/unix_domain/unix_domain_server.cpp: StartListening", "score/message_passing/unix_domain/unix_domain_engine.cpp: TryOpenClientConnection"]}
{"id": "C88", "title": "Traced samples stay alive until the trace subsystem is done, and are released afterwards", "statement": "A sample that was handed to the trace subsystem stays referenced by the sending process until the subsystem reports that it is done with it. The reference is released then, when the subsystem refuses the trace, or when the service is stopped; none is forgotten. A send is traced whenever the element has a free tracing slot.", "quantifier": "all numbers of slots and elements, all interleavings of sends, stops and callbacks of any number of threads, all answers of the trace subsystem", "why_tests_cant": "Whether a slot is reused too early or leaks depends on the order of sends, callbacks and stops on several threads; tests run a few orders with a mocked subsystem.", "anchors": ["score/mw/com/impl/bindings/lola/tracing/tracing_runtime.cpp: EmplaceTypeErasedSamplePtr, ClearTypeErasedSamplePtr(s), RegisterServiceElement", "score/mw/com/impl/tracing/tracing_runtime.cpp: Trace, trace done callback", "score/mw/com/impl/bindings/lola/type_erased_sample_ptrs_guard.cpp"]}
{"id": "C89", "title": "Tracing slots suffice for every configured element", "statement": "A trace point is enabled exactly if the trace filter file switches it on for the element and the instance has tracing slots for it. At start the process reserves exactly the sum of the tracing slots of all elements whose sends are traced. Creating the configured skeletons therefore never ends the process for lack of slots.", "quantifier": "all configurations and trace filter files, all orders in which hash maps are walked, all orders and selections of created skeletons, all interleavings with sends and callbacks", "why_tests_cant": "The count is made in one place from the filter and asked for in another place per element; tests check a few configurations.", "anchors": ["score/mw/com/impl/tracing/configuration/tracing_filter_config.cpp: FindNumberOfTracingSlots, GetNumberOfTracingSlots, IsTracePointEnabledInMap", "score/mw/com/impl/tracing/configuration/tracing_filter_config_parser.cpp: ParseEvent, ParseField", "score/mw/com/impl/tracing/skeleton_event_tracing.cpp: GenerateSkeletonTracingStructFromEventConfig", "score/mw/com/impl/bindings/lola/tracing/tracing_runtime.cpp: RegisterServiceElement"]}
{"id": "C90", "title": "A traced sample is described by its registered memory", "statement": "Whenever the trace subsystem is told about a sample in shared memory, the program passed that trace point with that sample, a shared memory object of the same service instance was registered with the subsystem before, the handle told is the one it was registered with, and the offset told is the distance of the sample from the start of that object; the object is still registered at that time. If tracing is on, the point is enabled, the object is registered and a slot is free, then passing the point leads to exactly one call of the subsystem. A registration that fails with a recoverable error is tried again by the next trace.", "quantifier": "all enabled trace points, all sequences of registrations, removals and traces by any number of threads in all interleavings, all answers of the subsystem", "why_tests_cant": "The history of registrations and the interleaving of traces with them are unbounded; tests use one instance, one thread and a mocked binding whose lookups accept every identifier.", "anchors": ["score/mw/com/impl/tracing/tracing_runtime.cpp: TracingRuntime::Trace, RegisterShmObject, UnregisterShmObject, GetRegisteredShmObject", "score/mw/com/impl/bindings/lola/tracing/tracing_runtime.cpp: RegisterShmObject, GetShmObjectHandle, GetShmRegionStartAddress, GetCachedFileDescriptorForReregisteringShmObject"]}
{"id": "C91", "title": "Failures of tracing are reported and switch off only what they must", "statement": "Every trace tells the subsystem whether traces were lost since the last successful one. A trace point that was enabled is off only if the subsystem reported a non-recoverable error for this very point, there was no memory object for it, or tracing is off as a whole; after such an error the point is off. Tracing is off as a whole exactly if the subsystem reported a terminal error or the number of failed traces in a row reached the limit; then the subsystem is never called again.", "quantifier": "all histories of traces, registrations and answers of the subsystem, all numbers of threads and all interleavings", "why_tests_cant": "The flag and the counter depend on the whole history and on how the calls of several threads interleave; the limit of 2^32-1 failures cannot be reached by a test.", "anchors": ["score/mw/com/impl/tracing/tracing_runtime.cpp: TracingRuntime::ProcessTraceCallResult, CreateMetaInfo, Trace", "score/mw/com/impl/tracing/skeleton_event_tracing.cpp: UpdateTracingDataFromTraceResult", "score/mw/com/impl/tracing/skeleton_event_tracing_data.cpp: DisableAllTracePoints"]}
{"id": "C92", "title": "Connections to another process are shared and replaced when broken", "statement": "For every process there is at most one open connection of this process. A call for the connection returns one to the process asked for: the existing one at once if it is ready, a new one otherwise, and then the old one is closed. The call returns within 550 ms of looking, whatever the peer does, and neither it nor the removal of a connection ends the process. A thread gets a ready connection if the peer accepts.", "quantifier": "all schedules of any number of threads and of the callback thread, all processes, all outcomes of connection attempts and losses of connections", "why_tests_cant": "Threads, connection attempts, losses and removals interleave; tests use a mocked factory and one thread.", "anchors": ["score/mw/com/impl/bindings/lola/messaging/message_passing_client_cache.cpp: GetMessagePassingClient, GetCachedMessagePassingClient, CreateNewClient, RemoveMessagePassingClient", "score/message_passing/client_connection.cpp: Stop, TryConnect, SwitchToStopState"]}
{"id": "C93", "title": "FindService returns what is offered during the call", "statement": "FindService returns only instances that match the identifier and were offered with the searched quality at some moment of the call, it returns each matching instance that is offered during the whole call, and it returns no instance twice; searches under way, pending events and other offers and stop-offers during the call make no difference.", "quantifier": "every history of searches, events and offers before the call, and every interleaving of offers and stop-offers with its looks at the file system", "why_tests_cant": "the offers and stop-offers between any two looks are unbounded", "anchors": ["score/mw/com/impl/bindings/lola/service_discovery/client/service_discovery_client.cpp: FindService", "score/mw/com/impl/bindings/lola/service_discovery/flag_file_crawler.cpp: Crawl, CrawlAndWatchImpl, GetAlreadyExistingInstances, GatherExistingInstanceDirectories"]}
{"id": "C94", "title": "Method arguments and results arrive unchanged", "statement": "The handler of a method call sees exactly the values that the caller passed, and the caller gets exactly the value that the handler wrote, whatever the types of the arguments (trivially copyable, aligned to at most a page) and wherever the two processes have mapped the shared memory; each argument is aligned and inside of the storage of the call, no two overlap, and no byte outside of the storage of the call is changed. The storage needed is that of a C++ struct of the arguments, and serialized arguments are found again.", "quantifier": "every list of argument types and values, every result type and handler, every pair of page-aligned mappings and every position in the call queue", "why_tests_cant": "the lists of types, values and addresses are unbounded", "anchors": ["score/mw/com/impl/util/type_erased_storage.h: CreateDataTypeSizeInfoFromTypes, SerializeArgs, DeserializeArgs, DeserializeArg", "score/mw/com/impl/methods/proxy_method.h: AllocateImpl", "score/mw/com/impl/methods/skeleton_method.h: RegisterHandlerImpl"]}
{"id": "C95", "title": "Sessions of a server are orderly, served and end only for a reason", "statement": "On a Unix domain server, the callbacks of one client connection come in order: the connection callback decides; if it accepts, the messages of that client follow, each delivered once with the client's identity, and at most one disconnection callback, after which nothing comes. Callbacks of a session do not overlap. A client that connects is offered to the connection callback. A connection that is readable when polled is served before the next poll. A session ends only when a callback asks for it, its server stops, reading fails or its message callback returns an error. Descriptors of ended sessions are closed. Nothing that clients or callbacks do makes the engine use destroyed objects or terminate.", "quantifier": "all numbers of servers, clients and shared endpoints, all contents and orders of connection requests and messages, all callbacks including those that end sessions (their own, others, nested), and all start and stop calls of other threads", "why_tests_cant": "Callbacks may end any session while the loop over the descriptors is running and slots are used again at once; tests try a few of the endless combinations.", "anchors": ["score/message_passing/unix_domain/unix_domain_engine.cpp: RegisterPosixEndpoint, UnregisterPosixEndpoint, UnpollEndpoint, RunOnThread", "score/message_passing/unix_domain/unix_domain_server.cpp: ServerConnection, ProcessInput, ProcessConnect, AcceptConnection, RequestDisconnect"]}
{"id": "C96", "title": "StopListening ends all sessions and returns", "statement": "When StopListening of a Unix domain server has returned, each of its sessions has been refused or has got its disconnection callback, no callback of the server is called any more until it is started again, sessions of other servers on the same engine go on, and StopListening does return once the callback thread comes to its command queue.", "quantifier": "all histories of starts, stops, connections, messages and callbacks of any number of servers on one engine", "why_tests_cant": "The stop comes from another thread at any moment of the loop of the callback thread, also right after a start whose registration is still queued, and disconnection callbacks may end further sessions during the cleanup.", "anchors": ["score/message_passing/unix_domain/unix_domain_server.cpp: StartListening, StopListening", "score/message_passing/unix_domain/unix_domain_engine.cpp: CleanUpOwner, ProcessCleanup"]}
{"id": "C97", "title": "Instance identifiers survive being turned into text", "statement": "The text of an instance identifier, handed to InstanceIdentifier::Create in another process, gives an identifier with the same deployments, which equals the original and is then known to the configuration; different identifiers have different texts; text that is no identifier is refused with an error and leaves the process running.", "quantifier": "all instance and type deployments with any number of elements, all texts, all configurations of the receiving process and all histories of Create calls", "why_tests_cant": "Deployments are nested maps of unbounded size with many optional parts, and what Create does depends on everything the process has configured or created before.", "anchors": ["score/mw/com/impl/instance_identifier.cpp: Create, ToString, Serialize", "score/mw/com/impl/configuration/configuration_common_resources.h", "score/mw/com/impl/configuration/lola_service_instance_deployment.cpp: Serialize, LolaServiceInstanceDeployment(json)", "score/mw/com/impl/configuration/service_instance_deployment.cpp", "score/mw/com/impl/configuration/service_type_deployment.cpp", "score/mw/com/impl/configuration/configuration.cpp: AddServiceTypeDeployment, AddServiceInstanceDeployments"]}
{"id": "C98", "title": "Instance identifiers can be kept in sets and maps", "statement": "Equality of instance identifiers is an equivalence and holds just if service, version, quality, instance id and elements agree; the order is a strict order that agrees with equality, so that ordered containers keep apart what is different and hold what is equal once; equal identifiers have equal hashes; compatibility is symmetric and separates instance ids and qualities.", "quantifier": "all pairs and triples of instance identifiers, whatever their deployments", "why_tests_cant": "The requirements of ordered and unordered containers speak of all pairs and triples; the comparison goes through optional parts, variants and maps, and the hash through the text.", "anchors": ["score/mw/com/impl/instance_identifier.cpp: operator==, operator<, hash", "score/mw/com/impl/configuration/service_instance_deployment.cpp: operator==, operator<, areCompatible", "score/mw/com/impl/configuration/lola_service_instance_deployment.cpp: operator==, areCompatible", "score/mw/com/impl/configuration/service_identifier_type.cpp"]}
{"id": "C99", "title": "Exactly the documented names are instance specifiers", "statement": "InstanceSpecifier::Create accepts a name just if it is not empty, consists of letters, digits, underscores and slashes, does not start with a digit, does not end with a slash and has no two slashes side by side, and keeps it unchanged.", "quantifier": "all strings", "why_tests_cant": "Strings are unbounded; the check works by position and neighbours.", "anchors": ["score/mw/com/impl/instance_specifier.cpp: IsShortNameValid, Create"]}
{"id": "C100", "title": "Add-on configurations extend the configuration and change nothing else", "statement": "InitializeRuntimeAddonConfiguration succeeds just if the add-on is compatible (none of its service types and instances is configured already, and its instances are in order with the types of both) and terminates the process otherwise; afterwards exactly the entries of both are configured. What is configured stays as it is and names that resolve keep resolving to the same identifier, whatever add-ons are loaded and identifiers are created from text.", "quantifier": "all configurations and add-ons of any size, all histories of loading add-ons and creating identifiers, all names", "why_tests_cant": "Clashes and missing types can be between any two of unboundedly many entries, and the lists grow by generations whose order decides what a lookup finds.", "anchors": ["score/mw/com/impl/configuration/configuration.cpp: MergeServiceEntries, GetServiceTypes, GetServiceInstances, GetServiceTypeDeployment, GetServiceInstanceDeployment", "score/mw/com/impl/runtime.cpp: HandleAddonConfiguration, MergeAdditionalConfiguration, resolve", "score/mw/com/runtime.h: InitializeRuntimeAddonConfiguration"]}
{"id": "C101", "title": "A process runs with a consistent configuration only", "statement": "A configuration is accepted just if the service type of each instance is configured, both have a supported binding, the events, fields and methods of the instance are those of the type, and no instance is ASIL-B unless the process is; an error names a fault that is there. A process that is running, however it was started and whatever add-ons it has loaded, has such a configuration.", "quantifier": "all configurations of any size, all ways to start and all sequences of add-ons", "why_tests_cant": "The check ranges over all instances and all their elements against all types; a single missed pair makes a later lookup fail in the middle of an application.", "anchors": ["score/mw/com/impl/configuration/configuration.cpp: Validate, CrossCheckAsilLevels, CrossCheckServiceInstancesToTypes", "score/mw/com/impl/runtime.cpp: Initialize, getInstanceInternal, MergeAdditionalConfiguration"]}
{"id": "C102", "title": "Names resolve while add-ons are being loaded", "statement": "While threads load compatible add-ons, each answer of resolve for a name that is configured is its identifier, made of the deployments the configuration has for good; when loading has returned all instances of the add-on are configured; nothing that was configured changes; loading of compatible add-ons at the same time never terminates the process and comes to an end.", "quantifier": "all interleavings of any number of threads that resolve names and load add-ons, all configurations", "why_tests_cant": "An instance and its type are published by two separate stores and read by two separate loads without a lock, so the result depends on the schedule.", "anchors": ["score/mw/com/impl/configuration/configuration.cpp: MergeServiceEntries, Validate, GetServiceTypeDeployment, GetServiceInstanceDeployment", "score/mw/com/impl/runtime.cpp: resolve, MergeAdditionalConfiguration"]}
{"id": "C103", "title": "Only allowed users use a service instance", "statement": "A proxy connects to a service instance of another user only if its user is an allowed consumer of that quality according to the provider's permissions, and the provider's user is an allowed provider according to the proxy's permissions. Consumers and providers that are listed do connect. Nobody but the provider can write the event data. The control memory of a quality can be used just by the provider and the allowed consumers of this quality, so QM consumers cannot touch the ASIL-B one. With strict checks a missing or empty list admits nobody; otherwise it admits everybody. Methods can be subscribed just by allowed consumers, the memory for calls can be used just by the users of the proxy and of the skeleton, and a call is executed only for the user who subscribed.", "quantifier": "all permissions of provider and consumer (any lists per quality, strict or not), all users, all qualities", "why_tests_cant": "Tests try a few lists with a few users; the rules combine lists of several qualities, missing and empty lists and two modes, for every user.", "anchors": ["score/mw/com/impl/bindings/lola/skeleton_memory_manager.cpp: CreateSharedMemoryForData, CreateSharedMemoryForControl", "score/mw/com/impl/bindings/lola/proxy.cpp: OpenSharedMemory", "score/mw/com/impl/bindings/lola/skeleton.cpp: GetAllowedConsumers", "score/mw/com/impl/bindings/lola/messaging/message_passing_service_instance.cpp", "score/memory/shared/shared_memory_resource.cpp: ApplyPermissions", "score/memory/shared/shared_memory_factory_impl.cpp: Open"]}
{"id": "C104", "title": "A provider fills a sample in place and publishes exactly that sample", "statement": "A sample obtained with Allocate belongs to one pointer only, which may be moved: no other pointer, no Send of a value and no other call changes its content or hands its place out again. Send of the pointer publishes it as the newest sample of its event with the content that was written; a pointer that ends or is reset gives its place back; no place is lost. An event that ends while a pointer to one of its samples is left ends the process instead of leaving the pointer dangling.", "quantifier": "every number of events and slots, every sequence of offering, withdrawing, allocating, moving, assigning, resetting, writing, sending and ending, and every choice of free slot", "why_tests_cant": "The pointers, the tracker, the control block and the offer state interact over unbounded histories; tests try a few.", "anchors": ["score/mw/com/impl/plumbing/sample_allocatee_ptr.h: SampleAllocateePtr", "score/mw/com/impl/bindings/lola/sample_allocatee_ptr.h: SampleAllocateePtr::internal_delete", "score/mw/com/impl/skeleton_event.h: Allocate, Send", "score/mw/com/impl/bindings/lola/skeleton_event.h: Allocate, Send", "score/mw/com/impl/bindings/lola/skeleton_event_common.h: PrepareOffer, PrepareStopOffer", "score/mw/com/impl/sample_allocatee_tracker.cpp: ~SampleAllocateeTracker"]}
{"id": "C105", "title": "Proxies and skeletons can be moved", "statement": "When a proxy or skeleton is move-constructed or move-assigned, the new variable stands for the same service with the same subscriptions, offers and held samples; nothing changes for the service itself, and the old variable stands for nothing. A move assignment first ends what the target had - its service is no longer subscribed, offered or open - and nothing else. Later calls on the new variable reach the elements in their new place. The end of a variable ends exactly what it had; the end of a moved-from variable ends nothing. A sample that is held never outlives its element, wherever that was moved: the process ends instead. Nothing stays subscribed or offered without a variable that stands for it.", "quantifier": "every number of variables and service elements and every sequence of creating, moving, assigning, ending, subscribing, unsubscribing, offering, withdrawing, obtaining and giving back samples", "why_tests_cant": "References on the heap have to follow elements through any chain of moves; tests try one move.", "anchors": ["score/mw/com/impl/traits.h: SkeletonWrapperClass, ProxyWrapperClass move operations and destructors", "score/mw/com/impl/reference_to_moveable.h: ReferenceToMoveable", "score/mw/com/impl/enable_reference_to_moveable_from_this.h", "score/mw/com/impl/flag_owner.h: FlagOwner", "score/mw/com/impl/proxy_base.cpp: Deinitialize", "score/mw/com/impl/skeleton_base.cpp: OfferService, StopOfferService", "score/mw/com/impl/proxy_event_base.cpp: ~ProxyEventBase, Unsubscribe", "score/mw/com/impl/sample_allocatee_tracker.cpp: ~SampleAllocateeTracker"]}
{"id": "C106", "title": "Provider and consumers agree on where every sample is", "statement": "For every event and field that a provider offers, and each of its slots, the provider writes the sample at one place in shared memory, and every typed and generic consumer reads it at that place. The place is aligned for the sample type and lies in the memory, and no two samples share a byte. A typed consumer whose type has another size or alignment is refused, and so is a consumer of an element that the provider does not have; the events that a generic proxy shows are those that are provided, with the size of the provider's samples. A provider that is restarted on the memory writes every sample where it was.", "quantifier": "every list of events and fields, typed and generic, with every size, alignment and number of slots, every size of the memory and every slot", "why_tests_cant": "The place of a sample depends on all elements registered before it and on their sizes and alignments; tests try a few types.", "anchors": ["score/mw/com/impl/bindings/lola/skeleton_memory_manager.h: CreateEventDataInCreatedSharedMemory, RetrieveEventDataFromOpenedSharedMemory", "score/mw/com/impl/bindings/lola/skeleton_memory_manager.cpp: CreateGenericEventDataInCreatedSharedMemory, RetrieveGenericEventDataFromOpenedSharedMemory", "score/mw/com/impl/bindings/lola/linear_search_map.h: LinearSearchMap", "score/mw/com/impl/bindings/lola/proxy.cpp: GetEventDataStorage, IsEventProvided", "score/mw/com/impl/bindings/lola/proxy_event.h: ProxyEvent", "score/mw/com/impl/bindings/lola/generic_proxy_event.cpp: GetNewSamplesImpl, GetSampleSize", "score/mw/com/impl/bindings/lola/skeleton_event.h: Allocate", "score/mw/com/impl/bindings/lola/generic_skeleton_event.cpp: Allocate", "score/mw/com/impl/generic_proxy.cpp: FillEventMap"]}
{"id": "C107", "title": "A consumer's pointer keeps its sample and gives it back once", "statement": "While a pointer that GetNewSamples has handed out leads to a sample, the sample does not change, whatever the provider, other pointers and other threads do. The pointer can be moved, swapped and reset; exactly one pointer holds the sample at any time, and a pointer that was moved from is null. When the pointer ends or gets something else, the sample is given back exactly once: the provider can use the slot again, and the subscription can obtain another sample. Nothing is lost or given back twice in any program, and a subscription never has more samples out than it asked for. Pointers compare by the time of publication of their samples.", "quantifier": "every number of slots, subscriptions and pointers, every sequence of publishing, obtaining, moving, assigning, swapping, resetting and ending, in every interleaving with other threads", "why_tests_cant": "Ownership is spread over a variant, an optional and a guard, each with its own move operations; tests try single operations.", "anchors": ["score/mw/com/impl/plumbing/sample_ptr.h: SamplePtr", "score/mw/com/impl/bindings/lola/sample_ptr.h: SamplePtr", "score/mw/com/impl/bindings/lola/slot_decrementer.cpp: SlotDecrementer", "score/mw/com/impl/sample_reference_tracker.cpp: SampleReferenceGuard, SampleReferenceTracker", "score/mw/com/impl/bindings/lola/proxy_event.h: GetNewSamplesImpl", "score/mw/com/impl/proxy_event.h: GetNewSamples"]}
{"id": "C108", "title": "Exactly what the trace filter file asks for is traced", "statement": "A trace point of an event or field is enabled exactly if the trace filter file asks for it by its switch and the configuration has tracing slots for the element in the service instance; every file of the right form is accepted. Whatever a consumer or provider does with the element, exactly the enabled trace points are recorded, in the order in which things happen, with the element and the instance. Without a filter file or with tracing switched off nothing is recorded. If the trace subsystem disables a trace point or all of them, they are not recorded again.", "quantifier": "every JSON value as filter file, every configuration, every element, instance and trace point, every sequence of calls, notifications and deliveries and every answer of the trace subsystem", "why_tests_cant": "The tables for consumers and providers, events and fields, and getters and setters multiply; tests look at a few files and at single calls.", "anchors": ["score/mw/com/impl/tracing/configuration/tracing_filter_config_parser.cpp: Parse", "score/mw/com/impl/tracing/configuration/tracing_filter_config.cpp: AddTracePoint, IsTracePointEnabled", "score/mw/com/impl/configuration/tracing_configuration.cpp: TracingConfiguration", "score/mw/com/impl/tracing/proxy_event_tracing.cpp", "score/mw/com/impl/tracing/skeleton_event_tracing.h", "score/mw/com/impl/runtime.cpp: ParseTraceConfig"]}
{"id": "C109", "title": "The trace subsystem knows the memory of a service exactly while the service is offered", "statement": "When a service that is traced is offered, its data memory is registered with the trace subsystem under its start address, if it lies in typed memory and the subsystem accepts it; services that are not traced are never registered and get no typed memory. The registration stays until the service is stopped and is removed then. Offering, stopping and failing offers never end the process because of tracing.", "quantifier": "all sets of services and elements, all choices of trace points, all histories of offers (successful or failing at any point), stops and trace calls of any number of threads, and all answers of the trace subsystem", "why_tests_cant": "Whether a registration is removed depends on the whole history of trace failures and failed offers; tests follow single offers with a mocked subsystem.", "anchors": ["score/mw/com/impl/skeleton_base.cpp: SkeletonBase::OfferService, StopOfferService", "score/mw/com/impl/tracing/skeleton_tracing.cpp: CreateRegisterShmObjectCallback, CreateUnregisterShmObjectCallback", "score/mw/com/impl/bindings/lola/skeleton_memory_manager.cpp: CreateSharedMemoryForData, OpenSharedMemoryForData", "score/mw/com/impl/bindings/lola/skeleton.cpp: Skeleton::PrepareOffer, PrepareStopOffer", "score/mw/com/impl/tracing/tracing_runtime.cpp: RegisterShmObject, UnregisterShmObject", "score/mw/com/impl/bindings/lola/tracing/tracing_runtime.cpp: RegisterShmObject"]}
{"id": "C110", "title": "On QNX every message of the server reaches the client once and in order", "statement": "What a server sends on a QNX connection with Notify and Reply and is told it has sent reaches the client exactly once, unaltered and in the order of sending, at the latest when the client has handled all wake-ups under way; no message stays in the server with nothing to wake the client. Notify fails with ENOBUFS exactly when as many notifications as configured are unread, and with EMSGSIZE exactly when the message is too long; Reply fails only with EMSGSIZE. With a server that replies to requests only, the client never meets a reply it does not wait for.", "quantifier": "all configurations, all interleavings of Notify and Reply calls, the announcement of the client's pulses, the client's handling of pulses and its reads, and its requests; all messages", "why_tests_cant": "Whether a message is left behind depends on how many messages were queued at the moment the client announces its pulses and on what happens between the two halves of the announcement; tests send after the connection is set up.", "anchors": ["score/message_passing/qnx_dispatch/qnx_dispatch_server.cpp:ServerConnection::Notify", "score/message_passing/qnx_dispatch/qnx_dispatch_server.cpp:ServerConnection::Reply", "score/message_passing/qnx_dispatch/qnx_dispatch_server.cpp:ServerConnection::ProcessReadRequest", "score/message_passing/qnx_dispatch/qnx_dispatch_engine.cpp:io_msg", "score/message_passing/client_connection.cpp:ProcessInputEvent"]}
{"id": "C111", "title": "On QNX a wake-up reaches the client it was sent to, and no other", "statement": "All client connections of a process share one thread and one table. A wake-up (pulse) that a server sends to a client connection leads to exactly the callback it was sent for (new data or ping) as long as that connection is registered, whatever other connections come and go; a wake-up that is still under way when its connection is unregistered does nothing; two registered connections never share a wake-up. Each connection is told once that it is disconnected, exactly when it is unregistered or its owner is cleaned up, and gets no callback afterwards.", "quantifier": "all histories of registrations, unregistrations, clean-ups of owners, sent pulses and handled pulses, in every order, with any number of connections", "why_tests_cant": "Slots are reused while pulses are under way; whether a stale pulse is recognised depends on the whole history of the slot (and fails only after 65536 reuses).", "anchors": ["score/message_passing/qnx_dispatch/qnx_dispatch_engine.cpp:RegisterPosixEndpoint", "score/message_passing/qnx_dispatch/qnx_dispatch_engine.cpp:UnselectEndpoint", "score/message_passing/qnx_dispatch/qnx_dispatch_engine.cpp:SelectPulseCallback", "score/message_passing/qnx_dispatch/qnx_dispatch_engine.cpp:PackSelectPulseValue", "score/message_passing/qnx_dispatch/qnx_dispatch_engine.cpp:ProcessCleanup"]}
{"id": "C112", "title": "Get of a field is atomic while Update and Set are running", "statement": "While a field has a value, every Get is answered with a value, however it overlaps with calls of Update by the provider, of Set by consumers and with consumers that take and give back samples: with a complete value that was the current one at some moment of the Get. Values do not go back from one Get to the next, and once the last Set or Update has returned, Get is answered with its value. Each Get, Set and Update ends after a bounded number of its own steps.", "quantifier": "Every number of slots, every interleaving of the atomic steps of one Get, one set handler and one Update at a time (repeated any number of times) with consumers referencing and releasing any slots", "why_tests_cant": "The searches for the oldest and the newest slot look at one slot after the other while other threads change them; the outcome depends on where between two loads another call makes progress.", "anchors": ["score/mw/com/impl/skeleton_field.h:RegisterSetHandler", "score/mw/com/impl/skeleton_field.h:RegisterGetHandler", "score/mw/com/impl/bindings/lola/skeleton_event.h:GetLatestSample", "score/mw/com/impl/bindings/lola/skeleton_event_common.h:Send", "score/mw/com/impl/bindings/lola/consumer_event_data_control_local_view.cpp:ReferenceNextEvent", "score/mw/com/impl/bindings/lola/provider_event_data_control_local_view.cpp:AllocateNextSlot"]}
{"id": "C113", "title": "Sessions of a server on QNX live in order and get every message", "statement": "The callbacks of each client connection of a server come in order: the connect callback with the identity of the client; if it accepts, the messages of that client, each given once and unaltered to the callback for its kind, and at the end at most one disconnect callback, with nothing after it. Every message up to the configured size is delivered. A session ends only if the client closes it or the server stops listening or is destroyed, and the user is told. After StopListening no session is open and no callback comes until the server is started again. A session does not process a second message with reply before the first one has been replied to. Nothing that clients do, and no order of calls by the user, makes the server use destroyed objects or memory outside of the message.", "quantifier": "Every sequence of StartListening, StopListening, destruction, opens, writes with any header and content, closes and replies, with every answer of the operating system and of the connect callback", "why_tests_cant": "The content of a write is chosen by another process, and the order of connects, messages, closes and calls of the user is unbounded.", "anchors": ["score/message_passing/qnx_dispatch/qnx_dispatch_server.cpp:StartListening", "score/message_passing/qnx_dispatch/qnx_dispatch_server.cpp:ProcessConnect", "score/message_passing/qnx_dispatch/qnx_dispatch_server.cpp:ProcessInput", "score/message_passing/qnx_dispatch/qnx_dispatch_engine.cpp:io_open", "score/message_passing/qnx_dispatch/qnx_dispatch_engine.cpp:io_write", "score/message_passing/qnx_dispatch/qnx_dispatch_engine.cpp:io_close_ocb", "score/message_passing/qnx_dispatch/qnx_dispatch_engine.cpp:StopServer"]}
{"id": "C114", "title": "Shared memory of a path is initialised once, before anyone gets it, and is the same for all", "statement": "Whatever Create, CreateOrOpen and Open calls of whichever processes overlap, and wherever processes are killed: memory that is returned has been initialised by exactly one finished run of the initialisation callback, no memory is initialised twice, and all processes that get memory of the path get the same memory, as long as it is not removed.", "quantifier": "Every number of processes, every interleaving of the steps of their calls (lock file, shm_open, mapping, callback), every parameter of the calls, every order in which pointers are given up, every point at which a process is killed, and every history before.", "why_tests_cant": "Tests replace the operating system by mocks and run one process; the overlaps of lock file, object and callback over several processes and kill points cannot be enumerated.", "anchors": ["score/memory/shared/shared_memory_factory_impl.cpp: SharedMemoryFactoryImpl::Open, Create, CreateOrOpen, RemoveStaleArtefacts", "score/memory/shared/shared_memory_resource.cpp: OpenImpl, CreateImpl, CreateOrOpen, waitForFreeLockFile", "score/memory/shared/lock_file.cpp"]}
{"id": "C115", "title": "Create, CreateOrOpen and Open of shared memory succeed when they can and leave the process alive", "statement": "Create and CreateOrOpen of a path that does not exist make it; Open and CreateOrOpen of a path that exists return it if its provider is allowed; CreateOrOpen succeeds also if other processes call it at the same time. A call neither blocks for ever nor ends the process, also after another process has been killed in the middle of a call.", "quantifier": "Every history of calls, releases, removals and kills of every number of processes, every parameter of the call and every interleaving.", "why_tests_cant": "The failing interleavings involve two processes in different steps of the lock file protocol or a process that was killed at one of them; unit tests with mocks check one call at a time.", "anchors": ["score/memory/shared/shared_memory_factory_impl.cpp: Open, Create, CreateOrOpen", "score/memory/shared/shared_memory_resource.cpp: SharedMemoryResource::CreateOrOpen, OpenImpl, CreateImpl, waitForFreeLockFile", "score/memory/shared/shared_memory_factory.h: documentation of Open, Create, CreateOrOpen, Remove"]}
{"id": "C116", "title": "A process maps the shared memory of a path once, keeps it registered and checks its provider", "statement": "All pointers a process holds to the memory of a path lead to one mapping, which stays registered while a pointer is held, so that pointers into it can be checked. A call with a list of allowed providers returns only memory that one of them, or the own user, has made, and refuses no memory of an allowed provider; Create returns only memory that this call has made. If a process opens a path only for writing, everything it gets is writable.", "quantifier": "Every history of calls, releases, removals and kills of every number of processes, every list of allowed providers, memory in typed memory or not, processes with and without access to the typed memory daemon.", "why_tests_cant": "The claims are about all orders of calls, releases and removals in a process together with the calls of other processes; tests check single calls with mocked ownership.", "anchors": ["score/memory/shared/shared_memory_factory_impl.cpp: GetResourceIfAlreadyOpened, checkUidMatch, Open, CreateOrOpen, Remove", "score/memory/shared/shared_memory_resource.cpp: GetShmObjectStatInfo, mapMemoryIntoProcess, ~SharedMemoryResource", "score/memory/shared/memory_resource_registry.cpp: insert_resource, remove_resource"]}
{"id": "C117", "title": "The configuration of a process is what its configuration file says", "statement": "A configuration file is accepted just if its members have the documented form, its names are proper, no service type, instance or element is there twice, and the elements of a service type have different ids; otherwise the process ends. The configuration then has exactly the service types, instances, elements, permissions, queue sizes and tracing settings that stand in the file, with the defaults where a member is missing. Each section is found under its instance specifier. An event or field is traced just if tracing is switched on and its instance gives it slots for tracing.", "quantifier": "all configuration files: JSON trees of any size and depth, with any members, values and lists", "why_tests_cant": "Files are unboundedly large and each member may be missing, misplaced or of a wrong kind; one misread member changes the memory layout or the permissions of a service.", "anchors": ["score/mw/com/impl/configuration/configuration_json_parsing_strategy.cpp: Parse, ParseServiceTypes, ParseServiceInstances, ParseGlobalProperties, ParseTracingProperties", "score/mw/com/impl/configuration/README.md", "score/mw/com/impl/configuration/mw_com_config_schema.json", "score/mw/com/impl/instance_specifier.cpp: Create"]}
{"id": "C118", "title": "Nothing of an owner runs after its clean-up, the clean-up returns, and nothing else is lost", "statement": "When CleanUpOwner(owner) of the message passing engine returns on an ordinary thread, no command and no endpoint callback that the owner had registered before the call is running, registered or ever called again. The call returns. Each endpoint is told exactly once that it is disconnected, and only when it is unregistered or its owner is cleaned up. A command runs at most once, and a command whose owner is not cleaned up does run. CleanUpOwner(nullptr) does nothing.", "quantifier": "for every interleaving of any number of threads that register commands, register and unregister endpoints and clean up owners, with the engine's thread between any two callbacks, for both engines (Unix domain and QNX)", "why_tests_cant": "the guarantee is about every interleaving of the caller, other callers and the engine's thread, before and after the call; that nothing runs 'ever again' has no end at which a test could look", "anchors": ["score/message_passing/unix_domain/unix_domain_engine.cpp: CleanUpOwner, ProcessCleanup", "score/message_passing/qnx_dispatch/qnx_dispatch_engine.cpp: CleanUpOwner, ProcessCleanup", "score/message_passing/timed_command_queue.cpp: RegisterTimedEntry, ProcessQueue, CleanUpOwner", "score/message_passing/non_allocating_future/non_allocating_future.h", "score/message_passing/i_shared_resource_engine.h: CleanUpOwner"]}
{"id": "C119", "title": "Receiving with the Rust API: nothing is missed, mixed up or counted wrong", "statement": "A receive future or a stream of the Rust API that waits is woken when there is a sample to get. Samples come in the order of sending, each at most once, and the user never has more than they subscribed for. try_receive and receive hand over the newest samples, as many as there are, as the maximum allows and as the user may still get, at the end of the container, whose oldest samples make room; receive returns as soon as the number asked for is reached, with that number. Arguments that are not valid are refused when the future is first polled; a cancelled future returns with the next poll and gives the container back. A stream yields every sample it has fetched, in order. The process does not end.", "quantifier": "for every interleaving of the provider, the thread that calls the receive handler, the polling runtime (a poll in three steps) and the user (receive, cancel, drop, take samples out, give them back, make streams), every number subscribed for, capacity, minimum and maximum", "why_tests_cant": "the wake-up can be lost only in a window between fetching and registering the waker, and the container depends on the whole history of polls and of samples held", "anchors": ["score/mw/com/impl/rust/com-api/com-api-runtime-lola/consumer.rs: LolaSubscriberImpl::try_receive, cancellable_receive, to_stream, ReceiveFuture::poll, SampleStream::poll_next, try_receive_samples, create_sample_callback", "score/mw/com/rust/score_com_concept/concept.rs: SampleContainer, Subscription", "score/mw/com/impl/proxy_event.h: GetNewSamples"]}
{"id": "C120", "title": "Looking for services with the asynchronous Rust API: the result is the latest, and the search ends", "statement": "A future of get_available_instances_async that waits is woken when the service discovery has found something. A poll returns the handles of the latest callback, or waits if there was none; an invalid specifier and a search that cannot be started are reported by the first poll. The search is stopped exactly once, when the future returns or is dropped, and no callback comes afterwards; while the future waits the search goes on. Nothing stays allocated when the future is gone.", "quantifier": "for every interleaving of the call (with or without a callback during it), polls in two steps, callbacks in two steps on another thread, and a drop at any time between polls", "why_tests_cant": "a lost wake-up needs a callback in a window inside a poll, and a search that is not stopped shows no effect in the test that leaves it behind", "anchors": ["score/mw/com/impl/rust/com-api/com-api-runtime-lola/consumer.rs: get_available_instances_async, ServiceDiscoveryFuture", "score/mw/com/impl/rust/com-api/com-api-ffi-lola/registry_bridge_macro.cpp: mw_com_start_find_service, mw_com_stop_find_service", "score/mw/com/impl/rust/com-api/com-api-ffi-lola/registry_bridge_macro.h: RustBoxedCallable::dispose"]}
{"id": "C121", "title": "The configuration in use is the one named last before the first use", "statement": "The path of the configuration is the argument after the first --service_instance_manifest (or the deprecated -service_instance_manifest) on the command line, or ./etc/mw_com_config.json without one; the process ends if nothing follows the key. The runtime is made once. Every thread that uses the library sees the configuration of the last InitializeRuntime that took effect, or without any that of the default file. InitializeRuntime takes effect only with a file that parses and is valid, and only before the runtime is there; it is ignored only after some thread has asked for the runtime. Every such call returns, and the process goes on as long as the files are all right.", "quantifier": "all command lines, all contents of files and changes of them, all numbers of threads and all interleavings of initialisations and first uses", "why_tests_cant": "A test calls InitializeRuntime and the first use in one order. The order of overlapping calls decides which configuration is in use, and the runtime can be made only once in a process.", "anchors": ["score/mw/com/impl/runtime.cpp Runtime::Initialize, Runtime::getInstanceInternal", "score/mw/com/runtime_configuration.cpp RuntimeConfiguration::ParseConfigurationPath"]}
{"id": "C122", "title": "Starting and stopping a search, and the calls of its handler", "statement": "StartFindService gives every search a handle of its own; it returns an error exactly if the search of the file system fails, and then the handler is never called. If something is known at the start, the handler has been called when StartFindService returns; later news is told to every search that was not stopped. Handlers never run at the same time in two threads. After StopFindService has returned, the handler is not called again, and, if the call was not made from the handler itself, the handler is not running either, so that what it uses may be destroyed. Handlers may start and stop searches, also their own; no call waits for ever. A name that is not in the configuration is an error.", "quantifier": "all interleavings of StartFindService, StopFindService, handlers that make such calls, and the thread of the service discovery, for any number of threads and searches", "why_tests_cant": "The guarantee depends on the schedule: a handler may be starting in the thread of the service discovery exactly while another thread, or a handler, stops its search. Tests run a few schedules.", "anchors": ["score/mw/com/impl/service_discovery.cpp ServiceDiscovery::StartFindService", "score/mw/com/impl/service_discovery.cpp ServiceDiscovery::StopFindService", "score/mw/com/impl/service_discovery.cpp ServiceDiscovery::BindingSpecificStartFindService", "score/mw/com/impl/bindings/lola/service_discovery/client/service_discovery_client.cpp ServiceDiscoveryClient::StartFindService", "score/mw/com/impl/bindings/lola/service_discovery/client/service_discovery_client.cpp ServiceDiscoveryClient::StopFindService", "score/mw/com/impl/bindings/lola/service_discovery/client/service_discovery_client.cpp ServiceDiscoveryClient::HandleEvents"]}
{"id": "C123", "title": "The gateway has what its configuration files say", "statement": "The gateway forwards and accepts exactly the services that its configuration file lists, and the transport has the address, the ports and the timeout of its own file (5000 ms without one). It comes up exactly if both files can be read, are well-formed, and name the known transport layer. A service of the peer is accepted exactly if its name is in the list. A name in the list of the forwarded services that is no instance specifier does not hinder the others. Files that the schemas allow are accepted, and files that they forbid are refused.", "quantifier": "all JSON values as files, all sets of files, all names, and all outcomes of starting a search", "why_tests_cant": "Tests parse a few files. Which members may be missing, have another type, or another range is a question about all files.", "anchors": ["score/mw/com/gateway/gateway_application/configuration/gateway_config_parser.cpp ParseGatewayConfig", "score/mw/com/gateway/transport_layer/sample/configuration/sample_transport_config_parser.cpp ParseSampleTransportConfig", "score/mw/com/gateway/transport_layer/transport_factory.cpp TransportFactory::Create", "score/mw/com/gateway/gateway_application/gateway_application.cpp GatewayApplication::StartServiceDiscovery", "score/mw/com/gateway/gateway_application/gateway_application.cpp GatewayApplication::IsServiceInstanceAccepted"]}
{"id": "C124", "title": "An engine calls handlers only during its life, and its destructor ends its thread", "statement": "A message passing engine calls handlers only after its constructor and never after its destructor has returned; then its thread has ended and everything is given back. In each handler the engine recognises the thread as its own. Events are handled once each in the order in which they come, and all of them while the engine lives. The destructor returns.", "quantifier": "all interleavings of the constructor, the destructor, the thread of the engine, its handlers and the events that come, all failures of waiting and of sending the quit pulse, and both places from where the destructor may be called", "why_tests_cant": "The thread may begin before the constructor has stored it, and events come at any time. Tests see a few schedules, and no refused pulse.", "anchors": ["score/message_passing/qnx_dispatch/dispatch_thread_runner.cpp DispatchThreadRunner::StartPostInit", "score/message_passing/qnx_dispatch/dispatch_thread_runner.cpp DispatchThreadRunner::Stop", "score/message_passing/qnx_dispatch/dispatch_thread_runner.cpp DispatchThreadRunner::RunOnThread", "score/message_passing/qnx_dispatch/dispatch_thread_runner.h DispatchThreadRunner::Start", "score/message_passing/qnx_dispatch/qnx_dispatch_engine.cpp QnxDispatchEngine::~QnxDispatchEngine", "score/message_passing/i_client_connection.h IClientConnection"]}
{"id": "C125", "title": "A Rust subscription is in force just as long as its object exists", "statement": "With the Rust API, an event is subscribed, with the number of samples asked for, exactly while the user has the subscription object. The proxy exists exactly while the user has the subscriber or the subscription. subscribe gives a subscription exactly if the number is valid, the event exists, the binding accepts and the type is known; otherwise it returns an error and leaves nothing behind. unsubscribe gives back a subscriber that can subscribe again. Samples never outlive the subscription. Giving up a subscription does not end the process.", "quantifier": "all sequences of creating, subscribing, receiving, releasing samples, unsubscribing, dropping and forgetting futures, all numbers of samples, and all outcomes of what the binding is asked for", "why_tests_cant": "Tests use a mock of the bridge and a few sequences. Whether each way out of subscribe cleans up, and whether safe code can end the process, is a question about all sequences.", "anchors": ["score/mw/com/impl/rust/com-api/com-api-runtime-lola/consumer.rs LolaSubscribableImpl::subscribe", "score/mw/com/impl/rust/com-api/com-api-runtime-lola/consumer.rs LolaSubscriberImpl::drop", "score/mw/com/impl/rust/com-api/com-api-runtime-lola/consumer.rs LolaSubscriberImpl::unsubscribe", "score/mw/com/impl/proxy_event_base.cpp ProxyEventBase::Unsubscribe", "score/mw/com/impl/proxy_base.cpp ProxyBase::Deinitialize", "score/mw/com/impl/bindings/lola/proxy_event_common.cpp ProxyEventCommon::Subscribe"]}
