{"id": "C01", "title": "Write access excludes everybody else", "statement": "While one thread of any process using sysrepo holds write access to a shared resource (module data, subscriptions, the context), no other thread of any process holds read, upgradable-read or write access to that resource.", "quantifier": "every number of threads and processes, every interleaving of lock, wake-up, timeout, upgrade, downgrade, unlock and process-crash steps", "why_tests_cant": "a test runs a handful of schedules; a forbidden overlap needs one particular interleaving of timeouts and crashes", "anchors": ["src/common.c: sr_sub_rwlock", "src/common.c: sr_rwrelock", "src/common.c: sr_rwunlock"]}
{"id": "C02", "title": "At most one upgradable reader", "statement": "At most one thread at a time is allowed to believe it holds the upgradable read access of a resource, so at most one change operation per module proceeds to the store phase.", "quantifier": "every interleaving of any number of threads, including timed-out upgrades", "why_tests_cant": "the failing schedule needs a timed-out urgent writer between two steps of an upgrade", "anchors": ["src/common.c: sr_sub_rwlock", "src/common.c: sr_rwrelock"]}
{"id": "C03", "title": "A failed lock attempt leaves no trace", "statement": "An API call that fails to get access to a resource (timeout, reader limit, recursion limit) leaves the resource's lock state exactly as it was apart from removing crashed owners; after all holders release, the resource is free.", "quantifier": "every lock state and every failing attempt in every mode", "why_tests_cant": "limit conditions (16 connections, 255 recursive reads) and timing windows are not exercised by tests", "anchors": ["src/common.c: sr_sub_rwlock", "src/common.c: sr_rwlock_reader_add", "src/common.c: sr_rwrelock"]}
{"id": "C04", "title": "Crashed owners are recovered, live ones never", "statement": "If a process crashes while it holds any lock, the next contender removes exactly the crashed connections' entries and can proceed; locks of live connections survive every recovery.", "quantifier": "every set of readers, every upgradable and write owner, every subset of crashed connections", "why_tests_cant": "crash points cannot be enumerated by tests", "anchors": ["src/common.c: sr_rwlock_recover", "src/common.c: sr_rwlock_reader_del_"]}
{"id": "C05", "title": "No lost wake-up in the condition variable", "statement": "A thread that waits for a change of a shared condition under its mutex is woken by every broadcast issued after it started waiting, even if the broadcast happens between releasing the mutex and going to sleep.", "quantifier": "every interleaving of waiters and broadcasters", "why_tests_cant": "the window is a few instructions wide", "anchors": ["src/sr_cond/sr_cond_futex.c: sr_cond_wait_", "src/sr_cond/sr_cond_futex.c: sr_cond_broadcast"]}
{"id": "C06", "title": "Requests over several modules cannot deadlock each other", "statement": "Any number of concurrent API calls that each need the data locks of an arbitrary set of modules never wait for each other in a cycle, because every call takes the locks in the same global order.", "quantifier": "every number of requests, every module set, every order in which the modules were collected", "why_tests_cant": "deadlocks depend on the schedule and on the sets chosen", "anchors": ["src/modinfo.c: sr_modinfo_qsort_cmp", "src/modinfo.c: sr_modinfo_consolidate", "src/shm_mod.c: sr_shmmod_modinfo_lock"]}
{"id": "C07", "title": "Shared memory allocations never overlap", "statement": "All subscription records, paths and lists stored in the shared memory segment occupy pairwise disjoint, 8-byte aligned ranges inside the segment, whatever sequence of subscribe, modify and unsubscribe calls produced them.", "quantifier": "every history of allocate, grow, shrink and free operations of any sizes", "why_tests_cant": "overlaps appear only for particular fragmentation patterns", "anchors": ["src/common.c: sr_shmrealloc", "src/common.c: sr_shmrealloc_add", "src/common.c: sr_shmrealloc_del", "src/common.c: sr_ext_hole_add", "src/common.c: sr_ext_hole_del"]}
{"id": "C08", "title": "No shared memory is lost", "statement": "Every byte of the shared segment past its header is either owned by exactly one live record or recorded as free; after everything is freed, the recorded free space covers the whole segment.", "quantifier": "every history of allocations and frees", "why_tests_cant": "leaks of a few bytes per operation show up only after long runs", "anchors": ["src/common.c: sr_ext_hole_add", "src/common.c: sr_ext_hole_del", "src/common.c: sr_shmrealloc_use_hole", "src/common.c: sr_shmrealloc_del"]}
{"id": "C09", "title": "Growing a shared array keeps its elements", "statement": "Appending an element to, inserting one into or deleting one from a shared array keeps all other elements with their values and relative order, also when the array has to move.", "quantifier": "every array length, element position, dynamic attribute size and memory layout", "why_tests_cant": "element shifts and moves interact with hole layout", "anchors": ["src/common.c: sr_shmrealloc_add", "src/common.c: sr_shmrealloc_del"]}
{"id": "C10", "title": "Originator data survive the trip", "statement": "Whatever list of opaque data blobs the originator attached to its session, every subscriber callback reads back exactly those blobs, in order and with their sizes.", "quantifier": "every number of blobs, every blob size and content", "why_tests_cant": "sizes, alignment and empty blobs combine without bound", "anchors": ["src/common.c: sr_ev_data_size", "src/common.c: sr_ev_data_push", "src/common.c: sr_ev_data_get"]}
{"id": "C11", "title": "Subscriber errors survive the trip", "statement": "All errors a subscriber callback sets (code, message, format, data blobs) arrive at the originator in the same order and unchanged; a missing message is replaced by the standard text of its code.", "quantifier": "every error list, message length and blob list", "why_tests_cant": "length-dependent alignment and optional fields", "anchors": ["src/shm_sub.c: sr_shmsub_prepare_error", "src/shm_sub.c: _sr_shmsub_notify_wait_wr"]}
{"id": "C12", "title": "Operational push order is a strict order and changes only what was asked", "statement": "The push operational data of all sessions of a module are always kept in strictly ascending order with one entry per session, and setting a session's order (or storing its data) changes only that session's entry.", "quantifier": "every history of storing, reordering and deleting push data by any number of sessions", "why_tests_cant": "only specific relative positions of old and new order exhibit the problem", "anchors": ["src/shm_ext.c: sr_shmext_oper_push_update", "src/shm_ext.c: sr_shmext_oper_push_update_get_idx", "src/shm_ext.c: sr_shmext_oper_push_del"]}
{"id": "C13", "title": "Later push data override earlier", "statement": "The operational value of a node is decided by the session with the highest order that set or discarded it.", "quantifier": "every number of sessions, every content and order", "why_tests_cant": "combinations of discards and values over many sessions", "anchors": ["src/modinfo.c: sr_module_oper_data_load", "src/edit_diff.c: sr_edit_mod_apply"]}
{"id": "C14", "title": "A datastore lock keeps every other session out", "statement": "While a session holds the lock of a module's datastore (sr_lock succeeded), no other session can lock it or change it; they get a locked error. The lock ends exactly by sr_unlock, stopping the session or death of its process.", "quantifier": "every history of lock, unlock, write, session stop and crash by any number of sessions", "why_tests_cant": "histories are unbounded", "anchors": ["src/sysrepo.c: sr_change_dslock", "src/sysrepo.c: _sr_un_lock", "src/shm_mod.c: sr_shmmod_lock", "src/shm_mod.c: sr_shmmod_release_locks"]}
{"id": "C15", "title": "Locking all modules is all-or-nothing", "statement": "sr_lock/sr_unlock over several modules either changes the lock state of all of them or leaves all as they were.", "quantifier": "every set of modules, every prior ownership and every point of failure", "why_tests_cant": "requires failure in the middle of a module list", "anchors": ["src/sysrepo.c: sr_change_dslock"]}
{"id": "C16", "title": "sr_get_lock reports the truth", "statement": "sr_get_lock says locked, with the owning session id and time, exactly if all the selected modules are locked by one session.", "quantifier": "every module set and lock state", "why_tests_cant": "needs all mixed ownership cases", "anchors": ["src/sysrepo.c: sr_get_lock"]}
{"id": "C17", "title": "Each edit operation means what NETCONF says", "statement": "Applying create, merge, replace, delete, remove, none and ether to a datastore yields the documented result: create of an existing node is refused, delete of a missing node is refused, remove of a missing one is a no-op, merge adds or overwrites, replace makes the subtree equal to the edit, none requires existence.", "quantifier": "every datastore content and every edit tree", "why_tests_cant": "trees, operations and their nesting are unbounded", "anchors": ["src/edit_diff.c: sr_edit_apply_r", "src/edit_diff.c: sr_edit_apply_create", "src/edit_diff.c: sr_edit_apply_merge", "src/edit_diff.c: sr_edit_apply_replace", "src/edit_diff.c: sr_edit_apply_remove", "src/edit_diff.c: sr_edit_apply_none"]}
{"id": "C18", "title": "The reported changes are exactly the difference", "statement": "The set of changes subscribers see turns the old data into the new data: replaying the reported diff on the old content gives the new content, and no change is reported when nothing changed.", "quantifier": "every datastore content and every accepted edit", "why_tests_cant": "unbounded trees and edits", "anchors": ["src/edit_diff.c: sr_edit_apply_r", "src/edit_diff.c: sr_edit_diff_add", "src/edit_diff.c: sr_diff_is_redundant"]}
{"id": "C19", "title": "User-ordered items land where requested", "statement": "Inserting or moving an instance of a user-ordered list to first, last, before or after another instance puts it exactly there, keeps the relative order of all other instances, and fails if the anchor is missing.", "quantifier": "every list content, position and anchor", "why_tests_cant": "lengths and positions are unbounded", "anchors": ["src/edit_diff.c: sr_edit_insert", "src/edit_diff.c: sr_edit_apply_move", "src/edit_diff.c: sr_edit_userord_is_moved"]}
{"id": "C20", "title": "Accumulated edits equal sequential edits", "statement": "Several sr_set_item/sr_delete_item calls followed by one sr_apply_changes have the same effect as applying them one after another, or the conflicting call is refused when made.", "quantifier": "every sequence of operations on a node", "why_tests_cant": "sequences are unbounded", "anchors": ["src/edit_diff.c: sr_edit_add_merge_op", "src/edit_diff.c: sr_edit_add_update_op", "src/edit_diff.c: sr_edit_add"]}
{"id": "C21", "title": "Subscribers are called in priority order", "statement": "For one change every interested subscriber of a module gets the event once per phase, subscribers with higher priority strictly before those with lower priority.", "quantifier": "every number of subscriptions and priorities", "why_tests_cant": "priorities are 32-bit numbers, boundary values matter", "anchors": ["src/shm_sub.c: sr_shmsub_change_notify_has_subscription", "src/shm_sub.c: sr_shmsub_change_notify_next_subscription", "src/shm_sub.c: sr_shmsub_change_notify_change"]}
{"id": "C22", "title": "Accepted change is always concluded", "statement": "Every subscriber that accepted a change event of a change operation afterwards gets exactly one of done (change stored) or abort (change not stored); a subscriber that refused the change gets neither.", "quantifier": "every number of modules, subscribers, priorities and every failing subscriber", "why_tests_cant": "the failing position, priorities and module interleaving are unbounded", "anchors": ["src/shm_sub.c: sr_shmsub_change_notify_change", "src/shm_sub.c: sr_shmsub_change_notify_change_abort", "src/shm_sub.c: sr_shmsub_change_notify_change_done", "src/shm_sub.c: sr_shmsub_change_notify_nsubs_set_mod_prio"]}
{"id": "C23", "title": "A subscriber processes each event once", "statement": "A subscription's callback is called at most once for one event of one request, is never called for an abort of a change it has not accepted, and only with events its options select.", "quantifier": "every sequence of events written by publishers and of wake-ups of the listener", "why_tests_cant": "spurious wake-ups and event histories are unbounded", "anchors": ["src/shm_sub.c: sr_shmsub_change_listen_is_new_event", "src/shm_sub.c: sr_shmsub_change_listen_process_module_events"]}
{"id": "C24", "title": "The originator waits for exactly its subscribers", "statement": "The originator of an event is released exactly when every notified subscriber has processed it (or one failed), and learns of failure if any subscriber failed.", "quantifier": "every number of subscribers spread over processes and every order of their finishing", "why_tests_cant": "orders of completion are factorial", "anchors": ["src/shm_sub.c: sr_shmsub_listen_write_event"]}
{"id": "C25", "title": "Update event can only be changed by its single subscriber", "statement": "At most one update subscription exists per module and priority; adding a second is refused and leaves all subscriptions as they were.", "quantifier": "every history of subscribing and unsubscribing", "why_tests_cant": "histories unbounded", "anchors": ["src/shm_ext.c: sr_shmext_change_sub_add", "src/shm_ext.c: sr_shmext_change_sub_del"]}
{"id": "C26", "title": "Subscriptions are found by their id and removed alone", "statement": "Unsubscribing removes exactly the named subscription; all other subscriptions keep their data and keep being notified.", "quantifier": "every history of subscribing and unsubscribing on change, operational, RPC and notification subscriptions", "why_tests_cant": "histories unbounded", "anchors": ["src/shm_ext.c: sr_shmext_change_sub_free", "src/shm_ext.c: sr_shmext_oper_get_sub_free", "src/shm_ext.c: sr_shmext_rpc_sub_free"]}
{"id": "C27", "title": "RPC subscriptions are unique per priority and called in order", "statement": "Two RPC subscriptions of the same path and priority never coexist; callbacks are called from the highest priority to the lowest, the output returned is the one of the last called subscriber, and after a failure exactly the successfully called ones are aborted.", "quantifier": "every subscription set and every failing position", "why_tests_cant": "unbounded sets", "anchors": ["src/shm_ext.c: sr_shmext_rpc_sub_add", "src/shm_sub.c: sr_shmsub_rpc_notify", "src/shm_sub.c: sr_shmsub_rpc_notify_abort"]}
{"id": "C28", "title": "Operational providers are called parents first", "statement": "Operational data subscriptions are always kept ordered so that a provider of a path is asked before providers of paths inside it; two providers of one path coexist only if both allow merging.", "quantifier": "every history of subscribing and unsubscribing, every path", "why_tests_cant": "histories unbounded", "anchors": ["src/shm_ext.c: sr_shmext_oper_get_sub_add", "src/common.c: sr_xpath_len_no_predicates"]}
{"id": "C29", "title": "Applying changes is all-or-nothing", "statement": "sr_apply_changes either stores the complete new content of all changed modules and returns success, or returns an error and the stored content of every module is unchanged.", "quantifier": "every set of modules, every subscriber decision, every failing step", "why_tests_cant": "each step may fail at each module", "anchors": ["src/sysrepo.c: sr_changes_notify_store", "src/modinfo.c: sr_modinfo_data_store", "src/sysrepo.c: sr_apply_changes"]}
{"id": "C30", "title": "Nothing unauthorized or invalid reaches subscribers or storage", "statement": "If access control, validation or the permission check refuses a change, no subscriber is called and nothing is stored; a subscriber sees only changes that passed all of them.", "quantifier": "every input and every outcome of the checks", "why_tests_cant": "every combination of outcomes", "anchors": ["src/sysrepo.c: sr_changes_notify_store"]}
{"id": "C31", "title": "A failed apply keeps the pending edit, a successful one clears it", "statement": "After a successful sr_apply_changes the session has no pending changes; after a failed one the pending changes are still there; sr_discard_changes removes them without touching any datastore.", "quantifier": "every history of edit calls, applies and discards", "why_tests_cant": "histories unbounded", "anchors": ["src/sysrepo.c: sr_apply_changes", "src/sysrepo.c: sr_discard_changes"]}
{"id": "C32", "title": "Candidate mirrors running until modified", "statement": "Reading an unmodified candidate gives running; a modified candidate is isolated from later changes of running; committing it makes running equal to it and makes it mirror running again.", "quantifier": "every history of edits, commits, resets on both datastores", "why_tests_cant": "histories unbounded", "anchors": ["src/sysrepo.c: sr_copy_config", "src/plugins/ds_json.c: srpds_json_candidate_modified", "src/plugins/ds_json.c: srpds_json_candidate_reset", "src/modinfo.c: sr_modinfo_candidate_reset"]}
{"id": "C33", "title": "Startup survives a crash at any moment", "statement": "Whatever the moment at which the process dies while storing startup configuration, the next load returns the complete old content or the complete new content.", "quantifier": "every crash point, every old and new content", "why_tests_cant": "crash points are at every system call and partial write", "anchors": ["src/plugins/ds_json.c: srpds_json_store_", "src/plugins/ds_json.c: srpds_json_load", "src/plugins/common_json.c: srpjson_cp_path"]}
{"id": "C34", "title": "A failed startup store keeps the old content", "statement": "If storing startup configuration returns an error, the previously stored content is still loaded afterwards.", "quantifier": "every failing system call, every content", "why_tests_cant": "needs failure injection at each call", "anchors": ["src/plugins/ds_json.c: srpds_json_store_"]}
{"id": "C35", "title": "Vectored writes write everything exactly once", "statement": "When the notification store reports success, all bytes of the record were written in order exactly once, however the kernel splits or interrupts the writes.", "quantifier": "every list of buffers and every sequence of partial writes and interruptions", "why_tests_cant": "kernel splits are not controllable in tests", "anchors": ["src/plugins/common_json.c: srpjson_writev"]}
{"id": "C36", "title": "File copies are complete", "statement": "Copying a datastore file succeeds only if the target content equals the source content, whatever the sizes of partial reads and writes.", "quantifier": "every content and every sequence of partial reads/writes", "why_tests_cant": "kernel behaviour not controllable", "anchors": ["src/plugins/common_json.c: srpjson_cp_path"]}
{"id": "C37", "title": "Replay delivers every stored notification in the window once, in order", "statement": "A replay from start to stop delivers exactly the stored notifications with start <= time < stop, each once, in the order they were stored.", "quantifier": "every history of stored notifications (any sizes and times), every window", "why_tests_cant": "file splits depend on sizes and times", "anchors": ["src/plugins/ntf_json.c: srpntf_json_replay_next", "src/plugins/ntf_json.c: srpntf_find_file", "src/plugins/ntf_json.c: srpntf_json_store"]}
{"id": "C38", "title": "Storing a notification never fails because of earlier ones", "statement": "A notification can be stored for replay whatever was stored before.", "quantifier": "every history of stored notifications", "why_tests_cant": "needs more than a file full of notifications within one second", "anchors": ["src/plugins/ntf_json.c: srpntf_json_store", "src/plugins/ntf_json.c: srpntf_open_file"]}
{"id": "C39", "title": "The earliest notification time is the earliest", "statement": "The reported earliest stored notification is the first stored one.", "quantifier": "every history of stored notifications", "why_tests_cant": "histories unbounded", "anchors": ["src/plugins/ntf_json.c: srpntf_json_earliest_get"]}
{"id": "C40", "title": "Setting permissions of stored notifications terminates", "statement": "Changing owner or permissions of a module's notification storage visits every stored file once and returns.", "quantifier": "every set of stored notification files", "why_tests_cant": "non-termination cannot be observed by a finite test", "anchors": ["src/plugins/ntf_json.c: srpntf_json_access_set"]}
{"id": "C41", "title": "Buffered notifications are stored in order without loss", "statement": "With notification buffering on, all notifications sent on a session are stored exactly once, in sending order, also those sent just before the session stops.", "quantifier": "every interleaving of senders and the storing thread", "why_tests_cant": "interleavings unbounded", "anchors": ["src/replay.c: sr_replay_store", "src/replay.c: sr_notif_buf_store", "src/replay.c: sr_notif_buf_thread", "src/sysrepo.c: _sr_session_stop"]}
{"id": "C42", "title": "Replay and live delivery neither overlap nor leave a gap", "statement": "A subscription with replay gets every notification of its window exactly once: those sent before it started listening by replay, the later ones live.", "quantifier": "every subscription time and notification times", "why_tests_cant": "exact equality of timestamps is not controllable", "anchors": ["src/replay.c: sr_replay_notify", "src/shm_sub.c: sr_shmsub_notif_listen_process_module_events"]}
{"id": "C43", "title": "A NACM path rule applies exactly to its target and the nodes inside", "statement": "A rule with a path applies to a node exactly if the node is the target or a descendant of it.", "quantifier": "every rule path and node path", "why_tests_cant": "names that are prefixes of each other are easily missed", "anchors": ["src/utils/nacm.c: sr_nacm_allowed_path"]}
{"id": "C44", "title": "NACM group membership decides which rules apply", "statement": "A rule list applies to a user exactly if it names a group of the user or the wildcard.", "quantifier": "every group list of the user and of the rule list", "why_tests_cant": "sorting-dependent", "anchors": ["src/utils/nacm.c: sr_nacm_rule_group_match"]}
{"id": "C45", "title": "The first matching NACM rule decides", "statement": "The decision for a node is that of the first matching rule in the configured order, else the schema's default-deny extension, else the global default.", "quantifier": "every rule configuration and node", "why_tests_cant": "unbounded rule lists", "anchors": ["src/utils/nacm.c: sr_nacm_allowed_node"]}
{"id": "C46", "title": "Reading returns only permitted nodes", "statement": "No read API returns a node (or descendant) whose reading the rules deny for the session's user, and every permitted node is returned.", "quantifier": "every data tree, rule set and selected nodes", "why_tests_cant": "unbounded trees and rules", "anchors": ["src/utils/nacm.c: sr_nacm_get_node_set_read_filter", "src/utils/nacm.c: sr_nacm_get_subtree_read_filter", "src/utils/nacm.c: sr_nacm_check_data_read_filter"]}
{"id": "C47", "title": "A change is refused exactly if it touches something denied", "statement": "A change operation is refused by NACM exactly if it creates, updates or deletes at least one node for which that access is denied.", "quantifier": "every diff tree and rule set", "why_tests_cant": "unbounded trees and rules", "anchors": ["src/utils/nacm.c: sr_nacm_check_diff_r", "src/utils/nacm.c: sr_nacm_check_diff"]}
{"id": "C48", "title": "XPath iteration leaves the string intact", "statement": "After any sequence of sr_xpath_* calls on a path and a final sr_xpath_recover, the string equals the original, and no call reads or writes outside of it.", "quantifier": "every string and every sequence of calls", "why_tests_cant": "call sequences unbounded", "anchors": ["src/utils/xpath.c: sr_get_next_node_internal", "src/utils/xpath.c: sr_xpath_recover"]}
{"id": "C49", "title": "XPath iteration returns the nodes and keys of the path", "statement": "Repeated sr_xpath_next_node returns the node names of a path from left to right, and the key functions return its key names and values.", "quantifier": "every path with any number of nodes, keys and quoted values", "why_tests_cant": "quotes, slashes and brackets inside values", "anchors": ["src/utils/xpath.c: sr_xpath_next_node", "src/utils/xpath.c: sr_xpath_next_key_name", "src/utils/xpath.c: sr_xpath_next_key_value"]}
{"id": "C50", "title": "Predicate removal yields the schema path", "statement": "Removing predicates from a data path gives the same path without any predicate, whatever the quoted values contain.", "quantifier": "every path", "why_tests_cant": "values may contain brackets, slashes and quotes", "anchors": ["src/common.c: sr_get_trim_predicates", "src/common.c: sr_xpath_trim_last_node", "src/common.c: sr_xpath_len_no_predicates"]}
{"id": "C51", "title": "Time arithmetic is exact", "statement": "Adding a timeout to a time and subtracting or comparing times gives the mathematically correct, normalised result.", "quantifier": "all times and all 32-bit millisecond values", "why_tests_cant": "domain too large", "anchors": ["src/common.c: sr_time_ts_add", "src/common.c: sr_time_cmp", "src/common.c: sr_time_sub", "src/common.c: sr_time_sub_ms"]}
{"id": "C52", "title": "Depth limit returns exactly the nodes up to the depth", "statement": "Reading with a maximum depth returns all nodes up to that depth and none deeper.", "quantifier": "every tree and depth", "why_tests_cant": "unbounded trees", "anchors": ["src/sysrepo.c: sr_get_data", "src/common.c: sr_lyd_dup_r, sr_xpath_set_filter_subtrees"]}
{"id": "C53", "title": "Every module in an edit is processed once", "statement": "When an edit touches several modules in any sibling order, each module is processed exactly once.", "quantifier": "every list of top-level nodes", "why_tests_cant": "orders unbounded", "anchors": ["src/modinfo.c: sr_modinfo_next_mod"]}
{"id": "C54", "title": "Periodic push updates are on the anchor time", "statement": "The first update of a periodic YANG push subscription with an anchor time comes at the nearest time that is a whole number of periods from the anchor.", "quantifier": "every current time, anchor time and period", "why_tests_cant": "domain too large", "anchors": ["src/utils/sn_yang_push.c: srsn_yp_schedule_periodic_update"]}
{"id": "C55", "title": "On-change push notifications are dampened", "statement": "An on-change YANG push notification is sent only when the dampening period since the previous one has passed, and is not held back longer.", "quantifier": "all times and all 32-bit dampening periods", "why_tests_cant": "domain too large", "anchors": ["src/utils/sn_yang_push.c: srsn_yp_ntf_change_ready", "src/common.c: sr_time_sub_ms"]}
{"id": "C56", "title": "NACM rules in use are the configured ones in the configured order", "statement": "After any sequence of changes of the NACM configuration, the rule lists and rules that decisions are made with are exactly the configured ones, in the configured order and with the configured targets.", "quantifier": "every history of creating, moving, deleting and modifying rule lists and rules", "why_tests_cant": "unbounded histories", "anchors": ["src/utils/nacm.c: sr_nacm_rule_list_cb, sr_nacm_rule_cb"]}
{"id": "C57", "title": "Operations are executed only with execution and read access", "statement": "An RPC or action is executed for a user only if NACM permits executing it and reading all the nodes it is in, and a notification is delivered only if reading it and those nodes is permitted.", "quantifier": "every configuration, user, operation and place of the operation in the data", "why_tests_cant": "domain too large", "anchors": ["src/utils/nacm.c: sr_nacm_check_operation", "src/sysrepo.c: sr_rpc_send_tree", "src/shm_sub.c: sr_shmsub_notif_listen_process_module_events"]}
{"id": "C58", "title": "Stored notifications are read back intact", "statement": "Reading a notification file returns exactly the notifications written into it with their times, also if writing of one of them was interrupted by a crash or a full disk (only that one may be missing).", "quantifier": "every sequence of notifications of any content and every point of interruption", "why_tests_cant": "crash points and contents unbounded", "anchors": ["src/plugins/ntf_json.c: srpntf_writev_notif", "src/plugins/ntf_json.c: srpntf_read_ts, srpntf_read_notif, srpntf_skip_notif"]}
{"id": "C59", "title": "Rotation archives exactly the old notification files", "statement": "The rotation service moves a notification file to the archive exactly when its latest notification is older than the configured age, and touches no other file.", "quantifier": "every file name, time and configured age", "why_tests_cant": "domain too large", "anchors": ["src/executables/srpd_rotation.c: srpd_format_check, srpd_rotation_loop, srpd_rotation_change_cb"]}
{"id": "C60", "title": "Change polling of an operational path is unique", "statement": "At most one operational poll subscription that reports changes exists for a path; only a second such one is refused, and a refused or failed call leaves all subscriptions as they were.", "quantifier": "every history of subscribing, unsubscribing and dying connections", "why_tests_cant": "unbounded histories", "anchors": ["src/shm_ext.c: sr_shmext_oper_poll_sub_add, sr_shmext_oper_poll_sub_del", "src/sysrepo.c: sr_oper_poll_subscribe"]}
{"id": "C61", "title": "Data are written only under the write lock", "statement": "While the content of a module in a datastore is being written, no other session can be reading it: the module is locked for writing.", "quantifier": "every set of changes, module dependencies and effects of validation and subscribers", "why_tests_cant": "depends on unbounded module dependencies and on timing", "anchors": ["src/shm_mod.c: sr_shmmod_modinfo_rdlock_upgrade", "src/modinfo.c: sr_modinfo_data_store", "src/sysrepo.c: sr_changes_notify_store"]}
{"id": "C62", "title": "Committing the candidate loses no concurrent change", "statement": "Copying the candidate to running does not undo a change another session successfully made in running to a module that is not modified in the candidate.", "quantifier": "every interleaving of a commit with changes by other sessions", "why_tests_cant": "needs a precise schedule", "anchors": ["src/sysrepo.c: sr_copy_config", "src/common.c: sr_module_file_data_append"]}
{"id": "C63", "title": "Factory reset resets exactly the given modules", "statement": "After a successful factory-reset RPC the given modules have their factory-default content in the reset datastores and in the candidate, and no other module is changed; a failed one changes nothing.", "quantifier": "every set of modules, dependencies between modules, and contents", "why_tests_cant": "unbounded module dependencies", "anchors": ["src/shm_sub.c: sr_shmsub_rpc_internal_call_callback", "src/modinfo.c: sr_modinfo_consolidate, sr_modinfo_replace"]}
{"id": "C64", "title": "A callback reads exactly the changes that happened", "statement": "Iterating over the changes of an event returns, without an error, exactly the nodes that were created, deleted or got another value (of those the XPath selects), the keys of created and deleted list instances included, each once, with the right operation, values and default flags before and after; a node is never reported after something in it.", "quantifier": "every data, edit, schema and selection of nodes", "why_tests_cant": "domain of edits and trees is unbounded", "anchors": ["src/sysrepo.c: sr_get_changes_iter, sr_get_change_next", "src/edit_diff.c: sr_diff_set_getnext, sr_diff_add_meta"]}
{"id": "C65", "title": "A duplicated change iterator outlives the callback", "statement": "An iterator got with sr_dup_changes_iter returns the same changes as an ordinary one and can also be used after the callback has returned.", "quantifier": "every diff and selection of nodes, and every time of use", "why_tests_cant": "use of freed memory shows only by chance in a test", "anchors": ["src/sysrepo.c: _sr_get_changes_iter, sr_dup_changes_iter, sr_get_change_next"]}
{"id": "C66", "title": "A filtered read of operational data loses nothing", "statement": "Reading operational data with an XPath returns the same selected nodes as reading all the operational data and then applying the XPath: a data provider (or one instance of its parent) is left out only if nothing it can return is selected.", "quantifier": "every request, provider path, data and behaviour of the providers", "why_tests_cant": "the domain of paths and data is unbounded; the decision is made on the text of the paths", "anchors": ["src/modinfo.c: sr_xpath_oper_data_required, sr_xpath_oper_data_text_atoms_required, sr_xpath_oper_data_text_atom_pred_match, sr_module_oper_data_update, sr_xpath_oper_data_get", "src/common.c: sr_xpath_get_text_atoms"]}
{"id": "C67", "title": "Different things are stored under different names", "statement": "Two different subscriptions, modules, datastores, sessions or sysrepo instances (SHM prefixes) never use the same shared memory segment or file, and the operational data found for a module are its own.", "quantifier": "all module names, paths, priorities, identifiers and prefixes", "why_tests_cant": "the domain of names is unbounded and a clash needs a particular pair", "anchors": ["src/common.c: sr_path_main_shm, sr_path_sub_shm, sr_path_sub_data_shm, sr_str_hash", "src/plugins/common_json.c: srpjson_get_path, srpjson_get_oper_path, srpjson_get_perm_path, srpjson_dir_oper_file_iter", "src/shm_sub.c: sr_shmsub_create, sr_shmsub_data_create"]}
{"id": "C68", "title": "A live connection is never taken for a dead one", "statement": "A check that says a connection is dead is right: no running process uses the connection, its lock file and lock stay until it is finished. A check that begins after the connection was finished, or its process crashed, says that it is dead. Disconnecting succeeds.", "quantifier": "all numbers of processes and threads, all interleavings of connecting, disconnecting, checking and crashes, all leftover files", "why_tests_cant": "needs precise schedules of several processes and a leftover state", "anchors": ["src/shm_main.c: sr_shmmain_conn_check, sr_shmmain_conn_list_add, sr_shmmain_conn_list_del, sr_shmmain_conn_new_lockfile", "src/common.c: sr_conn_info", "src/sysrepo.c: sr_connect, sr_disconnect"]}
{"id": "C69", "title": "All connections share one initialised memory", "statement": "Connections are created one at a time; every connection that was created works with the same shared memory, it is completely initialised and has all the modules, also if other connections fail or processes crash while they connect.", "quantifier": "all numbers of processes and threads, all schedules, failures and crash points", "why_tests_cant": "needs precise schedules and crash points of several processes", "anchors": ["src/sysrepo.c: sr_connect, sr_disconnect, sr_conn_new, sr_conn_free", "src/shm_main.c: sr_shmmain_createlock, sr_shmmain_createunlock, sr_shmmain_open"]}
{"id": "C70", "title": "Installing modules is all or nothing", "statement": "After a successful installation of modules all of them are installed with the revision and the features asked for, in the schema of the caller and of everybody else; installed modules keep revision, features and data; initial data are stored. After a failed one nothing changed.", "quantifier": "all schemas, sets of installed and requested modules and features, initial data, failures and concurrent calls", "why_tests_cant": "needs a failure of every step and concurrent changes of modules", "anchors": ["src/sysrepo.c: sr_install_modules, sr_install_modules_prepare_mod, sr_install_modules_check_features", "src/lyd_mods.c: sr_lydmods_change_add_modules", "src/context_change.c: sr_lycc_add_modules, sr_lycc_add_modules_revert, sr_lycc_update_data, sr_lycc_store_data_if_differ"]}
{"id": "C71", "title": "Removing modules is all or nothing", "statement": "After a successful removal exactly the modules asked for (with force also those that need them) and their data are gone; a module another one needs is not removed; the other modules and their data stay. After a failed one nothing changed.", "quantifier": "all schemas, sets of modules, data and failures", "why_tests_cant": "needs a failure of every step for every set of modules", "anchors": ["src/sysrepo.c: sr_remove_modules", "src/lyd_mods.c: sr_lydmods_change_del_module", "src/context_change.c: sr_lycc_check_del_module, sr_lycc_del_module", "src/common.c: sr_collect_module_impl_deps"]}
{"id": "C72", "title": "Updating modules and changing features is all or nothing", "statement": "A successful update gives exactly the listed modules a later revision and keeps features and data; a successful change of a feature changes exactly that feature. After a failed call nothing changed.", "quantifier": "all schemas, sets of modules, features, data and failures", "why_tests_cant": "needs a failure of every step for every set of modules", "anchors": ["src/sysrepo.c: sr_update_modules, sr_enable_module_feature, sr_disable_module_feature, sr_change_module_feature", "src/lyd_mods.c: sr_lydmods_change_upd_modules, sr_lydmods_change_chng_feature", "src/context_change.c: sr_lycc_upd_modules"]}
{"id": "C73", "title": "All connections see the installed modules", "statement": "After any sequence of module operations of any connections, restarts included, a new connection can be made, it has exactly the installed modules and features, and every other connection has them too once it takes the schema lock.", "quantifier": "all sequences of operations of all connections with restarts and failures", "why_tests_cant": "needs unbounded histories with failures at every point", "anchors": ["src/context_change.c: sr_lycc_lock", "src/shm_mod.c: sr_shmmod_store_modules, sr_shmmod_ctx_load_modules", "src/lyd_mods.c: sr_lydmods_print", "src/sysrepo.c: sr_connect"]}
{"id": "C74", "title": "Unsubscribing removes exactly what was asked for", "statement": "However many threads use one subscription structure, a subscription disappears only by a call that names its ID, its session or the whole structure, or when its stop time passes; IDs are unique and never used again; 'not found' is returned only when there is no such subscription; a callback runs only while its subscription exists and meanwhile no subscription is added or removed.", "quantifier": "all numbers of threads and subscriptions and all interleavings of subscribing, unsubscribing and event processing", "why_tests_cant": "depends on the schedule of several threads and on the order of array elements", "anchors": ["src/subscr.c: sr_subscr_del_id, sr_subscr_del_session, sr_subscr_del_all, sr_change_sub_del, sr_subscr_change_sub_del, sr_subscr_notif_del_stop_time", "src/sysrepo.c: sr_unsubscribe_sub, sr_subscription_process_events"]}
{"id": "C75", "title": "A notification subscription ends once", "statement": "Every removed notification subscription gets its last special notification (terminated or stopped) exactly once, no notification is delivered to it afterwards, and none is being delivered at that time.", "quantifier": "all numbers of threads and subscriptions and all interleavings", "why_tests_cant": "depends on the schedule of several threads", "anchors": ["src/subscr.c: sr_subscr_notif_sub_del, sr_notif_sub_del, sr_subscr_notif_del_stop_time", "src/shm_sub.c: sr_shmsub_notif_listen_module_stop_time"]}
{"id": "C76", "title": "An unsubscribed callback is not called anymore", "statement": "After unsubscribing a subscription returned success, it does not exist, its callback is not running and is not called anymore.", "quantifier": "all numbers of threads and subscriptions and all interleavings", "why_tests_cant": "depends on the schedule of several threads and on the order of array elements", "anchors": ["src/subscr.c: sr_subscr_del_id, sr_change_sub_del, sr_oper_get_sub_del, sr_notif_sub_del, sr_rpc_sub_del", "src/sysrepo.c: sr_unsubscribe_sub"]}
{"id": "C77", "title": "Unsubscribing a session or structure leaves nothing", "statement": "After all subscriptions of a session were unsubscribed successfully, it has none and does not know the structure; after a whole structure was unsubscribed, it is empty. A session knows every structure with its subscriptions.", "quantifier": "all numbers of threads, sessions and subscriptions and all interleavings", "why_tests_cant": "depends on the schedule of several threads", "anchors": ["src/subscr.c: sr_subscr_del_session, sr_subscr_del_all, sr_subscr_session_count", "src/sysrepo.c: sr_session_unsubscribe, sr_unsubscribe, sr_session_stop"]}
{"id": "C78", "title": "Event processing does not use released memory", "statement": "Processing events of a subscription structure uses no memory that was released, also when stop times of notification subscriptions pass and other threads subscribe and unsubscribe.", "quantifier": "all numbers of threads and subscriptions and all interleavings", "why_tests_cant": "depends on the schedule of several threads and the moment a stop time passes", "anchors": ["src/shm_sub.c: sr_shmsub_notif_listen_module_stop_time", "src/subscr.c: sr_subscr_notif_del_stop_time, sr_subscr_notif_sub_add, sr_subscr_notif_sub_del"]}
{"id": "C79", "title": "Operational contains exactly the enabled configuration", "statement": "Without other operational data, the operational datastore of a module has exactly: everything in running if some active subscription with a live connection is to the whole module; otherwise the nodes the XPaths of active live subscriptions select, with everything inside them, their parents and their list keys; and all non-presence containers. It does not matter whether the connection caches running data. A new subscription that asks for the enabled data is given the same part.", "quantifier": "all running data, all sets of subscriptions and all selections by their XPaths", "why_tests_cant": "depends on how selections of several subscriptions overlap (a node inside another selected one, keys, containers) and on two different ways of taking the data", "anchors": ["src/modinfo.c: sr_module_oper_data_get_enabled", "src/common.c: sr_lyd_get_enabled_xpath, sr_lyd_get_module_data, sr_lyd_copy_config_np_cont_r", "src/sysrepo.c: sr_change_subscribe_enable"]}
{"id": "C80", "title": "Enabled entries keep the order of the user", "statement": "The entries of a list or leaf-list ordered by the user that are enabled in the operational datastore are in the order they have in the running datastore.", "quantifier": "all running data, all sets of subscriptions and all selections by their XPaths", "why_tests_cant": "depends on the order of the subscriptions and of the nodes they select", "anchors": ["src/common.c: sr_lyd_get_enabled_xpath", "src/modinfo.c: sr_module_oper_data_get_enabled"]}
{"id": "C81", "title": "Applied changes leave a valid datastore", "statement": "If the running or startup datastore is valid as a whole (every module passes its validation with all data) and changes are applied successfully, the whole datastore is valid again, including modules that were not changed but refer to changed ones by leafrefs, instance-identifiers, must and when.", "quantifier": "all sets of modules with references between them, all data and all edits", "why_tests_cant": "the references and data are unbounded; which modules are validated is decided by recorded dependencies", "anchors": ["src/lyd_mods.c: sr_lydmods_add_deps_all, sr_lydmods_moddep_type, sr_lydmods_add_inv_data_dep", "src/modinfo.c: sr_modinfo_consolidate, sr_modinfo_mod_inv_deps, sr_modinfo_collect_deps, sr_modinfo_validate", "src/shm_mod.c: sr_shmmod_collect_deps"]}
{"id": "C82", "title": "Changes are judged on complete data", "statement": "Although only some modules are loaded, applying changes is accepted or refused, and completed with default values and when, just as if all data of the datastore had been loaded; an edit that changes nothing succeeds.", "quantifier": "all sets of modules with references between them, all data and all edits", "why_tests_cant": "which data are needed depends on the references in all data", "anchors": ["src/modinfo.c: sr_modinfo_add, sr_modinfo_collect_deps, sr_modinfo_consolidate, sr_modinfo_validate", "src/shm_mod.c: sr_shmmod_collect_deps_instid, sr_shmmod_collect_deps_lref, sr_shmmod_collect_deps_xpath"]}
{"id": "C83", "title": "Validating says what applying does", "statement": "sr_validate() of running or startup succeeds exactly if applying the pending changes would not be refused by the validation, and of candidate exactly if the candidate with the pending changes is valid; with a module name the same of that module.", "quantifier": "all sets of modules, all data, all pending edits and module names", "why_tests_cant": "two different ways through the same data; depends on the order of the nodes in the edit", "anchors": ["src/sysrepo.c: sr_validate, sr_apply_changes, sr_changes_notify_store", "src/modinfo.c: sr_modinfo_next_mod, sr_modinfo_edit_apply"]}
{"id": "C84", "title": "Data of a module are taken once", "statement": "While changes are applied, also when an update subscriber changes more modules, data of every module are loaded at most once and put into the common data tree once.", "quantifier": "all sets of modules, all edits of the user and of update subscribers, with and without cached running data", "why_tests_cant": "depends on which modules were loaded for the validation before", "anchors": ["src/modinfo.c: sr_modinfo_data_load, sr_modinfo_change_notify_update, sr_modinfo_collect_deps"]}
{"id": "C85", "title": "Database plugins keep the order of the user", "statement": "With the Redis or MongoDB plugin, after any sequence of changes to lists and leaf-lists ordered by the user (create, move, delete, nested in one another), every such list is loaded with exactly the instances and the order the changes asked for, and no change that fits the data fails.", "quantifier": "all sequences of diffs that fit, all lists, values and nestings, both plugins", "why_tests_cant": "orders are numbers with gaps that run out after many insertions at one place, and are compared with limited width", "anchors": ["src/plugins/ds_redis.c: srpds_create_uo_op, srpds_delete_uo_op, srpds_replace_op, srpds_shift_uo_list_recursively, srpds_store_diff_recursively", "src/plugins/ds_mongo.c: the same functions, srpds_load_diff_recursively", "src/plugins/common_db.c: srpds_uo_elem_comp, srpds_get_values"]}
{"id": "C86", "title": "List keys survive the database", "statement": "With the Redis or MongoDB plugin the keys of a list instance are loaded exactly as they were stored, whatever bytes they have; keys that cannot be stored (more than 127 or longer than 16383 bytes) are refused with an error.", "quantifier": "all numbers of keys and all keys", "why_tests_cant": "lengths are packed into seven bits of two bytes; boundaries are far from what tests use", "anchors": ["src/plugins/common_db.c: srpds_concat_key_values, srpds_parse_keys"]}
{"id": "C87", "title": "Nodes are loaded from the database in their place", "statement": "With the Redis or MongoDB plugin every node of running, startup and candidate data is loaded below the node it was stored below, whatever names, list keys and leaf-list values the data have, and nothing outside of its memory is accessed.", "quantifier": "all data (names, keys, values, depths)", "why_tests_cant": "the parent is found by the order of the records and the depth of a path, both computed from text with quotes", "anchors": ["src/plugins/common_db.c: srpds_path_token, srpds_get_node_depth, srpds_get_modif_path, srpds_add_conv_mod_data", "src/plugins/ds_redis.c: srpds_load_conv", "src/plugins/ds_mongo.c: srpds_load_conv"]}
{"id": "C88", "title": "The database holds exactly the data", "statement": "With the Redis or MongoDB plugin, after any sequence of created and deleted nodes the records in the database are exactly those of the nodes in the data: deleting a node removes it and everything below it and nothing else.", "quantifier": "all sequences of changes that fit the data, all names and keys", "why_tests_cant": "depends on names that begin with other names", "anchors": ["src/plugins/ds_mongo.c: srpds_delete_op, srpds_delete_uo_op, srpds_store_all", "src/plugins/ds_redis.c: srpds_delete_op, srpds_store_diff_recursively", "src/plugins/common_db.c: srpds_escape_string"]}
{"id": "C89", "title": "Loading a part loads all that is asked for", "statement": "When the Redis or MongoDB plugin is asked to load only the data some XPaths select, it loads at least the nodes they select with everything below them and their parents, however the XPaths are written.", "quantifier": "all data and all lists of XPaths, paths or not, written in any way", "why_tests_cant": "XPaths are compared as text with the paths in the database", "anchors": ["src/plugins/ds_redis.c: srpds_process_load_paths", "src/plugins/ds_mongo.c: srpds_process_load_paths", "src/plugins/common_db.c: srpds_get_parent_path, srpds_escape_string"]}
{"id": "C90", "title": "An on-change subscriber can follow the data", "statement": "A receiver of on-change YANG push notifications that applies all their edits in order to the data it had at the start of the subscription has the current data after each notification, whatever changes are made and whenever, with any dampening period.", "quantifier": "all histories of changes, dampening periods and times", "why_tests_cant": "several changes of one node before a notification is sent replace one another", "anchors": ["src/utils/sn_yang_push.c: srsn_yp_on_change_cb, srsn_yp_ntf_change_edit_append, srsn_yp_ntf_change_edit_clear_target, srsn_yp_ntf_change_ready"]}
{"id": "C91", "title": "Changes are reported within the dampening period", "statement": "Every change an on-change YANG push subscriber asked for is sent at the latest when the dampening period since the last notification has passed, at once without a dampening period.", "quantifier": "all sequences of changes, timer events and changes of the dampening period, at all times", "why_tests_cant": "depends on the state of a timer thread after the first delayed notification", "anchors": ["src/utils/sn_yang_push.c: srsn_yp_ntf_change_ready, srsn_yp_on_change_modify", "src/utils/sn_common.c: srsn_create_timer, srsn_update_timer, srsn_timer_thread"]}
{"id": "C92", "title": "Notifications are not closer than the dampening period", "statement": "Two notifications of changes of one on-change YANG push subscription are never closer than the dampening period in force when the later one is sent.", "quantifier": "all sequences of changes, timer events and changes of the dampening period in time", "why_tests_cant": "needs all interleavings of changes with the timer", "anchors": ["src/utils/sn_yang_push.c: srsn_yp_ntf_change_ready, srsn_yp_ntf_change_send, srsn_yp_on_change_modify", "src/utils/sn_common.c: srsn_update_timer"]}
{"id": "C93", "title": "Patches and edits are numbered in order", "statement": "Patch IDs of the notifications of one on-change YANG push subscription increase until a resynchronisation; in each patch the edits are numbered in order and no node is the target of two edits.", "quantifier": "all sequences of changes, timer events, changes of the period and resynchronisations", "why_tests_cant": "edits are removed and added again while they wait", "anchors": ["src/utils/sn_yang_push.c: srsn_yp_on_change_cb, srsn_yp_ntf_change_edit_append"]}
{"id": "C94", "title": "A subscriber gets the changes it asked for", "statement": "On-change YANG push notifications have every change that is not excluded and may be read by the user, with its operation, target, place among user-ordered instances and value, and no other change.", "quantifier": "all sequences of changes, excluded operations and access rights", "why_tests_cant": "needs all orders of changes in one commit", "anchors": ["src/utils/sn_yang_push.c: srsn_yp_on_change_cb, srsn_yp_ntf_change_edit_append, srsn_yp_op_sr2yp"]}
{"id": "C95", "title": "Subtree filters select what RFC 6241 says", "statement": "The XPath srsn_filter_subtree2xpath() makes of a subtree filter selects exactly the data the subtree filter selects by RFC 6241, section 6, whatever names, namespaces, values and nesting the filter has and whatever the data are.", "quantifier": "all subtree filters, all data and all sets of modules", "why_tests_cant": "filters are trees of any shape, values go into a text with quotes", "anchors": ["src/utils/subscribed_notifications.c: srsn_filter_subtree2xpath", "src/utils/sn_common.c: srsn_filter_create_subtree, srsn_filter_xpath_buf_add_r, srsn_filter_xpath_print_node_module, srsn_filter_xpath_buf_append_content, srsn_filter_filter2xpath"]}
{"id": "C96", "title": "Converting a subtree filter is safe", "statement": "srsn_filter_subtree2xpath() of any subtree filter returns an XPath or an error and never accesses memory outside of its buffers or through NULL.", "quantifier": "all subtree filters and all sets of modules", "why_tests_cant": "sizes of buffers are computed separately from what is written, for any names and values", "anchors": ["src/utils/sn_common.c: srsn_filter_xpath_buf_add_top_content, srsn_filter_xpath_buf_append_content, srsn_filter_xpath_buf_append_node"]}
{"id": "C97", "title": "Notifications are read as they were sent", "statement": "The notifications a subscriber gets with srsn_read_notif() from the descriptor of its subscription are exactly those sent to the subscription, whole, once and in order, whatever their sizes are and however sending and reading overlap; end of file is reported only after all of them.", "quantifier": "all notifications, numbers of sending threads and schedules of writes and reads", "why_tests_cant": "depends on how writes to a pipe are split and interleaved", "anchors": ["src/utils/sn_common.c: srsn_ntf_send", "src/utils/subscribed_notifications.c: srsn_read_notif"]}
{"id": "C98", "title": "The dispatch thread passes notifications with the right data", "statement": "Every notification of a subscription added with srsn_read_dispatch_add() is passed to the callback once, in order and with the callback data of that subscription, whatever subscriptions were added and terminated before, also when file descriptors are reused; srsn_read_dispatch_count() is the number of the subscriptions handled.", "quantifier": "all histories of adding, terminating and sending, and all schedules", "why_tests_cant": "arrays are compacted while other threads send and terminate", "anchors": ["src/utils/sn_common.c: srsn_dispatch_add, srsn_read_dispatch_thread, srsn_dispatch_count", "src/utils/subscribed_notifications.c: srsn_read_dispatch_add"]}
{"id": "C99", "title": "No notification after srsn_terminate()", "statement": "After srsn_terminate() has returned, the callback is not called for notifications of that subscription, and it was called for all of them before.", "quantifier": "all histories and schedules", "why_tests_cant": "a race of the terminating and the dispatch thread", "anchors": ["src/utils/subscribed_notifications.c: srsn_terminate", "src/utils/sn_common.c: srsn_sub_free, srsn_read_dispatch_thread"]}
{"id": "C100", "title": "A stream subscription gets the stream's notifications", "statement": "A subscription made with srsn_subscribe() gets a notification exactly if it belongs to the stream and the XPath filter, as last modified, is true of it.", "quantifier": "all filters, modules and notifications", "why_tests_cant": "the modules to subscribe to are derived from the filter", "anchors": ["src/utils/subscribed_notifications.c: srsn_stream_collect_mods, srsn_modify_xpath_filter", "src/utils/sn_common.c: srsn_sn_sr_subscribe, srsn_modify_xpath"]}
{"id": "C101", "title": "Replayed notifications, then replay-completed, then new ones", "statement": "A subscription with a start time is sent all the replayed notifications first, then one replay-completed, then all the new ones, including those that came during the replay, each in order, for any number of modules.", "quantifier": "all interleavings of replays, completions and new notifications of any number of modules", "why_tests_cant": "the order of events of several modules is arbitrary", "anchors": ["src/utils/sn_common.c: srsn_sn_rpc_subscribe_cb, srsn_ntf_add_dup"]}
{"id": "C102", "title": "The start of the replay is reported", "statement": "When notifications are stored only from a time later than the requested start time, srsn_subscribe() returns that time in replay_start_time.", "quantifier": "all start times and stored notifications", "why_tests_cant": "any times and numbers of modules", "anchors": ["src/utils/sn_common.c: srsn_sn_sr_subscribe", "src/utils/subscribed_notifications.c: srsn_subscribe"]}
{"id": "C103", "title": "Timers fire at their time and not after they were cancelled", "statement": "A stop time, period or dampening period of a subscription takes effect not before the time set last, and never after it was cancelled.", "quantifier": "all sequences of creating, updating and cancelling and all schedules of the timer thread", "why_tests_cant": "races with the timer thread", "anchors": ["src/utils/sn_common.c: srsn_timer_thread, srsn_create_timer, srsn_update_timer"]}
{"id": "C104", "title": "Cancelling a timer does not wait for its time", "statement": "srsn_terminate() and srsn_modify_stop_time() do not block until the stop time of the subscription.", "quantifier": "all schedules of the timer thread", "why_tests_cant": "a lost wakeup depends on the schedule", "anchors": ["src/utils/sn_common.c: srsn_update_timer, srsn_timer_thread", "src/utils/subscribed_notifications.c: srsn_terminate, srsn_modify_stop_time"]}
{"id": "C105", "title": "Writing back what was read changes nothing", "statement": "A leaf whose value is read with sr_get_item() and written back with sr_set_item() keeps its value, whatever its type; an integer of the user is stored as it is if it is in the range, and values that do not fit the type are refused.", "quantifier": "all types of leaves with leafrefs and unions, and all values", "why_tests_cant": "the space of types and values, and rounding of decimal numbers", "anchors": ["src/common.c: sr_val_ly2sr, sr_val_sr2ly_str", "src/sysrepo.c: sr_set_item, sr_rpc_send, sr_notif_send"]}
{"id": "C106", "title": "Copies of values are equal to the originals", "statement": "sr_dup_val() and sr_dup_values() make values sr_equal_val() takes for equal to the originals, sr_equal_val() tells values apart that differ in anything, and strings can be set again and again without exceeding their memory.", "quantifier": "all values and histories of setting strings", "why_tests_cant": "all contents of values and of their memory", "anchors": ["src/utils/values.c: sr_dup_val, sr_dup_values, sr_dup_val_data, sr_equal_val, sr_val_set_str_data, sr_mem_edit_string"]}
{"id": "C107", "title": "Values are printed completely", "statement": "sr_print_val_mem(), sr_val_to_str() and sr_val_to_buff() print the whole value, without exceeding the buffer, and the text denotes the value.", "quantifier": "all values and sizes of buffers", "why_tests_cant": "all lengths and values", "anchors": ["src/utils/values.c: sr_print, sr_print_val_ctx, sr_print_val_mem, sr_val_to_str, sr_val_to_buff"]}
{"id": "C108", "title": "Cached reads are as fresh as uncached ones", "statement": "On a connection opened with SR_CONN_CACHE_RUNNING, a read of running data returns for every module it reads the data stored at that moment, and a change is applied to the data stored at that moment, whatever other threads and connections do.", "quantifier": "all schedules of threads and connections, all data and all numbers of stores", "why_tests_cant": "races between threads of a connection and between connections", "anchors": ["src/common.c: sr_conn_run_cache_update, sr_conn_run_cache_update_mod, sr_conn_run_cache_flush", "src/modinfo.c: sr_modinfo_data_load, sr_modinfo_data_store"]}
{"id": "C109", "title": "Reads return only what the user may read", "statement": "sr_get_data() and the other reads return data only of modules the user had the permission to read when the call began.", "quantifier": "all histories of calls, changes of permissions and schedules", "why_tests_cant": "what the cache holds depends on the whole history", "anchors": ["src/modinfo.c: sr_modinfo_perm_check, sr_modinfo_data_load, sr_modinfo_get_filter", "src/sysrepo.c: sr_get_data", "src/common.c: sr_perm_check"]}
{"id": "C110", "title": "Polled operational data are refreshed before they expire", "statement": "The event processing of an operational poll subscription (sr_oper_poll_subscribe) wakes up before the validity of the data of any of its subscriptions ends, so that the data are polled again in time.", "quantifier": "all sets of poll subscriptions with any validity, all times and all answers of the providers", "why_tests_cant": "depends on which subscriptions expire when, over the whole history", "anchors": ["src/shm_sub.c: sr_shmsub_oper_poll_listen_process_module_events, sr_shmsub_oper_poll_listen_is_cache_valid, sr_shmsub_listen_thread", "src/sysrepo.c: sr_subscription_process_events"]}
{"id": "C111", "title": "Notification subscriptions end at their stop time", "statement": "A notification subscription with a stop time gets the stop time notification and is removed once, not before the stop time and, with the listening thread, not later than its next wake-up, which is not after the stop time; other subscriptions stay.", "quantifier": "all sets of subscriptions, stop times and times of event processing, and all actions of other threads", "why_tests_cant": "arrays are compacted while they are walked, stop times elapse at any moment", "anchors": ["src/shm_sub.c: sr_shmsub_notif_listen_module_stop_time, sr_shmsub_notif_listen_module_get_stop_time_in, sr_shmsub_listen_thread", "src/subscr.c: sr_subscr_notif_del_stop_time, sr_notif_sub_del"]}
{"id": "C112", "title": "Reads of polled operational data give what the provider answered", "statement": "On a connection with an operational poll subscription, reads of the polled subtree give the data the provider answered to a poll, not older than the validity.", "quantifier": "all histories of subscribing, polling, suspending, context changes and reads", "why_tests_cant": "what the cache holds depends on the whole history", "anchors": ["src/modinfo.c: sr_module_oper_data_update_cached", "src/shm_sub.c: sr_shmsub_oper_poll_listen_process_module_events", "src/common.c: sr_conn_oper_cache_flush", "src/sysrepo.c: sr_oper_poll_subscribe"]}
{"id": "C113", "title": "Published changes of polled data are complete", "statement": "A subscriber to changes of operational data polled with SR_SUBSCR_OPER_POLL_DIFF that applies the changes in order always knows the polled data.", "quantifier": "all histories of polls with all answers of providers", "why_tests_cant": "a replica depends on the whole history", "anchors": ["src/shm_sub.c: sr_shmsub_oper_poll_listen_process_module_events", "src/common.c: sr_conn_oper_cache_flush"]}
{"id": "C114", "title": "Contexts and data handed out stay valid until they are released", "statement": "The libyang context returned by sr_acquire_context() and the data returned by sr_get_data() and the other reads exist unchanged until they are released, and the installed modules do not change meanwhile, whatever other threads and connections do; module changes exclude each other.", "quantifier": "all schedules of any number of threads and connections acquiring contexts and installing and removing modules", "why_tests_cant": "a context is freed only in particular interleavings", "anchors": ["src/context_change.c: sr_lycc_lock, sr_lycc_relock, sr_lycc_unlock", "src/common.c: sr_conn_ctx_switch", "src/sysrepo.c: sr_acquire_context, sr_release_context, sr_session_start, _sr_install_modules, sr_remove_modules"]}
{"id": "C115", "title": "Contexts and data handed out are of the installed modules", "statement": "Every context and data handed out by any connection are of exactly the modules installed at that time, including changes made by other connections.", "quantifier": "all schedules as above and all histories of module changes", "why_tests_cant": "changes of other connections come at any moment", "anchors": ["src/context_change.c: sr_lycc_lock", "src/common.c: sr_conn_ctx_switch", "src/sysrepo.c: _sr_install_modules, sr_remove_modules"]}
{"id": "C116", "title": "Datastore plugins are initialized before they are used", "statement": "Whenever a call works with a module, the connection callback of every datastore plugin of the module was called for the connection.", "quantifier": "all schedules as above and all histories of module changes with any plugins", "why_tests_cant": "plugins are initialized lazily, by comparing a hash", "anchors": ["src/common.c: sr_conn_ds_init", "src/context_change.c: sr_lycc_lock, sr_lycc_update_data"]}
{"id": "C117", "title": "Operational data are changed as requested", "statement": "sr_set_item_str(), sr_delete_item() and sr_discard_items() on the operational datastore change exactly the requested node in the data the session will provide, or return an error; after sr_apply_changes() the session provides exactly these data.", "quantifier": "all sessions with any data of any modules and all sequences of calls and failures", "why_tests_cant": "the edit is built from the stored data, and depends on all the previous calls", "anchors": ["src/sysrepo.c: sr_set_item_str, sr_delete_item, sr_discard_items, sr_apply_changes, sr_apply_oper_changes, sr_get_oper_changes", "src/edit_diff.c: sr_oper_edit_mod_apply, sr_oper_edit_mod_apply_data, sr_edit_add", "src/modinfo.c: sr_modinfo_collect_oper_sess, sr_modinfo_data_store"]}
{"id": "C118", "title": "Operational data are discarded as requested", "statement": "sr_discard_changes() and sr_discard_changes_xpath() forget exactly the pending changes selected, and sr_discard_oper_changes() removes exactly the data the session provides, of one or of all modules.", "quantifier": "all sessions with any stored data and pending changes", "why_tests_cant": "depends on all the previous calls", "anchors": ["src/sysrepo.c: sr_discard_changes_xpath, sr_discard_oper_changes, _sr_discard_oper_changes, sr_apply_oper_changes"]}
{"id": "C119", "title": "Batches of operational data are applied as requested", "statement": "sr_edit_batch() with the default operation merge adds its data to those the session provides, with replace it replaces the data of its modules; data of other modules stay.", "quantifier": "all sessions with any stored data and all batches", "why_tests_cant": "depends on which modules the session has data of", "anchors": ["src/sysrepo.c: sr_edit_batch, sr_apply_oper_changes", "src/edit_diff.c: sr_oper_edit_mod_apply"]}
{"id": "C120", "title": "Every subscriber gets every notification once", "statement": "A notification that sr_notif_send() returned success for is delivered exactly once to every subscription that was active when it was published and that is not removed meanwhile, and to no other, whatever the other subscriptions of the module do.", "quantifier": "all schedules of any number of senders, subscribers, removals, suspensions, crashes and timeouts", "why_tests_cant": "a notification is lost only in particular interleavings", "anchors": ["src/shm_sub.c: sr_shmsub_notif_notify, sr_shmsub_notify_new_wrlock, sr_shmsub_listen_write_event, sr_shmsub_notif_listen_process_module_events", "src/subscr.c: sr_subscr_notif_sub_del, sr_notif_find_subscriber", "src/sysrepo.c: sr_notif_send_tree, _sr_notif_subscribe, _sr_subscription_suspend_change"]}
{"id": "C121", "title": "Delivery of notifications does not get stuck", "statement": "As long as a published notification is pending, some listener has been woken for it and can process it or finish processing it; no sender and no listener aborts.", "quantifier": "all schedules as above", "why_tests_cant": "a lost wake-up needs a particular table of subscriptions and interleaving", "anchors": ["src/shm_sub.c: sr_shmsub_notif_notify, sr_shmsub_listen_write_event, sr_shmsub_notif_listen_process_module_events", "src/shm_ext.c: sr_shmext_notif_sub_suspended", "src/subscr.c: sr_notif_find_subscriber"]}
{"id": "C122", "title": "A waiting sender returns when its notification was processed", "statement": "sr_notif_send() with waiting returns successfully only after every subscription active when the notification was published has processed it or was removed, and it returns then, whatever other senders do.", "quantifier": "all schedules as above with any number of waiting senders", "why_tests_cant": "the sender may wake up at any time later", "anchors": ["src/shm_sub.c: sr_shmsub_notif_notify, _sr_shmsub_notify_wait_wr"]}
{"id": "C123", "title": "NETCONF errors of callbacks are read by clients", "statement": "The NETCONF errors a callback sets with sr_session_set_netconf_error() are read by the client with sr_err_get_netconf_error(), all of them, in order, with the same type, tag, application tag, path, message and error info; errors with other types or tags are refused.", "quantifier": "all sequences of errors with all strings, any number of error info elements, any previous content of memory", "why_tests_cant": "the strings are chunks of a buffer that is copied through shared memory", "anchors": ["src/utils/error_format.c: sr_session_set_netconf_error, sr_session_set_netconf_error2, sr_err_get_netconf_error", "src/sysrepo.c: sr_session_push_error_data, sr_get_error_data", "src/shm_sub.c: sr_shmsub_prepare_error, _sr_shmsub_notify_wait_wr"]}
{"id": "C124", "title": "Suspending and resuming act exactly on the given subscription", "statement": "sr_subscription_suspend() and sr_subscription_resume() change the state of exactly the given subscription, refuse it when it is in that state already, and change nothing when they return an error; sr_subscription_get_suspended() returns the state the last successful call made.", "quantifier": "all sequences of calls on subscriptions of all kinds, next to any other subscriptions, and all failures", "why_tests_cant": "depends on the tables all the other subscribers share", "anchors": ["src/sysrepo.c: sr_subscription_suspend, sr_subscription_resume, sr_subscription_get_suspended, _sr_subscription_suspend_change", "src/shm_ext.c: sr_shmext_change_sub_suspended, sr_shmext_oper_get_sub_suspended, sr_shmext_notif_sub_suspended"]}
{"id": "C125", "title": "Subscribed notifications are suspended entirely or not at all", "statement": "srsn_suspend() and srsn_resume() change all the sysrepo subscriptions of a subscription or, when they fail, none, and a suspended periodic subscription sends no updates.", "quantifier": "all numbers of subscriptions, all failures and all sequences of calls", "why_tests_cant": "depends on which of the calls for the single subscriptions fail", "anchors": ["src/utils/subscribed_notifications.c: srsn_suspend, srsn_resume, srsn_yang_push_modify_periodic", "src/utils/sn_yang_push.c: srsn_yp_periodic_modify"]}
{"id": "C126", "title": "The access returned is the access set", "statement": "sr_get_module_ds_access() returns for every datastore of a module exactly what the successful calls of sr_set_module_ds_access() made it, each changing only the owner, group and permissions it was given (without those forbidden by the configuration) and no other datastore, whatever is stored, created or removed in between; a call for one module that fails changes nothing of it, and a call for all the modules succeeds if and only if it does for each of them.", "quantifier": "all histories of calls by any processes of any users, all configurations", "why_tests_cant": "depends on the files created by other processes before", "anchors": ["src/sysrepo.c: sr_set_module_ds_access, _sr_set_module_ds_access, sr_get_module_ds_access", "src/plugins/ds_json.c: srpds_json_access_set, srpds_json_access_get, srpds_json_store, srpds_json_init", "src/plugins/common_json.c: srpjson_chmodown, srpjson_open"]}
{"id": "C127", "title": "The access to a datastore is the access to its data", "statement": "A process can read and write the data of a module in a datastore if and only if sr_check_module_ds_access() reports so, and setting the access applies to the data or fails without changing anything.", "quantifier": "all histories as above and all processes", "why_tests_cant": "data files are created by any process at any time", "anchors": ["src/sysrepo.c: sr_check_module_ds_access, sr_set_module_ds_access", "src/plugins/ds_json.c: srpds_json_access_check, srpds_json_access_set, srpds_json_store_, srpds_json_init", "src/plugins/common_json.c: srpjson_open, srpjson_chmodown"]}
{"id": "C128", "title": "The access to notifications can be set", "statement": "sr_set_module_ds_access() for notifications returns and applies to all the stored notifications and those stored later.", "quantifier": "all sets of stored notifications and all processes", "why_tests_cant": "needs stored notifications of other processes", "anchors": ["src/plugins/ntf_json.c: srpntf_json_access_set, srpntf_find_file, srpntf_open_file"]}
{"id": "C129", "title": "Replay support is what was set", "statement": "sr_get_module_replay_support() returns for every module what the last successful sr_set_module_replay_support() for it or for all the modules made, also after a restart of the system; a call that fails or is interrupted by a crash changes nothing.", "quantifier": "all histories of calls, restarts, failures and crashes", "why_tests_cant": "depends on the internal data left by crashed processes", "anchors": ["src/sysrepo.c: sr_set_module_replay_support, sr_get_module_replay_support", "src/lyd_mods.c: sr_lydmods_update_replay_support_module, sr_lydmods_change_chng_replay_support", "src/shm_mod.c: sr_shmmod_update_replay_support", "src/context_change.c: sr_lycc_set_replay_support"]}
{"id": "C130", "title": "A subscriber that is given the current data can follow them", "statement": "With SR_SUBSCR_ENABLED the callback of sr_module_change_subscribe() is called with the current data as created, and from then on with every change stored by anybody, once and in order, so that following the reports gives the data; each reported done was offered to the callback as a change before.", "quantifier": "all schedules of any number of processes changing the data and subscribing, all data, changes and XPaths, all failures", "why_tests_cant": "a change lost between reading the data and subscribing needs a particular interleaving", "anchors": ["src/sysrepo.c: sr_module_change_subscribe, sr_module_change_subscribe_enable, sr_changes_notify_store", "src/modinfo.c: sr_modinfo_changesub_rdlock, sr_modinfo_change_notify_update"]}
{"id": "C131", "title": "Only configuration or only state is returned when asked for", "statement": "Reading operational data with SR_OPER_NO_STATE returns exactly the selected data that are not state, and with SR_OPER_NO_CONFIG exactly the selected state data with the nodes they are in and the keys of these, in the same order; sr_get_items() returns exactly the selected nodes of the kind asked for.", "quantifier": "all data of all schemas and all selections", "why_tests_cant": "depends on how state and configuration are nested in the data", "anchors": ["src/sysrepo.c: sr_oper_data_trim_r, sr_oper_data_trim, sr_get_data, sr_get_items"]}
{"id": "C132", "title": "The XPath of a subscription can be changed", "statement": "After sr_module_change_sub_modify_xpath() the callback is called for exactly the changes of what the new XPath selects, also with SR_SUBSCR_FILTER_ORIG, and for no XPath for all changes; a call that fails changes nothing; the call does not block changes made meanwhile.", "quantifier": "all sequences of subscribing and changing XPaths, all changes, failures and schedules with any number of such calls", "why_tests_cant": "needs a change waiting for the subscriber while the XPath is being changed", "anchors": ["src/sysrepo.c: sr_module_change_sub_modify_xpath, sr_module_change_subscribe", "src/shm_ext.c: sr_shmext_change_sub_modify, sr_shmext_change_sub_add", "src/shm_sub.c: sr_shmsub_change_notify_has_subscription, sr_shmsub_change_notify_next_subscription, sr_shmsub_change_listen_process_module_events"]}
{"id": "C133", "title": "The handler thread processes every event", "statement": "The handler thread of subscriptions processes every event made for them exactly once, however making events, processing, suspending, resuming and time-outs interleave, and never sleeps while an event waits.", "quantifier": "all schedules of any number of processes making events with the thread", "why_tests_cant": "a lost wake-up needs an event at one particular instruction", "anchors": ["src/shm_sub.c: sr_shmsub_listen_thread, sr_shmsub_notify_evpipe", "src/sysrepo.c: sr_subscription_process_events, sr_subscr_new"]}
{"id": "C134", "title": "A handler thread can be suspended, resumed and ended", "statement": "After sr_subscription_thread_suspend() the handler thread sleeps and processes no event until sr_subscription_thread_resume(), after which it processes all of them; sr_unsubscribe() ends the thread, suspended or not, and returns.", "quantifier": "all schedules of the calls with the thread and the processes making events", "why_tests_cant": "depends on where the thread is at the time of the call", "anchors": ["src/sysrepo.c: sr_subscription_thread_suspend, sr_subscription_thread_resume, sr_unsubscribe", "src/shm_sub.c: sr_shmsub_listen_thread"]}
{"id": "C135", "title": "All subscribers are asked for operational data", "statement": "Reading operational data calls the callback of every subscriber for the XPath that is not suspended; it returns the data of all of them in the order of subscribing, or the errors of exactly those that failed.", "quantifier": "all numbers of subscribers and all results of their callbacks", "why_tests_cant": "depends on the order and results of callbacks of other subscribers", "anchors": ["src/shm_sub.c: sr_shmsub_oper_get_notify, sr_shmsub_notify_many_wait_wr, sr_shmsub_oper_get_listen_process_module_events, sr_shmsub_oper_get_listen_relock", "src/modinfo.c: sr_xpath_oper_data_get"]}
{"id": "C136", "title": "Plugins run in the configured order", "statement": "sysrepo-plugind initializes its plugins in the configured order, those not configured last, where a name may or may not include the extension of the file; when it ends, exactly the plugins initialized successfully are cleaned up, once.", "quantifier": "all sets of plugins, all configured orders and all results of initialization", "why_tests_cant": "depends on the order of files in a directory and on the configuration", "anchors": ["src/executables/srpd_common.c: srpd_sort_plugins, srpd_plugin_names_cmp, srpd_path_len_no_ext, srpd_swap", "src/executables/sysrepo-plugind.c: main, load_plugins", "modules/sysrepo-plugind@2022-08-26.yang: plugin-order"]}
{"id": "C137", "title": "Changes of the configuration are notified", "statement": "After sr_apply_changes() changed the startup or running datastore, the subscribers to netconf-config-change get one notification, and it is stored for replay if enabled; it names the user and the datastore, and lists exactly the nodes created, deleted or given another value. Nothing is sent if nothing changed.", "quantifier": "all data, edits, originators of sessions, numbers of subscribers and failures", "why_tests_cant": "the notification must match the data for every edit and originator", "anchors": ["src/modinfo.c: sr_modinfo_generate_config_change_notif", "src/sysrepo.c: sr_changes_notify_store, sr_session_set_orig_name, sr_session_push_orig_data", "src/edit_diff.c: sr_diff_set_getnext, sr_edit_diff_find_oper"]}
{"id": "C138", "title": "Notification subscriptions can be modified", "statement": "After sr_notif_sub_modify_xpath() the callback gets exactly the notifications the new XPath selects, and after sr_notif_sub_modify_stop_time() the new stop time applies; the callback is told of each modification once and only if something changed; a stop time before the start time is refused as when subscribing; a call that fails changes nothing, and other subscriptions are not affected.", "quantifier": "all histories of subscribing, modifying and notifications, all XPaths, times and failures", "why_tests_cant": "depends on the history of the subscription", "anchors": ["src/sysrepo.c: sr_notif_sub_modify_xpath, sr_notif_sub_modify_stop_time, _sr_notif_subscribe, sr_notif_sub_get_info", "src/subscr.c: sr_subscr_notif_sub_find, sr_subscr_notif_sub_add", "src/shm_sub.c: sr_shmsub_notif_listen_filter_is_valid, sr_shmsub_notif_listen_process_module_events"]}
{"id": "C139", "title": "What is set for a module stays when others change", "statement": "The priority set by sr_module_change_set_order() is the one read later and, for the running datastore, the one used (higher first) when startup is copied to running; a lock taken by sr_lock() excludes other sessions until it is unlocked or the session stops; subscriptions stay until they are removed. Installing, updating or removing modules and changing features changes none of that for the modules that stay.", "quantifier": "all histories of calls on any modules", "why_tests_cant": "depends on the history of calls made on other modules", "anchors": ["src/shm_mod.c: sr_shmmod_fill, sr_shmmod_store_modules, sr_shmmod_prio_cmp, sr_shmmod_reboot_init, sr_shmmod_change_prio, sr_shmmod_release_locks", "src/sysrepo.c: sr_module_change_set_order, sr_module_change_get_order, sr_change_dslock, sr_install_modules"]}
{"id": "C140", "title": "Cached running data are current after modules change", "statement": "A connection opened with SR_CONN_CACHE_RUNNING reads the data last stored in running by any connection, also after modules were installed, removed or updated, features changed, or such a call failed.", "quantifier": "all histories of changes, reads and changes of modules by any number of connections", "why_tests_cant": "needs a set of modules to return while another connection is idle", "anchors": ["src/shm_mod.c: sr_shmmod_fill, sr_shmmod_store_modules", "src/common.c: sr_conn_run_cache_update, sr_conn_run_cache_update_mod, sr_conn_ctx_switch", "src/context_change.c: sr_lycc_lock", "src/modinfo.c: sr_modinfo_data_store"]}
