# Formal model of sysrepo in Lean 4

## Approach

Each component of `/repo/src` whose behaviour is logic (lock word bookkeeping, shared memory
allocator, event protocol, edit engine, access control, crash-safe file storing, string functions)
is modelled function by function as total computable Lean functions. Thread and crash behaviour is
modelled as labelled transitions of one critical section or one system call each.
Every definition cites the lines it models. Loops become recursion, pointer mutation becomes a
returned value, external calls (libyang, kernel) become parameters or explicit nondeterminism.

Layout under `lean/Verif/`: one directory-free pair of files per component `X`:
`X.lean` (model, specification, helper lemmas) and `XProps.lean` (property theorems only, each with
a non-vacuity example). Small components keep the property theorems at the end of one file under a
`Props` heading.

Asserts that fail and out-of-bounds accesses are explicit outcomes of the model (`none`, `ub`, or an
error constructor), never assumed away.

When the code violates a property, the negation is proved with a concrete witness and the strongest
true restriction is proved as `..._partial`. Such disagreements are listed under "Findings".

## Trusted base

- Lean's kernel (4.33.0), and the axioms `propext`, `Classical.choice`, `Quot.sound` at most. No own
  axioms, no `sorry`, no `native_decide`, no `bv_decide`.
- The reading of the C code: the correspondence between a definition and the cited lines is by
  inspection only.
- Assumed behaviour of externals, listed per component below.

## Properties and plan

- **C01** Write access excludes everybody else — module `RWLock`: interleaving machine (threads x lock word), one step per mutex-protected section; invariant by induction over steps.
- **C02** At most one upgradable reader — module `RWLock`: same machine; full claim is false of the code (witness trace), partial for histories without timed-out urgent upgrade.
- **C03** A failed lock attempt leaves no trace — module `RWLock`: lock functions as state transformers with error outcomes; negation witnesses for the recursion limit, partial elsewhere.
- **C04** Crashed owners are recovered, live ones never — module `RWLock`: `recover` over reader array, proved equal to filtering by liveness.
- **C05** No lost wake-up in the condition variable — module `FutexCond`: machine of waiters and broadcasters over the 32-bit counter; wrap-around made explicit.
- **C06** Requests over several modules cannot deadlock each other — module `LockOrder`: resource-allocation machine with sorted acquisition; wait-for graph acyclic.
- **C07** Shared memory allocations never overlap — module `ExtShm`: allocator over hole list + memory; invariant by induction over operations.
- **C08** No shared memory is lost — module `ExtShm`: same; conservation invariant.
- **C09** Growing a shared array keeps its elements — module `ExtShm`: array operations on memory read back as list insert/erase.
- **C10** Originator data survive the trip — module `EvData`: byte-level encoder/decoder, round-trip.
- **C11** Subscriber errors survive the trip — module `ErrInfo`: byte-level encoder/decoder, round-trip.
- **C12** Operational push order is a strict order and changes only what was asked — module `OperPush`: list model of the shared array incl. the memmove arithmetic; negation + partial.
- **C13** Later push data override earlier — module `OperData`: per-node fold over entries vs. specification 'last one wins'.
- **C14** A datastore lock keeps every other session out — module `DsLock`: state machine of lock/unlock/write/stop/crash; invariant.
- **C15** Locking all modules is all-or-nothing — module `DsLock`: negation witness for failed unlock, partial for lock.
- **C16** sr_get_lock reports the truth — module `DsLock`: decision logic.
- **C17** Each edit operation means what NETCONF says — module `Edit`: tree model of edit application vs. independent denotational spec.
- **C18** The reported changes are exactly the difference — module `Edit`: diff replay theorem.
- **C19** User-ordered items land where requested — module `UserOrd`: list model of insert/move vs. spec.
- **C20** Accumulated edits equal sequential edits — module `EditMerge, EditAdd`: the collected edit of any series of calls is characterised by an invariant (which operation and value at which path); with the meaning of an edit (C17) it gives the effect of the calls one after another; witnesses for the orders where it does not.
- **C21** Subscribers are called in priority order — module `ChangeNotify`: subscription selection loop; order + exactly once; negation at priority 2^32-1.
- **C22** Accepted change is always concluded — module `ChangeNotify`: publisher rounds with failing subscriber; trace theorem.
- **C23** A subscriber processes each event once — module `Listener`: listener state machine; trace theorem.
- **C24** The originator waits for exactly its subscribers — module `Listener`: countdown protocol; invariant.
- **C25** Update event can only be changed by its single subscriber — module `SubTables`: subscription list operations; invariant over histories.
- **C26** Subscriptions are found by their id and removed alone — module `SubTables`: refinement to a finite set.
- **C27** RPC subscriptions are unique per priority and called in order — module `Rpc`: subscription list + notify loop.
- **C28** Operational providers are called parents first — module `SubTables`: sortedness invariant over histories.
- **C29** Applying changes is all-or-nothing — module `Pipeline`: step machine with failure oracle; negation (2nd module's store fails) + partial.
- **C30** Nothing unauthorized or invalid reaches subscribers or storage — module `Pipeline`: trace theorem.
- **C31** A failed apply keeps the pending edit, a successful one clears it — module `Pipeline`: session state machine.
- **C32** Candidate mirrors running until modified — module `Candidate`: two-datastore machine refined to spec.
- **C33** Startup survives a crash at any moment — module `JsonStore`: file-system machine with crash after every micro step; negation + partial.
- **C34** A failed startup store keeps the old content — module `JsonStore`: same machine with failing calls; negation + partial.
- **C35** Vectored writes write everything exactly once — module `Writev`: loop with kernel oracle and size_t wrap; negation + partial.
- **C36** File copies are complete — module `Writev`: copy loop with kernel oracle.
- **C37** Replay delivers every stored notification in the window once, in order — module `NtfJson`: directory of files model; replay vs. filter of history.
- **C38** Storing a notification never fails because of earlier ones — module `NtfJson`: negation witness + partial.
- **C39** The earliest notification time is the earliest — module `NtfJson`: corollary of file invariants.
- **C40** Setting permissions of stored notifications terminates — module `NtfJson`: loop machine; negation (never returns) when a file exists.
- **C41** Buffered notifications are stored in order without loss — module `NotifBuf`: two-thread machine; FIFO invariant.
- **C42** Replay and live delivery neither overlap nor leave a gap — module `Replay`: decision logic of replay stop time and live filter.
- **C43** A NACM path rule applies exactly to its target and the nodes inside — module `NacmPath`: string matcher; negation + partial on path segments.
- **C44** NACM group membership decides which rules apply — module `NacmGroup`: merge loop; negation + partial.
- **C45** The first matching NACM rule decides — module `Nacm`: rule evaluation vs. first-match spec.
- **C46** Reading returns only permitted nodes — module `Nacm`: tree filter vs. node-wise spec; negation for node sets.
- **C47** A change is refused exactly if it touches something denied — module `Nacm`: diff check vs. node-wise spec; negation + partial.
- **C48** XPath iteration leaves the string intact — module `XPathUtil`: character-array machine; invariant over call sequences.
- **C49** XPath iteration returns the nodes and keys of the path — module `XPathUtil`: iteration over printed paths.
- **C50** Predicate removal yields the schema path — module `XPathTrim`: string functions; negation + partial.
- **C51** Time arithmetic is exact — module `Time`: bounded arithmetic; negation at 2^32 overflow + partial.
- **C52** Depth limit returns exactly the nodes up to the depth — module `TrimDepth`: tree recursion vs. spec.
- **C53** Every module in an edit is processed once — module `NextMod`: iterator vs. dedup spec.
- **C54** Periodic push updates are on the anchor time — module `Time`: bounded arithmetic; negation + partial.
- **C55** On-change push notifications are dampened — module `Time`: bounded arithmetic; negation + partial.
- **C56** NACM rules in use are the configured ones in the configured order — module `NacmConf`: list callbacks vs. user-ordered list spec over all histories; negation for prefixes + partial.
- **C57** Operations are executed only with execution and read access — module `Nacm`: decision logic; negation for nested actions + partial.
- **C58** Stored notifications are read back intact — module `NtfRec`: byte-level round trip by induction; negation for torn records.
- **C59** Rotation archives exactly the old notification files — module `Rotation`: string parsing and age test vs. spec; negation for dotted module names + partial.
- **C60** Change polling of an operational path is unique — module `SubTables`: invariant over histories of the poll subscription table.
- **C61** Data are written only under the write lock — module `Pipeline`: trace theorem on the lock of every write; negation for dependencies + partial.
- **C62** Committing the candidate loses no concurrent change — module `Candidate`: two-step commit; negation + partial.
- **C63** Factory reset resets exactly the given modules — module `FactoryReset`: two passes of the replace pipeline; negation (dependents deleted, half reset) + partial.
- **C64** A callback reads exactly the changes that happened — module `ChangeIter, EditExact`: the diff of an edit says at every path what happened (induction over the edit); iteration over it is its list of rows.
- **C65** A duplicated change iterator outlives the callback — module `ChangeIter`: iterator with the owner of its nodes; negation + partial.
- **C66** A filtered read of operational data loses nothing — module `OperFilter`: the text parser run on the printed form of every path; every pair of atoms of two paths with a common node matches; induction over the providers; negations + partial.
- **C67** Different things are stored under different names — module `Names`: the formats as functions to strings, injectivity by splitting at the last dot; the hash by invertible steps; negations with concrete names.
- **C68** A live connection is never taken for a dead one — module `ConnAlive`: labelled steps of threads of many processes with record locks and crashes; inductive invariant; negations with concrete schedules + partial.
- **C69** All connections share one initialised memory — module `Startup`: labelled steps of threads with a mutex and a record lock and crashes; inductive invariants; negations: an abandoned state is never left, concrete schedules + partial.
- **C70** Installing modules is all or nothing — module `ModOps`: state of internal data, shared memory, files, plugins, data and connections; libyang as a parameter with laws (an example library meets them); every step can fail or kill; invariant `Good`; negations + partial.
- **C71** Removing modules is all or nothing — module `ModOps`: as C70; the remaining modules load by themselves; negations + partial.
- **C72** Updating modules and changing features is all or nothing — module `ModOps`: as C70; negations + partial.
- **C73** All connections see the installed modules — module `ModOps`: induction over histories with the invariant `Good`; negations + partial.
- **C74** Unsubscribing removes exactly what was asked for — module `SubCtx`: labelled steps of any number of threads on one structure under its read-write lock; inductive invariant.
- **C75** A notification subscription ends once — module `SubCtx`: as C74; invariant on the log of events.
- **C76** An unsubscribed callback is not called anymore — module `SubCtx`: as C74; negation with a schedule of two removals + partial (removals do not overlap).
- **C77** Unsubscribing a session or structure leaves nothing — module `SubCtx`: as C74; invariant on what a search has left behind; negation + partial.
- **C78** Event processing does not use released memory — module `SubCtx`: as C74; the remembered place of a module against reallocation; negations + partial.
- **C79** Operational contains exactly the enabled configuration — module `Enabled`: membership of paths in merged trees by mutual induction; unlinking leaves exactly the paths outside; invariant over the selected nodes.
- **C80** Enabled entries keep the order of the user — module `Enabled`: order of siblings after a merge as old ones followed by new ones; whole module and selections in document order; negation with two subscriptions + partial.
- **C81** Applied changes leave a valid datastore — module `Deps`: validation is a parameter with laws on what it reads (example libraries meet them); judged on all data (C82) every module not judged again reads only unchanged data; negations for instance-identifiers, chains of when and leafrefs over two modules + partial.
- **C82** Changes are judged on complete data — module `Deps`: closed form of the loaded modules through all steps; the validation passes agree with the ones on all data by induction; negations + partial.
- **C83** Validating says what applying does — module `Deps`: same loaded modules with and without finishing the diff; negations with a module name + partial.
- **C84** Data of a module are taken once — module `Deps`: invariant on the number of loads; negation with an update subscriber + partial.
- **C85** Database plugins keep the order of the user — module `DbUo`: records of a list as a permutation of a canonical chain; invariant through insertion, shifting, deletion and nested diffs; loading sorts with the 32-bit comparison; negations for long histories, equal names and apostrophes + partial.
- **C86** List keys survive the database — module `DbPath`: round-trip by induction over the keys.
- **C87** Nodes are loaded from the database in their place — module `DbPath`: texts of paths are cut uniquely at slashes outside of strings; everything between a text and an extension of it in the order begins with it; invariant on the array of parents; negation for values with both kinds of quotes + partial.
- **C88** The database holds exactly the data — module `DbPath`: refinement: records are the texts of the nodes through any changes; negation for names beginning with others (MongoDB) + partial, full for Redis.
- **C89** Loading a part loads all that is asked for — module `DbPath`: the filter lets through a part closed under parents; negations for other spellings and for a later XPath that is not a path (Redis) + partial.
- **C90** An on-change subscriber can follow the data — module `YpChange`: refinement: edits sent and waiting applied to the first data are the current data, induction over the history; negations for moves while waiting and receivers that check + partial.
- **C91** Changes are reported within the dampening period — module `YpChange`: invariant on the timer; negations: nothing is sent after the timer fired once, a waiting notification dropped + partial.
- **C92** Notifications are not closer than the dampening period — module `YpChange`: invariant on the times of the notifications over all runs.
- **C93** Patches and edits are numbered in order — module `YpChange`: invariant on the numbers over all runs.
- **C94** A subscriber gets the changes it asked for — module `YpChange`: invariant over all runs for no other change; induction over the changes of a commit for every change; negation for the point + partial.
- **C95** Subtree filters select what RFC 6241 says — module `SubFilter`: the generated text is parsed back (round trip) and its meaning compared with an inductive definition of the output by RFC 6241, induction over the filter; negations for quotes, leaf-lists, top-level content, namespaces + partial.
- **C96** Converting a subtree filter is safe — module `SubFilter`: sizes of the buffers in the model, induction over the filter; negation for opaque content at the top + partial.
- **C97** Notifications are read as they were sent — module `SnPipe`: transition system of writes (atomic up to PIPE_BUF, else in pieces) and the three reads; invariant; negations for large notifications + partial.
- **C98** The dispatch thread passes notifications with the right data — module `SnDispatch`: transition system with file descriptors that are reused, array compaction and rounds of poll; invariant relating arrays, kernel and history.
- **C99** No notification after srsn_terminate() — module `SnDispatch`: the wait of srsn_terminate in the same transition system; negation for its timeout + partial.
- **C100** A stream subscription gets the stream's notifications — module `SnStream`: modules collected from the filter against the meaning of the filter; negations + partial.
- **C101** Replayed notifications, then replay-completed, then new ones — module `SnStream`: induction over all valid sequences of callbacks.
- **C102** The start of the replay is reported — module `SnStream`: negation for all inputs.
- **C103** Timers fire at their time and not after they were cancelled — module `SnTimer`: transition system of the timer thread, the condition variable and the user; invariant; negation for a late update + partial.
- **C104** Cancelling a timer does not wait for its time — module `SnTimer`: the same; negation by a lost signal, for any distance of the stop time + partial.
- **C105** Writing back what was read changes nothing — module `Values`: exact arithmetic of doubles in units of 2^-1074, formatting and parsing of digits; round trips for all values; negations for long decimals, unions, values too large and of wrong types + partial.
- **C106** Copies of values are equal to the originals — module `ValUtil`: strings with the size of their memory, the union as raw content; equality against the visible content; negations for origin, anydata and numbers + partial.
- **C107** Values are printed completely — module `ValUtil`: induction over the pieces printed; two's complement; negation for decimals + partial.
- **C108** Cached reads are as fresh as uncached ones — module `RunCache`: transition system of threads, connections, the cache lock and module locks; one invariant over all steps; negations for failed loads, disabled running, plugin versions and the counter + partial.
- **C109** Reads return only what the user may read — module `RunCache`: the same system with ghost permissions; negations with the cache + partial.
- **C110** Polled operational data are refreshed before they expire — module `OperPoll`: invariant of the wake-up time over the subscriptions visited; negations for less than a second, 25 days and failing providers + partial.
- **C111** Notification subscriptions end at their stop time — module `StopTime`: loop invariants with removal by moving the last element, permutations; reading freed memory is an outcome; negations for elapsed and late stop times and a race + partial.
- **C112** Reads of polled operational data give what the provider answered — module `OperPoll`: origin of cached data over all histories; negations for suspended subscriptions, context changes, the first poll and no data + partial.
- **C113** Published changes of polled data are complete — module `OperPoll`: refinement: changes applied in order are the cached data; negations + partial.
- **C114** Contexts and data handed out stay valid until they are released — module `CtxLock`: transition system of agents, the context lock, remap locks and contexts in memory; one invariant over all steps; negation by an unlock without a lock + partial.
- **C115** Contexts and data handed out are of the installed modules — module `CtxLock`: the same system, content IDs of any hash; negations for an installation racing with a removal and for collisions + partial.
- **C116** Datastore plugins are initialized before they are used — module `CtxLock`: the same system with the initialized plugins; negations for another plugin and for a failed initialization + partial.
- **C117** Operational data are changed as requested — module `OperSess`: refinement: views of the stored data and of the edit, changed as specified, over all histories of calls; an assertion is an outcome; negations for unreadable data, the last deletion and an emptied module + partial.
- **C118** Operational data are discarded as requested — module `OperSess`: the same views; negations for pending changes and for XPaths + partial.
- **C119** Batches of operational data are applied as requested — module `OperSess`: the same views, merge of views; negations for modules not in the batch and for later changes + partial.
- **C120** Every subscriber gets every notification once — module `NotifEv`: transition system of senders, listeners, the event and its count of subscribers; two invariants (any and quiet runs) over all steps; negations for removed and suspended subscriptions and slow subscribers + partial.
- **C121** Delivery of notifications does not get stuck — module `NotifEv`: the count equals what listeners have left to do, woken listeners; an assertion is an outcome; negations for suspended subscriptions, resuming and a crash + partial.
- **C122** A waiting sender returns when its notification was processed — module `NotifEv`: the same system with waiting senders; negation with two senders + partial.
- **C123** NETCONF errors of callbacks are read by clients — module `NetconfErr`: round trip on top of the one of errors (C11): data of an error as chunks, strings up to their zero; negation for other events + partial.
- **C124** Suspending and resuming act exactly on the given subscription — module `Suspend`: refinement of the shared tables to one flag per subscription, over all sequences of calls; reading outside of a table is an outcome; negations for paths with several subscriptions and for late errors + partial.
- **C125** Subscribed notifications are suspended entirely or not at all — module `Suspend`: induction over the subscriptions and the reverting, with a failure in any call; negations for late errors, a state that cannot be left, and modifying while suspended + partial.
- **C126** The access returned is the access set — module `Access`: access of files with the rules of the kernel for chown, chmod and open; refinement to the attributes requested, over all histories of calls of all processes.
- **C127** The access to a datastore is the access to its data — module `Access`: invariant: data files have the group and permissions of the permission file; negations for owners, failed calls and all modules at once + partial.
- **C128** The access to notifications can be set — module `Access`: the loop for every number of iterations; it never ends (negation for all sets of notifications); new files + partial.
- **C129** Replay support is what was set — module `ReplaySupp`: invariant: the internal data, the SHM and the plugins agree, over all histories; negations after a crash and for a plugin that fails + partial.
- **C130** A subscriber that is given the current data can follow them — module `EnSub`: transition system of processes with the locks of the data and of the table of subscriptions; one invariant over all steps; progress; negation for failures after storing + partial.
- **C131** Only configuration or only state is returned when asked for — module `OperTrim`: induction over trees: the nodes left are the filtered nodes in document order; negation for keys selected directly + partial.
- **C132** The XPath of a subscription can be changed — module `ModXpath`: refinement of the two copies of XPaths to the last one asked for, over all sequences of calls; transition system of the locks with any number of calls; negations after a failed call, without an XPath and for the order of locks + partial.
- **C133** The handler thread processes every event — module `Handler`: transition system of the thread, its flag and its pipe, one step per access; invariant that events are announced; a decreasing measure for termination; negation for errors + partial.
- **C134** A handler thread can be suspended, resumed and ended — module `Handler`: the same system; suspended states are closed under all steps but resuming; termination after unsubscribing; negations for errors and for sleeping + partial.
- **C135** All subscribers are asked for operational data — module `OperAsk`: induction over the subscribers; data returned are complete for all of them; negations for failing, late and shelving callbacks before others + partial.
- **C136** Plugins run in the configured order — module `Plugind`: the loops with swapping as moving a part of the array, by induction over the plugins and names; the calls of a run by induction; negation for names with several dots + partial.
- **C137** Changes of the configuration are notified — module `ConfNotif`: on top of reading changes (C64) and originator data (C10); by induction over the diff; reading outside of memory is an outcome; negations for failed sending and an originator name + partial.
- **C138** Notification subscriptions can be modified — module `NotifMod`: refinement of the subscription to what the calls so far ask for, over all histories; negations for early stop times, removing no stop time and failures + partial.
- **C139** What is set for a module stays when others change — module `ModShm`: refinement of the memory to what the history asks for, over all histories with changes of modules; negations for priorities and locks after such a change and for the order of copying + partial.
- **C140** Cached running data are current after modules change — module `CacheCtx`: invariant of the caches of connections with the current content ID over all histories; negations when a set of modules returns and after a failed installation + partial.

## Components: what is modelled and what is not

Copied from the heads of the model files. Each line range cited is modelled; what a head lists as left out or simplified is not.

### Access

Owner, group and permissions of the data of a module.

Models of `/repo/src/sysrepo.c` 2229-2335 (`_sr_set_module_ds_access`, `sr_set_module_ds_access`), 2337-2431
(`sr_get_module_ds_access`, `sr_check_module_ds_access`), of `/repo/src/plugins/ds_json.c` 49-159 (creating a file in
`srpds_json_store_`), 287-339 (`srpds_json_init`), 355-404 (`srpds_json_store`), 660-677 (`srpds_json_candidate_reset`), 679-894
(`srpds_json_access_set`, `_get`, `_check`), of `/repo/src/plugins/common_json.c` 169-234 (`srpjson_open`), 409-454
(`srpjson_chmodown`) and of `/repo/src/plugins/ntf_json.c` 177-208 (`srpntf_open_file`), 637-662 (`srpntf_json_access_set`).

Simplifications: the production environment (`sr_is_prod_env`); calls are atomic; the directories can be searched and written
by everybody; of the kernel, the rules of Linux for `chown`, `chmod` and opening files are modelled (capabilities: all or none,
no ACLs). Permissions have no execute bits, which are refused. Content of files is modelled in `JsonStore.lean`.

### Bytes

Byte buffers shared by the models of the serialisation code: bounds-checked reads and writes. An access out of the
buffer has no result (`none`), it is undefined behaviour in C.

### CacheCtx

A connection opened with `SR_CONN_CACHE_RUNNING` keeps the running data of a module with the value its counter
of changes had. The counter is in the shared memory of modules, which is written again, with all counters zero, when
modules are changed. The cache is dropped only if the content ID differs when the connection is used the next time;
the content ID is a hash of the modules and so the same again after a module is installed and removed.

* `src/shm_mod.c` 211–212 (`sr_shmmod_fill` zeroes `run_cache_id`), 775–855 `sr_shmmod_store_modules`
* `src/sysrepo.c` 1525–1541 the content ID set by `sr_install_modules`, 1569 the memory written on an error
* `src/context_change.c` 42–132 `sr_lycc_lock`
* `src/common.c` 3069–3182 `sr_conn_run_cache_update`, 3189–3232 `sr_conn_run_cache_update_mod`,
  3307–3340 `sr_conn_ctx_switch`
* `src/modinfo.c` 3872–3889 the counter

Simplifications: one module, which stays installed, and its data as one number; connections each used by one thread;
each call is one step (C108 has the threads); a plugin without `data_version_cb`, as the JSON plugin; the counter
does not overflow (`Verif.RunCache.counter_unset` is about that).

### ChangeIter

Model of `_sr_get_changes_iter` (sysrepo.c 6049-6102, `sr_get_changes_iter`, `sr_dup_changes_iter`), `sr_diff_set_getnext`
(edit_diff.c 3403-3473) and `sr_get_change_next` (sysrepo.c 6213-6306), on a diff as a tree of nodes with metadata, and of how the
metadata are put on the nodes of the diff of an edit (`sr_diff_add_meta`, edit_diff.c 337-422).

Modelled: operations inherited from parents, nodes below moved instances, keys of list instances (created, deleted or not mentioned with
their instance), values before and after, default flags, places of user-ordered instances.
Simplifications: an XPath is any set of nodes, returned in document order (libyang); `sr_val_t` is the node, its value and its default
flag (their printing is left out); freeing is modelled only for the diff of the session.

### ChangeNotify

Model of publishing the change, abort and done events of one change operation to the subscribers of all the
changed modules.

Code modelled (/repo/src/shm_sub.c):
* 863–889 `sr_shmsub_change_listen_event_is_valid`
* 949–997 `sr_shmsub_change_notify_has_subscription`
* 1014–1077 `sr_shmsub_change_notify_next_subscription`
* 1523–1558 `sr_shmsub_change_notify_nsubs_set_mod_prio`
* 1560–1758 `sr_shmsub_change_notify_change`
* 1760–1939 `sr_shmsub_change_notify_change_done`
* 1941–2183 `sr_shmsub_change_notify_change_abort`
* sysrepo.c 4086–4124 of `sr_changes_notify_store`: change, then abort or store and done

Simplifications:
* how the subscribers of one event process it concurrently is the model `Listener`; here every subscriber has
  one `Reply` and the callbacks of one round are listed in the order of the table of subscriptions;
* the subscriptions do not change (the CHANGE SUB READ lock is held) but connections may die and
  subscriptions be suspended or resumed at any time: every scan of a table has its own `view`; a filter that
  does not match is in `view` as well;
* `mods` are the modules with some changes; allocation, mapping, printing and event pipes do not fail;
* a subscriber that accepted a change in time processes the done and abort events in time.

### ConfNotif

Model of `sr_modinfo_generate_config_change_notif` (modinfo.c 3633-3834), called at the end of `sr_changes_notify_store`
(sysrepo.c 4126-4129): the notification `netconf-config-change` of ietf-netconf-notifications, sent and stored for replay after changes
were stored. The diff and its reading are those of `Verif.ChangeIter`, the originator of a session is that of `Verif.EvData`.

Simplifications: sending (`sr_shmsub_notif_notify`, C120-C122) and storing for replay (`sr_replay_store`, C129) succeed or fail; locks
are got or not; the path of a target is the target itself (`lyd_path`); memory allocation succeeds.

### ConnAlive

Model of the lock files of connections: creating a connection, finishing it, checking whether a connection is alive, and crashes of processes at
any moment.

Code modelled (/repo/src):
* `shm_main.c` 178–276 `sr_shmmain_conn_check`
* `shm_main.c` 285–344 `sr_shmmain_conn_new_lockfile`, 346–396 `sr_shmmain_conn_list_add`
* `shm_main.c` 398–449 `sr_shmmain_conn_list_del`
* `sysrepo.c` 240–246 of `sr_connect` (the identifier and the call), 326–355 (a later failure), 391–398 of `sr_disconnect`
* `common.c` 5478–5494 of `sr_conn_info` (which identifiers it checks)

POSIX record locks: a lock on a file belongs to a process; a process does not see its own locks as conflicting (`F_GETLK`); closing any descriptor of
the file releases the locks of the process on it; a crash releases all of them.

Simplifications:
* every system call and every section with the list lock is one step, the threads of all the processes run interleaved;
* the new file (`.lock.new`) is always a new one; its creation, locking and renaming do not fail (the errors end the connecting);
* the counter of identifiers does not wrap; it begins with 1 with a new main SHM, and lock files of an earlier time (before a reboot) may exist;
* PIDs and the connection list of a forked child are left out.

### CtxLock

The schema context of connections and the locks guarding it.

Models `/repo/src/context_change.c` lines 42-132 (`sr_lycc_lock`), 134-147 (`sr_lycc_relock`), 149-168
(`sr_lycc_unlock`), `/repo/src/common.c` lines 3308-3340 (`sr_conn_ctx_switch`) and 3342-3385
(`sr_conn_ds_init`), and of `/repo/src/sysrepo.c` the parts that take, use and release the context:
407-425 and 3348-3362 (acquire a context or data, release it), 614-640 (`sr_session_start`), 1406-1595
(`_sr_install_modules`), 1755-1872 (`sr_remove_modules`).

An agent is one call of the API that takes the context lock, together with the context or data it returned, until
these are released. Any number of agents belongs to any number of connections; they interleave at the steps of
`sr_lycc_lock`.

Simplifications: the context lock and the remap lock of a connection are lists of the agents holding them for
reading, at most one agent holding the upgradable lock and at most one writer (the implementation of these locks
is the subject of `RWLock`). The real lock counts the readers of every connection, it does not know which thread
took which of them: releasing a lock that is not held releases the lock of another agent of that connection, and
only of it (common.c 2300-2318). A module is its name, revision and the name of one datastore plugin; features and
dependencies between modules are left out; installation of a module of the same name is an error. The lock of the
internal data (`lydmods_lock`) is left out, it is taken only together with the upgradable context lock.

### DbPath

The Redis and the MongoDB datastore plugins store every node of the data as one record.  Its key in
the database is the path of the node as text, list keys are packed into one string, and the record
also has the path with the slashes replaced by spaces (`path_modif`), by which the records are
sorted when they are loaded, so that a parent comes before its children.  Whole subtrees are
deleted (MongoDB) and loaded (both, if paths are asked for) by the beginning of the text.

The model is `common_db.c` 36–233 and 400–423, the placing of nodes in `srpds_add_conv_mod_data`
(common_db.c 526–590), the deletion of nodes (ds_mongo.c 1847–1900, 2127–2165, 2284–2290,
2330–2336; ds_redis.c 966–985, 1608–1640, 1762–1820) and the filter of loading (ds_mongo.c
405–494; ds_redis.c 2650–2750).

Simplified: a text is a list of characters and the databases compare texts by their code points
(the order of UTF-8 bytes is the same); a query for an exact text finds exactly the records with it
(see the findings by reading on the tag index of Redis); what a record holds besides its path is
left out; failures of the database itself are left out.

### DbUo

The Redis and the MongoDB datastore plugins do not store a user-ordered list or leaf-list as a
sequence.  Every instance is one record with a number (`order`) and with the predicate of the
instance before it (`prev`).  A change is stored by finding the records of the neighbours of the
instance, choosing a number between theirs and, when there is no number left, shifting the
following records by one.  Loading sorts the records by the number.

The model is `ds_redis.c` 561–1236, 1412–1417, 1620–1626, 1660–1676, 1725–1840 and 3001–3240, the
functions of the same names of `ds_mongo.c` 1221–1900, 2186–2210, 2239–2350 (the two differ in what
they do when a record is missing or when there are two), and `common_db.c` 425–510, 735–790.

Simplified: an order is a natural number (`uint64_t` in the code, so no wrap-around: reaching it
takes 2^54 additions; the numeric index of Redis holds doubles, exact below 2^53); records are
grouped by the list they belong to, since every query of the code names the list (`path_no_pred`)
or a path in it; a query by text (`@prev:{…}`) finds exactly the records with that text (the tag
index of Redis splits a text at commas, see the findings by reading); the deletion of a node
removes the records of everything below it (Redis deletes each descendant listed in the diff,
ds_redis.c 1786–1790 with the inherited operation, MongoDB deletes by the prefix of the path,
ds_mongo.c 1871–1883: component `DbPath`); everything stored about nodes that are not user-ordered
is left out, and so are failures of the database itself.

### Deps

Component: which modules are validated when data change, and on what data.

Models sr_lydmods_add_deps_all with its helpers (lyd_mods.c 390-870), sr_modinfo_add (modinfo.c 52-114),
sr_modinfo_collect_deps (375-397), sr_modinfo_edit_apply (588-635), sr_modinfo_mod_new and
sr_modinfo_mod_inv_deps (2793-2907), sr_modinfo_data_load (2947-3030), sr_modinfo_consolidate (3033-3118),
sr_modinfo_validate (3121-3186), sr_shmmod_collect_deps (shm_mod.c 1144-1302), sr_validate (sysrepo.c
3834-3968) and the way sr_apply_changes takes through them (3970-4050, 4245-4290), with the part of
sr_modinfo_change_notify_update (modinfo.c 3541-3592) that loads data again.

Simplified: a module is its number, which is also its place in the shared memory; data of one module are a
value of any type; libyang's validation of a module is a parameter (`Lib`), split like the code calls it into
the first pass, which can change the data of the module (default values, nodes whose `when` is false) and can
fail, and the final pass. Locks, permissions, NACM and subscribers are in other components. Data of a module
that is not loaded are `none`. All data of a loaded module are loaded: the XPaths of dependencies, which only
limit what a datastore plugin has to return, decide only whether the data are remembered as loaded.

### DsLock

Model of the datastore locks (sr_lock, sr_unlock, sr_get_lock): sysrepo.c 4802-5085 (`sr_change_dslock`, `_sr_un_lock`,
`sr_get_lock`), shm_mod.c 1297-1404 (`sr_shmmod_lock`), 1410-1600 (the loops over modules), 1598-1660
(`sr_shmmod_release_locks`), the calls of these in sysrepo.c (apply, copy config, session stop).

A key is one module in one conventional datastore. Every API call is a sequence of atomic steps, one per module, freely
interleaved with the steps of other sessions. A process may die between any two steps and also inside a change of one
lock (between the writes of `ds_lock_cid` and `ds_lock_sid`).
Simplifications: a session runs one call at a time (sessions are not thread-safe); plain read locks and waiting are left
out (they only delay); several upgradable holders are allowed (more than the code allows); the mutex `ds_lock` never
times out; the time is a counter; session IDs are never reused.

### Edit

Model of applying an edit to the data of a module: edit_diff.c 97-170 (`sr_edit_op`), 838-940 (`sr_edit_find_match`,
`sr_edit_find`), 1333-1395 (`sr_edit_diff_add`), 1406-1470 (`sr_diff_is_redundant`), 1475-1570 (ether, none, remove),
1690-1790 (replace), 1808-1870 (create), 1880-1920 (merge), 1930-1955 (delete), 1970-2000 (default change),
2065-2254 (`sr_edit_apply_r`), 2256-2298 (`sr_edit_mod_apply`).

A node is identified among its siblings by its schema node and key (list keys, leaf-list value, nothing for containers
and leaves). Values are numbers, equal exactly if the canonical values are.
Simplifications: the position of instances (see `Verif.UserOrd`), origin metadata, opaque nodes and default leaf-list
instances are left out; a list key inside of an edit is part of the identity of its list instance; both kinds of errors
(`err_info` stops at once, `val_err_info` is collected and makes the whole edit fail) are `none`.

### EditAdd

Model of `sr_set_item_str` (sysrepo.c 3451-3510), `sr_delete_item` (sysrepo.c 3512-3606), `sr_edit_add` (edit_diff.c 3225-3400) and what
it uses: `sr_edit_is_superior_op` (2700-2756), `sr_edit_add_descendant_have_own_op` (2765-2784), `sr_edit_add_merge_op` (2794-2893),
`sr_edit_add_update_op` (3012-3068), `sr_edit_add_find_match` (3080-3223); on edits of any depth.

The collected edit is applied by `Verif.Edit.apply`.
Simplifications: conventional datastores; no isolated edits, positions, origins, `purge` and lists without keys; paths and values are
valid, so that creating nodes does not fail; the keys of an instance are its identity; the order of siblings is the order of creation.

### EditMerge

Model of collecting changes before they are applied: sysrepo.c 3455-3510 (`sr_set_item_str`), 3515-3610 (`sr_delete_item`),
edit_diff.c 2758-2893 (`sr_edit_add_merge_op`), 3225-3330 (`sr_edit_add`), for any number of top-level leaves.

The application of the collected edit is that of `Verif.Edit` (edit_diff.c 2065-2254) for leaves.
Simplifications: inner nodes, whose operations `sr_edit_add_update_op` rearranges, are left out; so are isolated edits, the
operational datastore and `purge`.

### EnSub

Subscribing to changes with the current data reported first.

Models of `/repo/src/sysrepo.c` 5654-5738 (`sr_module_change_subscribe_enable`), 5818-5950 (`sr_module_change_subscribe`),
3971-4141 (`sr_changes_notify_store`), of `/repo/src/modinfo.c` 820-865 (`sr_modinfo_changesub_rdlock`, `sr_modinfo_changesub_rdunlock`),
3506-3631 (`sr_modinfo_change_notify_update`), and of the order in which `/repo/src/shm_sub.c` `sr_shmsub_change_notify_change` and
`sr_shmsub_change_notify_change_done` read the table of subscriptions. Any number of processes apply changes to a module and
subscribe to it, at once, with the two locks: the one of the data of the module (READ, READ_UPGR, WRITE) and the one of its table of
change subscriptions (READ, WRITE).

Simplifications: one module and one conventional datastore; data are nodes with values; the locks are those of C01 and C02, so taking
them is one step; a subscription reads the changes of the nodes its XPath selects (C64), a callback that reads no change is a call
that is not made; the delivery of one event to one subscription is one step (C23, C24); subscriptions with `SR_SUBSCR_ENABLED` that are
not suspended and get the "change" event.

### Enabled

Component: which configuration data are in the operational datastore.

Models sr_module_oper_data_get_enabled (modinfo.c 1616-1725) with sr_lyd_dup_module_np_cont,
sr_lyd_get_module_data and both variants of sr_lyd_get_enabled_xpath (common.c 4285-4567): the running
data of a module that change subscriptions enable, duplicated from the cache of the connection or unlinked
from data read from the datastore.

Simplified: the data of one module; a node is its instance among its siblings (schema node, keys or value);
an XPath is the list of the nodes it selects; state NP containers and the origin are left out; the running
data have every NP container that can exist (libyang creates them on every validation), so adding implicit
ones (common.c 4551) is adding those of the running data; merged nodes are put behind their siblings, which
matters only for the order of user-ordered lists and leaf-lists.

### ErrInfo

Model of the errors set by a subscriber callback (sysrepo.c), their serialisation by the subscriber
(`sr_shmsub_prepare_error`, shm_sub.c) and their deserialisation by the originator
(`_sr_shmsub_notify_wait_wr`, shm_sub.c).

Memory allocation succeeds.

### EvData

Model of the opaque data attached to events: `sr_ev_data_*` (common.c), writing of an event by its originator
(`sr_shmsub_notify_write_event`, shm_sub.c) and reading of it by the event session of a subscriber
(`_sr_session_start`, `sr_session_set_orig`, sysrepo.c).

Memory allocation succeeds. The data part of the event itself (LYB) is an opaque byte string.

### ExtShm

Allocator of the external shared memory segment ("ext SHM").

Models `/repo/src/common.c` lines 1498-1612 (holes), 1647-1670 (`sr_shmrealloc_use_hole`), 1680-1964
(`sr_shmrealloc_add`, `sr_shmrealloc`, `sr_shmrealloc_del`), `sr_shm_remap` 1443-1481 and the shrinking part of
`sr_shmext_conn_remap_unlock`, `/repo/src/shm_ext.c` 128-157.

The segment is a byte memory; the hole list is a linked list whose headers (`sr_ext_hole_t`, shm_types.h
300-303) are stored in the holes themselves, exactly as in the code, so that a header written to a wrong place
destroys data of the model too.

Simplifications: pointers are offsets (a remapped address is not modelled); `(int)off` casts are ignored, which
is right for segments smaller than 2 GiB (a hypothesis of the history steps); the variables holding the array
offset/count live outside of the segment (flag `in_ext_shm` only concerns pointer updates after a remap).

### FactoryReset

Model of the internal handling of the RPC `factory-reset`: `sr_shmsub_rpc_internal_call_callback`, shm_sub.c 2353-2510.

Uses the model of applying changes (`Pipeline`): one pass over a datastore is `replaceConfig` of the modules in mod info.

### FutexCond

Model of the condition variable of sysrepo: src/sr_cond/sr_cond_futex.c, together with the mutex its callers hold.

Threads run their atomic steps in an arbitrary interleaving: every access to the futex word, every system call and
every mutex operation is one step. All the callers of `sr_cond_broadcast` hold the mutex (common.c 2762, 2855,
replay.c 170, sysrepo.c 672), so a broadcast is modelled only for its owner. The mutex is robust: a thread that dies
releases it. Assumed of the kernel: FUTEX_WAIT atomically compares and goes to sleep, FUTEX_WAKE wakes all.

### GetData

Model of assembling the result of `sr_get_data`: sysrepo.c 3167-3245, common.c 4231-4263 (`sr_lyd_dup_r`), 4887-4934
(`sr_xpath_set_filter_subtrees`).

A data node is identified by its path (the identities of the nodes from the top level). List keys belong to their list
instance, they are copied with it. The nodes of the result are numbered in the order of their creation; every one has the
number of its parent (`struct lyd_node *parent`).
Simplifications: the selection itself is libyang's, its nodes come in document order; what the access control removes
inside of a selected subtree is `Verif.Nacm`, here a selected subtree is denied as a whole or allowed; the trimming
of operational data (`sr_oper_data_trim`) is `Verif.OperTrim`.

### Handler

The thread of a subscription context (`sr_shmsub_listen_thread`) sleeps until
a byte is in its event pipe, and processes all the events then.  It is suspended
and resumed with `sr_subscription_thread_suspend()` and
`sr_subscription_thread_resume()`, and ended by `sr_unsubscribe()`.

Every step below is one atomic access of the code.  Simplified: an event is a number and
processing it is one step (it is the subject of other components); bytes are
written to the pipe by whoever made an event, after it; writing one byte fails only when the
pipe is full.

### JsonStore

Models `srpds_json_store_` (src/plugins/ds_json.c:49-159) and `srpds_json_load`
(src/plugins/ds_json.c:463-570) for the startup datastore: `make_backup = 1`, `perm = 0` (the file
was created when the module was installed), so the branches creating the file
(src/plugins/ds_json.c:97-103, 112-118, 154-156) are not taken.

Every system call is one step whose outcome is chosen by the kernel, so a crash is possible
between any two calls and in the middle of every write. What a call has done is on the disk as
soon as it returned (no `fsync` model; a power failure is out of scope, a killed process is not).
The data are the printed bytes; printing is one sequence of writes from the beginning of the file
(libyang writes every piece at once, any split is covered). Failures of memory allocation are
merged with those of the neighbouring system call.

### Listener

Model of the sub SHM of one module and datastore: an originator publishes events in it one after another, any number of
listeners (threads of different processes) process them, each for its own change subscriptions, and report back.

Code modelled (/repo/src/shm_sub.c):
* 863–889 `sr_shmsub_change_listen_event_is_valid`
* 3144–3181 `sr_shmsub_change_listen_is_new_event`
* 3183–3243 `sr_shmsub_listen_write_event`
* 3359–3410 `sr_shmsub_change_listen_relock`
* 3412–3619 `sr_shmsub_change_listen_process_module_events`
* 796–856 `sr_shmsub_notify_write_event` and 460–634 `_sr_shmsub_notify_wait_wr` for the change, done and abort events

Simplifications:
* one step is what a process does while it holds the lock of the segment; a callback runs between two steps;
* an originator waits with the lock released, so that it is present only by its steps `publish`, `collect` and `timeout`
  (after a timeout it got the lock; the case that it did not is left out);
* update events are left out; mapping, parsing and printing do not fail; request IDs do not wrap around.

### LockOrder

Model of how API calls take the data locks of modules: modinfo.c 2921-2936 (`sr_modinfo_qsort_cmp`), 3033-3117
(`sr_modinfo_consolidate`), shm_mod.c 1297-1404 (`sr_shmmod_lock`), 1415-1600 (`sr_shmmod_modinfo_lock`, `rdlock`, `wrlock`,
`rdlock_upgrade`, `wrlock_downgrade`, `unlock`) and their callers in sysrepo.c and modinfo.c.

Every lock is the read-write lock of `Verif.RWLock`; here only its blocking rules are used (see `conflicts`).
Simplifications: at most 15 calls read one module at a time (the limit of 16 reader slots is never hit), a call is
identified with its own entry in the lock, waiting for the DS lock (which holds no data lock of that module while
sleeping) is not modelled, neither are the other locks of sysrepo (context, subscriptions).

### ModOps

Component: installing, removing and updating modules and changing their features.

Models sr_install_module* (sysrepo.c 1241-1730), sr_remove_module* (sysrepo.c 1732-1874),
sr_update_module* (sysrepo.c 1929-2119), sr_enable/disable_module_feature (sysrepo.c 2445-2644),
the context lock and the context change functions (context_change.c) and the changes of the
internal module data (lyd_mods.c 78-265, 760-862, 1140-1421), the copy in shared memory
(shm_mod.c 775-852) and the YANG files (common.c 546-603, 760-855).

What libyang does is a parameter: which modules become implemented when a list of modules is
loaded, what each file imports, which features it declares, which nodes a context knows.
Every step that can fail (memory, files, plugins, subscriptions, validation) asks a `Call` whether
it goes on, fails, or whether the process dies there, so that a theorem about all calls is one
about all failures and all crash points.

Simplified: all modules have a "running" plugin; default nodes and automatic deletion by
validation are left out of the data; candidate data are not migrated by the code and not modelled;
replay support is not modelled.

### ModShm

`sr_install_modules`, `sr_remove_modules`, `sr_update_modules` and `sr_enable_module_feature` (or disabling one) write the
shared memory of all modules again. What it holds about a module that stays, the priority set by
`sr_module_change_set_order`, the datastore lock and the subscriptions, is copied or lost here.

* `src/shm_mod.c` 186–307 `sr_shmmod_fill`, 775–855 `sr_shmmod_store_modules`,
  1737–1813 `sr_shmmod_prio_cmp`, `sr_shmmod_reboot_init`, 1817–1853 `sr_shmmod_change_prio`,
  1332–1395 the check of the datastore lock, 1605–1635 `sr_shmmod_release_locks`
* `src/sysrepo.c` 262, 1525, 1569, 1844, 2089, 2596 (callers of `sr_shmmod_store_modules`),
  4801–4894 `sr_change_dslock`, 5590–5637 `sr_module_change_set_order`, `sr_module_change_get_order`

Not modelled: the schemas (any list of modules may follow any other, `ModOps` says which do), locks of all
modules at once and of dead connections (C14, C15), what subscriptions do (C21), failures of the memory.

### ModXpath

`sr_module_change_sub_modify_xpath()` changes the XPath of a subscription in two
places: in the process (what the callback is called for) and in the memory
shared with the processes making changes (for whom the subscriptions that filter
in the originator, `SR_SUBSCR_FILTER_ORIG`, are counted).

An XPath is a number.  A change is the function saying which XPaths select
something that changes.  Simplified: all the subscriptions are on one module and
datastore, of one subscription context, with one priority, and accept every
event; the evaluation of XPaths itself is libyang's.

### Nacm

Models `sr_nacm_allowed_tree` (src/utils/nacm.c:1210-1246), `sr_nacm_allowed_node` (1490-1674),
`sr_nacm_check_operation` (1677-1793), the read filters (1808-2076) and `sr_nacm_check_diff`
(2093-2214).

The configuration is what the configuration callbacks keep in memory. The user's groups are those
collected by `sr_nacm_collect_groups` (`Verif.NacmGroup`). The NACM mutex is held for the whole of
each function, so they are modelled as functions of one configuration.

### NacmConf

Models how `sr_nacm_rule_list_cb` (src/utils/nacm.c:557-715) and `sr_nacm_rule_cb` (717-935) keep the
rule lists and the rules of a list in memory up to date with changes of the configuration.

The linked list of entries is a list of named entries. Changes are taken as reported by
`sr_get_change_tree_next`, one after another; `prev` is the key of the preceding entry, the text
between the first two single quotes of the predicate (src/utils/nacm.c:619-621). Failing memory
allocation is not modelled.

### NacmGroup

Models the sorted string arrays of src/utils/nacm.c (`sr_nacm_strarr_sort_find` 451-466,
`sr_nacm_strarr_sort_add` 479-524, `sr_nacm_strarr_sort_del` 536-554), `sr_nacm_collect_groups`
(1256-1340) and `sr_nacm_rule_group_match` (1427-1453).

Strings are lists of bytes without the terminating zero. The order of the system groups and their
lookup (`getpwnam_r`, `getgrouplist`, `getgrgid_r`) are inputs. Failing memory allocation is not
modelled.

### NacmPath

Models `sr_nacm_allowed_path` (src/utils/nacm.c:1356-1413).

Strings are lists of characters; the end of the list is the terminating zero. Reading further than
the terminating zero or in front of the string is the outcome `oob`.

### Names

Model of the functions that compute the names of the shared memory segments and of the files with data, and of the hash in the names of the
segments of RPC/action and operational subscriptions.

Code modelled (/repo/src):
* `common.c` 1048–1121 `sr_path_main_shm`, `sr_path_mod_shm`, `sr_path_ext_shm`, `sr_path_sub_shm`, `sr_path_sub_data_shm`
* `common.c` 3722–3739 `sr_ds2str`, `plugins/common_json.c` 126–142 `srpjson_ds2str`
* `common.c` 4621–4648 `sr_str_hash`
* `plugins/common_json.c` 619–711 `srpjson_get_path`, `srpjson_get_oper_path`, `srpjson_get_perm_path`
* `plugins/common_json.c` 766–805 `srpjson_dir_oper_file_iter`
* `plugins/ds_json.c` 74, 486: the name of the backup
* `shm_sub.c` 100–137, 180–237, 275–299: creating and unlinking the two segments of a subscription

Simplifications:
* only the name inside a directory; the directories are the default ones (SHM path, repository path + `/data`);
* names of modules, prefixes and paths are lists of characters, paths for the hash lists of bytes;
* `char` is signed, as on x86; `uint32_t` is little endian.

### NetconfErr

Model of NETCONF errors set by callbacks and read by clients: `/repo/src/utils/error_format.c` 40-92
(`_sr_session_set_netconf_error`), 94-170 (`sr_session_set_netconf_error`, `sr_session_set_netconf_error2`), 304-409
(`sr_err_get_netconf_error`). The errors are those of `Verif/ErrInfo.lean`, as is their way from a callback to
the client.

Simplifications: memory allocation succeeds; the two setting functions differ only in how the error info is passed; all
the arguments are there.

### NextMod

Model of `sr_modinfo_next_mod`, modinfo.c 530-586, and of the loops that call it
(modinfo.c 615, shm_sub.c 1303, 1467, 1574, 1774, 1957).

Top-level nodes of the data are given by their module, a module by a number; an opaque node of an unknown module has a number that
is not among the modules.

### NotifBuf

Model of buffering of notifications of a session: senders put notifications into a list, a thread of the session
stores them for replay (src/replay.c:80-296, src/sysrepo.c:641-735, 805-827).

The mutex of the buffer is explicit, everything done while holding it is one step. Memory allocation does not fail.

### NotifEv

Delivery of notifications: the event of a module in its subscription SHM, the senders and the listening subscription
structures.

Models of `/repo/src/shm_sub.c` 301-430 (`sr_shmsub_recover`, `sr_shmsub_notify_new_wrlock`), 460-634
(`_sr_shmsub_notify_wait_wr` for notifications), 2981-3131 (`sr_shmsub_notif_notify`), 3183-3242
(`sr_shmsub_listen_write_event`), 4626-4775 (`sr_shmsub_notif_listen_process_module_events`), of `/repo/src/subscr.c`
528-612 (`sr_subscr_notif_sub_del`), 1225-1290 (`sr_notif_sub_del`), 1779-1817 (`sr_notif_find_subscriber`), of
`/repo/src/shm_ext.c` `sr_shmext_notif_sub_suspended`, and of `/repo/src/sysrepo.c` 5326-5357
(`_sr_subscription_suspend_change`), 7097-7221 (`_sr_notif_subscribe`), 7385-7403 (`sr_notif_send_tree`).

Simplifications: one module; one subscription structure per connection, both are called a listener here; the entries of a
subscription in the ext SHM and in its structure are added and removed under the same locks, so there is one table with
both flags; request IDs do not wrap; the monotonic clock advances between two operations; a listener processes
an event without an error, and a notification filtered out or denied by NACM counts as processed. The NOTIF SUB lock is
held by senders until they return, so subscriptions are added, removed, suspended and resumed (in the ext SHM) only without
any sender.

### NotifMod

Model of `sr_notif_sub_modify_xpath` (sysrepo.c 7466-7533) and `sr_notif_sub_modify_stop_time` (sysrepo.c 7535-7599), with subscribing
(`_sr_notif_subscribe`, sysrepo.c 7096-7220, `sr_subscr_notif_sub_add`, subscr.c 432-530) and the XPath filter of the listener
(`sr_shmsub_notif_listen_process_module_events`, shm_sub.c 4625-4760).

Simplifications: an XPath is a number, `V` tells which are accepted (`sr_subscr_notif_xpath_check`) and `sel` which notifications they
select; the calls and the listener exclude each other (SUBS lock), so each is one step; suspending is C124, NACM C43, ending at the stop
time C111; replay and the delivery of notifications to the listener are C37 and C120; memory allocation succeeds.

### NtfJson

Model of the notification plugin that keeps notifications in files (src/plugins/ntf_json.c).

A file is `<module>.notif.<lo>-<hi>` in the notification directory; `lo` and `hi` are the seconds of the earliest
and the latest notification in it. A record is a time stamp, a length and the notification in JSON
(src/plugins/ntf_json.c:50-79); here it is the time stamp, the length and an identity of the content. Writing and
reading of the bytes of a record is in `Verif.Writev`, system calls on the directory do not fail here.

### NtfRec

Bytes of a notification file (src/plugins/ntf_json.c:41-166). A record is a `struct timespec` (two 64-bit numbers), a
32-bit length and the notification printed in JSON. A read at the end of the file returns fewer bytes and is still a
success (src/plugins/common_json.c, `srpjson_read`); the rest of the buffer keeps its previous content: zeros for the
time stamp (`memset`), indeterminate values otherwise.

### OperAsk

A process reading operational data asks all the subscribers for an XPath
(`sr_shmsub_oper_get_notify`), every one with an event of its own, and waits for
the answers.  The subscriptions of a module in a subscription context are
processed by one call (`sr_shmsub_oper_get_listen_process_module_events`).

Data are lists of numbers, merging is appending.  Simplified: all the subscribers asked are of
one subscription context, and the parsing and printing of data and the
opening of the shared memory succeed.

### OperData

Model of how the push data of all the sessions are put together: `sr_module_oper_data_load`, modinfo.c 1272-1392, and
`sr_modinfo_get_oper_data`, modinfo.c 1394-1430.

A data tree is a map from the paths of node instances to values; a path is the list of the steps from the root, so the
nodes inside of a subtree are those whose path extends the path of its root. Simplifications: nodes without keys (keyless
lists, duplicate leaf-lists), node metadata and the order of siblings are not modelled. Whether a connection is alive does
not change during one load.

### OperFilter

Model of `sr_xpath_next_identifier`, `sr_xpath_next_qname` (common.c 4755-4828), `sr_xpath_text_atom_add` (4936-4975),
`sr_xpath_text_atoms_expr` (4980-5193), `sr_xpath_get_text_atoms` (5196-5247), `sr_xpath_oper_data_text_atom_pred_match` (modinfo.c
867-920), `sr_xpath_oper_data_text_atoms_required` (922-988), `sr_xpath_oper_data_required` (990-1065), `sr_xpath_oper_data_get`
(1067-1158) and the loop over the providers in `sr_module_oper_data_update` (1443-1588).

A C string is the list of its characters; a pointer into it is the rest of the string. Reading behind the end of a string is the result
`none`. Memory allocation does not fail. XPaths are ASCII.

### OperPoll

Model of operational poll subscriptions: shm_sub.c 3840-3890 (`sr_shmsub_oper_poll_listen_find_get_sub`), 3899-3924
(`sr_shmsub_oper_poll_listen_is_cache_valid`), 3926-4114 (`sr_shmsub_oper_poll_listen_process_module_events`), 4887-4960
(`sr_shmsub_listen_thread`); subscr.c 307-382 (`sr_subscr_oper_poll_sub_add`); common.c 2947-2993 (`sr_conn_oper_cache_add`),
2995- (`sr_conn_oper_cache_del`), 3265-3306 (`sr_conn_oper_cache_flush`); modinfo.c 1161-1230
(`sr_module_oper_data_update_cached`); sysrepo.c 5098-5208 (`sr_subscription_process_events`, its poll subscriptions), 7724-7850
(`sr_oper_poll_subscribe`).

One connection with one subscription structure. Data are lists of leaf instances with values, the empty list is the pointer
`NULL`. What comes from outside during one visit of a subscription (`Env`) is arbitrary: whether the data have a provider, what
it answers, whether callbacks fail, what the clock shows. Locks (C01-C06), the merge of the data into the rest of the
operational data and "update" callbacks that change the data are not modelled. Subscription IDs do not wrap around.

### OperPush

Order of operational push data entries of a module.

Models `/repo/src/shm_ext.c` lines 2865-3119 (`sr_shmext_oper_push_update_get_idx`,
`sr_shmext_oper_push_update`, `sr_shmext_oper_push_get`, `sr_shmext_oper_push_del`) and the entry type of
`/repo/src/shm_types.h` lines 78-86.

Simplifications: the shared array is a `List` (that `sr_shmrealloc_add`/`_del` insert and erase one element
of the shared array is proved in `ExtShm`); module and EXT locks are not part of this model except for the
explicit result `extLockLeaked` of the error path that skips the unlock.

### OperSess

Changes of the operational datastore made by one session (push operational data).

Models of `/repo/src/sysrepo.c` the operational parts of lines 3451-3511 (`sr_set_item_str`), 3513-3617
(`sr_delete_item`), 3625-3676 (`sr_discard_items`), 3718-3831 (`sr_edit_batch`), 4155-4241
(`sr_apply_oper_changes`), 4243-4308 (`sr_apply_changes`), 4343-4394 (`sr_discard_changes_xpath`), 4615-4676
(`_sr_discard_oper_changes`), 4683-4748 (`sr_get_oper_changes`), of `/repo/src/modinfo.c` 149-192
(`sr_modinfo_collect_edit`), 322-373 (`sr_modinfo_collect_oper_sess`), 641-684 (`sr_modinfo_oper_ds_diff`), 3838-3923
(`sr_modinfo_data_store`), and of `/repo/src/edit_diff.c` 2411-2562 (`sr_oper_edit_mod_apply_data`), 2566-2655
(`sr_oper_edit_mod_apply`), 3233-3390 (`sr_edit_add`).

Simplifications: a data tree is a top-level node (a container, a list instance or a leaf: its schema node and the
instance) with leaves, deeper trees have longer leaf names; values and names are numbers; origins are left out; a
discard-items node refers to one module. Top-level nodes of a module are neighbours, a new one is put after the
others of its module, as `lyd_insert_sibling` does; the order of modules and of nodes of a module is otherwise not
that of the schema. Other sessions, their order, and what subscribers are told are the subjects of `OperPush`,
`OperData` and `ChangeNotify`; here a subscriber can only refuse the changes.

### OperTrim

Reading only the configuration or only the state of operational data.

Models of `/repo/src/sysrepo.c` 2938-3008 (`sr_oper_data_trim_r`, `sr_oper_data_trim`) with its use in `sr_get_data` (3167-3174), and
of the loop of `sr_get_items` (2887-2903).

Simplifications: the data are those found by the XPath (C52, C66), no result is inside of another one (`sr_xpath_set_filter_subtrees`,
C52); not loading data that are not needed with these options (modinfo.c) is not modelled; default flags of emptied containers
(`sr_lyd_free_tree_safe`) are not modelled.

### Pipeline

Model of applying changes: `sr_apply_changes` (sysrepo.c 4245-4309), `sr_apply_oper_changes` (4152-4243), `sr_changes_notify_store`
(3970-4131), `_sr_replace_config` (4401-4446), `sr_copy_config` (4509-4612), the discarding of changes (4311-4390) and the functions of
modinfo.c they call.

The content of one module in one datastore is a value of an arbitrary type `D` (it includes the default flags). A diff is the pair of the
contents it leads from and to; it is empty when they are equal. What libyang, the access control, the subscribers, the datastore plugins
and the lock timeouts do is arbitrary and given by an `Env`. One call is modelled at a time: the locks it holds keep the other sessions
out (`RWLock`, `DsLock`).

### Plugind

`sysrepo-plugind` sorts its plugins by the configured order, initializes them
and cleans them up when it ends.

Names are lists of characters.  Simplified: an array is a list; loading of the
plugins and the connection succeed.

### RWLock

The process-shared read-write lock of sysrepo.

Models `/repo/src/common.c` lines 2179-2864: `sr_rwlock_init`, `sr_rwlock_reader_add`, `sr_rwlock_reader_del_`,
`sr_rwlock_reader_del`, `sr_rwlock_recover`, `sr_sub_rwlock`, `sr_rwlock`, `sr_rwlock_mutex_lock`, `sr_rwrelock`,
`sr_rwunlock`.

Granularity: a labelled transition is one section executed with `rwlock->mutex` held (or one unprotected read).
A thread that holds the WRITE lock keeps the mutex between transitions, exactly as the code does.
A process crash is a transition of its own between sections; crashes inside of a mutex-protected section are not
modelled. A failing `assert` is `abort()`, that is a crash of the process (ghost flag `asserted`).
`pthread_mutex_clocklock` time-outs return an error without any change (lock, upgrade) and are not transitions;
for the read-unlock such a time-out would need a thread holding the mutex for a long time, which only a WRITE
holder does, and C01 shows there is no other reader then.
Threads of all processes are numbered by list position; a thread belongs to a connection (CID, non-zero).

### Replay

Model of sending notifications of one module, of subscribing to them with replay and of delivering
them to the subscription.

Code modelled (/repo/src):
* `sysrepo.c` 7285–7415 `sr_notif_send_tree` — lock, timestamp, publish, unlock, store
* `shm_sub.c` 2982–3131 `sr_shmsub_notif_notify` — publishing
* `shm_sub.c` 342–433 `sr_shmsub_notify_new_wrlock` — waiting for a free event, discarding the old one
* `shm_sub.c` 3184–3243 `sr_shmsub_listen_write_event` (event NOTIF)
* `sysrepo.c` 7097–7221 `_sr_notif_subscribe`
* `sysrepo.c` 5167–5196 notification part of `sr_subscription_process_events`
* `shm_sub.c` 4626–4775 `sr_shmsub_notif_listen_process_module_events`
* `shm_sub.c` 4815–4860 `sr_shmsub_notif_listen_module_stop_time`
* `shm_sub.c` 4862–4885 `sr_shmsub_notif_listen_module_replay`
* `replay.c` 298–386 `sr_replay_notify`
* `subscr.c` 528–606 `sr_subscr_notif_sub_del` (subtracting from an event)

Simplifications:
* one subscription is followed (the only one of its subscription context), all other subscriptions
  of the module are only counted;
* the stored notifications are a list and one replay reads all of it at one moment (files and their
  reading are in `NtfJson`);
* the request ID does not wrap at 2^32;
* the XPath filter is one predicate, the same for replayed and live notifications;
* timestamps are numbers, 0 is "not set";
* a sender may at any moment fail to store (crash, error).

### ReplaySupp

Changing the replay support of modules.

Models of `/repo/src/sysrepo.c` 2121-2203 (`sr_set_module_replay_support`, `sr_get_module_replay_support`), of
`/repo/src/lyd_mods.c` 1433-1556 (`sr_lydmods_update_replay_support_module`, `sr_lydmods_change_chng_replay_support`), of
`/repo/src/shm_mod.c` 224-226 (reading it when the module SHM is created), 1662-1682 (`sr_shmmod_update_replay_support`), of
`/repo/src/context_change.c` 548-596 (`sr_lycc_set_replay_support`) and of `/repo/src/replay.c` 148-155 (notifications are stored
only of modules with replay support).

Simplifications: calls are serialized by the lock of the internal module data (`sr_lycc_lock` with `lydmods_lock`), a process may
crash at any time.

### Rotation

Model of the rotation of notification files (src/executables/srpd_rotation.c): which files of the notification directory
are moved to the archive. Strings are lists of characters without the terminating zero.

### Rpc

Model of publishing an RPC event to the subscribers by priority, returning the reply and publishing the
abort event after a failure, together with what the subscribers do with these events.

Code modelled (/repo/src):
* `shm_sub.c` 2560–2600 `sr_shmsub_rpc_notify_has_subscription`
* `shm_sub.c` 2616–2691 `sr_shmsub_rpc_notify_next_subscription`
* `shm_sub.c` 2693–2849 `sr_shmsub_rpc_notify`
* `shm_sub.c` 2851–2979 `sr_shmsub_rpc_notify_abort`
* `shm_sub.c` 460–634 `_sr_shmsub_notify_wait_wr` (its outcomes)
* `shm_sub.c` 4294–4326, 4344–4390, 4392–4590: which events a subscriber processes and what it remembers
* `sysrepo.c` 6755–6850 `_sr_rpc_send_tree`, 6862–6958: notify, then abort after a failed callback

Simplifications:
* the table of subscriptions does not change during the call (the RPC SUB READ lock is held), but
  connections may die and subscriptions be suspended or resumed at any time: every scan of the table has
  its own `view`;
* two subscriptions of the RPC with one priority do not exist (`SubTables.rpc_unique`), so an event has one
  recipient; the number of them is still computed as in the code;
* callbacks are not shelved; allocation, printing, mapping and event pipes do not fail;
* a subscriber that finishes after the timeout generates its abort itself (`relock`); in the trace it is
  put at the end of the step.

### RunCache

Models the cache a connection opened with `SR_CONN_CACHE_RUNNING` keeps of the running datastore:
`sr_conn_run_cache_update`, `sr_conn_run_cache_update_mod`, `sr_conn_run_cache_flush`
(src/common.c 3069-3263), its use by `sr_modinfo_data_load` (src/modinfo.c 2948-3029), the store of
changed data (`sr_modinfo_data_store`, src/modinfo.c 3837-3890), the removal of modules the user may
not read (`sr_modinfo_perm_check`, src/modinfo.c 487-527) and the evaluation of the filter
(`sr_modinfo_get_filter`, src/modinfo.c 3377-3459, called by `sr_get_data`, src/sysrepo.c 3116-3255).

Any number of connections, each used by any number of threads; every thread runs reads and writes of
running data, one after another, and is interrupted by the others wherever it does not hold the lock.

Simplifications: a module is a number, its data a list of numbers (its top-level subtrees), the data
of several modules one list of owned values, in which the order between modules has no meaning.  A
write changes one module and loads any number of others.  Module locks are reduced to their effect:
an operation holds its modules read-locked from its beginning to its end, a write of a module needs
that no other operation has it.  `READ UPGR` is a `READ` here, which only allows more interleavings.
Locks do not time out and memory does not run out.  The lock of the cache is taken as correct
(RWLock, C01).

### SnDispatch

The thread that reads the notifications of all the subscriptions of an application and calls its callback:
`srsn_dispatch_add` (utils/sn_common.c 1711-1780), `srsn_read_dispatch_thread` (1626-1709), `srsn_dispatch_count` (1782-1803),
and the wait for it in `srsn_sub_free` (806-844), with which `srsn_terminate` ends.

The dispatch lock is held for all of `srsn_dispatch_add` and for a round of the thread, so these exclude each other. Sending,
terminating and creating subscriptions go on meanwhile.

The kernel: file descriptors are numbers, each may be open for the read end of one pipe. A closed number is used again
later. A pipe is a queue of notifications (their bytes are the model `SnPipe`); `POLLIN` is reported when it is not empty,
`POLLHUP` when its write end is closed, `POLLNVAL` when the number is not open.

Simplified: out of memory, failing `poll` and `srsn_dispatch_destroy` are left out; `srsn_dispatch_init` was called; reading
with the context lock held is one step per notification; timestamps are a part of notifications.

### SnPipe

The pipe of a notification subscription: `srsn_ntf_send` (utils/sn_common.c 1133-1170) writes a notification with one
`writev`, `srsn_read_notif` (utils/subscribed_notifications.c 830-880) reads it with three `read`s.

Any number of threads write (callbacks of the sysrepo subscriptions, timers, calls of the API), one thread reads.

The kernel: a pipe holds at most `cap` bytes. A write of at most `PIPE_BUF` bytes is atomic, it waits until all of it fits
(pipe(7)). A larger one is written in pieces, as room appears, and pieces of other writes may come between them. A read
returns as many bytes as there are, up to the size asked for. Reading does not block; with a blocking descriptor there are
no results `again` and the other results are the same.

Simplified: a notification is the bytes of its LYB form, parsing them back is libyang's; out of memory is left out.

### SnStream

Subscriptions to notification streams: which modules are subscribed to, what an XPath filter lets through and in what order
replayed and new notifications are sent.

Code modelled (/repo/src/utils): `srsn_stream_collect_mods` (subscribed_notifications.c 98-159), `srsn_sn_sr_subscribe`
(sn_common.c 1523-1599), `srsn_modify_xpath` (sn_common.c 1339-1373), `srsn_sn_rpc_subscribe_cb` (sn_common.c 1438-1521) with
`srsn_ntf_add_dup` (1412-1433).

Simplified: modules and names are numbers; filters are built of tests of a notification of a module (with or without a
value in it), `not`, `and`, `or` and `true()`; the callbacks of one subscription are called one after another, as all its sysrepo
subscriptions share one handler; errors of sending and NACM are left out.

### SnTimer

Timers of subscriptions: the stop time, periodic updates and dampening.

Code modelled (/repo/src/utils/sn_common.c): `srsn_timer_thread` (1175-1228), `srsn_create_timer` (1230-1252),
`srsn_update_timer` (1254-1302).

One thread at a time creates, updates and cancels a timer. A condition variable forgets a signal nobody waits for; waking up
spuriously is left out. Waiting with a time limit may end because of the limit while another thread has the lock; then the result
is still the timeout. What is done with the lock held and without waiting is one step.

Simplified: the callback keeps the lock, as that of periodic updates does (the callback of the stop time gives it up and frees the
timer); times are numbers.

### Startup

Model of connecting: the lock that serialises it, the creation and initialisation of the shared memory by the first connection, failures, disconnecting and
crashes of processes at any moment.

Code modelled (/repo/src):
* `shm_main.c` 107–176 `sr_shmmain_createlock_open`, `sr_shmmain_createlock`, `sr_shmmain_createunlock`
* `shm_main.c` 451–545 `sr_shmmain_open`
* `sysrepo.c` 71–145 `sr_conn_new` (the lock file), 152–192 `sr_conn_free` (closing it), 194–356 `sr_connect`, 391–398 of `sr_disconnect`
* `shm_mod.c` 45–110 `sr_shmmod_open` (module SHM zeroed if the main SHM was created), 776 `sr_shmmod_store_modules`

The lock of connecting is a mutex of the process and then a POSIX record lock of the process on a file that every connection has open: closing any
descriptor of the file releases the lock of the process.

Simplifications:
* a thread has at most one connection, all threads of all processes run interleaved, every line of the list of places below is one step;
* the main SHM and the extended SHM are created and removed together and are one file here; the module SHM is never removed, only zeroed and stored;
* reading the internal module data, storing the modules and initialising the datastores (sysrepo.c 248–322) is one step that succeeds or fails;
* the other file contents, the identifiers of connections (see `ConnAlive`) and the context are left out.

### StopTime

Model of stop times of notification subscriptions: shm_sub.c 4777-4810 (`sr_shmsub_notif_listen_module_get_stop_time_in`),
4812-4860 (`sr_shmsub_notif_listen_module_stop_time`); subscr.c 529-612 (`sr_subscr_notif_sub_del`), 1225-1290
(`sr_notif_sub_del`), 1747-1776 (`sr_subscr_notif_del_stop_time`); sysrepo.c 5170-5198 (the notification subscriptions in
`sr_subscription_process_events`). The wait of the listening thread is `waitFor` of `Verif.OperPoll`.

A pointer to an element of the array of modules is its generation and index; the generation changes when the array is
reallocated or freed, access with an old one is `uaf`. While a subscription is removed, the READ lock of the structure is released
and the WRITE lock taken; what other threads do in between is the function `itf`. The clock is read twice for a module, before its
stop times are checked and before the next one is looked for (`clk`). Failed locks and replay (C42) are not modelled.

### SubCtx

Component: one subscription structure used by several threads.

Models subscribing (subscr.c 29-700), sr_unsubscribe_sub, sr_session_unsubscribe and sr_unsubscribe
(sysrepo.c 785-803, 5408-5425, 5514-5590) with the removal functions (subscr.c 122-175, 959-1760), and
sr_subscription_process_events (sysrepo.c 5098-5208) with the stop time of notifications
(shm_sub.c 4815-4860), as steps of any number of threads under the SUBS lock.

Simplified: the SUBS lock is exclusive as proved in RWLock; a removal that cannot get a lock ends with an
error without the READ lock that is taken only to be released again (subscr.c 996-1011); subscription IDs
do not wrap; the lock of the subscriptions in shared memory is only a further reason for a time-out; which
subscription has an event, and in which order callbacks are called, is left open (it is in Listener);
adding a subscription is one step because the WRITE lock is held all the time.

### SubFilter

Model of how a subtree filter becomes an XPath filter, `srsn_filter_subtree2xpath` (utils/subscribed_notifications.c 38-60):
utils/sn_common.c 61-103 (`srsn_is_strws`, `srsn_filter_xpath_add_filter`), 155-183 (`srsn_filter_xpath_buf_add_top_content`),
194-274 (`srsn_filter_xpath_print_node_module`), 332-384 (`srsn_filter_xpath_buf_append_content`), 398-420
(`srsn_filter_xpath_buf_append_node`), 436-499 (`srsn_filter_xpath_buf_add_r`), 511-527 (`srsn_filter_xpath_create_top`),
529-579 (`srsn_filter_create_subtree`), 581-648 (`srsn_filter_filter2xpath`).

Simplified: allocations succeed; filters have no attributes (metadata of a filter node are further predicates, attributes of opaque
nodes are refused); values of opaque nodes have prefixes of identities already replaced by module names (283-318). Buffers have the
size the code asks for; a write behind the end is a distinct outcome.

The XPath is text. Its meaning is defined by a tokenizer, a parser of the part of XPath that occurs (paths with predicates that
compare a child, the text of the node or a string with a string, joined by `or`, and unions of paths) and an evaluation: a name without
a module is in the module of the context node, as in libyang's JSON XPath. Anything else is no XPath.

### SubTables

Model of adding and removing change, operational (get and poll), RPC/action and notification
subscriptions, and of removing subscriptions of dead connections.

Code modelled (/repo/src):
* `shm_ext.c` 515–616, 688–756 change subscriptions
* `shm_ext.c` 800–1052 operational get subscriptions
* `shm_ext.c` 1097–1238 operational poll subscriptions
* `shm_ext.c` 1280–1436 notification subscriptions
* `shm_ext.c` 1473–1700 RPC/action subscriptions
* `sysrepo.c` 5863–5936, 6492–6566, 7159–7215, 7660–7700: the callers; a later failure removes the
  added subscription again

Simplifications:
* an array in ext SHM is a list (`ExtShm` models the memory: adding at an index and deleting with the
  order kept);
* every operation runs with the locks held, so it is one step;
* a sub SHM segment either exists or not; unlinking one does not fail; hash collisions of their names
  are not considered;
* event pipe numbers, suspending and the subscription type of operational subscriptions are left out;
* the 32-bit counter of subscription IDs and the priorities of operational subscriptions do not wrap.

### Suspend

Suspending and resuming subscriptions.

Models of `/repo/src/sysrepo.c` 5220-5271 (`sr_subscription_get_suspended`), 5281-5405 (`_sr_subscription_suspend_change`,
`sr_subscription_suspend`, `sr_subscription_resume`), of `/repo/src/shm_ext.c` 2513-2580
(`sr_shmext_change_sub_suspended`), 2582-2658 (`sr_shmext_oper_get_sub_suspended`), 2660-2866 (the same of operational
poll, notification and RPC subscriptions), and of `/repo/src/utils/subscribed_notifications.c` 498-644 (`srsn_suspend`,
`srsn_resume`) and `/repo/src/utils/sn_yang_push.c` 117-152, 777-801 (`srsn_yp_schedule_periodic_update`,
`srsn_yp_periodic_modify`).

Simplifications: calls are atomic (the subscription lock of the table is held while a flag is changed); the tables do not change
otherwise, how subscriptions are added and removed is modelled in `SubTables.lean`.

### Time

Model of the time arithmetic: common.c 1365-1386 (`sr_time_ts_add`), 1387-1405 (`sr_time_cmp`), 1407-1429 (`sr_time_sub`),
1431-1441 (`sr_time_sub_ms`); of the anchor time of periodic YANG push subscriptions, utils/sn_yang_push.c 117-155
(`srsn_yp_schedule_periodic_update`), and of their dampening, 203-238.

`time_t` and `long` have 64 bits, `int` 32. Signed overflow, undefined in C, is `none`.

### UserOrd

Model of user-ordered (leaf-)lists: edit_diff.c 98-180 (`sr_edit_op`, the insert attributes), 433-446
(`sr_edit_find_previous_instance`), 720-765 (`sr_edit_userord_is_moved`), 776-815 (`sr_edit_find_userord_predicate`),
900-935 (`sr_edit_find` of a list instance), 1003-1085 (`sr_edit_insert`), 1602-1660 (`sr_edit_apply_move`), 1711-1735,
1822-1850, 1886-1900 (replace, create, merge of an instance), 2215-2238 (children of a replaced parent).

The state is the list of the instances of one user-ordered list in their order, identified by a number (keys or value).
libyang keeps the instances of one list next to each other, so other siblings are left out. Lists without keys, whose
anchors are positions, are left out.

### ValUtil

`sr_dup_val()`, `sr_dup_values()`, `sr_val_set_str_data()`, `sr_equal_val()`, `sr_print_val_mem()`,
`sr_val_to_str()` and `sr_val_to_buff()` (src/utils/values.c).

Modelled: strings with the size of their memory, so that writing behind it is an outcome; `NULL`;
the union with the data, which is read as a pointer whatever was stored there before; the growing
buffer printed to.

Simplified: memory never runs out. Integers in the union are the bytes stored, as a number, and
comparing a member of the union compares its low bytes (a little-endian machine). Doubles are finite
(see `Verif.Values`). That copies use memory of their own is by construction.

### Values

`sr_get_item()` returns a leaf as an `sr_val_t` made by `sr_val_ly2sr` (src/common.c 3949-4128);
`sr_set_item()`, `sr_rpc_send()` and `sr_notif_send()` turn an `sr_val_t` into text with
`sr_val_sr2ly_str` (4130-4207) and have libyang parse the text.

Modelled: the conversion of every type of a leaf in both directions; `strtod` and `sprintf("%.*f")`
on doubles, exactly; the buffer of 22 bytes the callers provide (src/sysrepo.c 3428, 6597, 7247); the
lookup of the number of fraction digits in leafrefs and unions.

Simplified: strings are lists of characters. A double is the integer number of units of 2^-1074 it
is made of: every finite double is such a number, NaN, the infinities and the sign of zero are left
out. `strtod` of the canonical text of a decimal64 is taken as the double nearest to the number the
text denotes. libyang's parsing of types with strings inside (string, binary, bits, enumeration,
identityref, instance-identifier) is a parameter. Anydata, lists and containers have no text to
convert and are left out.

### Writev

Models `srpjson_writev` (src/plugins/common_json.c:39-75), `srpjson_read`
(src/plugins/common_json.c:77-101) and `srpjson_cp_path`
(src/plugins/common_json.c:457-505).

The kernel is an adversary: it is the list (or function) of outcomes of the successive system
calls. A file is the list of the bytes in it. Not modelled: logging, the text of error messages,
opening and closing of the descriptors (done by the callers of the model).

### XPathTrim

Model of the functions that cut XPaths: `sr_get_trim_predicates` (common.c 3583-3632), `sr_xpath_trim_last_node`
(common.c 4650-4690) and `sr_xpath_len_no_predicates` (common.c 4717-4752).

A C string is the list of its characters. Memory allocation does not fail.

### XPathUtil

Model of the XPath iterator, utils/xpath.c 27-593.

The string is a buffer of characters that ends with a NUL; pointers into it are offsets. All calls work with the same string: the
argument `xpath` is its beginning or `NULL`. Reading or writing outside of the buffer, or using a `NULL` pointer, is
the outcome `oob`. Loops over the functions have a limit of steps; `hang` is running out of it.

### YpChange

Model of on-change YANG push subscriptions: utils/sn_yang_push.c 157-174 (`srsn_yp_ntf_change_send`), 179-191 (the dampening
timer callback), 193-238 (`srsn_yp_ntf_change_ready`), 240-300 (the operations), 302-340
(`srsn_yp_ntf_change_edit_clear_target`), 342-450 (`srsn_yp_ntf_change_edit_append`), 452-589 (`srsn_yp_on_change_cb`),
802-832 (`srsn_yp_on_change_modify`), and of the timer of a subscription, utils/sn_common.c 1170-1293
(`srsn_timer_thread`, `srsn_create_timer`, `srsn_update_timer`).

Simplified: times are whole milliseconds (their arithmetic is the subject of `Verif.Time`) and never overflow; allocations and
writes to the pipe succeed; numbers of patches and edits do not wrap. The callback and the timer callback hold the lock of the
timer, so each is one step. Removing nodes the user may not read from the value of an edit is not in this model. The path of a
node, `lyd_path()`, is the text of its steps; edits are compared by the node instead of by this text.

### Not modelled

libyang itself (parsing, validation, printing, XPath evaluation, tree storage), context changes and module installation beyond what is named above,
the plugins API loading of shared objects, the MongoDB and Redis plugins, sysrepocfg/sysrepoctl, the C++ test tools, logging and
memory allocation failures except where a component says so.

## Findings

Places where the code does not do what the property says. Each is a theorem with a concrete witness; the text is the comment of the theorem.

- `RWLockProps.failed_upgr_leaks`: The code does not have the full property: an upgradable request that hits the recursion limit (255 read locks of one connection) leaves the upgradable mark behind; after everything is released the lock is not free and nobody can get upgradable access any more.
- `RWLockProps.upgradable_not_unique`: The code does not have the property in general: thread 0 upgrades with urge while thread 1 urges a direct write lock; thread 1 times out, thread 2 gets the upgradable lock, thread 0 times out and marks itself upgradable again.
- `RWLockProps.urged_requests_block`: The same two requests also block each other: whatever wake-ups happen, neither proceeds before its time-out.
- `LockOrderProps.sr_lock_deadlocks`: **C06 is false in general (1).** Changing modules 1 and 5 (call 0), reading both (call 1) and locking module 5 with sr_lock (call 2): each call takes its locks in the common order and still they wait in a cycle. Call 0 has both locks READ_UPGR; the urgent WRITE request of call 2 for module 5 waits for it and stops call 1, which has READ of module 1, at module 5; call 0 then waits for call 1 to upgrade its lock of module 1.
- `LockOrderProps.sr_validate_deadlocks`: **C06 is false in general (2).** sr_validate of a change of module 5 locks module 5 and then, for its dependencies, module 1 (call 0); sr_apply_changes changing both modules has locked module 1 (call 1).
- `LockOrderProps.update_callback_deadlocks`: **C06 is false in general (3).** An update callback changes module 1 in a change of module 5 (call 0): the module is locked after module 5, while another change of both modules has locked module 1 and waits for module 5.
- `ExtShmProps.failed_growth_loses_memory`: **C08, negation.** When the segment cannot be enlarged (`ftruncate` or `mmap` fail), the hole taken for the array before the attribute was placed is lost: its bytes are neither owned nor recorded as free, for all the processes using the segment.
- `PipelineProps.half_stored`: The property is false: the second of two modules cannot be written, an error is returned and the first one stays changed.
- `PipelineProps.error_but_stored`: The property is false: everything was stored, sending the notification failed, an error is returned.
- `PipelineProps.update_change_lost`: The property is false: subscribers accept a change, success is returned, and nothing was stored. The validation after the update event undoes what the update subscriber changed, and the module loses its mark.
- `PipelineProps.refused_edit_reaches_update`: The property is false: changes already known to be refused are still announced to the update subscribers.
- `PipelineProps.update_bypasses_checks`: The property is false: what an update subscriber adds is neither checked for permissions nor by access control of the caller. Module 3 is changed although neither allows it.
- `PipelineProps.unseen_push_unchecked`: The property is false: operational data that change nothing visible (they are the same as data present otherwise) are stored without access control and permission checks.
- `PipelineProps.dependent_not_validated`: The validation of all the modules is not promised: module 2 depends on module 1, validation changes it (deletes nodes with a false `when`), module 3 depends on module 2 and is invalid afterwards. The call succeeds.
- `PipelineProps.stored_without_write_lock`: The property is false: module 2 depends on the changed module 1 and validation changes its data. It is written while others may read it: only an upgradable read lock is held.
- `PipelineProps.stored_read_locked`: The property is false: an update subscriber changes module 3, which was only locked for reading because module 1 refers to it. It is written with that lock.
- `PipelineProps.stored_but_pending`: A consequence worth knowing: the error after everything was stored (`error_but_stored`) keeps the changes pending, so they are applied again by the next call.
- `CandidateProps.commit_not_reset`: The property is false: the data of the candidate cannot be removed, which is only logged. The commit succeeds, running changes later, and the candidate still has the committed content.
- `CandidateProps.commit_not_equal`: The property is false: validation (which does not happen in the candidate) changes the committed data, the commit succeeds with another content than the candidate had.
- `CandidateProps.commit_reverts_other_change`: A commit is not atomic: between loading the candidate and locking running another session changes module 2, which is not modified in the candidate, and succeeds. The commit of a change of module 1 succeeds as well and sets module 2 back.
- `FactoryResetProps.dependents_wiped`: Every module that is in mod info after the reset of startup but was not asked for loses its content in running.
- `FactoryResetProps.unasked_module_deleted`: The property is false: module 7 refers to module 1. Resetting module 1 succeeds and deletes all data of module 7 from running, and its candidate, although its startup data stay.
- `FactoryResetProps.half_reset`: The property is false: running is refused by a subscriber, the call fails and startup stays reset.
- `SubTablesProps.inner_first`: C28 fails: the provider of `/m:list/a` is asked before the provider of the whole entry, whose predicate is counted into the length.
- `SubTablesProps.first_without_merge`: C28 fails: the first provider of the path did not allow merging, the second is accepted next to it.
- `SubTablesProps.failed_create_unserved`: C26 fails after a failure: the call whose sub SHM could not be created fails but its subscription stays, and the next subscriber, whose call succeeds, never gets the segment.
- `SubTablesProps.hangs`: After a provider's call failed on the second allocation, subscribing for another path never returns.
- `ReplayProps.stored_late_missed`: C42 is false without the conditions: a notification sent just before the subscription was made and stored only after its replay is never delivered.
- `ReplayProps.same_time_missed`: A notification sent within the same clock reading as the subscription is made is neither replayed nor delivered live.
- `ReplayProps.clock_back_twice`: When the real-time clock is set back, a notification is delivered twice.
- `ReplayProps.discarded_missed`: A published notification that was not processed in time is thrown away and never delivered.
- `ReplayProps.late_unsubscribe_loses`: Another subscription, made after the notification was published and removed again, makes this subscription miss the notification.
- `ReplayProps.pending_at_stop_lost`: A notification sent before the stop time and not processed by then is lost.
- `ReplayProps.delivered_after_stop`: A notification sent after the stop time can still be delivered.
- `ReplayProps.replay_ignores_access`: Access control is not asked for replayed notifications: a denied one is delivered.
- `NacmPathProps.name_prefix_matches`: A rule for `/m:user` applies to the node `/m:username`.
- `NacmGroupProps.wildcard_missed`: C44, finding: a rule list with the groups `#ops` and `*` does not apply to a user of the group `!x` although it has the wildcard.
- `NacmPathProps.quote_in_value_oob`: A key value with a single quote makes the function read behind the path of the node.
- `NacmPathProps.slash_in_value_matches`: A rule for `/m:l[k='a/b']` applies to the entry with the key `a[x]/b`.
- `NtfJsonProps.renamed_replayed_twice`: C37 does not hold in general: a file renamed because of a later notification, after the replay read it and before it looked for the next one, is replayed again.
- `NtfJsonProps.late_replayed_twice`: A notification of the window stored (late) while the replay reads its file makes the whole file be replayed again.
- `NtfJsonProps.renamed_before_open_fails`: A file renamed before the replay opens it makes the replay fail.
- `NtfJsonProps.clock_back_replay_wrong`: If the time goes back, a notification of the window may not be replayed and one out of it may be.
- `NtfJsonProps.epoch_start_skips`: A replay from within the first second after the epoch replays only the last file.
- `NtfJsonProps.same_second_fails`: C38 does not hold in general: two notifications of one second that do not fit into a file together.
- `NtfJsonProps.clock_back_overwrites`: If the time goes back, storing a notification can delete a file with other ones.
- `NtfJsonProps.earliest_not_min`: The reported time is not the earliest one if the time went back.
- `NtfJsonProps.access_set_never_returns`: C40 does not hold: if something is stored after the first second of the epoch and every change of permissions succeeds, it never returns and changes the same file over and over.
- `NtfRecProps.torn_record_loses_later`: C58 does not hold if writing of a notification was interrupted (by a crash or a full disk): a notification stored later into the file is not read back.
- `RotationProps.dotted_never_rotated`: C59 does not hold for modules with a dot in their name: their files are never moved.
- `NotifBufProps.late_lock_loses`: C41 does not hold: the thread ends with an error when the mutex happens to be locked by a sender any time after its limit, computed when it started; then all following notifications are accepted and lost, and stopping of the session reports success.
- `NotifBufProps.failed_write_loses_rest`: A notification that cannot be written makes all the later ones be lost, too.
- `UserOrdProps.stray_anchor_not_moved`: Finding: with an anchor attribute beside insert "first" (not allowed by RFC 7950, not checked), an instance right after that anchor is not moved.
- `EditMergeProps.set_then_delete_lost`: Finding: an item that is set and then deleted before applying keeps its old value.
- `EditMergeProps.create_twice_accepted`: Finding: two strict sets are accepted and applied, although one after another the second is refused.
- `EditMergeProps.delete_then_set_accepted`: Finding: a strict deletion of a missing item is accepted if the item is set afterwards.
- `EditMergeProps.refused_call_changes_value`: Finding: a refused call still changes the value in the edit: delete, set 6, set 7 (refused), apply gives 7.
- `TimeProps.add_goes_back`: Finding: with a duration near 2^32 ms the result is before the given time.
- `TimeProps.sub_ms_wraps`: Finding: a difference of 25 days is negative.
- `TimeProps.update_off_period`: Finding: a subscription made 2 s after the anchor with a period of 10 s gets its first update 4 s after it.
- `TimeProps.future_anchor_ignored`: Finding: an anchor time in the future is ignored, the first update comes 1 ms later.
- `TimeProps.sent_too_early`: Finding: a change is sent although 0.9 ms of the dampening period are left.
- `TimeProps.long_dampening_ignored`: Finding: a dampening period of 25 days has no effect.
- `GetDataProps.one_level_too_deep`: Finding: the documentation says that depth 1 returns no descendants, but the children are returned.
- `GetDataProps.selected_node_missing`: Finding: with a depth limit a selected node may be missing in the result: `/a | /a/b/c` with depth 1.
- `NextModProps.behind_unknown_skipped`: Finding: the modules behind a node of an unknown module are not processed.
- `XPathTrimProps.bracket_in_value`: Finding: a bracket in a value.
- `XPathTrimProps.nested_predicate`: Finding: a predicate in a predicate.
- `XPathTrimProps.predicate_counted`: Finding: the names and operators in predicates are counted, so the length of a parent may be greater than of its child.
- `XPathUtilProps.passed_again`: Finding: if the string is passed again without being recovered, a character of it is lost.
- `XPathUtilProps.key_search_hangs`: Finding: the search for a key in a list instance given by its position never ends.
- `XPathUtilProps.node_rel_wrong_node`: Finding: `sr_xpath_node_rel` returns the last node instead of `NULL` if there is no node of the name.
- `XPathUtilProps.node_name_top_level`: Finding: `sr_xpath_node_name` reads in front of an empty string, and does not find the name of a top-level node.
- `WritevProps.interrupted_lost`: C35, finding: an interruption before anything was written is not survived: with assertions the process is killed, without them memory behind the array is modified, success is returned and nothing was stored.
- `WritevProps.short_first_vector_lost`: C35, finding: so is a write of less than the first vector.
- `WritevProps.truncated_read_succeeds`: Finding: a truncated record is read with success although requested bytes are missing.
- `JsonStoreProps.crash_in_backup_loses_data`: C33, finding: a crash right after the backup file was created makes the next load return an empty file; both the old and the new content are lost. This happens for every content.
- `JsonStoreProps.failed_print_corrupts`: C34, finding: when writing fails (a full disk) after some bytes, the backup is removed and the file is left with a mixture of both contents.
- `JsonStoreProps.failed_trunc_corrupts`: C34, finding: also when truncating fails.
- `JsonStoreProps.failed_copy_and_unlink`: C34, finding: when neither the copy nor the removal of the backup works, the next load restores a part of the old content.
- `RpcProps.greatest_priority_nobody_called`: A subscription with the greatest priority: nobody is called and the caller gets success.
- `ChangeNotifyProps.greatest_priority_nobody_called`: C21 fails when a subscription has the priority 4294967295 (shm_sub.c 1599, 1792): no subscriber of the module is called.
- `RpcProps.suspended_not_aborted`: A subscription suspended after its callback succeeded is not aborted although a later one fails.
- `ChangeNotifyProps.suspended_not_aborted`: … nor of its refusal by another subscriber.
- `RpcProps.bad_output_not_aborted`: Output that cannot be parsed: the caller gets an error and nobody is aborted.
- `RpcProps.lost_not_aborted`: The answer does not come while the sub SHM is being read: the caller gets an error and those called before are not aborted.
- `RpcProps.internal_failure_keeps_lock`: The internal factory-reset subscription fails after another one was called: that one is not aborted and the lock of the sub SHM is never released.
- `ChangeNotifyProps.store_error_neither`: C22 fails when the data cannot be stored after all the subscribers accepted (sysrepo.c 4105-4112): no subscriber gets done or abort.
- `ChangeNotifyProps.suspended_neither`: C22 fails when a subscription is suspended after it accepted the change: it learns neither of its storing.
- `ListenerProps.batch_never_aborted`: A subscription in a batch accepts the change, another one of the same listener is just being called, one of another listener refuses: the number of subscribers left is that of all of them, so that `subscriber_count - err_subscriber_count` (shm_sub.c 2058) is 0 and no abort event is published; the listener has told only the second one to abort.
- `ListenerProps.aborted_twice_and_never`: Subscription 0 accepts, subscription 1 accepts and reports, subscription 2 refuses. One subscriber is to abort. Subscription 0 is told to abort by its listener, which is late to report, and once more by the event; that report ends the event and subscription 1 is never told to abort.
- `ListenerProps.wrong_aborted`: The listener tells to abort the last subscription it looked at, not the last one called: it gets an abort of a change it has never seen.
- `ListenerProps.late_filter_aborts_unseen`: A subscription whose XPath filter matches only the reversed change is called with the abort of a change it was never asked about.
- `ListenerProps.two_threads_call_twice`: If two threads process the events of one subscription, its callback can be called twice with the same event.
- `ListenerProps.suspended_keeps_waiting`: A subscription suspended after it was counted: the event stays pending and no listener has anything to do.
- `ChangeIterProps.dup_iter_dangling`: C65 is false: whenever a copied iterator has selected anything, using it after the callback reads freed memory.
- `EditAddProps.deletion_lost`: Finding: deleting a list instance and setting a leaf of it does not delete the instance; its other leaves stay. Both calls and applying succeed.
- `EditAddProps.deletion_creates`: Finding: after setting a leaf, deleting a leaf of a list instance that does not exist creates this instance.
- `EditAddProps.deletions_cancel`: Finding: deleting a leaf of a list instance and then the instance deletes neither if anything was set next to it before.
- `EditAddProps.missing_parent_accepted`: Finding: a non-recursive set in a missing list instance is accepted and applied if another leaf of the instance is set afterwards.
- `EditAddProps.deleted_then_set_fails`: Finding: deleting a leaf of a missing list instance and then setting it cannot be applied, although both calls are accepted and would succeed one after another.
- `EditAddProps.missing_deletion_fails`: Finding: a non-strict deletion in a missing list instance cannot be applied after a strict deletion next to it.
- `EditAddProps.refused_set_kept`: Finding: a strict set that is refused (because the leaf is set already) leaves its value in the collected edit.
- `EditAddProps.container_created_again`: Strictly creating an existing non-presence container is not refused.
- `OperFilterProps.predicate_provider_skipped`: Finding: the provider of a leaf is not asked if the leaf is only used in a predicate. A read of `/m:a/b[c='x']/d` then finds no instance with `c='x'`.
- `OperFilterProps.alternatives_skipped`: Finding: with alternatives in a predicate no instance is asked for, neither that with the first value nor that with the second.
- `OperFilterProps.restricted_node_skipped`: Finding: a path that ends with a predicate other than `name='value'` selects whole nodes, but the providers of nodes inside of them are not asked.
- `OperFilterProps.union_part_skipped`: Finding: if a part of a union other than the first cannot be parsed, only the parts before it count. `/m:a|//b` selects every `b`, but the provider of `/m:c/b` is not asked; for `//b|/m:a` it is.
- `OperFilterProps.key_letter_skipped`: Finding: the first letter of the names of keys is not compared. An instance of a list with keys `a` and `b` that is requested by both, or that has to be asked for, is taken for another one: `/m:l[a='1'][b='2']/x` does not ask for `x` in `/m:l[a='1'][b='2']`.
- `NamesProps.data_module_clash`: C67 is false: with the modules `x` and `data_x`, the segment with the events of changes of `data_x` is the segment with the data of the events of `x`, so only one of them can be subscribed.
- `NamesProps.prefixes_clash`: C67 is false for two instances: with the prefixes `sr` and `sr_test`, the running data of the module `test_m` of the first one are the running data of the module `m` of the second one; and with the prefixes `sr` and `srsub`, the events of the module `m` of the first one are the running data of the module `m` of the second one.
- `NamesProps.other_module_found`: C67 is false: the running data of a module called `m.operational` are found as operational data of the module `m`, so setting the permissions of operational data of `m` sets the permissions of the running data of the other module (ds_json.c 698–704).
- `NamesProps.paths_collide`: C67 is false: the RPCs `/ex:add-router-stats` and `/ex:test-switch-status-later` have the same segment. As long as the first one has a subscriber the second one cannot be subscribed; the subscription that failed stays registered (`SubTables.failed_create_unserved`), and when it is removed with its connection, the segment of the first one is removed.
- `ConnAliveProps.connecting_killed`: **C68**, where it fails: a connection whose `sr_connect` succeeded is in use and every other process takes it for dead from then on (they recover its locks and remove its subscriptions), because a thread of its own process listed the connections while it was being created.
- `ConnAliveProps.leftover_race`: **C68**, where it fails: the removal of the file of a dead connection races with a new connection of the same number, the comment in the code says the race is harmless.
- `ConnAliveProps.disconnect_fails`: `sr_disconnect` fails when another process checks the connection meanwhile (it has removed the lock file already), the connection is not freed, and trying again fails always. Only connections that were established are checked here.
- `ConnAliveProps.failed_connect_stays`: A call of `sr_connect` that fails after the connection was put in the list does not take it out: the connection, which nobody has, is found alive by every check until the process ends (its locks are never recovered).
- `StartupProps.never_recovers`: **C69**, where it fails. Once the process that created the main SHM crashed before the end of the initialisation, nothing the API offers repairs it: whatever connecting, disconnecting, failing and crashing follows, the memory stays uninitialised and no connection works with an initialised one.
- `StartupProps.first_crash`: **C69**, where it fails: after the crash the state is abandoned, and a later `sr_connect` succeeds with memory that was never initialised.
- `StartupProps.close_breaks_lock`: **C69**, where it fails: thread 0 of process 0 is creating a connection (and with it the shared memory); thread 1 of the same process, which was connected before that, or whose connecting failed, closes its connection: the lock is released, and process 1 creates a connection at the same time. Here thread 1 fails to make a connection structure.
- `StartupProps.disconnect_breaks_lock`: The same by an ordinary `sr_disconnect` of a working connection: while process 0 creates a second connection and disconnects the first one, process 1 creates a connection too.
- `StartupProps.failed_first_splits`: **C69**, where it fails: the failed first connection removes the shared memory only after it has unlocked. Two running processes work with different main SHM (their locks do not exclude each other), one of them was never initialised, and its module SHM is being zeroed by the other.
- `ModOpsProps.hole_disables_features`: Enabling feature 1 of a module whose feature 0 is enabled by installing the module again with "feature 1" succeeds, and the caller's context then has neither feature: the array of features given to libyang has an entry for feature 0, which is NULL and ends the array. The internal data and shared memory have both features, so other connections see another schema; and data under feature 0 are lost.
- `ModOpsProps.star_ignored`: Installing an installed module with all features ("*") succeeds and enables none.
- `ModOpsProps.install_race_loses_feature`: Connection 0 reads the modules for an installation, connection 1 enables feature 1 of module 2, then connection 0 goes on and installs module 1: the context of connection 0 does not have feature 1 of module 2, although it is enabled and nobody disabled it.
- `ModOpsProps.install_race_kills`: Connection 0 reads the modules for an installation, connection 1 removes module 2, then connection 0 goes on: the process of connection 0 dies on a NULL pointer, after it has stored the internal data.
- `ModOpsProps.install_crash_breaks_connecting`: A crash of an installation after the internal data were stored and before the YANG file was: after a restart nobody can connect.
- `ModOpsProps.failed_update_breaks_connecting`: An update whose new YANG file cannot be stored fails, but the new revision is in the internal data and in shared memory: nobody can connect any more, nor after a restart.
- `ModOpsProps.failed_remove_removes`: A removal that fails because a plugin could not uninstall the module: the module is gone from the internal data and shared memory all the same, and part of its data too.
- `ModOpsProps.content_id_stale_after_restart`: The content ID stored with the internal data by a removal is the one of the context before it: it is in use after a restart.
- `ModOpsProps.failed_store_changes_data`: An installation with initial data that cannot be stored for the new module fails, but initial data for an installed module are stored already and stay.
- `ModOpsProps.back_dependency_keeps_module`: An installation fails late and an installed module depends on the new one in the new context: the undo of the internal data fails, so the module stays in them and in shared memory, without its YANG file and plugins; nobody can connect any more.
- `ModOpsProps.feature_kills`: Enabling a feature with which the module needs one that is not implemented yet (a leafref, an augment or a must in another module): the process dies on a NULL pointer.
- `SubCtxProps.unsubscribe_left_behind`: The property fails when removals overlap: thread 1 finds subscription 2 and waits for the WRITE lock, meanwhile thread 2 removes subscription 1 of the same module and so moves subscription 2 to another index. Thread 1 finds something else in the remembered place, removes nothing and sr_unsubscribe_sub still returns success (subscr.c 980-987, 1642-1650). The subscription stays and its callback is called afterwards.
- `SubCtxProps.session_left_behind`: The property fails when a session subscribes while sr_session_unsubscribe is between two of its locks: the new subscription stays although the call returns success, and the session does not know it anymore, so sr_session_stop frees the session while a subscription still uses it (subscr.c 1445-1522).
- `SubCtxProps.released_by_removal`: The property fails when another removal overlaps: the handler remembers the module in the array (`notif_subs`), releases the lock to remove the first subscription, and the removal of the last one releases the array (shm_sub.c 4833-4852, subscr.c 590-600).
- `SubCtxProps.released_by_subscribe`: The property fails when a subscription to another module is created during the removal: the array is reallocated and the remembered module is in the old one (subscr.c 462-470, shm_sub.c 4833-4852).
- `ModShmProps.order_lost`: **C139 is false of the code: priorities are lost** by every call changing modules, of all modules, even if none of them is changed.
- `EnabledProps.order_lost`: Two subscriptions, the first selecting the second entry of a list ordered by the user and the second one selecting all its entries: the second entry is the first one in the operational datastore, although the running datastore has them in the order 1, 2, 3 and each selection is in the order of the document.
- `DepsProps.instance_dangling`: C81, not C81: instance-identifiers have no inverse dependency (lyd_mods.c 826 looks for target-module only), so deleting the node that an instance-identifier with require-instance of another module points to succeeds and leaves an invalid datastore.
- `DepsProps.when_dangling`: C81, not C81: when a change of module 1 makes a `when` of module 2 false, the validation deletes the node of module 2, but only modules depending on module 1 are validated (modinfo.c 3069-3078 follows inverse dependencies once), so a leafref of module 3 to the deleted node is left dangling.
- `DepsProps.second_module_dangling`: C81 and C82, not C81 and not C82: of a leafref path with nodes of two other modules (one of them in a predicate) only the first module is recorded (lyd_mods.c 599-614). Deleting the node in the second one leaves the leafref dangling, and a change of the leafref itself is judged without the data of the second module and refused.
- `DepsProps.default_rejected`: C82, not C82: the module that a default instance-identifier points to is loaded only if there is no instance-identifier of the same leaf in the data (shm_mod.c 1213-1250). If there is one and the validation adds the default to another list instance, valid changes are refused because the target of the default is not loaded.
- `DepsProps.validate_misses`: C83, not C83: sr_validate of running or startup with a module name applies the edit only up to the first node of a module that is not involved (sysrepo.c 3858-3884, modinfo.c 530-580). With an edit of modules 3 and then 1, in which module 1 would be invalid, sr_validate of module 1 succeeds although the changes cannot be applied.
- `DepsProps.candidate_module_rejected`: C83, not C83: sr_validate of candidate with a module name and no pending edit does not load the modules that the module refers to (modinfo.c 383 wants a changed module), so a valid module with a reference to another one is reported as invalid.
- `DepsProps.update_loads_twice`: C84, not C84: without the running cache, data of modules loaded for the validation are not remembered as loaded (modinfo.c 3012-3016). When an update subscriber changes a further module, they are loaded again and put next to the ones that are there; the assertion of sr_modinfo_collect_deps (modinfo.c 385) that data of changed modules are remembered as loaded fails. Here module 1 refers to module 2, an edit changes module 1 and the update subscriber module 2.
- `DbUoProps.overflow_order`: C85 fails. The comparison used for sorting cuts the difference of two orders to 32 bits. Move instances of a list to its end 2^21 times (each move adds 1024 to the largest order) and the instance that stayed at the front is loaded last: a list of two instances comes out in the wrong order. Every diff fits and nothing else is unusual.
- `DbUoProps.same_name_order`: C85 fails. Whether the next sibling in the diff belongs to the same list is decided by the name only. When two modules have lists of the same name next to each other, the largest order of the first is used for the second: an instance appended to the second list is loaded before its last instance.
- `DbUoProps.quote_crash`: C85 fails. The predicate of the previous instance of a leaf-list is made by putting its value between apostrophes, but the path of an instance whose value has an apostrophe uses quotation marks. With Redis, putting an instance behind such an instance reads the order of a record that is not there: `strtoull` of a NULL pointer.
- `DbUoProps.quote_order`: C85 fails. With MongoDB the missing record counts as order 0, and the third instance put behind the one with the apostrophe is loaded before it.
- `DbPathProps.both_quotes_misplaced`: C87 fails. A list key with both kinds of quotes and a slash: the slash counts as one outside of the strings, and the list instance is put below the container loaded before it.
- `DbPathProps.both_quotes_crash`: C87 fails. Alone in the data, loading such an instance reads behind the array of parents.
- `DbPathProps.sibling_deleted`: C88 fails. With MongoDB, deleting the container `server` also deletes the records of the container `server-backup` and everything below it: the query is for paths that begin with the text of the path.
- `DbPathProps.spelling_missed`: C89 fails. A path may be written with other quotes than the database has; then nothing of the node is loaded.
- `DbPathProps.second_xpath_missed`: C89 fails. With Redis, an XPath that is not a path (and so needs all data) is ignored if one before it is a path.
- `YpChangeProps.moved_lost`: **Violation.** A list instance created and moved before the notification is sent: the edit moving it replaces the edit with its content, the receiver never gets the instance.
- `YpChangeProps.nested_delete_refused`: **Violation.** Deleting a container is reported as deleting it and then deleting the leaf in it, which is not there any more: a receiver following RFC 8072 refuses the patch.
- `YpChangeProps.recreated_refused`: **Violation.** A node deleted and created again before the notification is sent is reported only as created, though the receiver has it: a receiver following RFC 8072 refuses the patch.
- `YpChangeProps.stalled`: **Violation.** Once the timer has fired, for every sequence of events without setting the period to zero: no change is ever reported again, the thread of the timer having ended with its identifier still set.
- `YpChangeProps.stall_reached`: This state is reached by one change sent and one delayed; the third change, a minute later, waits for ever.
- `YpChangeProps.quotes_drop`: **Violation.** For every subscription: a change of a node with both kinds of quotes in its path, like that of a list instance with an apostrophe in its key, is not reported, and all the changes waiting to be sent are dropped with it.
- `YpChangeProps.crash_reached`: **Violation.** Then the timer finds no notification and the process crashes.
- `YpChangeProps.resync_number`: **Violation.** After a resynchronisation a patch in preparation keeps its number, numbers start again from 1 after it.
- `YpChangeProps.point_wrong`: **Violation.** For every instance of a user-ordered list created or moved after another one: the point reported is the path of the instance itself followed by the keys of the other one, never the path of the other one.
- `SubFilterProps.value_injected`: **Violation.** A value with both kinds of quotes is not taken as a value: with the key `a'" or "1"="1` the filter is `/m:l[k="a'" or "1"="1"]` and lets all instances through.
- `SubFilterProps.value_malformed`: **Violation.** Other values with both kinds of quotes make a text that is no XPath.
- `SubFilterProps.leaf_list_all`: **Violation.** A content match of a leaf-list next to a selection lets all instances of the leaf-list through.
- `SubFilterProps.top_content_ignored`: **Violation.** A content match at the top that is not met does not keep its siblings out.
- `SubFilterProps.foreign_namespace`: **Violation.** A filter node in a namespace of no module selects the node of this name in the module of the parent.
- `SubFilterProps.augment_missed`: **Violation.** A filter node without a namespace below the top does not select nodes of other modules.
- `SubFilterProps.default_namespace_ignored`: **Violation.** For an opaque node at the top in a default namespace (without a prefix; a list instance without its keys is opaque) the namespace is ignored: nodes of this name in other modules are let through.
- `SubFilterProps.top_value_crash`: **Violation.** A content match at the top with a value that is not allowed for the leaf (an opaque node) and a prefix: NULL is dereferenced.
- `SnPipeProps.large_never_read`: **C97 does not hold of the code**: a notification larger than the pipe (64 KiB by default) is never read, by any schedule, because its data are read by one `read`.
- `SnPipeProps.content_taken_for_notification`: **C97 does not hold of the code**: the data of one notification as large as the pipe are taken for another notification, that nobody sent.
- `SnPipeProps.content_overflows_buffer`: **C97 does not hold of the code**: they may also make the reader write behind its buffer, by a size of 2^32 - 1, which plus one is 0 in 32 bits.
- `SnDispatchProps.passed_after_terminate`: **C99 does not hold of the code**: when a call of the callback takes longer than a second, `srsn_terminate` returns and other notifications of the subscription are passed to the callback after that.
- `SnStreamProps.negated_filter_missed`: **C100 does not hold of the code**: a subscription of the NETCONF stream with the filter `not(/a:n)` does not get the notifications of other modules than `a`, of all of which the filter is true.
- `SnStreamProps.constant_filter_nothing`: **C100 does not hold of the code**: with a filter that names no module, `true()`, it gets nothing, not even a sysrepo subscription is made.
- `SnStreamProps.modified_filter_missed`: **C100 does not hold of the code**: when the filter of a subscription of the NETCONF stream is modified, or removed, the modules subscribed to stay those of the first filter.
- `SnStreamProps.later_module_missed`: **C100 does not hold of the code**: a subscription of the NETCONF stream does not get the notifications of modules installed after it was made.
- `SnStreamProps.replay_start_never`: **C102 does not hold of the code**: the time returned is zero whatever the start time and the stored notifications are, because the earliest time is looked for beginning with zero.
- `SnTimerProps.postponed_ignored`: **C103 does not hold of the code**: a trigger moved later, at the moment the old one is reached, is ignored. The callback, for instance the termination of the subscription, is called at once, for any new trigger.
- `SnTimerProps.cancel_waits_for_trigger`: **C104 does not hold of the code**: a timer cancelled before its thread began to wait, for instance of a subscription with a stop time that is terminated at once. The signal is lost, the call cannot go on until the stop time, however far it is.
- `ValuesProps.decimal_changed`: **C105 violated** (decimal numbers). With more digits it is changed: 9.000000000000000001 read and written back is 9. (The header of sysrepo warns of it.)
- `ValuesProps.union_digits_lost`: **C105 violated** (unions of decimal numbers). In a union of decimal64 types with 1 and with 2 fraction digits the value 1.25 has two digits, but it is written back with one: it becomes 1.2.
- `ValuesProps.union_leafref_lost`: **C105 violated** (unions with leafrefs). In a union with a leafref to a decimal64 leaf, the number of fraction digits is not found and the value is written back as an empty text, here as the empty string of the other member type.
- `ValuesProps.buffer_overflows`: **C105 violated** (numbers too large). A decimal64 value of the user that is too large by a factor of about ten is not refused: its text is longer than the buffer on the stack and is written behind its end, for every type.
- `ValuesProps.wrong_type`: **C105 violated** (wrong type). A decimal64 value for a leaf of any other type but a union is not refused: the type of the leaf is read as if it was a decimal64 type.
- `ValUtilProps.set_string_over_number`: **C106 violated** (setting a string over a number). If the value held a number other than zero, the number is used as the address of a string: for every such value.
- `ValUtilProps.dup_loses_origin`: **C106 violated** (origin). The copy of a value with an origin, as `sr_get_items()` of the operational datastore returns them, has none and is not equal to it: for every such value.
- `ValUtilProps.dup_loses_any`: **C106 violated** (anydata). The copy of an anyxml or anydata value has no content.
- `ValUtilProps.dup_values_no_path`: **C106 violated** (values without a path). A value without a path is copied by `sr_dup_val()`, but an array that begins with it by `sr_dup_values()` with the address 0 taken for a string.
- `ValUtilProps.to_str_decimal`: **C107 violated** (decimal numbers). `sr_val_to_str()` keeps six digits of a decimal64, so different values have the same text: 1000000.1 and 1000000.4 are both "1e+06"; this is no text `sr_set_item_str()` accepts for a decimal64.
- `RunCacheProps.load_failure_empties`: **Violation.** Two threads find the cached copy of a module old. The first loads the new data; the second then removes them, without looking at the version again, and fails to load them. The entry stays marked current with no data, and a later read, which does not fail, returns nothing for a module that has data.
- `RunCacheProps.startup_edit_stale`: **Violation.** Running of a module is disabled, so its running data are its startup data. Startup is changed; `run_cache_id` is not, and a read of running with the cache keeps returning the old data.
- `RunCacheProps.version_stale`: **Violation.** For a plugin that tells the version of its data, a store remembers the SHM counter with the cached data instead. When the plugin later uses that number for other data, they are taken for the cached ones.
- `RunCacheProps.version_assert`: **Violation.** For such a plugin the assertion that the cached data are old compares the version of the plugin with the SHM counter, and a plain store aborts the process when they happen to be equal.
- `RunCacheProps.counter_unset`: **Violation.** The number of stores kept in SHM reaches the number that marks data not yet cached. The first read of the module then takes its empty entry for current and returns nothing.
- `RunCacheProps.denied_returned`: **Violation.** With the cache the filter is evaluated on all cached data. A module the user may not read any more is left out of the call, but a filter that selects also data of another module returns its cached data.
- `RunCacheProps.never_permitted_returned`: **Violation.** The user could never read the module: its data came to the cache with a load for validation, which checks no permissions.
- `RunCacheProps.no_filter_stale`: **Violation.** With `SR_GET_NO_FILTER` a read of one module returns the cached data of all, also of a module that is not part of the call; they are not locked nor updated, and differ from the stored data.
- `OperPollProps.wake_overwritten`: Finding, C110 is violated: subscription 1 has half a second left and the thread should wake up then, but the wake-up time is overwritten by that of subscription 2, because only its seconds are looked at. The thread sleeps for a second and the data of subscription 1 are half a second too old when it wakes up.
- `OperPollProps.waits_forever`: Finding, C110 is violated: with a validity of 25 days the timeout of `poll()` is negative and the thread waits for an event without a limit.
- `OperPollProps.provider_error_ends_thread`: Finding, C110 is violated: when the callback of the provider fails once, the listening thread of the poll subscription ends; no subscription of the structure is handled any more.
- `StopTimeProps.elapsed_handled_late`: Finding, C111 is violated: a stop time that elapses while events are processed should be handled as soon as possible, but only the nanoseconds of the wake-up time are set. With five seconds from another subscription the thread sleeps for five seconds.
- `StopTimeProps.late_stop_time_missed`: Finding, C111 is violated: with a stop time in 30 days the timeout of `poll()` is negative and the thread waits without a limit; unless an event arrives the subscription does not end.
- `StopTimeProps.subscribe_race`: Finding, C111 is violated: while an ended subscription is removed, the lock of the structure is released. If another thread then subscribes to notifications of a new module with the same structure, the array is reallocated and the loop goes on with a pointer into the freed one.
- `OperPollProps.suspended_stale`: Finding, C112 is violated: a suspended poll subscription is not refreshed any more but its cache is still used. An hour after the last poll, with a validity of two seconds, a read gives the value 5 although the provider has answered 6 since.
- `OperPollProps.flush_empty`: Finding, C112 is violated: after a change of the schema context the cache is empty, but reads use it and give nothing although the provider has data, until the next pass of the subscription.
- `OperPollProps.second_not_polled`: Finding, C112 is violated: the first update of a new subscription is done for the last module of the structure, here "n", not for the module of the subscription. After the successful call reads of "/m:b" give nothing although the provider has data.
- `OperPollProps.empty_answer_crash`: Finding, C112 is violated: a provider that returns no data crashes the process of a poll subscription that asked for changes (`NULL` dereference).
- `OperPollProps.longest_validity_never_valid`: A validity near 2^32 ms ("forever") makes the data invalid at once: they are polled in every pass.
- `OperPollProps.lost_provider_not_published`: Finding, C113 is violated: when the provider unsubscribes, the cached data are dropped without an event, and when a provider comes back the published changes are those from nothing. The subscriber keeps leaf 1, which does not exist any more.
- `OperPollProps.flush_not_published`: Finding, C113 is violated: the same after a change of the schema context.
- `CtxLockProps.unlock_without_lock`: **C114 is violated.** `sr_session_start` and the discard of operational data release the context lock even when taking it failed (sysrepo.c 621-623 with 635-637, 4639-4641 with 4664-4665). The readers are counted per connection, so the lock released belongs to another thread of the connection. In this run a session start times out during an installation, later another thread acquires a context, loses its lock to the late unlock, and the next installation destroys the context while it is being used.
- `CtxLockProps.install_race`: **C115 is violated.** An installation loads the current modules into its new context before it takes the context lock (sysrepo.c 1424-1432 and 1443). Another connection removes a module in between: the installation succeeds and from then on its connection works with a context containing the removed module, while the content ID says that it is current.
- `CtxLockProps.content_id_collision`: **C115 is violated.** Content IDs are 32-bit hashes: if the modules before and after a change have the same one, another connection goes on using the old context.
- `CtxLockProps.current_context_times_out`: A current context is refused. A call that finds an old context releases the remap lock, waits for it to be free for writing and does not look at the content ID again (context_change.c 64-74). If another thread of the connection switched the context meanwhile and keeps data of it, the call fails with a time-out although the context is current.
- `CtxLockProps.reinstall_not_initialized`: **C116 is violated.** A module is removed and installed again with another datastore plugin by one connection. The content ID, computed of names, revisions and features, is the same as before, so another connection that did nothing meanwhile never initializes the new plugin and uses it.
- `CtxLockProps.failed_init_forgotten`: **C116 is violated.** The content ID of the connection is updated with the switch of the context, before the plugins are initialized (context_change.c 81-107). If the initialization fails, the call fails, but the next one finds the context current and succeeds with the plugin not initialized.
- `OperSessProps.lost_without_error`: **C117 is violated.** If the stored data of the session cannot be read, for example because a lock timed out, setting, deleting and discarding return success although nothing was recorded: the code is kept in a variable that is not returned.
- `OperSessProps.last_delete_lost`: **C117 is violated.** Deleting the last data of the session leaves an edit without nodes, which is released. The call succeeds, applying succeeds, and the data are still there.
- `OperSessProps.module_emptied_aborts`: **C117 is violated.** A session with data of two modules deletes all the data of one of them: applying fails an assertion and ends the process, in builds with assertions (the default build type).
- `OperSessProps.discard_applies`: **C118 is violated.** With pending changes, discarding the stored data of one module stores the pending changes of all modules instead, and discards nothing.
- `OperSessProps.discard_xpath_deletes`: **C118 is violated.** The edit of a session contains its stored data, and discarding a part of the pending changes removes that part of the edit: a leaf that had a value before the change is deleted when the rest is applied.
- `OperSessProps.batch_drops_others`: **C119 is violated.** A batch to be merged that has data of one module only drops the data of another module the session has data of (with assertions compiled in it ends the process).
- `OperSessProps.batch_then_set_fails`: **C119 is violated.** After a batch to be merged, setting a new tree is accepted, but then the changes cannot be applied any more: the tree has the operation replace and an internal error is returned.
- `NotifEvProps.unsubscribe_steals`: C120 fails when a subscription made during an event is removed again: it is counted though the notification was not for it, and a subscription that has not got the notification yet loses it. Assertions do not notice.
- `NotifEvProps.suspend_steals`: C120 fails when a notification is sent while a subscription is being suspended: it is not counted but its listener still processes the notification, as one of the others, which then do not get it.
- `NotifEvProps.slow_subscriber_loses`: C120 fails for slow subscribers: a sender that has waited too long discards the notification before its own.
- `NotifEvProps.not_woken`: C121 fails with a suspended subscription: only the first entries are gone through, as many as there are subscribers to be notified, so a subscription after a suspended one is not woken and does not get the notification.
- `NotifEvProps.resume_blocks`: C121 fails when a notification is sent while a subscription is being resumed: it is counted but its listener does not process it, so the event stays pending and nobody has anything to do, until another sender gives up.
- `NotifEvProps.publish_aborts`: C121 fails when the only subscriber dies between the two checks for subscribers.
- `NotifEvProps.waiting_sender_aborts`: C122 fails with two senders: the event of a processed notification is cleared by the last listener, so the other sender can publish its notification before the first one has seen that, and the assertion that the request is still its own fails.
- `NetconfErrProps.enabled_error_lost`: C123 fails in other events: when a callback fails in the event of an enabled subscription its NETCONF error is set successfully, but without any data, and cannot be read.
- `NetconfErrProps.no_format_crash`: C123 fails for other errors: an error without a format cannot be tried to be read.
- `SuspendProps.merged_not_found`: C124 fails for operational subscriptions: with more subscriptions for a path than for the first one the last ones are not found.
- `SuspendProps.merged_reads_outside`: C124 fails for operational subscriptions: with fewer subscriptions for a path than for the first one memory outside of the table is read.
- `SuspendProps.error_but_suspended`: C124 fails when there is an error after the flag was changed: the call returns an error, but the subscription of notifications is suspended for all the publishers, and can be suspended no more.
- `SuspendProps.sn_half`: C125 fails when there is an error after a flag was changed: it is not reverted.
- `SuspendProps.sn_stuck`: C125 fails then for good: a subscription of which only others than the first sysrepo subscription are suspended can be neither suspended, nor resumed, although resuming it is successful.
- `SuspendProps.modified_sends`: C125 fails for a periodic subscription modified while it is suspended: it sends updates again.
- `AccessProps.owner_cannot_read`: C127 fails for owners: a data file belongs to who created it. Here bob stores the candidate of a datastore only its owner alice has access to: the check grants her access to data she cannot read.
- `AccessProps.owner_cannot_set`: C127 fails for owners: the owner of the datastore may not set its permissions then.
- `AccessProps.failed_set_changes`: C127 fails when an error is returned: some of the data files were changed already, so their access is not that of the datastore.
- `AccessProps.half_of_modules`: The same for all the modules at once: the access to those before the first refused one was changed.
- `AccessProps.ntf_set_never_returns`: C128 fails: setting the access to notifications never returns when there are any, the loop always goes on with the first file.
- `AccessProps.ntf_new_file_default`: C128 fails: whatever the access was, a new file of notifications can be accessed by its creator only.
- `ReplaySuppProps.ignored_after_crash`: C129 fails after a crash: the internal data say that replay is supported, so further calls are successful and do nothing, and it is not supported until the system is restarted.
- `ReplaySuppProps.enabled_despite_error`: C129 fails when the plugin fails: an error is returned, but replay is supported, and further calls are successful without telling the plugin.
- `EnSubProps.late_failure_missed`: C130 is violated when a process fails after its changes were stored (the lock of the data cannot be downgraded, or it crashes): the subscriber accepted the "change" event and is never told about "done", and later changes are reported on top of data it does not know.
- `OperTrimProps.selected_key_returned`: C131 is violated for keys selected directly: one of a state list is returned without state, and one of a configuration list is returned without configuration, by `sr_get_data()`; not by `sr_get_items()`.
- `ModXpathProps.retry_does_nothing`: C132: a call that times out on the shared memory has changed what the callback is called for, and calling it again with the same XPath succeeds without doing anything, whatever happens in it: the two copies stay different. Holds for all states.
- `ModXpathProps.failed_modify_times_out`: C132 is false after a failure: the XPath of a subscription filtering in the originator is changed while the shared memory is locked; the call fails, repeating it succeeds, and then every change of what the old XPath selects times out, and changes of what the new one selects are not reported.
- `ModXpathProps.orig_without_xpath`: C132 is false for a subscription that filters in the originator without an XPath, subscribed so or modified so: with no holes in the shared memory (`hdr` false) it is not notified of any change, for all changes; if another subscription is, the event times out.
- `ModXpathProps.modify_stuck`: C132 is false for the locks of changing an XPath: a change waits for the listener, which waits for the call, which waits for the change; the state is reached from the idle one, and in it and all the states that follow nothing of this goes on: only locks and the callback timing out end it.
- `HandlerProps.error_stops_all`: C133 is false with an error: when processing fails once, the thread ends, and nothing is processed in any continuation, whatever is called.
- `HandlerProps.joined_and_detached`: C134 is false with an error: the thread is processing events when it is unsubscribed, fails then, and detaches itself while it is being joined.
- `HandlerProps.suspended_spins`: C134 is false for sleeping while suspended: with a byte in the pipe, a suspended thread that is not processing never sleeps but goes round and round, in every continuation until it is resumed or ended, since only processing reads the pipe.
- `OperAskProps.failure_hides_others`: C135 is false when a callback fails: for every error, a subscriber after it that is asked too is not called, and the process reading waits for it until it times out: two errors instead of one.
- `OperAskProps.late_hides_others`: C135 is false when a process gave up: the event of another subscriber is left without being looked at, though the call succeeds.
- `OperAskProps.shelving_starves`: C135 is false with shelving: a subscriber that shelves the event keeps all those after it from being called, however often events are processed.
- `PlugindProps.dotted_name_ignored`: C136 is false for files with more dots: the plugin of `a.b.so` configured without its extension, as `a.b`, is not found, so its place in the order is ignored.
- `ConfNotifProps.send_failure_not_replayed`: C137 is false with failures: if sending fails (for instance because a subscriber has not processed the notification before in time), the call that changed the data returns an error although the changes were stored, and the notification is not stored for replay either, although that would have succeeded.
- `ConfNotifProps.originator_name_crashes`: C137 is false for the originator name `netopeer2` set with `sr_session_set_orig_name()` without pushing data: the process making the change crashes, after the changes were stored, whenever there is a subscriber or replay support.
- `NotifModProps.error_but_modified`: C138 is false with failures: if the event session cannot be started, the call returns an error but the XPath is changed; the callback is not told, and neither by repeating the call, which then succeeds without doing anything.
- `NotifModProps.early_stop_accepted`: C138 is false for stop times before the start time: they are not refused, although subscribing with them is; the subscription has a start time after its stop time then. The condition of the check is inverted, so that it compares only with start times that are not set.
- `NotifModProps.told_unchanged`: C138 is false for removing a stop time that is not there: the callback is told of a modification although nothing changed, each time.
- `ModShmProps.order_lost`: **C139 is false of the code: priorities are lost** by every call changing modules, of all modules, even if none of them is changed.
- `EnabledProps.order_lost`: Two subscriptions, the first selecting the second entry of a list ordered by the user and the second one selecting all its entries: the second entry is the first one in the operational datastore, although the running datastore has them in the order 1, 2, 3 and each selection is in the order of the document.
- `ModShmProps.start_ignores_order`: **C139 is false of the code: priorities are not used on a restart**, although documented: a module of a higher priority is copied after one of a lower.
- `ModShmProps.lock_lost`: **C139 is false of the code: locks are lost** by every call changing modules: any session can lock any module and change its data then, and unlocking by the session with the lock fails.
- `CacheCtxProps.stale_after_removal`: **C140 is false of the code: old data are read** after a module was installed and removed again, here with a change before that and one after.
- `CacheCtxProps.stale_after_failure`: **C140 is false of the code: old data are read** after a module could not be installed.

Seen while reading, not proved:

- `sr_shmext_recover_sub_change` locks WRITE and unlocks READ (shm_ext.c 1750-1772).
- `sr_copy_config` that is no commit releases the source lock before it locks the target; discarding to candidate checks no permissions.
- A candidate that is not modified is read from the running file with only the candidate lock held.
- The factory reset resets candidate without its lock.
- An internal error while a change event is published leaves subscribers that accepted it without an abort.
- RW lock: a timed-out WRITE_URGE clears the writer without a broadcast; an unlock that frees one of 16 full reader slots does not broadcast; the READ_UPGR to READ downgrade tests `writer` without the mutex; the WRITE to READ downgrade does not broadcast; a re-lock in a wait after EOWNERDEAD does not recover.
- `sr_session_dup_error` frees `src_session->ev_err_info` (sysrepo.c 939).
- `sr_ev_data_push` computes sizes in 32 bits.
- `sr_shmext_change_sub_modify` uses a pointer from before a remap (shm_ext.c 652-661).
- `sr_conn_info` writes behind the array if there are dead connections (common.c 5435).
- NACM: a path beginning with `$` reads one byte before the string; collecting groups ignores allocation failures; `sr_nacm_params_cb` ignores deleted parameters.
- Notification files: `access_get` uses a freed path; rotating an open file makes the next rename fail; the change callback of the rotation daemon returns NOT_FOUND at the end of the changes.
- `sr_notif_send` with wait returns success after a time-out.
- Subscriber events: priority UINT32_MAX wraps; `edit` may be stale in the update loop; subscriber_count can underflow in abort; RPC and notification error paths leave locks held; the originator filters on the whole diff, the listener on the diff of the module only.
- Datastore locks: a failed unlock of a partly locked set restores sid but not cid; a failed lock keeps cid; `sr_get_lock` with no modules leaves its result unset and reports locks of dead sessions.
- `sr_shmext_recover_sub_all` is called only when the main SHM was just created, when the module SHM is empty; it never recovers anything. Its RPC loop uses `[i]` for `[j]` (sysrepo.c 259).
- The error paths of adding an operational or RPC subscription free arrays that are still in use (subscr.c 175-260, 613-700).
- Module operations: `sr_shmmod_store_modules` does not put its backup back on an error; a failed `sr_store_module_yang_r` leaves some files; undoing an installation unlinks YANG files that were there before; the XPath looking for dependent modules of a forced removal (common.c 903) selects nodes the internal schema does not have.
- Subscription structures: when the READ lock cannot be taken again at the end of a removal (subscr.c 996-1011), the callers still unlock it and so release the READ lock of another thread of the connection; the handler thread ends for good (detached) after any error other than a time-out, so later events are never processed (shm_sub.c 4887-4950); its pthread_detach races with pthread_join in `sr_unsubscribe`; a suspended handler thread loops without waiting because the event pipe is not read; `tv_sec * 1000` of a stop time 25 to 50 days ahead overflows into a negative poll time-out.
- Enabled configuration: the number of XPaths is a uint16_t (common.c 4444), so 65536 subscriptions with an XPath enable nothing; the XPath of a subscription is not checked to belong to its module (sysrepo.c 5854), so with cached running data nodes of another module are put into its operational data; a suspended subscription still enables data.
- Database plugins: `prev` is a RediSearch TAG field, which is split at commas (the default separator), so `@prev:{…}` does not find an instance whose predicate has a comma; `is_del_many = (int64_t)lyd_child_no_keys(sibling)` cuts a pointer to an `int` and is 0 for a pointer with 32 low zero bits (ds_mongo.c 2288); the bulk of operations sent to MongoDB is unordered although it deletes and inserts the same path.
- Database plugins: `path` and `path_no_pred` are also TAG fields split at commas, so with Redis a partial load does not find nodes whose path has a comma; RediSearch expands a prefix to a limited number of tags (200 by default), so a partial load of a large subtree may be incomplete; keys longer than 16383 bytes are refused only while the changes are being stored, after all subscribers were told.
- YANG push: an error of the NACM check of a target leaves the timer lock and the NACM lock held (`goto cleanup` for `cleanup_unlock` in `srsn_yp_on_change_cb`).
- Subscribed notifications: `srsn_terminate` stops the stop timer with the lock its callback waits for (deadlock); `srsn_find` returns a pointer after unlocking; `srsn_sub_free` frees the waiting notification before it stops the dampening timer; resuming a periodic subscription uses anchor 1970; an error when the terminated notification is sent leaves the subscription in the table.
- Permissions: `sr_copy_config` reads its source datastore with `SR_MI_PERM_NO`, so a user who may write and read running but not read startup gets startup data by copying them to running; discarding the candidate and its reset after a commit check no write permission of the candidate.
- Module changes: `_sr_install_modules` reads the shared module data through a mapping that may be older (and shorter) than the data before it takes the context lock; `sr_get_content_id` reads the content ID after it unlocked.
- Operational changes: NACM is checked only if the change is visible in the operational datastore (`notify_diff` is not empty), so data hidden by those of another session are stored without any check and appear when the other session ends; stopping a session with pending operational changes stores them while it removes the entries of the session (an assertion fails in Debug builds); `_sr_rpc_ext_send_tree` returns without releasing the output data and the context lock when a lock fails.
- Notification listeners: an error in the middle of processing an event (NACM, parent of a nested notification) leaves the request ID of the structure unset, so the subscriptions already called get the notification again; a pending event whose `orig_cid` (the first subscriber) died is cleared by the next sender at once, even if others have not processed it.
- `sr_nacm_check_yp_change_value`: the changed value is checked as a detached copy, so rules with a path do not match it, and when it is denied it is freed by the filter and used by the caller.
- Subscribed notifications: whether a subscription is suspended already is judged by its first subscription only, and read out of bounds when it has none.
- `sr_err_get_netconf_error`: when it fails it leaves freed pointers in `error_info_elements` and `error_info_values`.
- On-change subscriptions: suspending does not stop the dampening timer, so an update is sent while suspended; a resynchronization sends while suspended; changes made while suspended are not sent after resuming, without any resynchronization.
- `srpntf_json_access_get`: the path is printed after it was freed when `stat` fails; the access of the earliest file is returned, whatever that of the others is.
- `sr_get_module_ds_access` and `sr_check_module_ds_access` use the context and the module table without the context lock, so another thread may switch the context meanwhile.

## Axioms of each theorem

As printed by `#print axioms` for the theorems named in MANIFEST.json.

**none** (24): `SnStream.later_module_missed`, `Suspend.sn_half`, `Suspend.modified_sends`, `OperData.recovery_changes_result`, `OperData.first_push_event_ignores_order`, `ModXpath.failed_modify_times_out`, `DsLock.failed_unlock_forgets_connection`, `DsLock.get_lock_no_module`, `UserOrd.stray_anchor_not_moved`, `ChangeNotify.greatest_priority_nobody_called`, `Pipeline.update_change_lost`, `Pipeline.refused_edit_reaches_update`, `Pipeline.unseen_push_unchecked`, `Pipeline.failed_keeps_pending`, `Pipeline.only_apply_stores`, `Pipeline.nothing_pending_nothing_applied`, `Pipeline.commit_not_reset`, `Pipeline.commit_not_equal`, `Writev.truncated_read_succeeds`, `Pipeline.stored_without_write_lock`, `Pipeline.stored_read_locked`, `Pipeline.commit_reverts_other_change`, `Pipeline.unasked_module_deleted`, `Pipeline.half_reset`

**propext** (80): `RWLock.urged_requests_block`, `FutexCond.broadcast_wakes_all`, `FutexCond.crashed_broadcaster_wakes_nobody`, `SnStream.replay_start_never`, `SnTimer.none_after_cancel`, `SnTimer.postponed_ignored`, `ValUtil.set_string_over_number`, `ValUtil.dup_loses_origin`, `ValUtil.dup_loses_any`, `ValUtil.dup_values_no_path`, `ErrInfo.data_without_format_lost`, `StopTime.elapsed_handled_late`, `StopTime.late_stop_time_missed`, `OperPoll.longest_validity_never_valid`, `Suspend.lock_failure_exact`, `Suspend.error_but_suspended`, `Suspend.periodic_exact_partial`, `Access.set_refused`, `Access.half_of_modules`, `Access.ntf_set_returns_partial`, `OperTrim.no_option_all`, `OperTrim.selected_key_returned`, `ModXpath.progress_step`, `OperAsk.called_only_asked`, `OperAsk.failure_hides_others`, `OperAsk.late_hides_others`, `OperAsk.shelving_starves`, `ConfNotif.other_datastores_silent`, `NotifMod.unknown_refused`, `NotifMod.error_but_modified`, `ModShm.start_order`, `ModShm.start_ignores_order`, `CacheCtx.read_was_stored`, `CacheCtx.own_change_read`, `CacheCtx.stale_after_failure`, `Edit.replace_keeps_default`, `Edit.default_create_reported`, `EditMerge.single_call`, `EditMerge.set_then_delete_lost`, `EditMerge.create_twice_accepted`, `EditMerge.delete_then_set_accepted`, `EditMerge.refused_call_changes_value`, `EditAdd.refused_set_kept`, `ChangeNotify.store_error_neither`, `ChangeNotify.suspended_neither`, `ChangeNotify.suspended_not_aborted`, `SubTables.failed_create_unserved`, `Rpc.greatest_priority_nobody_called`, `Pipeline.update_bypasses_checks`, `Pipeline.applied_none_left`, `Pipeline.discard_only_pending`, `Pipeline.pending_kept`, `JsonStore.failed_print_corrupts`, `JsonStore.failed_trunc_corrupts`, `JsonStore.failed_copy_and_unlink`, `NtfJson.clock_back_replay_wrong`, `NtfJson.clock_back_overwrites`, `NtfJson.earliest_not_min`, `NotifBuf.late_lock_loses`, `NotifBuf.failed_write_loses_rest`, `Time.add_goes_back`, `Time.sub_ms_wraps`, `GetData.one_level_too_deep`, `NextMod.behind_unknown_skipped`, `Time.sent_too_early`, `Time.long_dampening_ignored`, `ChangeIter.dup_iter_dangling`, `ConnAlive.connecting_killed`, `ConnAlive.leftover_race`, `ConnAlive.disconnect_fails`, `ConnAlive.failed_connect_stays`, `Startup.never_recovers`, `Startup.first_crash`, `Startup.close_breaks_lock`, `Startup.disconnect_breaks_lock`, `Startup.failed_first_splits`, `ModOps.failed_update_breaks_connecting`, `ModOps.restart_keeps`, `YpChange.timer_sends`, `SnDispatch.passed_after_terminate`

**Quot.sound, propext** (239): `RWLock.upgradable_not_unique`, `FutexCond.no_lost_wakeup_partial`, `FutexCond.late_sleeper_returns_partial`, `FutexCond.woken_returns`, `FutexCond.counter_wrap_loses_wakeup`, `LockOrder.sr_lock_deadlocks`, `LockOrder.sr_validate_deadlocks`, `LockOrder.update_callback_deadlocks`, `ExtShm.failed_growth_loses_memory`, `EvData.orig_data_delivered_partial`, `EvData.huge_blob_overflows`, `SnStream.delivered_exact_partial`, `SnStream.negated_filter_missed`, `SnStream.constant_filter_nothing`, `SnStream.modified_filter_missed`, `SnStream.new_only`, `SnTimer.cancelled_finished`, `SnTimer.not_before_trigger_partial`, `SnTimer.cancel_prompt_partial`, `SnTimer.cancel_waits_for_trigger`, `ValUtil.dup_values_partial`, `ValUtil.set_string_partial`, `RunCache.load_failure_empties`, `RunCache.startup_edit_stale`, `RunCache.version_stale`, `RunCache.version_assert`, `RunCache.uncached_only_permitted`, `RunCache.only_permitted_partial`, `RunCache.denied_returned`, `RunCache.never_permitted_returned`, `RunCache.no_filter_stale`, `ErrInfo.errors_delivered_partial`, `ErrInfo.missing_message_uses_returned_code`, `StopTime.subscribe_race`, `OperPoll.cached_from_provider_partial`, `CtxLock.unlock_without_lock`, `CtxLock.install_race`, `CtxLock.content_id_collision`, `CtxLock.current_context_times_out`, `CtxLock.reinstall_not_initialized`, `CtxLock.failed_init_forgotten`, `OperSess.lost_without_error`, `OperSess.module_emptied_aborts`, `OperSess.discard_exact_partial`, `OperSess.discard_applies`, `OperSess.discard_xpath_deletes`, `OperSess.batch_drops_others`, `OperSess.batch_then_set_fails`, `OperPush.get_exact`, `OperPush.generated_order_wraps`, `NotifEv.delivered_once`, `NotifEv.unsubscribe_steals`, `NotifEv.suspend_steals`, `NotifEv.slow_subscriber_loses`, `NotifEv.not_woken`, `NotifEv.resume_blocks`, `NotifEv.publish_aborts`, `NotifEv.waiting_returns_partial`, `NotifEv.waiting_sender_aborts`, `Suspend.get_exact_partial`, `Suspend.merged_not_found`, `Suspend.merged_reads_outside`, `Suspend.sn_exact_partial`, `Suspend.sn_atomic_partial`, `Suspend.sn_stuck`, `Access.access_exact`, `Access.set_exact`, `Access.set_all_exact`, `Access.set_effective`, `Access.owner_cannot_read`, `Access.owner_cannot_set`, `Access.failed_set_changes`, `Access.ntf_new_file_default`, `ReplaySupp.support_exact_partial`, `ReplaySupp.set_exact_partial`, `ReplaySupp.set_succeeds`, `ReplaySupp.enabled_since`, `ReplaySupp.enabled_kept`, `ReplaySupp.ignored_after_crash`, `ReplaySupp.enabled_despite_error`, `EnSub.late_failure_missed`, `OperTrim.items_exact`, `ModXpath.subscribing_never_stuck`, `ModXpath.subscriptions_stable`, `Handler.resume_wakes`, `Handler.suspend_resume_refused`, `Handler.joined_and_detached`, `Plugind.sorted_as_configured`, `Plugind.cleanup_exact`, `ConfNotif.same_as_callbacks`, `ConfNotif.lost_only_with_error`, `ConfNotif.never_missing_without_error`, `ConfNotif.other_originators_return`, `ConfNotif.send_failure_not_replayed`, `ConfNotif.originator_name_crashes`, `NotifMod.error_changes_nothing_partial`, `NotifMod.ids_below`, `NotifMod.told_unchanged`, `ModShm.order_kept_partial`, `ModShm.order_exact`, `ModShm.order_lost`, `ModShm.start_lower_first`, `ModShm.lock_lost`, `ModShm.subs_exact`, `ModShm.set_exact`, `DsLock.failed_unlock_loses_lock`, `CacheCtx.read_current_partial`, `CacheCtx.stale_after_removal`, `DsLock.get_lock_reports_dead`, `Edit.edit_meaning_partial`, `Edit.edit_keeps_shape`, `Edit.removed_is_gone`, `Edit.unmentioned_stays`, `Edit.set_is_there`, `Edit.set_is_explicit`, `Edit.replaced_is_exact`, `Edit.diff_replays`, `Edit.diff_empty_iff`, `Edit.diff_nodes_changed`, `UserOrd.lands_there`, `UserOrd.order_reported`, `UserOrd.order_undone`, `UserOrd.orders_reported`, `UserOrd.replaced_order`, `EditMerge.accumulated_is_sequential_partial`, `EditMerge.refused_call_iff`, `EditAdd.deletion_lost`, `EditAdd.deletion_creates`, `EditAdd.deletions_cancel`, `EditAdd.missing_parent_accepted`, `EditAdd.deleted_then_set_fails`, `EditAdd.missing_deletion_fails`, `EditAdd.container_created_again`, `Listener.batch_never_aborted`, `Listener.aborted_twice_and_never`, `Listener.at_most_once`, `Listener.only_selected`, `Listener.abort_only_accepted_partial`, `Listener.own_abort_accepted_partial`, `Listener.wrong_aborted`, `Listener.late_filter_aborts_unseen`, `Listener.two_threads_call_twice`, `Listener.suspended_keeps_waiting`, `Rpc.no_subscriber_fails`, `Rpc.suspended_not_aborted`, `Rpc.bad_output_not_aborted`, `Rpc.lost_not_aborted`, `Rpc.internal_failure_keeps_lock`, `Pipeline.half_stored`, `Pipeline.error_but_stored`, `Pipeline.dependent_not_validated`, `Pipeline.stored_but_pending`, `Pipeline.discard_mirrors`, `JsonStore.crash_in_backup_loses_data`, `Writev.interrupted_lost`, `Writev.read_exact`, `Writev.copy_exact`, `Writev.copy_prefix`, `Writev.copy_succeeds`, `NtfJson.renamed_replayed_twice`, `NtfJson.late_replayed_twice`, `NtfJson.renamed_before_open_fails`, `NtfJson.epoch_start_skips`, `NtfJson.same_second_fails`, `NotifBuf.stored_in_order`, `NotifBuf.all_stored_partial`, `NotifBuf.no_lost_wakeup`, `NotifBuf.stop_ends`, `NotifBuf.thread_fails_only`, `Replay.stored_late_missed`, `Replay.same_time_missed`, `Replay.clock_back_twice`, `Replay.discarded_missed`, `Replay.late_unsubscribe_loses`, `Replay.pending_at_stop_lost`, `Replay.delivered_after_stop`, `Replay.replay_ignores_access`, `NacmPath.rule_applies_partial`, `NacmPath.covers_applies`, `NacmPath.above_partly`, `NacmPath.no_oob`, `NacmGroup.sortDel_spec`, `NacmGroup.wildcard_missed`, `XPathUtil.iteration_exact`, `XPathUtil.nodes_in_order`, `XPathTrim.trim_predicates_exact`, `XPathTrim.trim_last_partial`, `XPathTrim.len_counts`, `XPathTrim.len_plain_path_partial`, `GetData.selected_node_missing`, `Time.update_off_period`, `Time.future_anchor_ignored`, `NacmConf.rules_mirror_partial`, `NacmConf.rules_mirror_from_empty`, `NtfRec.torn_record_loses_later`, `Rotation.rotated_only_notif`, `Rotation.older_than_exact`, `ChangeIter.dup_iter_same_partial`, `Names.hash_prio`, `ConnAlive.check_answers`, `ModOps.hole_disables_features`, `ModOps.star_ignored`, `ModOps.install_race_loses_feature`, `ModOps.install_race_kills`, `ModOps.failed_store_changes_data`, `ModOps.back_dependency_keeps_module`, `ModOps.install_crash_breaks_connecting`, `ModOps.failed_remove_removes`, `ModOps.feature_kills`, `ModOps.content_id_stale_after_restart`, `SubCtx.unsubscribe_left_behind`, `SubCtx.session_left_behind`, `SubCtx.released_by_removal`, `SubCtx.released_by_subscribe`, `Enabled.enabled_exactly`, `Enabled.enabled_event`, `Deps.when_dangling`, `Deps.second_module_dangling`, `Deps.validate_misses`, `Deps.candidate_module_rejected`, `Deps.update_loaded_once_partial`, `Deps.update_loads_twice`, `DbUo.quote_crash`, `DbPath.keys_refused`, `DbPath.loaded_in_place_partial`, `DbPath.everything_loaded`, `YpChange.quotes_drop`, `YpChange.at_once`, `YpChange.waits_for_timer_partial`, `YpChange.stalled`, `YpChange.spacing`, `YpChange.only_asked`, `YpChange.asked_reported_partial`, `YpChange.point_wrong`, `SnPipe.read_exact_partial`, `SnPipe.next_read_partial`, `SnPipe.large_never_read`, `SnPipe.content_taken_for_notification`, `SnPipe.content_overflows_buffer`

**Classical.choice, Quot.sound, propext** (389): `RWLock.write_exclusive`, `RWLock.readers_accounted`, `RWLock.arrays_bounded`, `RWLock.array_removal_exact`, `RWLock.upgradable_unique_partial`, `RWLock.failed_lock_no_trace_partial`, `RWLock.failed_upgrade_no_trace`, `RWLock.released_is_free_partial`, `RWLock.failed_upgr_leaks`, `RWLock.recovery_exact`, `RWLock.contender_proceeds`, `LockOrder.no_cycle_partial`, `LockOrder.some_call_proceeds_partial`, `ExtShm.allocations_disjoint`, `ExtShm.operations_succeed`, `ExtShm.every_byte_accounted_partial`, `ExtShm.all_freed_one_hole_partial`, `ExtShm.all_freed_trimmed_partial`, `ExtShm.add_keeps_items`, `ExtShm.del_keeps_items`, `ExtShm.resize_keeps_content`, `ExtShm.trim_keeps_content`, `SnStream.replay_first`, `SnStream.replay_then_new`, `Values.write_back_partial`, `Values.write_back_union_partial`, `Values.write_back_union_dec_partial`, `Values.decimal_exact`, `Values.set_get_int`, `Values.buffer_fits`, `Values.decimal_changed`, `Values.union_digits_lost`, `Values.union_leafref_lost`, `Values.buffer_overflows`, `Values.wrong_type`, `ValUtil.equal_iff`, `ValUtil.dup_equal_partial`, `ValUtil.print_val`, `ValUtil.to_buff_same`, `ValUtil.to_str_signed`, `ValUtil.to_str_unsigned`, `ValUtil.to_str_decimal`, `RunCache.read_current_partial`, `RunCache.write_from_current_partial`, `RunCache.store_no_assert_partial`, `RunCache.counter_unset`, `OperPoll.wait_exact_partial`, `OperPoll.refreshed_in_time_partial`, `OperPoll.wake_overwritten`, `OperPoll.waits_forever`, `OperPoll.provider_error_ends_thread`, `StopTime.stop_exact_partial`, `StopTime.wakes_for_stop_partial`, `OperPoll.pass_fresh`, `OperPoll.suspended_stale`, `OperPoll.flush_empty`, `OperPoll.second_not_polled`, `OperPoll.empty_answer_crash`, `OperPoll.changes_complete_partial`, `OperPoll.lost_provider_not_published`, `OperPoll.flush_not_published`, `CtxLock.context_valid_partial`, `CtxLock.one_change_partial`, `CtxLock.context_current_partial`, `CtxLock.plugins_ready_partial`, `OperSess.set_exact_partial`, `OperSess.delete_exact_partial`, `OperSess.discard_items_exact_partial`, `OperSess.apply_exact_partial`, `OperSess.last_delete_lost`, `OperSess.discard_oper_exact_partial`, `OperSess.batch_exact_partial`, `OperPush.update_partial`, `OperPush.history_partial`, `OperPush.del_removes_only`, `OperPush.raise_order_always_breaks`, `NotifEv.delivered_all_partial`, `NotifEv.progress_partial`, `NotifEv.finish_possible`, `NotifEv.woken_partial`, `NotifEv.no_abort_partial`, `NotifEv.waiting_exact_partial`, `NetconfErr.netconf_delivered_partial`, `NetconfErr.refused`, `NetconfErr.enabled_error_lost`, `NetconfErr.no_format_crash`, `Suspend.calls_exact_partial`, `Suspend.change_exact_partial`, `Suspend.periodic_modified`, `Access.data_access_partial`, `Access.ntf_set_never_returns`, `OperData.highest_order_decides_partial`, `EnSub.every_change_once_partial`, `EnSub.follows_data_partial`, `EnSub.done_was_accepted`, `EnSub.not_stuck_partial`, `OperTrim.no_state_exact_partial`, `OperTrim.no_config_exact_partial`, `ModXpath.modify_exact_partial`, `ModXpath.modify_others`, `ModXpath.retry_does_nothing`, `ModXpath.orig_without_xpath`, `ModXpath.modify_stuck`, `Handler.never_sleeps_with_event`, `Handler.events_processed_partial`, `Handler.processed_once`, `Handler.error_stops_all`, `Handler.suspended_processes_nothing`, `Handler.unsubscribe_ends`, `Handler.not_detached_partial`, `Handler.suspended_spins`, `OperAsk.all_asked_partial`, `OperAsk.data_complete`, `OperAsk.called_exact`, `Plugind.name_exact_partial`, `Plugind.dotted_name_ignored`, `ConfNotif.notified_exact_partial`, `ConfNotif.unchanged_silent`, `NotifMod.calls_exact_partial`, `NotifMod.succeeds_exact_partial`, `NotifMod.subscribe_exact`, `NotifMod.early_stop_accepted`, `ModShm.lock_kept_partial`, `DsLock.locked_out_partial`, `DsLock.lock_ends_partial`, `DsLock.lock_available_partial`, `DsLock.all_or_nothing_partial`, `DsLock.change_all_or_nothing`, `DsLock.get_lock_truth_partial`, `DsLock.get_lock_not_snapshot`, `Edit.edit_refused_iff`, `Edit.change_iff`, `UserOrd.refused_iff`, `EditAdd.collected_calls_are_sequential_partial`, `EditAdd.one_call_applied`, `EditAdd.one_call_refused_partial`, `ChangeNotify.always_ends`, `ChangeNotify.called_by_priority`, `ChangeNotify.each_called_once_partial`, `ChangeNotify.only_accepted_aborted`, `ChangeNotify.done_or_abort_partial`, `Listener.released_when_processed`, `Listener.pending_until_reported`, `Listener.error_when_refused`, `Listener.refusal_reported`, `Listener.never_stuck`, `SubTables.update_unique`, `SubTables.second_update_refused`, `SubTables.subscribe_change`, `SubTables.unsubscribe_change`, `SubTables.unsubscribe_notif`, `SubTables.unsubscribe_poll`, `SubTables.unsubscribe_rpc`, `SubTables.unsubscribe_oper`, `SubTables.ids_unique`, `SubTables.kept_served_partial`, `Rpc.always_ends`, `Rpc.called_by_priority`, `Rpc.only_called_aborted`, `Rpc.exact_partial`, `SubTables.rpc_unique`, `SubTables.second_rpc_refused`, `SubTables.outer_first_partial`, `SubTables.coexist_merge_partial`, `SubTables.subscribe_oper_partial`, `SubTables.returns_partial`, `SubTables.inner_first`, `SubTables.first_without_merge`, `SubTables.hangs`, `Pipeline.applied_is_told_partial`, `Pipeline.applied_is_wanted_partial`, `Pipeline.replaced_is_told_partial`, `Pipeline.replaced_is_wanted_partial`, `Pipeline.failed_keeps_all_partial`, `Pipeline.failed_replace_keeps_all_partial`, `Pipeline.each_old_or_told`, `Pipeline.at_most_one_torn`, `Pipeline.other_datastores_kept`, `Pipeline.other_datastores_kept_by_replace`, `Pipeline.checked_before`, `Pipeline.denied_does_nothing`, `Pipeline.no_permission_does_nothing`, `Pipeline.stored_is_valid_partial`, `Pipeline.refused_edit_not_stored`, `Pipeline.unmodified_mirrors`, `Pipeline.modified_isolated`, `Pipeline.commit_makes_equal_partial`, `Pipeline.failed_commit_keeps_partial`, `Pipeline.failed_commit_keeps_candidate`, `JsonStore.crash_safe_partial`, `JsonStore.backup_incomplete_main_intact`, `JsonStore.store_then_load`, `JsonStore.failed_store_keeps_partial`, `JsonStore.failed_unlink_keeps`, `Writev.writev_exact_partial`, `Writev.writev_prefix`, `Writev.writev_succeeds`, `Writev.short_first_vector_lost`, `NtfJson.replay_exact_partial`, `NtfJson.replay_concurrent_partial`, `NtfJson.store_fails_iff`, `NtfJson.store_ok_partial`, `NtfJson.earliest_first_partial`, `NtfJson.access_set_returns_partial`, `NtfJson.access_set_never_returns`, `Replay.live_at_most_once`, `Replay.exactly_once_partial`, `NacmPath.name_prefix_matches`, `NacmPath.slash_in_value_matches`, `NacmPath.quote_in_value_oob`, `NacmGroup.rule_list_applies_partial`, `NacmGroup.rule_list_named`, `NacmGroup.collect_exact`, `NacmGroup.sortAdd_spec`, `Nacm.decision_exact`, `Nacm.not_checked_exact`, `Nacm.get_data_filtered_partial`, `Nacm.returned_leaf_permitted`, `Nacm.top_level_item`, `Nacm.top_level_leaf_exact`, `Nacm.denied_item_returned`, `Nacm.denied_ancestor_returned`, `Nacm.augment_leaks`, `Nacm.refused_change_denied`, `Nacm.denied_change_refused_partial`, `Nacm.partial_deny_leaks`, `Nacm.augment_write_leaks`, `Nacm.move_leaks`, `XPathUtil.recover_restores_partial`, `XPathUtil.no_access_outside_partial`, `XPathUtil.first_call_inside`, `XPathUtil.one_char_replaced`, `XPathUtil.node_ends`, `XPathUtil.key_search_ends_partial`, `XPathUtil.passed_again`, `XPathUtil.key_search_hangs`, `XPathUtil.node_name_top_level`, `XPathUtil.key_value_exact`, `XPathUtil.node_rel_wrong_node`, `XPathTrim.bracket_in_value`, `XPathTrim.nested_predicate`, `XPathTrim.predicate_counted`, `Time.add_exact_partial`, `Time.add_null_exact`, `Time.add_normal`, `Time.cmp_exact`, `Time.sub_exact`, `Time.sub_ms_exact_partial`, `GetData.result_exact_partial`, `GetData.unlimited_exact`, `NextMod.every_module_once`, `NextMod.modules_before_unknown_once`, `Time.update_on_period_partial`, `Time.dampening_partial`, `NacmConf.prefix_misplaces`, `NacmConf.target_last`, `NacmConf.target_mirrors_partial`, `NacmConf.retarget_loses`, `Nacm.operation_checked_partial`, `Nacm.rpc_checked`, `Nacm.grandparent_not_checked`, `NtfRec.roundtrip_partial`, `NtfRec.skip_reads`, `Rotation.rotated_iff_partial`, `Rotation.dotted_never_rotated`, `SubTables.poll_diff_unique`, `SubTables.subscribe_poll`, `Pipeline.stored_under_write_lock_partial`, `Pipeline.replaced_under_write_lock_partial`, `Pipeline.commit_late_ok`, `Pipeline.others_kept_partial`, `Pipeline.reset_to_factory_partial`, `Pipeline.reset_keeps_others_partial`, `Pipeline.dependents_wiped`, `ChangeIter.changes_are_the_difference`, `ChangeIter.no_change_twice`, `ChangeIter.nothing_read_nothing_changed`, `ChangeIter.default_change_unseen`, `Edit.exact_kids_all`, `OperFilter.not_asked_irrelevant`, `OperFilter.filtered_read_partial`, `OperFilter.predicate_provider_skipped`, `OperFilter.alternatives_skipped`, `OperFilter.restricted_node_skipped`, `OperFilter.union_part_skipped`, `OperFilter.key_letter_skipped`, `Names.shm_names_partial`, `Names.data_names`, `Names.prefixes_partial`, `Names.oper_files_partial`, `Names.hash_one_char`, `Names.segments_independent_partial`, `Names.data_module_clash`, `Names.prefixes_clash`, `Names.other_module_found`, `Names.paths_collide`, `ConnAlive.live_not_dead_partial`, `ConnAlive.live_keeps_lock_partial`, `ConnAlive.finished_found`, `ConnAlive.disconnect_ends`, `ConnAlive.crash_ends`, `Startup.one_at_a_time_partial`, `Startup.connected_good_partial`, `Startup.same_memory_partial`, `ModOps.install_success_partial`, `ModOps.install_data_partial`, `ModOps.install_failure_partial`, `ModOps.remove_success`, `ModOps.remove_refused`, `ModOps.remove_failure_partial`, `ModOps.update_success`, `ModOps.update_failure_partial`, `ModOps.feature_success`, `ModOps.feature_failure_partial`, `ModOps.views_agree_partial`, `SubCtx.removed_only_asked`, `SubCtx.removed_one`, `SubCtx.ids_unique`, `SubCtx.gone_forever`, `SubCtx.not_found_right`, `SubCtx.callback_subscribed`, `SubCtx.callback_blocks`, `SubCtx.search_goes_on`, `SubCtx.last_notification_sent`, `SubCtx.last_notification_last`, `SubCtx.unsubscribed_partial`, `SubCtx.session_unsubscribed_partial`, `SubCtx.registered_partial`, `SubCtx.all_unsubscribed`, `SubCtx.no_released_memory_partial`, `Enabled.nothing_enabled`, `Enabled.same_order`, `Enabled.whole_order`, `Enabled.single_order_partial`, `Enabled.order_lost`, `Deps.applied_valid_partial`, `Deps.instance_dangling`, `Deps.judged_on_all_data_partial`, `Deps.nothing_changed`, `Deps.default_rejected`, `Deps.validated_applies`, `Deps.applies_validated_partial`, `Deps.candidate_validated`, `Deps.loaded_once`, `Deps.assertion_holds`, `DbUo.order_kept_partial`, `DbUo.numbers_right`, `DbUo.overflow_order`, `DbUo.same_name_order`, `DbUo.quote_order`, `DbPath.keys_round_trip`, `DbPath.history_loaded_partial`, `DbPath.both_quotes_misplaced`, `DbPath.both_quotes_crash`, `DbPath.redis_records_exact`, `DbPath.mongo_records_exact_partial`, `DbPath.list_instance_alone`, `DbPath.sibling_deleted`, `DbPath.part_complete_partial`, `DbPath.mongo_everything_loaded`, `DbPath.spelling_missed`, `DbPath.second_xpath_missed`, `YpChange.receiver_in_step_partial`, `YpChange.moved_lost`, `YpChange.nested_delete_refused`, `YpChange.recreated_refused`, `YpChange.stall_reached`, `YpChange.crash_reached`, `YpChange.ids_increase`, `YpChange.resync_number`, `SubFilter.filter_exact_partial`, `SubFilter.value_injected`, `SubFilter.value_malformed`, `SubFilter.leaf_list_all`, `SubFilter.top_content_ignored`, `SubFilter.foreign_namespace`, `SubFilter.augment_missed`, `SubFilter.default_namespace_ignored`, `SubFilter.conversion_safe_partial`, `SubFilter.top_value_crash`, `SnPipe.nothing_left_partial`, `SnDispatch.passed_in_order`, `SnDispatch.passed_with_data`, `SnDispatch.all_passed`, `SnDispatch.only_terminated_closed`, `SnDispatch.in_bounds`, `SnDispatch.count_exact`, `SnDispatch.none_after_terminate_partial`, `SnDispatch.all_before_terminate_partial`

