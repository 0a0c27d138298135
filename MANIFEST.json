{
 "claims": [
  {
   "property": "C01",
   "status": "proved",
   "theorems": [
    "Verif.RWLock.write_exclusive",
    "Verif.RWLock.readers_accounted",
    "Verif.RWLock.arrays_bounded",
    "Verif.RWLock.array_removal_exact"
   ],
   "note": "All schedules of lock, wake, timeout, upgrade, downgrade, unlock, crash. Critical sections are atomic; a failed assert is a crash."
  },
  {
   "property": "C02",
   "status": "partial",
   "theorems": [
    "Verif.RWLock.upgradable_unique_partial",
    "Verif.RWLock.upgradable_not_unique",
    "Verif.RWLock.urged_requests_block"
   ],
   "note": "False in general (upgradable_not_unique, a six-step schedule); proved for all schedules without direct WRITE_URGE requests."
  },
  {
   "property": "C03",
   "status": "partial",
   "theorems": [
    "Verif.RWLock.failed_lock_no_trace_partial",
    "Verif.RWLock.failed_upgrade_no_trace",
    "Verif.RWLock.released_is_free_partial",
    "Verif.RWLock.failed_upgr_leaks"
   ],
   "note": "False for READ_UPGR hitting the recursion limit (failed_upgr_leaks); proved for every other failure."
  },
  {
   "property": "C04",
   "status": "proved",
   "theorems": [
    "Verif.RWLock.recovery_exact",
    "Verif.RWLock.contender_proceeds"
   ],
   "note": "contender_proceeds excludes histories with a hit reader limit (leaked upgradable mark, see C03)."
  },
  {
   "property": "C05",
   "status": "partial",
   "theorems": [
    "Verif.FutexCond.no_lost_wakeup_partial",
    "Verif.FutexCond.late_sleeper_returns_partial",
    "Verif.FutexCond.broadcast_wakes_all",
    "Verif.FutexCond.woken_returns",
    "Verif.FutexCond.counter_wrap_loses_wakeup",
    "Verif.FutexCond.crashed_broadcaster_wakes_nobody"
   ],
   "note": "Proved for all schedules with fewer than 2^32 broadcasts while one waiter is between its load and its sleep; false beyond (counter_wrap_loses_wakeup) and when the broadcaster crashes before waking (crashed_broadcaster_wakes_nobody)."
  },
  {
   "property": "C06",
   "status": "partial",
   "theorems": [
    "Verif.LockOrder.no_cycle_partial",
    "Verif.LockOrder.some_call_proceeds_partial",
    "Verif.LockOrder.sr_lock_deadlocks",
    "Verif.LockOrder.sr_validate_deadlocks",
    "Verif.LockOrder.update_callback_deadlocks"
   ],
   "note": "Proved for all schedules of reading and changing calls with one ordered locking pass plus dependency reads; three schedules of other API calls wait in a cycle (until a time-out)."
  },
  {
   "property": "C07",
   "status": "proved",
   "theorems": [
    "Verif.ExtShm.allocations_disjoint",
    "Verif.ExtShm.operations_succeed"
   ],
   "note": "All histories of add, delete, resize, store and trim over unboundedly many arrays and attributes in a segment below 2 GiB."
  },
  {
   "property": "C08",
   "status": "partial",
   "theorems": [
    "Verif.ExtShm.every_byte_accounted_partial",
    "Verif.ExtShm.all_freed_one_hole_partial",
    "Verif.ExtShm.all_freed_trimmed_partial",
    "Verif.ExtShm.failed_growth_loses_memory"
   ],
   "note": "Proved for all histories in which the segment could always be enlarged; false when ftruncate/mmap fails (failed_growth_loses_memory)."
  },
  {
   "property": "C09",
   "status": "proved",
   "theorems": [
    "Verif.ExtShm.add_keeps_items",
    "Verif.ExtShm.del_keeps_items",
    "Verif.ExtShm.resize_keeps_content",
    "Verif.ExtShm.trim_keeps_content"
   ],
   "note": "All histories; items are compared byte by byte."
  },
  {
   "property": "C10",
   "status": "partial",
   "theorems": [
    "Verif.EvData.orig_data_delivered_partial",
    "Verif.EvData.huge_blob_overflows"
   ],
   "note": "Proved for all names and blob sequences below 2 GiB in total; beyond 4 GiB the size computation overflows (huge_blob_overflows)."
  },
  {
   "property": "C100",
   "status": "partial",
   "theorems": [
    "Verif.SnStream.delivered_exact_partial",
    "Verif.SnStream.negated_filter_missed",
    "Verif.SnStream.constant_filter_nothing",
    "Verif.SnStream.modified_filter_missed",
    "Verif.SnStream.later_module_missed"
   ],
   "note": "Filters true only of notifications of modules they name, never modified; false otherwise (proved for all such filters of some shapes)."
  },
  {
   "property": "C101",
   "status": "proved",
   "theorems": [
    "Verif.SnStream.replay_first",
    "Verif.SnStream.replay_then_new",
    "Verif.SnStream.new_only"
   ],
   "note": "For calls of the callback one after another; that each module completes its replay once is a hypothesis (sysrepo's part, C42)."
  },
  {
   "property": "C102",
   "status": "partial",
   "theorems": [
    "Verif.SnStream.replay_start_never"
   ],
   "note": "False: the time returned is always zero."
  },
  {
   "property": "C103",
   "status": "partial",
   "theorems": [
    "Verif.SnTimer.none_after_cancel",
    "Verif.SnTimer.cancelled_finished",
    "Verif.SnTimer.not_before_trigger_partial",
    "Verif.SnTimer.postponed_ignored"
   ],
   "note": "Not before the trigger unless it is updated in the moment between the end of the wait and the lock, then it is false (witness)."
  },
  {
   "property": "C104",
   "status": "partial",
   "theorems": [
    "Verif.SnTimer.cancel_prompt_partial",
    "Verif.SnTimer.cancel_waits_for_trigger"
   ],
   "note": "When the thread of the timer began to wait before the call; false otherwise (witness, for any stop time)."
  },
  {
   "property": "C105",
   "status": "partial",
   "theorems": [
    "Verif.Values.write_back_partial",
    "Verif.Values.write_back_union_partial",
    "Verif.Values.write_back_union_dec_partial",
    "Verif.Values.decimal_exact",
    "Verif.Values.set_get_int",
    "Verif.Values.buffer_fits",
    "Verif.Values.decimal_changed",
    "Verif.Values.union_digits_lost",
    "Verif.Values.union_leafref_lost",
    "Verif.Values.buffer_overflows",
    "Verif.Values.wrong_type"
   ],
   "note": "All types but unions of decimals with different digits or leafrefs to decimals, decimals below 2^52; false otherwise (witnesses), and values too large or of a wrong type are not refused."
  },
  {
   "property": "C106",
   "status": "partial",
   "theorems": [
    "Verif.ValUtil.equal_iff",
    "Verif.ValUtil.dup_equal_partial",
    "Verif.ValUtil.dup_values_partial",
    "Verif.ValUtil.set_string_partial",
    "Verif.ValUtil.set_string_over_number",
    "Verif.ValUtil.dup_loses_origin",
    "Verif.ValUtil.dup_loses_any",
    "Verif.ValUtil.dup_values_no_path"
   ],
   "note": "Copies of values without origin and anydata; false for these, and setting a string over a number is undefined."
  },
  {
   "property": "C107",
   "status": "partial",
   "theorems": [
    "Verif.ValUtil.print_val",
    "Verif.ValUtil.to_buff_same",
    "Verif.ValUtil.to_str_signed",
    "Verif.ValUtil.to_str_unsigned",
    "Verif.ValUtil.to_str_decimal"
   ],
   "note": "Texts of decimals have six digits only (witness)."
  },
  {
   "property": "C108",
   "status": "partial",
   "theorems": [
    "Verif.RunCache.read_current_partial",
    "Verif.RunCache.write_from_current_partial",
    "Verif.RunCache.store_no_assert_partial",
    "Verif.RunCache.load_failure_empties",
    "Verif.RunCache.startup_edit_stale",
    "Verif.RunCache.version_stale",
    "Verif.RunCache.version_assert",
    "Verif.RunCache.counter_unset"
   ],
   "note": "When loading does not fail, for modules with their own running data, without versions of the plugin, stored less than 2^32-1 times; false otherwise (witnesses)."
  },
  {
   "property": "C109",
   "status": "partial",
   "theorems": [
    "Verif.RunCache.uncached_only_permitted",
    "Verif.RunCache.only_permitted_partial",
    "Verif.RunCache.denied_returned",
    "Verif.RunCache.never_permitted_returned",
    "Verif.RunCache.no_filter_stale"
   ],
   "note": "Proved without the cache, and with it for filters of permitted modules only; false otherwise (witnesses)."
  },
  {
   "property": "C11",
   "status": "partial",
   "theorems": [
    "Verif.ErrInfo.errors_delivered_partial",
    "Verif.ErrInfo.data_without_format_lost",
    "Verif.ErrInfo.missing_message_uses_returned_code"
   ],
   "note": "Proved for all error sequences below 2 GiB whose data have a format; data without a format are lost (data_without_format_lost)."
  },
  {
   "property": "C110",
   "status": "partial",
   "theorems": [
    "Verif.OperPoll.wait_exact_partial",
    "Verif.OperPoll.refreshed_in_time_partial",
    "Verif.OperPoll.wake_overwritten",
    "Verif.OperPoll.waits_forever",
    "Verif.OperPoll.provider_error_ends_thread"
   ],
   "note": "When valid data have a second or more left, for validity below 2^31 ms and answering providers; false otherwise (witnesses)."
  },
  {
   "property": "C111",
   "status": "partial",
   "theorems": [
    "Verif.StopTime.stop_exact_partial",
    "Verif.StopTime.wakes_for_stop_partial",
    "Verif.StopTime.elapsed_handled_late",
    "Verif.StopTime.late_stop_time_missed",
    "Verif.StopTime.subscribe_race"
   ],
   "note": "Without other threads changing the structure, for stop times that do not elapse during the pass and are less than 2^31 ms away; false otherwise (witnesses)."
  },
  {
   "property": "C112",
   "status": "partial",
   "theorems": [
    "Verif.OperPoll.pass_fresh",
    "Verif.OperPoll.cached_from_provider_partial",
    "Verif.OperPoll.suspended_stale",
    "Verif.OperPoll.flush_empty",
    "Verif.OperPoll.second_not_polled",
    "Verif.OperPoll.empty_answer_crash",
    "Verif.OperPoll.longest_validity_never_valid"
   ],
   "note": "Reads give answers of the provider or nothing; that they are not older than the validity holds at the end of a pass only (witnesses)."
  },
  {
   "property": "C113",
   "status": "partial",
   "theorems": [
    "Verif.OperPoll.changes_complete_partial",
    "Verif.OperPoll.lost_provider_not_published",
    "Verif.OperPoll.flush_not_published"
   ],
   "note": "When the data always have a provider and the context does not change; false otherwise (witnesses)."
  },
  {
   "property": "C114",
   "status": "partial",
   "theorems": [
    "Verif.CtxLock.context_valid_partial",
    "Verif.CtxLock.one_change_partial",
    "Verif.CtxLock.unlock_without_lock"
   ],
   "note": "Without calls that unlock after a failed lock (sr_session_start and discarding operational data do); false with them (witness)."
  },
  {
   "property": "C115",
   "status": "partial",
   "theorems": [
    "Verif.CtxLock.context_current_partial",
    "Verif.CtxLock.install_race",
    "Verif.CtxLock.content_id_collision",
    "Verif.CtxLock.current_context_times_out"
   ],
   "note": "Without hash collisions and without module changes between loading and locking of an installation; false otherwise (witnesses)."
  },
  {
   "property": "C116",
   "status": "partial",
   "theorems": [
    "Verif.CtxLock.plugins_ready_partial",
    "Verif.CtxLock.reinstall_not_initialized",
    "Verif.CtxLock.failed_init_forgotten"
   ],
   "note": "For fixed plugins and initializations that succeed; false otherwise (witnesses)."
  },
  {
   "property": "C117",
   "status": "partial",
   "theorems": [
    "Verif.OperSess.set_exact_partial",
    "Verif.OperSess.delete_exact_partial",
    "Verif.OperSess.discard_items_exact_partial",
    "Verif.OperSess.apply_exact_partial",
    "Verif.OperSess.lost_without_error",
    "Verif.OperSess.last_delete_lost",
    "Verif.OperSess.module_emptied_aborts"
   ],
   "note": "When the stored data can be read, except for deleting the last data and, with assertions, all data of a module; false otherwise (witnesses)."
  },
  {
   "property": "C118",
   "status": "partial",
   "theorems": [
    "Verif.OperSess.discard_exact_partial",
    "Verif.OperSess.discard_oper_exact_partial",
    "Verif.OperSess.discard_applies",
    "Verif.OperSess.discard_xpath_deletes"
   ],
   "note": "For all pending changes and, without pending changes, for stored data; false otherwise (witnesses)."
  },
  {
   "property": "C119",
   "status": "partial",
   "theorems": [
    "Verif.OperSess.batch_exact_partial",
    "Verif.OperSess.batch_drops_others",
    "Verif.OperSess.batch_then_set_fails"
   ],
   "note": "For batches with data of every module the session has data of; false otherwise (witnesses)."
  },
  {
   "property": "C12",
   "status": "partial",
   "theorems": [
    "Verif.OperPush.update_partial",
    "Verif.OperPush.history_partial",
    "Verif.OperPush.del_removes_only",
    "Verif.OperPush.get_exact",
    "Verif.OperPush.raise_order_always_breaks",
    "Verif.OperPush.generated_order_wraps"
   ],
   "note": "Full claim is false: raising an order is always broken (raise_order_always_breaks) and the generated order wraps (generated_order_wraps). Proved for all histories without these."
  },
  {
   "property": "C120",
   "status": "partial",
   "theorems": [
    "Verif.NotifEv.delivered_once",
    "Verif.NotifEv.delivered_all_partial",
    "Verif.NotifEv.unsubscribe_steals",
    "Verif.NotifEv.suspend_steals",
    "Verif.NotifEv.slow_subscriber_loses"
   ],
   "note": "At most once and only to subscriptions that were there, always; to all the active ones without crashes, timeouts, suspending during an event and removing during an event a subscription it is not for; false otherwise (witnesses)."
  },
  {
   "property": "C121",
   "status": "partial",
   "theorems": [
    "Verif.NotifEv.progress_partial",
    "Verif.NotifEv.finish_possible",
    "Verif.NotifEv.woken_partial",
    "Verif.NotifEv.no_abort_partial",
    "Verif.NotifEv.not_woken",
    "Verif.NotifEv.resume_blocks",
    "Verif.NotifEv.publish_aborts"
   ],
   "note": "Under the same conditions and, for the wake-ups, without suspended subscriptions; false otherwise (witnesses)."
  },
  {
   "property": "C122",
   "status": "partial",
   "theorems": [
    "Verif.NotifEv.waiting_exact_partial",
    "Verif.NotifEv.waiting_returns_partial",
    "Verif.NotifEv.waiting_sender_aborts"
   ],
   "note": "Under the same conditions; that it returns, only if no other notification was published before it woke up (witness)."
  },
  {
   "property": "C123",
   "status": "partial",
   "theorems": [
    "Verif.NetconfErr.netconf_delivered_partial",
    "Verif.NetconfErr.refused",
    "Verif.NetconfErr.enabled_error_lost",
    "Verif.NetconfErr.no_format_crash"
   ],
   "note": "For events that can fail and errors of less than 2 GiB in total; false in the event of an enabled subscription (witness)."
  },
  {
   "property": "C124",
   "status": "partial",
   "theorems": [
    "Verif.Suspend.calls_exact_partial",
    "Verif.Suspend.change_exact_partial",
    "Verif.Suspend.get_exact_partial",
    "Verif.Suspend.lock_failure_exact",
    "Verif.Suspend.merged_not_found",
    "Verif.Suspend.merged_reads_outside",
    "Verif.Suspend.error_but_suspended"
   ],
   "note": "When each operational path has as many subscriptions as the first one, and no failure after the flag was changed; false otherwise (witnesses)."
  },
  {
   "property": "C125",
   "status": "partial",
   "theorems": [
    "Verif.Suspend.sn_exact_partial",
    "Verif.Suspend.sn_atomic_partial",
    "Verif.Suspend.periodic_exact_partial",
    "Verif.Suspend.periodic_modified",
    "Verif.Suspend.sn_half",
    "Verif.Suspend.sn_stuck",
    "Verif.Suspend.modified_sends"
   ],
   "note": "Without failures after a flag was changed or during the reverting, from a state in which all are suspended or none, and without modifying a suspended periodic subscription; false otherwise (witnesses)."
  },
  {
   "property": "C126",
   "status": "proved",
   "theorems": [
    "Verif.Access.access_exact",
    "Verif.Access.set_exact",
    "Verif.Access.set_all_exact",
    "Verif.Access.set_refused"
   ],
   "note": "Conventional and operational datastores with the JSON plugin; notifications are C128."
  },
  {
   "property": "C127",
   "status": "partial",
   "theorems": [
    "Verif.Access.set_effective",
    "Verif.Access.data_access_partial",
    "Verif.Access.owner_cannot_read",
    "Verif.Access.owner_cannot_set",
    "Verif.Access.failed_set_changes",
    "Verif.Access.half_of_modules"
   ],
   "note": "A successful call applies to all the existing data; the check is exact for root and processes of other users than the owner of the datastore and of the file, in histories of members of the group of sysrepo without failed calls; false otherwise (witnesses)."
  },
  {
   "property": "C128",
   "status": "partial",
   "theorems": [
    "Verif.Access.ntf_set_returns_partial",
    "Verif.Access.ntf_set_never_returns",
    "Verif.Access.ntf_new_file_default"
   ],
   "note": "Returns without stored notifications; false otherwise: the call never returns, and new files have default permissions."
  },
  {
   "property": "C129",
   "status": "partial",
   "theorems": [
    "Verif.ReplaySupp.support_exact_partial",
    "Verif.ReplaySupp.set_exact_partial",
    "Verif.ReplaySupp.set_succeeds",
    "Verif.ReplaySupp.enabled_since",
    "Verif.ReplaySupp.enabled_kept",
    "Verif.ReplaySupp.ignored_after_crash",
    "Verif.ReplaySupp.enabled_despite_error"
   ],
   "note": "Without crashes in a call and without notification plugins that fail to enable or disable; false otherwise (witnesses)."
  },
  {
   "property": "C13",
   "status": "partial",
   "theorems": [
    "Verif.OperData.highest_order_decides_partial",
    "Verif.OperData.recovery_changes_result",
    "Verif.OperData.first_push_event_ignores_order"
   ],
   "note": "Proved for any entries, live and dead connections, when discard-items select by names and keys; with value conditions a recovery of a dead connection changes the result (recovery_changes_result)."
  },
  {
   "property": "C130",
   "status": "partial",
   "theorems": [
    "Verif.EnSub.every_change_once_partial",
    "Verif.EnSub.follows_data_partial",
    "Verif.EnSub.done_was_accepted",
    "Verif.EnSub.not_stuck_partial",
    "Verif.EnSub.late_failure_missed"
   ],
   "note": "Without failures and crashes between storing and the last done event; false otherwise (witness). Delivery of one event is C23, C24."
  },
  {
   "property": "C131",
   "status": "partial",
   "theorems": [
    "Verif.OperTrim.no_state_exact_partial",
    "Verif.OperTrim.no_config_exact_partial",
    "Verif.OperTrim.no_option_all",
    "Verif.OperTrim.items_exact",
    "Verif.OperTrim.selected_key_returned"
   ],
   "note": "When no list key is selected directly; false otherwise with sr_get_data() (witness). sr_get_items() is exact."
  },
  {
   "property": "C132",
   "status": "partial",
   "theorems": [
    "Verif.ModXpath.modify_exact_partial",
    "Verif.ModXpath.modify_others",
    "Verif.ModXpath.retry_does_nothing",
    "Verif.ModXpath.failed_modify_times_out",
    "Verif.ModXpath.orig_without_xpath",
    "Verif.ModXpath.subscribing_never_stuck",
    "Verif.ModXpath.progress_step",
    "Verif.ModXpath.subscriptions_stable",
    "Verif.ModXpath.modify_stuck"
   ],
   "note": "Without failures after the XPath was checked, and when subscriptions filtering in the originator have an XPath; false otherwise (witnesses). The order of locks of subscribing cannot block, that of changing the XPath does (witness)."
  },
  {
   "property": "C133",
   "status": "partial",
   "theorems": [
    "Verif.Handler.never_sleeps_with_event",
    "Verif.Handler.events_processed_partial",
    "Verif.Handler.processed_once",
    "Verif.Handler.error_stops_all"
   ],
   "note": "Unless processing fails with another error than a time-out: the thread ends then and no event is processed any more (witness)."
  },
  {
   "property": "C134",
   "status": "partial",
   "theorems": [
    "Verif.Handler.suspended_processes_nothing",
    "Verif.Handler.resume_wakes",
    "Verif.Handler.suspend_resume_refused",
    "Verif.Handler.unsubscribe_ends",
    "Verif.Handler.not_detached_partial",
    "Verif.Handler.joined_and_detached",
    "Verif.Handler.suspended_spins"
   ],
   "note": "All but sleeping: a suspended thread with an event does not sleep but loops (witness, for all such states); and a thread failing while it is unsubscribed is joined and detached (witness)."
  },
  {
   "property": "C135",
   "status": "partial",
   "theorems": [
    "Verif.OperAsk.all_asked_partial",
    "Verif.OperAsk.data_complete",
    "Verif.OperAsk.called_exact",
    "Verif.OperAsk.called_only_asked",
    "Verif.OperAsk.failure_hides_others",
    "Verif.OperAsk.late_hides_others",
    "Verif.OperAsk.shelving_starves"
   ],
   "note": "When only the last subscriber asked fails, if any; false otherwise: those after one that fails, shelves or is late are not called (witnesses). Data returned are complete for all subscribers. One subscription context; merging as in C13."
  },
  {
   "property": "C136",
   "status": "partial",
   "theorems": [
    "Verif.Plugind.sorted_as_configured",
    "Verif.Plugind.name_exact_partial",
    "Verif.Plugind.dotted_name_ignored",
    "Verif.Plugind.cleanup_exact"
   ],
   "note": "For files with one dot in their names; false otherwise: the name without the extension is not found (witness)."
  },
  {
   "property": "C137",
   "status": "partial",
   "theorems": [
    "Verif.ConfNotif.notified_exact_partial",
    "Verif.ConfNotif.unchanged_silent",
    "Verif.ConfNotif.other_datastores_silent",
    "Verif.ConfNotif.same_as_callbacks",
    "Verif.ConfNotif.lost_only_with_error",
    "Verif.ConfNotif.never_missing_without_error",
    "Verif.ConfNotif.other_originators_return",
    "Verif.ConfNotif.send_failure_not_replayed",
    "Verif.ConfNotif.originator_name_crashes"
   ],
   "note": "Without failures, and with an originator that is not netopeer2 or has pushed its session ID and user name; false otherwise: after failed sending nothing is stored for replay, and the originator name alone crashes the process (witnesses)."
  },
  {
   "property": "C138",
   "status": "partial",
   "theorems": [
    "Verif.NotifMod.calls_exact_partial",
    "Verif.NotifMod.succeeds_exact_partial",
    "Verif.NotifMod.error_changes_nothing_partial",
    "Verif.NotifMod.subscribe_exact",
    "Verif.NotifMod.ids_below",
    "Verif.NotifMod.unknown_refused",
    "Verif.NotifMod.error_but_modified",
    "Verif.NotifMod.early_stop_accepted",
    "Verif.NotifMod.told_unchanged"
   ],
   "note": "Without failures, with stop times not before the start time, and removing only a stop time that is there; false otherwise (witnesses). Calls and the listener exclude each other."
  },
  {
   "property": "C139",
   "status": "partial",
   "theorems": [
    "Verif.ModShm.order_kept_partial",
    "Verif.ModShm.order_exact",
    "Verif.ModShm.order_lost",
    "Verif.ModShm.start_order",
    "Verif.ModShm.start_ignores_order",
    "Verif.ModShm.start_lower_first",
    "Verif.ModShm.lock_kept_partial",
    "Verif.ModShm.lock_lost",
    "Verif.ModShm.subs_exact",
    "Verif.ModShm.set_exact"
   ],
   "note": "Subscriptions: in all histories. Priorities and locks: without changes of modules; false otherwise: any such change clears the priorities and locks of all modules, and the priorities are never used when startup is copied (witnesses)."
  },
  {
   "property": "C14",
   "status": "partial",
   "theorems": [
    "Verif.DsLock.locked_out_partial",
    "Verif.DsLock.lock_ends_partial",
    "Verif.DsLock.lock_available_partial",
    "Verif.DsLock.failed_unlock_loses_lock"
   ],
   "note": "All interleavings of lock, unlock, change, copy, session stop and crashes (also inside one lock change), provided sessions unlock only what they have locked; a failed sr_unlock of a partially locked set lets another session steal the lock (failed_unlock_loses_lock)."
  },
  {
   "property": "C140",
   "status": "partial",
   "theorems": [
    "Verif.CacheCtx.read_current_partial",
    "Verif.CacheCtx.read_was_stored",
    "Verif.CacheCtx.own_change_read",
    "Verif.CacheCtx.stale_after_removal",
    "Verif.CacheCtx.stale_after_failure"
   ],
   "note": "If no set of modules returns and no call changing modules fails; false otherwise: the counter of changes starts again and old data are taken for current (witnesses)."
  },
  {
   "property": "C15",
   "status": "partial",
   "theorems": [
    "Verif.DsLock.all_or_nothing_partial",
    "Verif.DsLock.change_all_or_nothing",
    "Verif.DsLock.failed_unlock_forgets_connection"
   ],
   "note": "Owners are restored in every failure (change_all_or_nothing); the connection and the time of a lock are not after a failed sr_unlock."
  },
  {
   "property": "C16",
   "status": "partial",
   "theorems": [
    "Verif.DsLock.get_lock_truth_partial",
    "Verif.DsLock.get_lock_no_module",
    "Verif.DsLock.get_lock_not_snapshot",
    "Verif.DsLock.get_lock_reports_dead"
   ],
   "note": "Exact for locks that do not change during the call and at least one module; the locks are read one by one and a lock of a dead process is still reported."
  },
  {
   "property": "C17",
   "status": "partial",
   "theorems": [
    "Verif.Edit.edit_meaning_partial",
    "Verif.Edit.edit_refused_iff",
    "Verif.Edit.edit_keeps_shape",
    "Verif.Edit.removed_is_gone",
    "Verif.Edit.unmentioned_stays",
    "Verif.Edit.set_is_there",
    "Verif.Edit.set_is_explicit",
    "Verif.Edit.replaced_is_exact",
    "Verif.Edit.replace_keeps_default"
   ],
   "note": "All data and edit trees of any size; the values are exact. replace of a default leaf with its own value does not make it explicit (replace_keeps_default). Opaque nodes, origins and positions of instances are not modelled (positions: C19)."
  },
  {
   "property": "C18",
   "status": "proved",
   "theorems": [
    "Verif.Edit.diff_replays",
    "Verif.Edit.diff_empty_iff",
    "Verif.Edit.diff_nodes_changed",
    "Verif.Edit.change_iff",
    "Verif.Edit.default_create_reported"
   ],
   "note": "All data and edit trees without the same node twice; values and default flags. Positions of user-ordered instances are C19. default_create_reported: the change flag is also set for a create of an equal default node."
  },
  {
   "property": "C19",
   "status": "proved",
   "theorems": [
    "Verif.UserOrd.lands_there",
    "Verif.UserOrd.refused_iff",
    "Verif.UserOrd.order_reported",
    "Verif.UserOrd.order_undone",
    "Verif.UserOrd.orders_reported",
    "Verif.UserOrd.replaced_order",
    "Verif.UserOrd.stray_anchor_not_moved"
   ],
   "note": "All orders of any length and all edits whose anchor attribute is there exactly for before/after (RFC 7950); also for several instances in one edit and for replaced parents. With a stray anchor the place is misjudged (stray_anchor_not_moved). Lists without keys (positions as anchors) are not modelled."
  },
  {
   "property": "C20",
   "status": "partial",
   "theorems": [
    "Verif.EditMerge.accumulated_is_sequential_partial",
    "Verif.EditMerge.single_call",
    "Verif.EditMerge.refused_call_iff",
    "Verif.EditMerge.set_then_delete_lost",
    "Verif.EditMerge.create_twice_accepted",
    "Verif.EditMerge.delete_then_set_accepted",
    "Verif.EditMerge.refused_call_changes_value",
    "Verif.EditAdd.collected_calls_are_sequential_partial",
    "Verif.EditAdd.one_call_applied",
    "Verif.EditAdd.one_call_refused_partial",
    "Verif.EditAdd.deletion_lost",
    "Verif.EditAdd.deletion_creates",
    "Verif.EditAdd.deletions_cancel",
    "Verif.EditAdd.missing_parent_accepted",
    "Verif.EditAdd.deleted_then_set_fails",
    "Verif.EditAdd.missing_deletion_fails",
    "Verif.EditAdd.refused_set_kept",
    "Verif.EditAdd.container_created_again"
   ],
   "note": "Verif.EditAdd: calls on items at any depth, any number, where no item is set after it or something above it was deleted, and an item is deleted whose parent exists and that was not touched before; or only non-strict deletions. A single call does exactly what it should and is refused exactly if it should be (except strictly creating an existing non-presence container). For other orders it is false (deletion_lost, deletion_creates, deletions_cancel, missing_parent_accepted, deleted_then_set_fails, missing_deletion_fails, refused_set_kept). Verif.EditMerge: sequences of set/delete calls on top-level leaves without a deletion after a set; a set followed by a deletion silently keeps the old value (set_then_delete_lost)."
  },
  {
   "property": "C21",
   "status": "partial",
   "theorems": [
    "Verif.ChangeNotify.always_ends",
    "Verif.ChangeNotify.called_by_priority",
    "Verif.ChangeNotify.each_called_once_partial",
    "Verif.ChangeNotify.greatest_priority_nobody_called"
   ],
   "note": "By priority and at most once per phase for every environment and any number of modules and subscriptions; exactly once when subscriptions stay and none has priority 4294967295 (witness that then nobody is called)."
  },
  {
   "property": "C22",
   "status": "partial",
   "theorems": [
    "Verif.ChangeNotify.only_accepted_aborted",
    "Verif.ChangeNotify.done_or_abort_partial",
    "Verif.ChangeNotify.store_error_neither",
    "Verif.ChangeNotify.suspended_neither",
    "Verif.ChangeNotify.suspended_not_aborted",
    "Verif.Listener.batch_never_aborted",
    "Verif.Listener.aborted_twice_and_never"
   ],
   "note": "Never both and never for one that refused, in every environment; exactly one when subscriptions stay, storing succeeds once all accepted and no two subscribers of one priority race. Witnesses: a failed store and a suspended subscription give neither; when subscribers of one priority race, one that accepted is aborted twice or never."
  },
  {
   "property": "C23",
   "status": "partial",
   "theorems": [
    "Verif.Listener.at_most_once",
    "Verif.Listener.only_selected",
    "Verif.Listener.abort_only_accepted_partial",
    "Verif.Listener.own_abort_accepted_partial",
    "Verif.Listener.wrong_aborted",
    "Verif.Listener.late_filter_aborts_unseen",
    "Verif.Listener.two_threads_call_twice"
   ],
   "note": "Every interleaving of any number of listeners and subscriptions with an originator that may time out or misbehave. At most once and only selected events hold as stated; abort only of accepted changes holds for published aborts with filters that also select the change, and for self-generated ones with one subscription per listener; witnesses show both conditions necessary."
  },
  {
   "property": "C24",
   "status": "partial",
   "theorems": [
    "Verif.Listener.released_when_processed",
    "Verif.Listener.pending_until_reported",
    "Verif.Listener.error_when_refused",
    "Verif.Listener.refusal_reported",
    "Verif.Listener.never_stuck",
    "Verif.Listener.suspended_keeps_waiting"
   ],
   "note": "Every order of finishing, any number of subscribers. Holds when the originator counts the subscriptions right and none is suspended while an event is pending; otherwise it waits for its timeout (witness)."
  },
  {
   "property": "C25",
   "status": "proved",
   "theorems": [
    "Verif.SubTables.update_unique",
    "Verif.SubTables.second_update_refused",
    "Verif.SubTables.subscribe_change"
   ],
   "note": "Every history of calls (failing ones included) and dying connections."
  },
  {
   "property": "C26",
   "status": "partial",
   "theorems": [
    "Verif.SubTables.unsubscribe_change",
    "Verif.SubTables.unsubscribe_notif",
    "Verif.SubTables.unsubscribe_poll",
    "Verif.SubTables.unsubscribe_rpc",
    "Verif.SubTables.unsubscribe_oper",
    "Verif.SubTables.ids_unique",
    "Verif.SubTables.kept_served_partial",
    "Verif.SubTables.failed_create_unserved"
   ],
   "note": "Removal of exactly the named subscription for every history. That the others keep being notified holds in histories where creating a segment never failed; otherwise it is false (witness)."
  },
  {
   "property": "C27",
   "status": "partial",
   "theorems": [
    "Verif.Rpc.always_ends",
    "Verif.Rpc.called_by_priority",
    "Verif.Rpc.only_called_aborted",
    "Verif.Rpc.no_subscriber_fails",
    "Verif.Rpc.exact_partial",
    "Verif.SubTables.rpc_unique",
    "Verif.SubTables.second_rpc_refused",
    "Verif.Rpc.greatest_priority_nobody_called",
    "Verif.Rpc.suspended_not_aborted",
    "Verif.Rpc.bad_output_not_aborted",
    "Verif.Rpc.lost_not_aborted",
    "Verif.Rpc.internal_failure_keeps_lock"
   ],
   "note": "Order and at-most-once for every environment; exact callbacks and result when subscriptions stay and sysrepo itself does not fail. Witnesses show that otherwise an accepted call may never be aborted, and that the greatest priority silences the RPC."
  },
  {
   "property": "C28",
   "status": "partial",
   "theorems": [
    "Verif.SubTables.outer_first_partial",
    "Verif.SubTables.coexist_merge_partial",
    "Verif.SubTables.subscribe_oper_partial",
    "Verif.SubTables.returns_partial",
    "Verif.SubTables.inner_first",
    "Verif.SubTables.first_without_merge",
    "Verif.SubTables.hangs"
   ],
   "note": "Order holds unless the outer path has a predicate the inner one lacks (witness); every provider but the first allows merging (witness that the first need not); after a failed allocation a later subscribe call never returns (witness)."
  },
  {
   "property": "C29",
   "status": "partial",
   "theorems": [
    "Verif.Pipeline.applied_is_told_partial",
    "Verif.Pipeline.applied_is_wanted_partial",
    "Verif.Pipeline.replaced_is_told_partial",
    "Verif.Pipeline.replaced_is_wanted_partial",
    "Verif.Pipeline.failed_keeps_all_partial",
    "Verif.Pipeline.failed_replace_keeps_all_partial",
    "Verif.Pipeline.each_old_or_told",
    "Verif.Pipeline.at_most_one_torn",
    "Verif.Pipeline.other_datastores_kept",
    "Verif.Pipeline.other_datastores_kept_by_replace",
    "Verif.Pipeline.half_stored",
    "Verif.Pipeline.error_but_stored",
    "Verif.Pipeline.update_change_lost"
   ],
   "note": "Every set of modules and every behaviour of libyang, access control, subscribers and plugins. All or nothing holds unless the last phase (writing and after) fails; then each module is old or new and at most one torn (witnesses). Success stores what subscribers were told unless an update subscriber's change is undone by validation (witness)."
  },
  {
   "property": "C30",
   "status": "partial",
   "theorems": [
    "Verif.Pipeline.checked_before",
    "Verif.Pipeline.denied_does_nothing",
    "Verif.Pipeline.no_permission_does_nothing",
    "Verif.Pipeline.stored_is_valid_partial",
    "Verif.Pipeline.refused_edit_not_stored",
    "Verif.Pipeline.refused_edit_reaches_update",
    "Verif.Pipeline.update_bypasses_checks",
    "Verif.Pipeline.unseen_push_unchecked",
    "Verif.Pipeline.dependent_not_validated"
   ],
   "note": "Holds for the changes of the caller. Witnesses: refused edits still reach update subscribers, what update subscribers add is not checked, operational data with no visible effect are not checked, modules depending on a module changed only by validation are not validated."
  },
  {
   "property": "C31",
   "status": "proved",
   "theorems": [
    "Verif.Pipeline.applied_none_left",
    "Verif.Pipeline.failed_keeps_pending",
    "Verif.Pipeline.discard_only_pending",
    "Verif.Pipeline.pending_kept",
    "Verif.Pipeline.only_apply_stores",
    "Verif.Pipeline.nothing_pending_nothing_applied",
    "Verif.Pipeline.stored_but_pending"
   ],
   "note": "All sequences of calls, as stated. stored_but_pending records a consequence: an error after storing keeps changes pending that were already stored."
  },
  {
   "property": "C32",
   "status": "partial",
   "theorems": [
    "Verif.Pipeline.unmodified_mirrors",
    "Verif.Pipeline.modified_isolated",
    "Verif.Pipeline.commit_makes_equal_partial",
    "Verif.Pipeline.failed_commit_keeps_partial",
    "Verif.Pipeline.failed_commit_keeps_candidate",
    "Verif.Pipeline.discard_mirrors",
    "Verif.Pipeline.commit_not_reset",
    "Verif.Pipeline.commit_not_equal"
   ],
   "note": "Mirroring and isolation for all sequences of calls of any sessions. Commit when validation and subscribers add nothing and the candidate file can be removed (witnesses otherwise)."
  },
  {
   "property": "C33",
   "status": "partial",
   "theorems": [
    "Verif.JsonStore.crash_safe_partial",
    "Verif.JsonStore.backup_incomplete_main_intact",
    "Verif.JsonStore.store_then_load",
    "Verif.JsonStore.crash_in_backup_loses_data"
   ],
   "note": "Proved for every crash point except while the backup is being made, with any number of interrupted loads afterwards; a crash in that window loses the content (proved for every content)."
  },
  {
   "property": "C34",
   "status": "partial",
   "theorems": [
    "Verif.JsonStore.failed_store_keeps_partial",
    "Verif.JsonStore.failed_unlink_keeps",
    "Verif.JsonStore.failed_print_corrupts",
    "Verif.JsonStore.failed_trunc_corrupts",
    "Verif.JsonStore.failed_copy_and_unlink"
   ],
   "note": "Proved for failures of every call but printing and truncating; those leave a mixture because the backup is removed on error (witnesses)."
  },
  {
   "property": "C35",
   "status": "partial",
   "theorems": [
    "Verif.Writev.writev_exact_partial",
    "Verif.Writev.writev_prefix",
    "Verif.Writev.writev_succeeds",
    "Verif.Writev.interrupted_lost",
    "Verif.Writev.short_first_vector_lost",
    "Verif.Writev.read_exact",
    "Verif.Writev.truncated_read_succeeds"
   ],
   "note": "For every list of buffers and every kernel behaviour, a clean success means all bytes in order once; but an interruption or a write shorter than the first buffer aborts the process or, without assertions, corrupts memory and reports success with the record lost."
  },
  {
   "property": "C36",
   "status": "proved",
   "theorems": [
    "Verif.Writev.copy_exact",
    "Verif.Writev.copy_prefix",
    "Verif.Writev.copy_succeeds"
   ],
   "note": "Every content and every sequence of partial reads, writes and interruptions."
  },
  {
   "property": "C37",
   "status": "partial",
   "theorems": [
    "Verif.NtfJson.replay_exact_partial",
    "Verif.NtfJson.replay_concurrent_partial",
    "Verif.NtfJson.renamed_replayed_twice",
    "Verif.NtfJson.late_replayed_twice",
    "Verif.NtfJson.renamed_before_open_fails",
    "Verif.NtfJson.clock_back_replay_wrong",
    "Verif.NtfJson.epoch_start_skips"
   ],
   "note": "Every history while the time does not go back, also with later notifications being stored while a file is open. False with a file renamed between two files (replayed twice, or an error), with the time going back, and from the first second after the epoch (witnesses)."
  },
  {
   "property": "C38",
   "status": "partial",
   "theorems": [
    "Verif.NtfJson.store_fails_iff",
    "Verif.NtfJson.store_ok_partial",
    "Verif.NtfJson.same_second_fails",
    "Verif.NtfJson.clock_back_overwrites"
   ],
   "note": "Exact condition of failing; false for more than 1 MiB in one second (witness). With the time going back a whole file can be lost (witness)."
  },
  {
   "property": "C39",
   "status": "partial",
   "theorems": [
    "Verif.NtfJson.earliest_first_partial",
    "Verif.NtfJson.earliest_not_min"
   ],
   "note": "While the time does not go back; false otherwise (witness)."
  },
  {
   "property": "C40",
   "status": "partial",
   "theorems": [
    "Verif.NtfJson.access_set_returns_partial",
    "Verif.NtfJson.access_set_never_returns"
   ],
   "note": "False whenever anything is stored: proved that it never returns."
  },
  {
   "property": "C41",
   "status": "partial",
   "theorems": [
    "Verif.NotifBuf.stored_in_order",
    "Verif.NotifBuf.all_stored_partial",
    "Verif.NotifBuf.no_lost_wakeup",
    "Verif.NotifBuf.stop_ends",
    "Verif.NotifBuf.thread_fails_only",
    "Verif.NotifBuf.late_lock_loses",
    "Verif.NotifBuf.failed_write_loses_rest"
   ],
   "note": "All interleavings; never twice or out of order, all stored unless the thread fails, which happens exactly on a contended lock after 500 ms or a failed write or wait; then later notifications are lost and success is reported (witnesses)."
  },
  {
   "property": "C42",
   "status": "partial",
   "theorems": [
    "Verif.Replay.live_at_most_once",
    "Verif.Replay.exactly_once_partial",
    "Verif.Replay.stored_late_missed",
    "Verif.Replay.same_time_missed",
    "Verif.Replay.clock_back_twice",
    "Verif.Replay.discarded_missed",
    "Verif.Replay.late_unsubscribe_loses",
    "Verif.Replay.pending_at_stop_lost",
    "Verif.Replay.delivered_after_stop",
    "Verif.Replay.replay_ignores_access"
   ],
   "note": "Any number of concurrent senders and other subscriptions. Exactly once, replayed before live, in runs with a forward clock, storing finished before the replay and no event thrown away; each condition is shown necessary by a run in which a notification is lost or delivered twice. Replayed notifications bypass access control (witness)."
  },
  {
   "property": "C43",
   "status": "partial",
   "theorems": [
    "Verif.NacmPath.rule_applies_partial",
    "Verif.NacmPath.covers_applies",
    "Verif.NacmPath.above_partly",
    "Verif.NacmPath.no_oob",
    "Verif.NacmPath.name_prefix_matches",
    "Verif.NacmPath.slash_in_value_matches",
    "Verif.NacmPath.quote_in_value_oob"
   ],
   "note": "Exact for all canonical paths unless the target's name is a beginning of another name at the same place (then it wrongly applies, witness); values with brackets or quotes are mishandled (witnesses)."
  },
  {
   "property": "C44",
   "status": "partial",
   "theorems": [
    "Verif.NacmGroup.rule_list_applies_partial",
    "Verif.NacmGroup.rule_list_named",
    "Verif.NacmGroup.collect_exact",
    "Verif.NacmGroup.sortAdd_spec",
    "Verif.NacmGroup.sortDel_spec",
    "Verif.NacmGroup.wildcard_missed"
   ],
   "note": "For every history of group changes and every user; the wildcard is missed when the rule list names a group sorting before it (witness)."
  },
  {
   "property": "C45",
   "status": "proved",
   "theorems": [
    "Verif.Nacm.decision_exact",
    "Verif.Nacm.not_checked_exact"
   ],
   "note": "Every configuration, user, node and operation. What a rule path covers is C43, which rule lists are the user's is C44."
  },
  {
   "property": "C46",
   "status": "partial",
   "theorems": [
    "Verif.Nacm.get_data_filtered_partial",
    "Verif.Nacm.returned_leaf_permitted",
    "Verif.Nacm.top_level_item",
    "Verif.Nacm.top_level_leaf_exact",
    "Verif.Nacm.denied_item_returned",
    "Verif.Nacm.denied_ancestor_returned",
    "Verif.Nacm.augment_leaks"
   ],
   "note": "sr_get_data proved for every tree of data nodes of one module; a permitted container discloses denied nodes of other modules in it. sr_get_item, sr_get_items and sr_get_node return denied nodes unless top-level (witness and general theorem)."
  },
  {
   "property": "C47",
   "status": "partial",
   "theorems": [
    "Verif.Nacm.refused_change_denied",
    "Verif.Nacm.denied_change_refused_partial",
    "Verif.Nacm.partial_deny_leaks",
    "Verif.Nacm.augment_write_leaks",
    "Verif.Nacm.move_leaks"
   ],
   "note": "A refusal is always justified. A denied change is refused for nodes of one module with one operation per subtree; accepted wrongly otherwise (three witnesses)."
  },
  {
   "property": "C48",
   "status": "partial",
   "theorems": [
    "Verif.XPathUtil.recover_restores_partial",
    "Verif.XPathUtil.no_access_outside_partial",
    "Verif.XPathUtil.first_call_inside",
    "Verif.XPathUtil.one_char_replaced",
    "Verif.XPathUtil.node_ends",
    "Verif.XPathUtil.key_search_ends_partial",
    "Verif.XPathUtil.passed_again",
    "Verif.XPathUtil.key_search_hangs",
    "Verif.XPathUtil.node_name_top_level"
   ],
   "note": "For every string and every sequence of calls that passes the string again only after recovering it. False without recovering (passed_again); the search for a key may not end (key_search_hangs); sr_xpath_node_name reads in front of an empty string."
  },
  {
   "property": "C49",
   "status": "proved",
   "theorems": [
    "Verif.XPathUtil.iteration_exact",
    "Verif.XPathUtil.nodes_in_order",
    "Verif.XPathUtil.key_value_exact",
    "Verif.XPathUtil.node_rel_wrong_node"
   ],
   "note": "Every path and every sequence of next_node, next_node_with_ns, next_key_name and next_key_value; sr_xpath_key_value by names. sr_xpath_node_rel returns a wrong node (witness)."
  },
  {
   "property": "C50",
   "status": "partial",
   "theorems": [
    "Verif.XPathTrim.trim_predicates_exact",
    "Verif.XPathTrim.trim_last_partial",
    "Verif.XPathTrim.bracket_in_value",
    "Verif.XPathTrim.nested_predicate",
    "Verif.XPathTrim.len_counts",
    "Verif.XPathTrim.len_plain_path_partial",
    "Verif.XPathTrim.predicate_counted"
   ],
   "note": "sr_get_trim_predicates is exact for every string (and refuses exactly the malformed ones); sr_xpath_trim_last_node proved for predicates without brackets inside and false otherwise; sr_xpath_len_no_predicates counts text of predicates (witness)."
  },
  {
   "property": "C51",
   "status": "partial",
   "theorems": [
    "Verif.Time.add_exact_partial",
    "Verif.Time.add_null_exact",
    "Verif.Time.add_normal",
    "Verif.Time.add_goes_back",
    "Verif.Time.cmp_exact",
    "Verif.Time.sub_exact",
    "Verif.Time.sub_ms_exact_partial",
    "Verif.Time.sub_ms_wraps"
   ],
   "note": "Comparison and subtraction exact for all times; addition exact unless the milliseconds overflow 32 bits (add_goes_back); the difference in milliseconds is exact below 24 days (sub_ms_wraps)."
  },
  {
   "property": "C52",
   "status": "partial",
   "theorems": [
    "Verif.GetData.result_exact_partial",
    "Verif.GetData.unlimited_exact",
    "Verif.GetData.one_level_too_deep",
    "Verif.GetData.selected_node_missing"
   ],
   "note": "The result is proved exactly for every data, selection and depth, each node once under its parent; the limit is one level more than documented, and nested selected nodes below the limit are missing (witnesses)."
  },
  {
   "property": "C53",
   "status": "proved",
   "theorems": [
    "Verif.NextMod.every_module_once",
    "Verif.NextMod.modules_before_unknown_once",
    "Verif.NextMod.behind_unknown_skipped"
   ],
   "note": "For all data whose nodes belong to the modules; nodes of unknown modules (opaque) end the iteration (witness)."
  },
  {
   "property": "C54",
   "status": "partial",
   "theorems": [
    "Verif.Time.update_on_period_partial",
    "Verif.Time.update_off_period",
    "Verif.Time.future_anchor_ignored"
   ],
   "note": "False in general: the remainder is added instead of its complement (update_off_period), and a future anchor is ignored. Proved for subscriptions made on the period or in its middle."
  },
  {
   "property": "C55",
   "status": "partial",
   "theorems": [
    "Verif.Time.dampening_partial",
    "Verif.Time.sent_too_early",
    "Verif.Time.long_dampening_ignored"
   ],
   "note": "Proved up to 1 ms for dampening periods below 2^31 ms; false for longer ones."
  },
  {
   "property": "C56",
   "status": "partial",
   "theorems": [
    "Verif.NacmConf.rules_mirror_partial",
    "Verif.NacmConf.rules_mirror_from_empty",
    "Verif.NacmConf.prefix_misplaces",
    "Verif.NacmConf.target_last",
    "Verif.NacmConf.target_mirrors_partial",
    "Verif.NacmConf.retarget_loses"
   ],
   "note": "Every history in which no name is a proper prefix of another; false otherwise (witness). The target is lost when the removal of the old leaf is reported after the new one (witness)."
  },
  {
   "property": "C57",
   "status": "partial",
   "theorems": [
    "Verif.Nacm.operation_checked_partial",
    "Verif.Nacm.rpc_checked",
    "Verif.Nacm.grandparent_not_checked"
   ],
   "note": "Exact: the operation and its direct parent are checked; farther ancestors are not (witness)."
  },
  {
   "property": "C58",
   "status": "partial",
   "theorems": [
    "Verif.NtfRec.roundtrip_partial",
    "Verif.NtfRec.skip_reads",
    "Verif.NtfRec.torn_record_loses_later"
   ],
   "note": "Complete records; a torn record loses the later ones (witness)."
  },
  {
   "property": "C59",
   "status": "partial",
   "theorems": [
    "Verif.Rotation.rotated_iff_partial",
    "Verif.Rotation.rotated_only_notif",
    "Verif.Rotation.older_than_exact",
    "Verif.Rotation.dotted_never_rotated"
   ],
   "note": "Module names without a dot; files of the others are never moved (witness)."
  },
  {
   "property": "C60",
   "status": "proved",
   "theorems": [
    "Verif.SubTables.poll_diff_unique",
    "Verif.SubTables.subscribe_poll"
   ],
   "note": "Every history."
  },
  {
   "property": "C61",
   "status": "partial",
   "theorems": [
    "Verif.Pipeline.stored_under_write_lock_partial",
    "Verif.Pipeline.replaced_under_write_lock_partial",
    "Verif.Pipeline.stored_without_write_lock",
    "Verif.Pipeline.stored_read_locked"
   ],
   "note": "Holds for the modules named in the changes; witnesses for dependencies changed by validation or by update subscribers."
  },
  {
   "property": "C62",
   "status": "partial",
   "theorems": [
    "Verif.Pipeline.commit_late_ok",
    "Verif.Pipeline.others_kept_partial",
    "Verif.Pipeline.commit_reverts_other_change"
   ],
   "note": "Holds if running of the unmodified modules is not changed between loading the candidate and locking running; witness that otherwise the change is undone."
  },
  {
   "property": "C63",
   "status": "partial",
   "theorems": [
    "Verif.Pipeline.reset_to_factory_partial",
    "Verif.Pipeline.reset_keeps_others_partial",
    "Verif.Pipeline.dependents_wiped",
    "Verif.Pipeline.unasked_module_deleted",
    "Verif.Pipeline.half_reset"
   ],
   "note": "Given modules are reset whenever validation and subscribers add nothing; others stay if the given modules are closed under dependencies. General theorem and witness: otherwise running data of modules that depend on them are deleted. A failure in running leaves startup reset (witness)."
  },
  {
   "property": "C64",
   "status": "partial",
   "theorems": [
    "Verif.ChangeIter.changes_are_the_difference",
    "Verif.ChangeIter.no_change_twice",
    "Verif.ChangeIter.nothing_read_nothing_changed",
    "Verif.ChangeIter.default_change_unseen",
    "Verif.Edit.exact_kids_all"
   ],
   "note": "All data, edits, schemas and selections. Missing: moves of user-ordered instances (the place of a created one is taken as given), changes of the default flag only are not reported by the code."
  },
  {
   "property": "C65",
   "status": "partial",
   "theorems": [
    "Verif.ChangeIter.dup_iter_same_partial",
    "Verif.ChangeIter.dup_iter_dangling"
   ],
   "note": "The code searches the session's diff instead of the copy: every use after the callback that selected something reads freed memory."
  },
  {
   "property": "C66",
   "status": "partial",
   "theorems": [
    "Verif.OperFilter.not_asked_irrelevant",
    "Verif.OperFilter.filtered_read_partial",
    "Verif.OperFilter.predicate_provider_skipped",
    "Verif.OperFilter.alternatives_skipped",
    "Verif.OperFilter.restricted_node_skipped",
    "Verif.OperFilter.union_part_skipped",
    "Verif.OperFilter.key_letter_skipped"
   ],
   "note": "For all paths of names, wildcards and key predicates, all providers and data, if the key names differ beyond their first letter. False for names of keys that do not (key_letter_skipped), and for other predicates and unions (four witnesses). Cached polled data are not modelled."
  },
  {
   "property": "C67",
   "status": "partial",
   "theorems": [
    "Verif.Names.shm_names_partial",
    "Verif.Names.data_names",
    "Verif.Names.prefixes_partial",
    "Verif.Names.oper_files_partial",
    "Verif.Names.hash_one_char",
    "Verif.Names.hash_prio",
    "Verif.Names.segments_independent_partial",
    "Verif.Names.data_module_clash",
    "Verif.Names.prefixes_clash",
    "Verif.Names.other_module_found",
    "Verif.Names.paths_collide"
   ],
   "note": "Exact for all names of one instance; the only clash is a module data_X beside X. False for hashes of paths, for some pairs of prefixes, and for a module called X.operational (witnesses). Files of notifications are in C39-C40."
  },
  {
   "property": "C68",
   "status": "partial",
   "theorems": [
    "Verif.ConnAlive.live_not_dead_partial",
    "Verif.ConnAlive.live_keeps_lock_partial",
    "Verif.ConnAlive.finished_found",
    "Verif.ConnAlive.disconnect_ends",
    "Verif.ConnAlive.crash_ends",
    "Verif.ConnAlive.check_answers",
    "Verif.ConnAlive.connecting_killed",
    "Verif.ConnAlive.leftover_race",
    "Verif.ConnAlive.disconnect_fails",
    "Verif.ConnAlive.failed_connect_stays"
   ],
   "note": "All schedules, crashes and leftovers, for checks of connections that were established. False when the list of connections is read while one is being created (connecting_killed, leftover_race); disconnecting can fail because of a check (disconnect_fails)."
  },
  {
   "property": "C69",
   "status": "partial",
   "theorems": [
    "Verif.Startup.one_at_a_time_partial",
    "Verif.Startup.connected_good_partial",
    "Verif.Startup.same_memory_partial",
    "Verif.Startup.never_recovers",
    "Verif.Startup.first_crash",
    "Verif.Startup.close_breaks_lock",
    "Verif.Startup.disconnect_breaks_lock",
    "Verif.Startup.failed_first_splits"
   ],
   "note": "Holds if no thread disconnects or fails while another of the same process connects (closing the lock file releases the record lock) and the first initialisation neither fails nor is interrupted; false otherwise (witnesses; never_recovers is for all continuations)."
  },
  {
   "property": "C70",
   "status": "partial",
   "theorems": [
    "Verif.ModOps.install_success_partial",
    "Verif.ModOps.install_data_partial",
    "Verif.ModOps.install_failure_partial",
    "Verif.ModOps.hole_disables_features",
    "Verif.ModOps.star_ignored",
    "Verif.ModOps.install_race_loses_feature",
    "Verif.ModOps.install_race_kills",
    "Verif.ModOps.failed_store_changes_data",
    "Verif.ModOps.back_dependency_keeps_module",
    "Verif.ModOps.install_crash_breaks_connecting"
   ],
   "note": "For every behaviour of libyang that meets the stated laws, every set of modules and data. False when an enabled feature is not named again, for '*' on an installed module, when another change of modules comes between reading and locking, when storing data fails, and when an installed module would depend on a new one (witnesses). Default nodes and replay support are not modelled."
  },
  {
   "property": "C71",
   "status": "partial",
   "theorems": [
    "Verif.ModOps.remove_success",
    "Verif.ModOps.remove_refused",
    "Verif.ModOps.remove_failure_partial",
    "Verif.ModOps.failed_remove_removes"
   ],
   "note": "Success for every case; failure if the steps after storing the internal data do not fail (witness otherwise). With force, modules depending on data of the removed ones are not removed too (the call is refused by libyang or they keep dangling references)."
  },
  {
   "property": "C72",
   "status": "partial",
   "theorems": [
    "Verif.ModOps.update_success",
    "Verif.ModOps.update_failure_partial",
    "Verif.ModOps.feature_success",
    "Verif.ModOps.feature_failure_partial",
    "Verif.ModOps.failed_update_breaks_connecting",
    "Verif.ModOps.feature_kills"
   ],
   "note": "Success for every case; failure if the steps after storing the internal data do not fail (witness otherwise). A feature with which the module needs a module that is not implemented kills the process (witness)."
  },
  {
   "property": "C73",
   "status": "partial",
   "theorems": [
    "Verif.ModOps.views_agree_partial",
    "Verif.ModOps.restart_keeps",
    "Verif.ModOps.install_crash_breaks_connecting",
    "Verif.ModOps.failed_update_breaks_connecting",
    "Verif.ModOps.content_id_stale_after_restart",
    "Verif.ModOps.install_race_loses_feature",
    "Verif.ModOps.hole_disables_features"
   ],
   "note": "All histories of any connections with restarts, if the operations are calm (OpCalm). False otherwise (witnesses)."
  },
  {
   "property": "C74",
   "status": "proved",
   "theorems": [
    "Verif.SubCtx.removed_only_asked",
    "Verif.SubCtx.removed_one",
    "Verif.SubCtx.ids_unique",
    "Verif.SubCtx.gone_forever",
    "Verif.SubCtx.not_found_right",
    "Verif.SubCtx.callback_subscribed",
    "Verif.SubCtx.callback_blocks",
    "Verif.SubCtx.search_goes_on"
   ],
   "note": "All schedules of any number of threads; IDs that do not wrap."
  },
  {
   "property": "C75",
   "status": "proved",
   "theorems": [
    "Verif.SubCtx.last_notification_sent",
    "Verif.SubCtx.last_notification_last"
   ],
   "note": "All schedules of any number of threads."
  },
  {
   "property": "C76",
   "status": "partial",
   "theorems": [
    "Verif.SubCtx.unsubscribed_partial",
    "Verif.SubCtx.unsubscribe_left_behind"
   ],
   "note": "Holds if removals do not overlap; false otherwise (witness): the removal skips silently when the subscription was moved to another index."
  },
  {
   "property": "C77",
   "status": "partial",
   "theorems": [
    "Verif.SubCtx.session_unsubscribed_partial",
    "Verif.SubCtx.registered_partial",
    "Verif.SubCtx.all_unsubscribed",
    "Verif.SubCtx.session_left_behind"
   ],
   "note": "Holds if the session does not subscribe while its subscriptions are being removed; false otherwise (witness)."
  },
  {
   "property": "C78",
   "status": "partial",
   "theorems": [
    "Verif.SubCtx.no_released_memory_partial",
    "Verif.SubCtx.released_by_removal",
    "Verif.SubCtx.released_by_subscribe"
   ],
   "note": "Holds if removals do not overlap and nobody subscribes during one; false otherwise (witnesses). Only the pointer of the stop time loop is modelled."
  },
  {
   "property": "C79",
   "status": "proved",
   "theorems": [
    "Verif.Enabled.enabled_exactly",
    "Verif.Enabled.nothing_enabled",
    "Verif.Enabled.enabled_event",
    "Verif.Enabled.same_order"
   ],
   "note": "All data, subscriptions and selections; a selected node is not the root of all data. One module; origin and default flags are not modelled."
  },
  {
   "property": "C80",
   "status": "partial",
   "theorems": [
    "Verif.Enabled.whole_order",
    "Verif.Enabled.single_order_partial",
    "Verif.Enabled.same_order",
    "Verif.Enabled.order_lost"
   ],
   "note": "Holds for subscriptions to whole modules and for selections that together are in document order (one XPath); false for several subscriptions (witness)."
  },
  {
   "property": "C81",
   "status": "partial",
   "theorems": [
    "Verif.Deps.applied_valid_partial",
    "Verif.Deps.instance_dangling",
    "Verif.Deps.when_dangling",
    "Verif.Deps.second_module_dangling"
   ],
   "note": "Holds under conditions each of which is needed (witnesses): no inverse dependencies of instance-identifiers, inverse dependencies followed once, one module of a leafref. One edit without update subscribers; libyang's validation is a parameter with laws."
  },
  {
   "property": "C82",
   "status": "partial",
   "theorems": [
    "Verif.Deps.judged_on_all_data_partial",
    "Verif.Deps.nothing_changed",
    "Verif.Deps.default_rejected",
    "Verif.Deps.second_module_dangling"
   ],
   "note": "Holds if leafrefs have nodes of at most one other module and default instance-identifiers are not added next to existing ones; false otherwise (witnesses)."
  },
  {
   "property": "C83",
   "status": "partial",
   "theorems": [
    "Verif.Deps.validated_applies",
    "Verif.Deps.applies_validated_partial",
    "Verif.Deps.candidate_validated",
    "Verif.Deps.validate_misses",
    "Verif.Deps.candidate_module_rejected"
   ],
   "note": "Holds without a module name (an edit reverted by the validation excepted); false with a module name (witnesses)."
  },
  {
   "property": "C84",
   "status": "partial",
   "theorems": [
    "Verif.Deps.loaded_once",
    "Verif.Deps.assertion_holds",
    "Verif.Deps.update_loaded_once_partial",
    "Verif.Deps.update_loads_twice"
   ],
   "note": "Holds without update subscribers and with cached running data; false otherwise (witness)."
  },
  {
   "property": "C85",
   "status": "partial",
   "theorems": [
    "Verif.DbUo.order_kept_partial",
    "Verif.DbUo.numbers_right",
    "Verif.DbUo.overflow_order",
    "Verif.DbUo.same_name_order",
    "Verif.DbUo.quote_crash",
    "Verif.DbUo.quote_order"
   ],
   "note": "Holds for fewer than 2^21 changes, leaf-list values without apostrophes and no two neighbouring lists of one name; false otherwise (witnesses). The database itself does what it is told."
  },
  {
   "property": "C86",
   "status": "proved",
   "theorems": [
    "Verif.DbPath.keys_round_trip",
    "Verif.DbPath.keys_refused"
   ],
   "note": "All keys, also with bytes behind the buffer."
  },
  {
   "property": "C87",
   "status": "partial",
   "theorems": [
    "Verif.DbPath.loaded_in_place_partial",
    "Verif.DbPath.history_loaded_partial",
    "Verif.DbPath.both_quotes_misplaced",
    "Verif.DbPath.both_quotes_crash"
   ],
   "note": "Holds for all data without values that have both kinds of quotes; false for those (witnesses). The operational datastore, which is loaded in the stored order, is not modelled."
  },
  {
   "property": "C88",
   "status": "partial",
   "theorems": [
    "Verif.DbPath.redis_records_exact",
    "Verif.DbPath.mongo_records_exact_partial",
    "Verif.DbPath.list_instance_alone",
    "Verif.DbPath.history_loaded_partial",
    "Verif.DbPath.sibling_deleted"
   ],
   "note": "Full for Redis; for MongoDB if no sibling name begins with the whole name of a deleted node; false otherwise (witness). The path is all that is modelled of a record."
  },
  {
   "property": "C89",
   "status": "partial",
   "theorems": [
    "Verif.DbPath.part_complete_partial",
    "Verif.DbPath.everything_loaded",
    "Verif.DbPath.mongo_everything_loaded",
    "Verif.DbPath.spelling_missed",
    "Verif.DbPath.second_xpath_missed"
   ],
   "note": "Holds for paths written as in the database and, with MongoDB, any XPaths that are not paths; false otherwise (witnesses)."
  },
  {
   "property": "C90",
   "status": "partial",
   "theorems": [
    "Verif.YpChange.receiver_in_step_partial",
    "Verif.YpChange.moved_lost",
    "Verif.YpChange.nested_delete_refused",
    "Verif.YpChange.recreated_refused",
    "Verif.YpChange.quotes_drop"
   ],
   "note": "Content only, without the order of instances; no path with both kinds of quotes, no instance moved while an edit of it waits. False without (witnesses), and for receivers that check the patch."
  },
  {
   "property": "C91",
   "status": "partial",
   "theorems": [
    "Verif.YpChange.at_once",
    "Verif.YpChange.waits_for_timer_partial",
    "Verif.YpChange.timer_sends",
    "Verif.YpChange.stalled",
    "Verif.YpChange.stall_reached",
    "Verif.YpChange.quotes_drop",
    "Verif.YpChange.crash_reached"
   ],
   "note": "Holds until the timer has fired once; then nothing is sent any more (proved for all continuations). That the timer thread runs in time is assumed."
  },
  {
   "property": "C92",
   "status": "proved",
   "theorems": [
    "Verif.YpChange.spacing"
   ],
   "note": "For all runs with a clock that does not go back, in milliseconds."
  },
  {
   "property": "C93",
   "status": "proved",
   "theorems": [
    "Verif.YpChange.ids_increase",
    "Verif.YpChange.resync_number"
   ],
   "note": "Until a resynchronisation; numbers do not wrap in the model."
  },
  {
   "property": "C94",
   "status": "partial",
   "theorems": [
    "Verif.YpChange.only_asked",
    "Verif.YpChange.asked_reported_partial",
    "Verif.YpChange.point_wrong"
   ],
   "note": "The point of an insert or move after an instance is always wrong (proved); removing unreadable nodes from values is not in this model."
  },
  {
   "property": "C95",
   "status": "partial",
   "theorems": [
    "Verif.SubFilter.filter_exact_partial",
    "Verif.SubFilter.value_injected",
    "Verif.SubFilter.value_malformed",
    "Verif.SubFilter.leaf_list_all",
    "Verif.SubFilter.top_content_ignored",
    "Verif.SubFilter.foreign_namespace",
    "Verif.SubFilter.augment_missed",
    "Verif.SubFilter.default_namespace_ignored"
   ],
   "note": "Exact for all filters and data within the stated conditions, false outside of them (witnesses). Filters with attributes are not modelled; the XPath is evaluated by a model of the part of XPath that occurs."
  },
  {
   "property": "C96",
   "status": "partial",
   "theorems": [
    "Verif.SubFilter.conversion_safe_partial",
    "Verif.SubFilter.top_value_crash"
   ],
   "note": "All filters but those with a content match node at the top that is opaque and has a prefix, which crash (proved for all of them)."
  },
  {
   "property": "C97",
   "status": "partial",
   "theorems": [
    "Verif.SnPipe.read_exact_partial",
    "Verif.SnPipe.nothing_left_partial",
    "Verif.SnPipe.next_read_partial",
    "Verif.SnPipe.large_never_read",
    "Verif.SnPipe.content_taken_for_notification",
    "Verif.SnPipe.content_overflows_buffer"
   ],
   "note": "Notifications of at most 4076 bytes; larger ones may be cut, desynchronise the reader, and overflow its buffer (witnesses)."
  },
  {
   "property": "C98",
   "status": "proved",
   "theorems": [
    "Verif.SnDispatch.passed_in_order",
    "Verif.SnDispatch.passed_with_data",
    "Verif.SnDispatch.all_passed",
    "Verif.SnDispatch.only_terminated_closed",
    "Verif.SnDispatch.in_bounds",
    "Verif.SnDispatch.count_exact"
   ],
   "note": "Stopping the thread (srsn_read_dispatch_destroy) is not modelled."
  },
  {
   "property": "C99",
   "status": "partial",
   "theorems": [
    "Verif.SnDispatch.none_after_terminate_partial",
    "Verif.SnDispatch.all_before_terminate_partial",
    "Verif.SnDispatch.passed_after_terminate"
   ],
   "note": "Unless the wait in srsn_terminate times out after a second, then it is false (witness)."
  }
 ]
}