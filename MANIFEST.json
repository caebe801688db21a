{
 "claims": [
  {
   "property": "C01",
   "status": "proved",
   "theorems": [
    "Verif.Codec.C01_frame_roundtrip",
    "Verif.Codec.C01_encode_injective"
   ],
   "note": ""
  },
  {
   "property": "C02",
   "status": "proved",
   "theorems": [
    "Verif.Codec.C02_any_chunking",
    "Verif.Codec.C02_any_chunking_one_buffer"
   ],
   "note": ""
  },
  {
   "property": "C03",
   "status": "proved",
   "theorems": [
    "Verif.Codec.C03_prefix_incomplete",
    "Verif.Codec.C03_complete_then_prefix"
   ],
   "note": ""
  },
  {
   "property": "C04",
   "status": "proved",
   "theorems": [
    "Verif.Codec.C04_encode_appends"
   ],
   "note": ""
  },
  {
   "property": "C05",
   "status": "proved",
   "theorems": [
    "Verif.Codec.C05_decode_total",
    "Verif.Codec.C05_decode_canonical",
    "Verif.Codec.C05_stream_bounded",
    "Verif.Codec.C05_bad_record_ends_stream",
    "Verif.Codec.C05_error_is_genuine"
   ],
   "note": ""
  },
  {
   "property": "C06",
   "status": "partial",
   "theorems": [
    "Verif.Codec.C06_record_isolated_violated",
    "Verif.Codec.C06_record_isolated_partial"
   ],
   "note": "Full claim violated (decoder reads past the declared length, witness C06_record_isolated_violated); records that contain a whole frame are isolated."
  },
  {
   "property": "C07",
   "status": "partial",
   "theorems": [
    "Verif.Hello.C07_same_cookie_accepts",
    "Verif.Hello.C07_same_cookie_accepts_over_wire",
    "Verif.Hello.C07_accepts_iff_partial",
    "Verif.Hello.C07_wrong_cookie_rejected_partial",
    "Verif.Hello.C07_tampered_field_rejected_partial",
    "Verif.Hello.C07_binding_violated",
    "Verif.Hello.C07_binding_partial",
    "Verif.Hello.C07_tampered_address_rejected_partial",
    "Verif.Hello.C07_validate_consumes"
   ],
   "note": "Acceptance for equal cookies is unconditional; rejection assumes an ideal (injective) MAC; name and address are only authenticated as a concatenation (witness C07_binding_violated)."
  },
  {
   "property": "C08",
   "status": "proved",
   "theorems": [
    "Verif.Hello.C08_no_cookie_accepts_iff",
    "Verif.Hello.C08_no_cookie_mutual"
   ],
   "note": ""
  },
  {
   "property": "C09",
   "status": "partial",
   "theorems": [
    "Verif.World.C09_same_process",
    "Verif.World.C09_stable",
    "Verif.World.C09_home",
    "Verif.World.C09_distinct",
    "Verif.World.C09_unknown_nodes_violated",
    "Verif.World.C09_undistributed_violated"
   ],
   "note": "C09_unknown_nodes_violated: C09 fails for pids of nodes that are not (any more) known: they lose their node on the wire, so two different processes may become one pid. C09_undistributed_violated: C09 fails on a node that is not distributed: a local pid that is written and read again (as `Process::send` to several destinations does with all messages but the first) is not the local pid any more."
  },
  {
   "property": "C10",
   "status": "proved",
   "theorems": [
    "Verif.World.C10_same_reference",
    "Verif.World.C10_home"
   ],
   "note": ""
  },
  {
   "property": "C11",
   "status": "proved",
   "theorems": [
    "Verif.World.C11_foreign_never_local",
    "Verif.World.C11_other_owner"
   ],
   "note": ""
  },
  {
   "property": "C12",
   "status": "proved",
   "theorems": [
    "Verif.HashRing.C12_find_successor"
   ],
   "note": ""
  },
  {
   "property": "C13",
   "status": "proved",
   "theorems": [
    "Verif.HashRing.C13_add_minimal_disruption",
    "Verif.HashRing.C13_remove_minimal_disruption",
    "Verif.HashRing.C13_remove_only_own_keys"
   ],
   "note": ""
  },
  {
   "property": "C14",
   "status": "proved",
   "theorems": [
    "Verif.HashRing.C14_override_precedence"
   ],
   "note": ""
  },
  {
   "property": "C15",
   "status": "proved",
   "theorems": [
    "Verif.HashRing.C15_behaves_like_map"
   ],
   "note": ""
  },
  {
   "property": "C16",
   "status": "partial",
   "theorems": [
    "Verif.HashRing.C16_clear_violated",
    "Verif.HashRing.C16_clear_partial"
   ],
   "note": "Violated by hash_ring.rs:204-208: overrides survive clear (witness); nodes are cleared."
  },
  {
   "property": "C17",
   "status": "proved",
   "theorems": [
    "Verif.HashRing.C17_order_independent",
    "Verif.HashRing.C17_bulk_eq_single",
    "Verif.HashRing.C17_history_independent"
   ],
   "note": ""
  },
  {
   "property": "C18",
   "status": "proved",
   "theorems": [
    "Verif.Mailbox.C18_reachable_wf",
    "Verif.Mailbox.C18_select_earliest",
    "Verif.Mailbox.C18_schedule_independent"
   ],
   "note": ""
  },
  {
   "property": "C19",
   "status": "proved",
   "theorems": [
    "Verif.Mailbox.C19_receive_fifo"
   ],
   "note": ""
  },
  {
   "property": "C20",
   "status": "proved",
   "theorems": [
    "Verif.Mailbox.C20_cancel_loses_nothing"
   ],
   "note": ""
  },
  {
   "property": "C21",
   "status": "proved",
   "theorems": [
    "Verif.Mailbox.C21_nonstrict_never_panics",
    "Verif.Mailbox.C21_strict_panics_iff"
   ],
   "note": ""
  },
  {
   "property": "C22",
   "status": "proved",
   "theorems": [
    "Verif.Mailbox.C22_remove_exact"
   ],
   "note": ""
  },
  {
   "property": "C23",
   "status": "proved",
   "theorems": [
    "Verif.World.C23_ids_never_reused",
    "Verif.World.C23_spawn_fresh"
   ],
   "note": ""
  },
  {
   "property": "C24",
   "status": "proved",
   "theorems": [
    "Verif.World.C24_dead_stays_dead",
    "Verif.World.C24_alive_after_spawn",
    "Verif.World.C24_alive_until_terminated"
   ],
   "note": ""
  },
  {
   "property": "C25",
   "status": "proved",
   "theorems": [
    "Verif.World.C25_names_bijection"
   ],
   "note": ""
  },
  {
   "property": "C26",
   "status": "proved",
   "theorems": [
    "Verif.World.C26_register_iff",
    "Verif.World.C26_failure_unchanged",
    "Verif.World.C26_success_effect"
   ],
   "note": ""
  },
  {
   "property": "C27",
   "status": "proved",
   "theorems": [
    "Verif.World.C27_trap_flag",
    "Verif.World.C27_exit_table",
    "Verif.World.C27_exit_missing"
   ],
   "note": ""
  },
  {
   "property": "C28",
   "status": "proved",
   "theorems": [
    "Verif.World.C28_kill",
    "Verif.World.C28_kill_final"
   ],
   "note": ""
  },
  {
   "property": "C29",
   "status": "proved",
   "theorems": [
    "Verif.World.C29_death_signals",
    "Verif.World.C29_link_establishes",
    "Verif.World.C29_spawn_link_establishes",
    "Verif.World.C29_link_persists",
    "Verif.World.C29_unlinked_persists",
    "Verif.World.C29_link_then_death",
    "Verif.World.C29_link_self"
   ],
   "note": ""
  },
  {
   "property": "C30",
   "status": "partial",
   "theorems": [
    "Verif.World.C30_unlink_bidirectional_violated",
    "Verif.World.C30_unlink_partial"
   ],
   "note": "C30_unlink_bidirectional_violated: C30 is false of the code: `unlink` removes only the direction from the other process. Here process 1 links to process 2 and unlinks it again; when 1 dies, 2 is terminated nevertheless (link.rs:74-89 changes `LINKS[pid]` only). C30_unlink_partial: C30, the direction that holds: after `unlink(b)` by `a`, and as long as the two do not link again, the death of `b` sends `a` no exit signal. Missing: the death of `a` does affect `b` (previous theorem)."
  },
  {
   "property": "C31",
   "status": "proved",
   "theorems": [
    "Verif.World.C31_cascade"
   ],
   "note": ""
  },
  {
   "property": "C32",
   "status": "proved",
   "theorems": [
    "Verif.World.C32_exactly_one_down",
    "Verif.World.C32_down_accepted",
    "Verif.World.C32_dest_known"
   ],
   "note": ""
  },
  {
   "property": "C33",
   "status": "partial",
   "theorems": [
    "Verif.World.C33_no_down_after_demonitor_partial",
    "Verif.World.C33_no_down_after_demonitor_violated",
    "Verif.World.C33_entry_gone"
   ],
   "note": "C33_no_down_after_demonitor_partial: C33, without the messages a selective receive has already set aside. After any history `os`, in which `a` got the reference `r`, `a` calls `demonitor(r)`; if no selective receive of `a` has already passed over a Down for `r` (such a message is an ordinary message in the mailbox, and stays), then after any further history no receive of `a`, of whatever type and filter, returns a Down for `r` - even if the monitored process died before the call and the Down was in the mailbox. Missing: `C33_no_down_after_demonitor_violated`. C33_no_down_after_demonitor_violated: C33 is false of the code: a selective receive that passes over the Down turns it into an ordinary message and forgets the monitor (process_receiver.rs:203-210), so `demonitor` does not find it and the next receive returns it."
  },
  {
   "property": "C34",
   "status": "proved",
   "theorems": [
    "Verif.World.C34_monitor_dead",
    "Verif.World.C34_monitor_unknown_name",
    "Verif.World.C34_link_dead"
   ],
   "note": ""
  },
  {
   "property": "C35",
   "status": "proved",
   "theorems": [
    "Verif.World.C35_used_up",
    "Verif.Race.Down.C35_monitor_alias",
    "Verif.Race.Alias.C35_at_most_once",
    "Verif.Race.Alias.C35_inactive_afterwards",
    "Verif.Race.Alias.C35_first_delivers"
   ],
   "note": ""
  },
  {
   "property": "C36",
   "status": "partial",
   "theorems": [
    "Verif.World.C36_unalias_partial",
    "Verif.World.C36_unalias_own_only_violated",
    "Verif.Race.Alias.C36_race"
   ],
   "note": "C36_unalias_partial: C36, what holds: after `unalias` (of any reference handed out before) and any further history, a message sent to the alias, by anybody on this node or in a frame from another node, reaches nobody and changes nothing; and `unalias` returned whether the alias existed. Missing: it acts on aliases of other processes as well (`C36_unalias_own_only_violated`). C36_unalias_own_only_violated: C36 is false of the code in that `unalias` does not look at the owner (process.rs:121-125): process 2 destroys the alias of process 1 and is told it succeeded; a message to the alias of process 1 is then lost."
  },
  {
   "property": "C37",
   "status": "partial",
   "theorems": [
    "Verif.World.C37_tables_cleaned_partial",
    "Verif.World.C37_outgoing_monitors_removed_partial",
    "Verif.World.C37_aliases_removed_partial",
    "Verif.World.C37_nothing_left_violated",
    "Verif.World.C37_node_monitors_removed_partial",
    "Verif.World.C37_node_monitor_left_violated"
   ],
   "note": "C37_tables_cleaned_partial: C37, the tables keyed by the process: after any history, when a process is dropped its registration, all its names, its link set and the monitors on it are gone, and so are its entries in the link sets of the processes it was linked to. Missing: `C37_nothing_left_violated`. C37_outgoing_monitors_removed_partial: C37, outgoing monitors: process `a` monitors a local process `t` (in any of the ways), keeps the monitor, and dies: the monitor is removed from `t`'s table, as well as the alias created with it, so nothing refers to `a` any more through it. (`Forgets` excludes the reference being abused as a node monitor, or re-targeted by a remote node.) C37_aliases_removed_partial: C37, aliases: an alias created with `alias` is gone after the process dies (whatever was sent to it, whether it was removed before or not). C37_nothing_left_violated: C37 is false of the code. A process that calls `monitor_alias` on itself panics after the alias was created and before it was recorded anywhere (process.rs:339-351, monitor.rs:117): the alias outlives the process. And a process that was linked and unlinked keeps the other one in its link set after that one died (link.rs:74-89). C37_node_monitors_removed_partial: C37, node monitors. After any history process `a` calls `Node::monitor`; it keeps the monitor (and no other node abuses the reference) until it dies. Then no node has an entry for the reference. (It does not hold if the process is terminated by having called `Process::demonitor` on the reference, see `C37_node_monitor_left_violated`.) C37_node_monitor_left_violated: C37 is false for node monitors if the process dies by calling `Process::demonitor` with the reference of a node monitor (process.rs:356-374): the entry of the process is removed first, the panic follows, and the entry of the node stays for ever."
  },
  {
   "property": "C38",
   "status": "proved",
   "theorems": [
    "Verif.World.C38_send_many",
    "Verif.World.C38_send_one",
    "Verif.World.C38_remote_one"
   ],
   "note": ""
  },
  {
   "property": "C39",
   "status": "proved",
   "theorems": [
    "Verif.World.C39_missing_many",
    "Verif.World.C39_missing_one"
   ],
   "note": ""
  },
  {
   "property": "C40",
   "status": "partial",
   "theorems": [
    "Verif.World.C40_one_reason_partial",
    "Verif.World.C40_reason_kept_partial",
    "Verif.World.C40_first_reason_violated",
    "Verif.World.C40_own_reason"
   ],
   "note": "C40_one_reason_partial: C40, the reason is the same for everybody: all exit signals and all Downs of a death carry the recorded reason of the process (normal if its task just returned). Missing: that this is the first one, `C40_first_reason_violated`. C40_reason_kept_partial: C40, when only one terminating event happens: a recorded reason stays until the process is dropped, unless the process itself runs on or another terminating signal comes (an exit signal to it, the death of some process, or a node event). C40_first_reason_violated: C40 is false of the code: `process.exit_reason` is overwritten by every terminating signal until the process is dropped (process_registry.rs:148-189). Process 2 is told to exit with reason `first`, then with `second`, before its task is dropped; the monitoring process is told `second`."
  },
  {
   "property": "C41",
   "status": "partial",
   "theorems": [
    "Verif.Timer.C41_once",
    "Verif.Timer.C41_read",
    "Verif.Timer.C41_read_pending",
    "Verif.Timer.C41_cancel_partial",
    "Verif.Timer.C41_cancel_violated",
    "Verif.Timer.C41_read_fired_partial",
    "Verif.Timer.C41_read_violated",
    "Verif.Timer.C41_fires"
   ],
   "note": "C41_cancel_partial: C41, in part. A timer that is cancelled while its task waits never sends its message, and `read_timer` returns `None` from then on, whatever happens later. What is missing: a `cancel_timer` that runs while the task is about to send, see `C41_cancel_violated`. C41_cancel_violated: C41 fails: `cancel_timer` returns between the end of the sleep and the send on another thread. The timer is gone from the table, yet the message is sent afterwards. C41_read_fired_partial: C41, in part. If `send_after` returned before the task ended, then once the message has been sent and the task has ended `read_timer` returns `None`, for ever. What is missing: see `C41_read_violated`. C41_read_violated: C41 fails: with a short duration the message may be sent and the task may end on another thread before `send_after` has inserted the timer. The timer is then in the table though it has fired: `read_timer` returns `Some(0)` for ever, unless someone cancels it."
  },
  {
   "property": "C42",
   "status": "partial",
   "theorems": [
    "Verif.Race.Spawn.C42_partial",
    "Verif.Race.Spawn.C42_violated",
    "Verif.Race.Spawn.C42_killed",
    "Verif.Race.Spawn.C42_exit_lost_violated"
   ],
   "note": "C42_partial: C42, in part. If the spawner has inserted the registration before the new process is dropped, then whatever else happens: once the drop is complete the process table has no entry for the process, its link or monitor is gone, and the spawner has been told; and the drop does not panic. What is missing: `spawn_internal` does not wait for anything before it inserts the registration, see `C42_violated`. C42_violated: C42 fails: the new process runs and ends on another thread before the spawner has inserted the registration. The drop of the process panics, then the spawner inserts the registration of a process that is dead: it stays in the process table for ever, `is_alive` says it lives, and whoever is linked to it or monitors it is never told, whatever happens next. C42_exit_lost_violated: C42 fails for exit signals too: one that comes when the new process runs already, but the spawner has not inserted the registration yet, is lost."
  },
  {
   "property": "C43",
   "status": "partial",
   "theorems": [
    "Verif.Race.Watch.C43_at_most_one",
    "Verif.Race.Watch.C43_exactly_one_partial",
    "Verif.Race.Watch.C43_violated"
   ],
   "note": "C43_exactly_one_partial: C43, in part. If a process is not dropped while a `monitor` that has found it alive is under way, then once both are over exactly one `Down` has been sent, however many processes watch. What is missing: `process_exists_lock` gives no such guarantee, see `C43_violated`. C43_violated: C43 fails: the target may be dropped between the check and the creation of the entry. Both are over, and the monitoring process is never sent a `Down`."
  },
  {
   "property": "C44",
   "status": "partial",
   "theorems": [
    "Verif.Race.Names.C44_keeps_partial",
    "Verif.Race.Names.C44_distinct_partial",
    "Verif.Race.Names.C44_no_takeover",
    "Verif.Race.Names.C44_violated"
   ],
   "note": "C44_keeps_partial: C44, in part. In every schedule in which no `unregister` overlaps with the drop of the process that has the name: a name that resolves to a process in the table keeps resolving to it as long as the name is not unregistered and the process is not dropped, whatever other processes register, unregister and die in between. What is missing: the overlaps, see `C44_violated`. C44_distinct_partial: C44, in part. Two processes of the table whose `info` shows the same name: one of them is just being unregistered. C44_violated: C44 fails: a name that process 1 has registered stops resolving to it, though 1 lives, was never unregistered and still is registered under the name according to its `info`: the drop of process 0, whose registration had not been cleared yet, removes the name."
  },
  {
   "property": "C45",
   "status": "proved",
   "theorems": [
    "Verif.World.C45_ids_identify",
    "Verif.World.C45_ids_never_reused"
   ],
   "note": ""
  },
  {
   "property": "C46",
   "status": "partial",
   "theorems": [
    "Verif.World.C46_in_order_partial",
    "Verif.World.C46_reconnect_loses_frames_violated"
   ],
   "note": "C46_in_order_partial: C46, while a connection attempt lasts. Take any reachable moment at which the connection to `n` is being set up or is up (its state is not \"known\"), and any later history in which nobody drops the connection. Let `s` be the process that is (or becomes) the connection's sender. Then the frames handed to `s` followed by those still queued are exactly those that were there before followed by all frames sent to the node since, in order: nothing is lost, duplicated or reordered; and once `s` is installed nothing is left queued. Missing: the frames sent after a disconnect and reconnect, see `C46_reconnect_loses_frames_violated`. C46_reconnect_loses_frames_violated: C46 (violated). `node_disconnect` leaves the old sender process in the registration (node_registry.rs:378-387), and the loss of the old supervisor is ignored once a new connection attempt has begun (:288-293): a frame sent while the new connection is being set up goes to the dead sender of the old one instead of the queue, so the new connection never gets it."
  },
  {
   "property": "C47",
   "status": "proved",
   "theorems": [
    "Verif.World.C47_monitor_exactly_one",
    "Verif.World.C47_down_accepted",
    "Verif.World.C47_node_monitor_exactly_one",
    "Verif.World.C47_link_signal",
    "Verif.World.C47_incoming_link_signal"
   ],
   "note": ""
  },
  {
   "property": "C48",
   "status": "partial",
   "theorems": [
    "Verif.World.C48_disconnect_reports_partial",
    "Verif.World.C48_forgotten_events_ignored_violated",
    "Verif.World.C48_forget_silent_violated",
    "Verif.World.C48_connection_killed"
   ],
   "note": "C48_disconnect_reports_partial: C48: `Node::disconnect` is reported. After a monitor of `a` on a process of node `N` and any history `os'` as in C47, if some process disconnects the known node `N` and the supervisor process of the connection then goes down (before the node is connected again), exactly one Down is made. For `forget` and for stopping the local node this fails, see below. C48_forgotten_events_ignored_violated: C48 fails for `Node::forget` and for `Node::stop`: afterwards the events by which the connections report that they are gone are all ignored, for every history. C48_forget_silent_violated: C48 fails: witnesses where process 1 monitors a process of a connected node (and the node), the node is forgotten, or the local node (supervisor process 2) is stopped, and the connection's supervisor (process 3, linked to process 2 as node_remote.rs:370 does) dies and tells so: no report is made although the connection is gone."
  },
  {
   "property": "C49",
   "status": "proved",
   "theorems": [
    "Verif.World.C49_once_despite_loss",
    "Verif.World.C49_exactly_once"
   ],
   "note": ""
  },
  {
   "property": "C50",
   "status": "partial",
   "theorems": [
    "Verif.World.C50_never_told_violated",
    "Verif.World.C50_state_remains_violated",
    "Verif.World.C50_no_down_partial"
   ],
   "note": "C50_never_told_violated: C50 is false of the code, always: whatever the processes of the two nodes do after the connection is set up, and in particular however often they call `demonitor` on monitors of processes of the other node, and whichever of them die, no node ever hands the connection (or queues for it) a frame that removes a monitor. C50_state_remains_violated: C50 is false of the code: process 1 monitors process 6 of the other node and calls `demonitor`; everything that was sent has arrived; the other node still has the monitor, and when process 6 ends (which it does last here) it reports that, so a Down is put in the mailbox of process 1. C50_no_down_partial: C50, the part that holds: what the calling process sees. Two nodes with a connection; after any history `l1` process `a` of the left node, which got the reference `n` from a monitor operation, calls `demonitor`; if no selective receive of `a` has already passed over a Down for `n`, then after any further history `l2` of the two nodes (the monitored process of the right node may die, and its Down may arrive) no receive of `a` returns a Down for `n`. Missing: the other node is told (`C50_never_told_violated`), and nothing remains there (`C50_state_remains_violated`)."
  },
  {
   "property": "C51",
   "status": "proved",
   "theorems": [
    "Verif.World.C51_remote_end_dies",
    "Verif.World.C51_linking_end_dies",
    "Verif.World.C51_signal_despite_loss"
   ],
   "note": ""
  },
  {
   "property": "C52",
   "status": "proved",
   "theorems": [
    "Verif.World.C52_one_connection",
    "Verif.World.C52_accepted_iff",
    "Verif.World.C52_pending_attempt_killed"
   ],
   "note": ""
  },
  {
   "property": "C53",
   "status": "proved",
   "theorems": [
    "Verif.Heartbeat.C53_live",
    "Verif.Heartbeat.C53_silent",
    "Verif.Heartbeat.C53_broken",
    "Verif.Heartbeat.C53_refused",
    "Verif.Heartbeat.C53_down_only",
    "Verif.Heartbeat.C53_ping",
    "Verif.Heartbeat.C53_transparent",
    "Verif.Heartbeat.C53_keeps_writing",
    "Verif.Heartbeat.C53_paced",
    "Verif.Heartbeat.C53_end_to_end",
    "Verif.Heartbeat.C53_no_ping_if_ready"
   ],
   "note": ""
  },
  {
   "property": "C54",
   "status": "partial",
   "theorems": [
    "Verif.Misc.C54_builders_partial",
    "Verif.Misc.C54_heartbeat_timeout_violated"
   ],
   "note": "C54_builders_partial: C54 holds for chains of builder calls without `heartbeat_timeout`. C54_heartbeat_timeout_violated: C54 fails: no chain of builder calls ever changes the heartbeat timeout, and `heartbeat_timeout` changes the handshake timeout instead."
  },
  {
   "property": "C55",
   "status": "proved",
   "theorems": [
    "Verif.World.C55_forward_send",
    "Verif.World.C55_frame"
   ],
   "note": ""
  },
  {
   "property": "C56",
   "status": "proved",
   "theorems": [
    "Verif.World.C56_reply",
    "Verif.World.C56_tags_distinct",
    "Verif.World.C56_server_down"
   ],
   "note": ""
  },
  {
   "property": "C57",
   "status": "partial",
   "theorems": [
    "Verif.Race.Down.C57_race_partial",
    "Verif.Race.Down.C57_race_violated",
    "Verif.World.C57_no_stale_reply_partial",
    "Verif.World.C57_removed_partial",
    "Verif.World.C57_late_reply_violated",
    "Verif.World.C57_reply_to_alias",
    "Verif.World.C57_reply_to_caller",
    "Verif.World.C57_named_late_reply_violated"
   ],
   "note": "C57_race_partial: C57, in part, at the granularity of the accesses, for a server of another node. The call times out and demonitors; if, when it removes the stale reply, no reply is between the look-up of the alias and the mailbox, then there is no reply in the mailbox, and never will be. What is missing: a reply that is there, see `C57_race_violated`. C57_race_violated: C57 fails at the granularity of the accesses also for a server of another node: the receiver has looked the alias up, the call times out, destroys the alias and removes stale replies, and then the receiver puts the reply. It stays in the mailbox, whatever happens next. C57_no_stale_reply_partial: C57, servers on another node that are addressed by pid: when a call has timed out, its tag `n` is an alias no longer, and as long as replies to the call go where `GenServer::reply` sends them (to the alias, in the history since the removal), no reply to the call is in the mailbox of the caller, now or at any later time. Missing: servers of this node and servers that are addressed by name (`C57_late_reply_violated`, `C57_named_late_reply_violated`). C57_removed_partial: C57, all servers: the reply that arrived before the timed-out call removes stale replies is removed; right then the mailbox holds no reply to the call. Missing: replies that arrive later. C57_late_reply_violated: C57 is false of the code for servers of the same node: the server answers after the call has timed out, exactly as `GenServer::reply` does it, and the reply stays in the caller's mailbox. C57_named_late_reply_violated: C57 is false of the code for servers of other nodes that are addressed by name: `demonitor` returns early when it does not know the target yet (process.rs:360-362) and leaves the alias, so a late reply is delivered."
  },
  {
   "property": "C58",
   "status": "proved",
   "theorems": [
    "Verif.World.C58_serve"
   ],
   "note": ""
  },
  {
   "property": "C59",
   "status": "proved",
   "theorems": [
    "Verif.World.C59_ok",
    "Verif.World.C59_ok_if",
    "Verif.World.C59_error"
   ],
   "note": ""
  },
  {
   "property": "C60",
   "status": "proved",
   "theorems": [
    "Verif.World.C60_success",
    "Verif.World.C60_error",
    "Verif.World.C60_success_any"
   ],
   "note": ""
  },
  {
   "property": "C61",
   "status": "proved",
   "theorems": [
    "Verif.Sup.C61_build",
    "Verif.Sup.C61_start_order",
    "Verif.Sup.C61_start_failure",
    "Verif.Sup.C61_stop_order"
   ],
   "note": ""
  },
  {
   "property": "C62",
   "status": "proved",
   "theorems": [
    "Verif.Sup.C62_restart_policy",
    "Verif.Sup.C62_temporary"
   ],
   "note": ""
  },
  {
   "property": "C63",
   "status": "partial",
   "theorems": [
    "Verif.Sup.C63_intensity",
    "Verif.Sup.C63_gives_up_partial",
    "Verif.Sup.C63_gives_up_violated"
   ],
   "note": "C63_gives_up_partial: **C63**: when an exit or retry asks for a restart at time `now`, the supervisor gives up (it shuts down all children and exits with `shutdown`) if there were already `max_restarts` requests in the last `max_duration`, and otherwise goes on. The part missing for the full property: a retry is a request here also if the restart is not performed, because the child was terminated in the meantime (`C63_gives_up_violated`). C63_gives_up_violated: **C63** is violated: with `max_restarts` 1, a child whose restart failed once is terminated on request; the pending retry then makes the supervisor give up although it restarted only once and would not restart anything."
  },
  {
   "property": "C64",
   "status": "proved",
   "theorems": [
    "Verif.Sup.C64_one_for_one"
   ],
   "note": ""
  },
  {
   "property": "C65",
   "status": "partial",
   "theorems": [
    "Verif.Sup.C65_one_for_all_partial",
    "Verif.Sup.C65_rest_for_one_partial",
    "Verif.Sup.C65_temporary_violated"
   ],
   "note": "C65_one_for_all_partial: **C65**, `OneForAll`: every other running child is shut down, then all start routines run in order, up to the first failure. C65_rest_for_one_partial: **C65**, `RestForOne`: the running children after the failed one are shut down, then the start routines of the failed one and those after it run in order, up to the first failure. The children before it stay as they are. C65_temporary_violated: **C65** is violated: although \"a temporary child process is never restarted, regardless of the supervision strategy\" (restart.rs:6-8), the exit of a permanent sibling restarts a temporary child."
  },
  {
   "property": "C66",
   "status": "proved",
   "theorems": [
    "Verif.Sup.C66_unique_ids",
    "Verif.Sup.C66_start_existing"
   ],
   "note": ""
  },
  {
   "property": "C67",
   "status": "partial",
   "theorems": [
    "Verif.Sup.C67_delete",
    "Verif.Sup.C67_terminate_partial",
    "Verif.Sup.C67_terminate_violated",
    "Verif.Sup.C67_restart"
   ],
   "note": "C67_terminate_partial: **C67**: `terminate_child` shuts down the process of the child if there is one; the child list keeps its specifications, *also that of a temporary child* (the documentation says that one is removed, supervisor.rs:251-257). C67_terminate_violated: **C67** is violated for temporary children: after `terminate_child` the specification is still listed."
  },
  {
   "property": "C68",
   "status": "partial",
   "theorems": [
    "Verif.Sup.C68_never",
    "Verif.Sup.C68_any_significant",
    "Verif.Sup.C68_all_significant_partial",
    "Verif.Sup.C68_all_significant_violated"
   ],
   "note": "C68_all_significant_partial: **C68**: with `AllSignificant`, a significant child that exits and is not restarted stops the supervisor iff some *other significant child is still running*: the opposite of what the documentation says. C68_all_significant_violated: **C68** is violated in both directions for `AllSignificant`: with two significant children, the exit of the first stops the supervisor while the second runs; with one, its exit leaves the supervisor up without significant children."
  },
  {
   "property": "C69",
   "status": "partial",
   "theorems": [
    "Verif.Sup.C69_counts",
    "Verif.Sup.C69_active_violated"
   ],
   "note": "C69_active_violated: **C69** is violated: after a failed restart the supervisor still reports and counts the dead process as the child."
  },
  {
   "property": "C70",
   "status": "partial",
   "theorems": [
    "Verif.Sup.C70_no_panic_partial",
    "Verif.Sup.C70_panic_violated"
   ],
   "note": "C70_no_panic_partial: **C70**: no history of requests and exits makes the supervisor panic, as long as every specification has a start routine and no start routine of a *temporary* child passed to `start_child` returns `ignore`. C70_panic_violated: **C70** is violated: `start_child` with a temporary child whose start routine returns `ignore`, twice, panics the supervisor."
  },
  {
   "property": "C71",
   "status": "proved",
   "theorems": [
    "Verif.World.C71_signals",
    "Verif.World.C71_child_dead",
    "Verif.World.C71_always_ok",
    "Verif.World.C71_exit_flushed"
   ],
   "note": ""
  },
  {
   "property": "C72",
   "status": "partial",
   "theorems": [
    "Verif.World.C72_traps",
    "Verif.World.C72_traps_init",
    "Verif.World.C72_lookup",
    "Verif.World.C72_list",
    "Verif.World.C72_count",
    "Verif.World.C72_resolves_partial",
    "Verif.World.C72_last_started_partial",
    "Verif.World.C72_distinct_partial",
    "Verif.World.C72_exclusive_partial",
    "Verif.World.C72_second_registry_violated",
    "Verif.World.C72_other_name_violated",
    "Verif.World.C72_shared_process_violated"
   ],
   "note": "C72_resolves_partial: Whatever a key resolves to is the process that was last started for it and neither stopped, removed nor reported dead since; it is a process of this node, and it is alive and linked to the registry, or the notice of its death is in the mailbox of the registry. Missing: this asks that nobody else writes the table of the registry and that the start routine returns a new linked process (`RegEnv`, `Starts`); see the theorems `C72_..._violated`. C72_last_started_partial: As long as nobody removes keys past the registry, the table is that map. C72_distinct_partial: Different keys resolve to different processes. C72_exclusive_partial: A successful start puts the process under a key that was free until then. C72_second_registry_violated: C72: a second registry with the same name, whose start fails because the name is taken, takes the table of the first one away: the registry then starts another process for a key whose process lives. C72_other_name_violated: C72: a registry that is started with options that give its process another name than its own: `lookup` by the name of the process, the only name under which it can be called, finds nothing, though the registry has started a process for the key. C72_shared_process_violated: C72: a start routine that returns the same process for two keys. After the process has died and the registry has handled the notice, one of the keys still resolves to it."
  },
  {
   "property": "C73",
   "status": "proved",
   "theorems": [
    "Verif.World.C73_lookup_or_start",
    "Verif.World.C73_lookup_or_start_client",
    "Verif.World.C73_starts_once",
    "Verif.World.C73_start",
    "Verif.World.C73_client"
   ],
   "note": ""
  },
  {
   "property": "C74",
   "status": "partial",
   "theorems": [
    "Verif.World.C74_answers_partial",
    "Verif.World.C74_violated"
   ],
   "note": "C74_answers_partial: A registry without a start routine never answers `StartNotSupported`: it answers only if the key is present. C74_violated: C74: the registry has no start routine; it panics, and the caller sees the server down."
  },
  {
   "property": "C75",
   "status": "partial",
   "theorems": [
    "Verif.World.C75_stopped_partial",
    "Verif.World.C75_drop"
   ],
   "note": "C75_stopped_partial: When a registry ends by itself (it is told to stop, or its parent dies), the processes that are registered at the moment it takes its table away do not run any more; unless the mode is `BrutalKill` they are dead. If nobody removes keys past the registry, these are all the processes that were started and neither stopped, removed nor reported dead. Missing: as in `C72_resolves_partial`."
  },
  {
   "property": "C76",
   "status": "proved",
   "theorems": [
    "Verif.Websocket.C76_in_order",
    "Verif.Websocket.C76_complete",
    "Verif.Websocket.C76_commands",
    "Verif.Websocket.C76_nothing_after_close"
   ],
   "note": ""
  },
  {
   "property": "C77",
   "status": "partial",
   "theorems": [
    "Verif.Websocket.C77_at_most_once_partial",
    "Verif.Websocket.C77_returned_partial",
    "Verif.Websocket.C77_called",
    "Verif.Websocket.C77_init_violated",
    "Verif.Websocket.C77_eof_violated",
    "Verif.Websocket.C77_close_violated",
    "Verif.Websocket.C77_twice_violated",
    "Verif.Websocket.C77_after_violated"
   ],
   "note": "C77_at_most_once_partial: C77, in part. If an abort takes effect at the next `await`, then in every history `terminate` is invoked at most once, nothing is invoked or sent after it, and the process exits with the same reason. What is missing: see `C77_twice_violated`. C77_returned_partial: C77, in part. A process that returned has invoked `terminate`, unless `websocket_init` returned an error. C77_init_violated: C77 fails: `terminate` is documented to be called if a callback except `accept` returns an error. If `websocket_init` does, the process exits and `terminate` is never invoked, for every handler whose `websocket_init` fails. C77_eof_violated: C77 fails: `terminate` is documented to be called if the connection closes for whatever reason. If the websocket ends without a close frame, the process panics and `terminate` is not invoked. C77_close_violated: C77 fails: if the handler itself closes the connection, the process exits with `normal` and is dropped without `terminate`. C77_twice_violated: C77 fails: `terminate` is invoked twice. The flush of the messages fails: `terminate` is invoked and the process asks to exit, but goes on to close the websocket, which fails, too, without waiting, and invokes `terminate` again. C77_after_violated: C77 fails: callbacks are invoked after `terminate`: a message is in the mailbox when the process, which has asked to exit, comes to its next round."
  },
  {
   "property": "C78",
   "status": "partial",
   "theorems": [
    "Verif.World.C78_test_partial",
    "Verif.World.C78_kill_violated",
    "Verif.World.C78_panic_violated"
   ],
   "note": "C78_test_partial: C78, what holds: `test` panics exactly if it was told a custom reason other than \"shutdown\"; and the reason it is told is that which `start` returned as its error, or else that of the first exit message of the main process. C78_kill_violated: C78 fails: a main process that was killed, or that exited with `Ignore`, passes the test. C78_panic_violated: C78 fails: if the process of the test dies, because `start` panics or because it gets a message it cannot read, the test passes."
  },
  {
   "property": "C79",
   "status": "partial",
   "theorems": [
    "Verif.Misc.C79_in_order_partial",
    "Verif.Misc.C79_returns",
    "Verif.Misc.C79_first_error_violated"
   ],
   "note": "C79_in_order_partial: **C79**, for success: whatever order and times the tasks end in, `await_many` returns results only if every task ended well, and then they are the results of the tasks, one for each, in the order of the tasks. For failure, the error is that of the first task in the order of the list that failed; the documentation says \"the first error that occurs\". C79_first_error_violated: C79 fails for errors: an error is not returned when it occurs, nor is the first error that occurs the one returned. Task 1 fails at time 1, task 0 fails later (or never ends): `await_many` returns the error of task 0 (or never returns)."
  },
  {
   "property": "C80",
   "status": "partial",
   "theorems": [
    "Verif.Misc.C80_comparisons_partial",
    "Verif.Misc.C80_reference_violated"
   ],
   "note": "C80_comparisons_partial: C80 holds with the destination on the left side, and for pids and names on both. C80_reference_violated: C80 fails: comparing a reference with an alias destination never answers, with whatever stack; it only answers (correctly) for other destinations."
  },
  {
   "property": "C81",
   "status": "partial",
   "theorems": [
    "Verif.Mailbox.C81_other_type_unaffected_violated",
    "Verif.Mailbox.C81_other_type_unaffected_partial"
   ],
   "note": "C81_other_type_unaffected_violated: C81 (violated). Looking for a message of one type can make a message undeliverable for a receive of another type: a serialized message that happens to deserialize as the first type is converted to it even though the filter rejects it. C81_other_type_unaffected_partial: C81 (what holds). A receive of type `T` leaves every message that does not read as `T` untouched for receives of any other type, and every message that was sent inside the process's own node (not serialized). Missing: serialized messages that deserialize as both types."
  },
  {
   "property": "C82",
   "status": "partial",
   "theorems": [
    "Verif.World.C82_initiated_partial",
    "Verif.World.C82_accepted_violated"
   ],
   "note": "C82_initiated_partial: C82, the part that holds: a connection whose supervisor process `c` is linked to the local node's supervisor `L` - one this node initiated - is closed by stopping the node. In every reachable state: after `Node::stop` by any running process, when the processes that were killed are dropped, the supervisor of the connection and all processes `ws` linked to it (its sender and receiver) are gone. Missing: accepted connections, see `C82_accepted_violated`. C82_accepted_violated: C82 is false of the code for an accepted connection: after `Node::stop`, with the node's supervisor and listener gone and nothing left that is to end, the connection's three processes live on, and its receiver still carries out what the peer sends: here a request to kill the process that stopped the node."
  },
  {
   "property": "C83",
   "status": "partial",
   "theorems": [
    "Verif.Race.Restart.C83_partial",
    "Verif.Race.Restart.C83_failed",
    "Verif.Race.Restart.C83_stopped",
    "Verif.Race.Restart.C83_violated"
   ],
   "note": "C83_partial: C83, the part that holds: if the node is not running and of every earlier start nothing is left, then a `start` registers the node, and it stays registered for every schedule in which nobody stops it and its supervisor process does not panic - whatever its connections do. Missing: nothing makes `Node::stop` wait for the processes of the old node, see `C83_violated`. C83_violated: C83 is false of the code. The first node is started and stopped, and the node is started again; then the processes of the first node end, or one accepted connection of it ends a long time afterwards: the new node is not registered any more, though nobody stopped it, its supervisor process never failed and is still there."
  },
  {
   "property": "C84",
   "status": "proved",
   "theorems": [
    "Verif.Sup.C84_listed",
    "Verif.Sup.C84_none_left"
   ],
   "note": ""
  },
  {
   "property": "C85",
   "status": "partial",
   "theorems": [
    "Verif.World.C85_same_node_partial",
    "Verif.World.C85_undistributed_violated",
    "Verif.World.C85_nohost_violated"
   ],
   "note": "C85_same_node_partial: **C85** for distributed nodes: a `Node` written on one distributed node and read on another denotes the same node. C85_undistributed_violated: C85 fails on a node that is not distributed: every node is read as the local one. C85_nohost_violated: C85 fails for the local node of a sender that is not distributed: reading it panics, unless the reader happens to be named \"nohost\", in which case it is taken for the reader."
  },
  {
   "property": "C86",
   "status": "proved",
   "theorems": [
    "Verif.World.C86_same_destination"
   ],
   "note": ""
  },
  {
   "property": "C87",
   "status": "partial",
   "theorems": [
    "Verif.World.C87_run",
    "Verif.World.C87_returns_partial",
    "Verif.World.C87_does_return",
    "Verif.World.C87_early_violated",
    "Verif.World.C87_exit_violated"
   ],
   "note": "C87_returns_partial: C87, in part. `run` returns only if `start` failed, or `start` returned a process and the process of `run` received an exit message of it, or the process of `run` itself died. In the second case, if the started process is of this node and never itself makes an exit message for the process of `run`, it is dead. What is missing: see `C87_early_violated` and `C87_exit_violated`. C87_early_violated: C87 fails: if the process of `run` gets a message that it cannot read, it dies, and `run` returns although the main process goes on. C87_exit_violated: C87 fails: the main process can make `run` return without ending, by sending the process of `run` an exit signal."
  },
  {
   "property": "C88",
   "status": "partial",
   "theorems": [
    "Verif.World.C88_remove_call",
    "Verif.World.C88_remove",
    "Verif.World.C88_forgets",
    "Verif.World.C88_spared_partial",
    "Verif.World.C88_violated"
   ],
   "note": "C88_spared_partial: A registry sends no exit signal to a process it has forgotten when it ends, whatever the shutdown mode. Missing: this does not hold before it has handled the message, see `C88_violated`. C88_violated: C88: a process that was removed is killed all the same if the registry is told to stop before it handles the message."
  },
  {
   "property": "C89",
   "status": "partial",
   "theorems": [
    "Verif.Race.Watch.C89_at_most_one",
    "Verif.Race.Watch.C89_exactly_one_partial",
    "Verif.Race.Watch.C89_violated"
   ],
   "note": "C89_exactly_one_partial: C89, in part, as `C43_exactly_one_partial`. C89_violated: C89 fails: a link to a process that is dropped between the check and the creation of the entry never signals."
  },
  {
   "property": "C90",
   "status": "proved",
   "theorems": [
    "Verif.Websocket.C90_pong_first",
    "Verif.Websocket.C90_answered"
   ],
   "note": ""
  },
  {
   "property": "C91",
   "status": "partial",
   "theorems": [
    "Verif.World.C91_no_nodedown_partial",
    "Verif.World.C91_entry_gone",
    "Verif.World.C91_no_nodedown_violated"
   ],
   "note": "C91_no_nodedown_partial: C91, without the messages a selective receive has already set aside (compare C33). After any history `os`, in which `a` got the reference `n`, `a` calls `Node::demonitor`; if no selective receive of `a` has already passed over a NodeDown for it, then after any further history no receive of `a`, of whatever type and filter, returns a NodeDown for it - even if the connection was lost before the call and the NodeDown was already in the mailbox. Missing: `C91_no_nodedown_violated`. C91_no_nodedown_violated: C91 is false of the code for the same reason as C33: a selective receive that passes over the NodeDown makes it an ordinary message."
  },
  {
   "property": "C92",
   "status": "proved",
   "theorems": [
    "Verif.World.C92_in_order"
   ],
   "note": ""
  },
  {
   "property": "C93",
   "status": "proved",
   "theorems": [
    "Verif.World.C93_in_order",
    "Verif.World.C93_kill"
   ],
   "note": ""
  },
  {
   "property": "C94",
   "status": "partial",
   "theorems": [
    "Verif.World.C94_alias_ends",
    "Verif.Race.Down.C94_race_partial",
    "Verif.Race.Down.C94_race_frame_partial",
    "Verif.Race.Down.C94_race_violated",
    "Verif.Race.Down.C94_race_down_once"
   ],
   "note": "C94_race_partial: C94, in part, at the granularity of the accesses. Once the handling of the death is over (the Down has been put and the alias destroyed), a message whose send begins later never arrives, whatever happens. What is missing: between the two, see `C94_race_violated`. C94_race_frame_partial: C94, in part. If the Down comes from the node of the monitored process, then as soon as it is in the mailbox the alias is inactive: a message whose send begins later never arrives. C94_race_violated: C94 fails at the granularity of the accesses, for a process of this node: the Down is put before the alias is destroyed. The Down is in the mailbox, the send begins afterwards, and the message arrives."
  },
  {
   "property": "C95",
   "status": "proved",
   "theorems": [
    "Verif.World.C95_start",
    "Verif.World.C95_twice",
    "Verif.World.C95_stop"
   ],
   "note": ""
  },
  {
   "property": "C96",
   "status": "proved",
   "theorems": [
    "Verif.World.C96_connects"
   ],
   "note": ""
  },
  {
   "property": "C97",
   "status": "proved",
   "theorems": [
    "Verif.World.C97_remote_monitors_removed"
   ],
   "note": ""
  },
  {
   "property": "C98",
   "status": "proved",
   "theorems": [
    "Verif.World.C98_lists"
   ],
   "note": ""
  },
  {
   "property": "C99",
   "status": "proved",
   "theorems": [
    "Verif.World.C99_forgotten_unreachable"
   ],
   "note": ""
  },
  {
   "property": "C100",
   "status": "partial",
   "theorems": [
    "Verif.Sup.C100_retry_pending_partial",
    "Verif.Sup.C100_retry_runs",
    "Verif.Sup.C100_one_for_all_partial",
    "Verif.Sup.C100_stuck_violated"
   ],
   "note": "C100_retry_pending_partial: **C100**: with `OneForOne` and `RestForOne`, whenever `which_children` reports a child as being restarted, a retry for this child is in the mailbox of the supervisor. C100_one_for_all_partial: **C100**, `OneForAll`: as long as `terminate_child` is not used and each process exits at most once, whenever some child is reported as being restarted, a retry of one of these is in the mailbox (and, if it succeeds, starts them all). The part missing: with `terminate_child` this fails, see `C100_stuck_violated`. C100_stuck_violated: **C100** is violated for `OneForAll`: here \"c\" stays marked as being restarted although no retry is pending, and the supervisor refuses to restart or delete it for good."
  },
  {
   "property": "C101",
   "status": "partial",
   "theorems": [
    "Verif.Handshake.C101_agree",
    "Verif.Handshake.C101_settles",
    "Verif.Handshake.C101_one_side_partial",
    "Verif.Handshake.C101_stays",
    "Verif.Handshake.C101_simultaneous_violated"
   ],
   "note": "C101_one_side_partial: **C101**: if only one of the nodes connects (as often as it likes), after any history that has settled without a connection, and nothing fails, then the nodes are connected as soon as nothing is under way any more. The part missing is that both connect, see `C101_simultaneous_violated`. C101_simultaneous_violated: **C101** is violated: both nodes called `Node::connect`, nothing failed, nothing is under way any more, and they are not connected."
  },
  {
   "property": "C102",
   "status": "proved",
   "theorems": [
    "Verif.World.C102_stop",
    "Verif.World.C102_client"
   ],
   "note": ""
  },
  {
   "property": "C103",
   "status": "proved",
   "theorems": [
    "Verif.Locks.C103_no_deadlock",
    "Verif.Locks.C103_returns"
   ],
   "note": ""
  },
  {
   "property": "C104",
   "status": "partial",
   "theorems": [
    "Verif.World.C104_exists",
    "Verif.World.C104_name",
    "Verif.World.C104_death",
    "Verif.World.C104_trap",
    "Verif.World.C104_queue_partial",
    "Verif.World.C104_queue_violated"
   ],
   "note": "C104_queue_partial: **C104**, `message_queue_len` for a process that has not received yet: it is the number of items put in its mailbox since it was spawned. Missing: messages that a selective receive has passed over, see `C104_queue_violated`. C104_queue_violated: **C104** is violated in `message_queue_len`: messages that a selective receive has passed over are in the queue of the process (the next receive returns them), but are not counted (process_registry.rs:281: the length of the channel only)."
  },
  {
   "property": "C105",
   "status": "partial",
   "theorems": [
    "Verif.NodeText.C105_conversion",
    "Verif.NodeText.C105_one_node",
    "Verif.NodeText.C105_comparison",
    "Verif.NodeText.C105_pair",
    "Verif.NodeText.C105_every_node_partial",
    "Verif.NodeText.C105_name_with_at_violated"
   ],
   "note": "C105_every_node_partial: **C105**, every node has a name: a node whose name has no `@` is denoted by `name@address` (for any text of the address that the standard library parses to it). Missing: names with `@`, see `C105_name_with_at_violated`. C105_name_with_at_violated: **C105** is violated by names with an `@` (`Node::start` accepts them): no string denotes such a node."
  },
  {
   "property": "C106",
   "status": "partial",
   "theorems": [
    "Verif.World.C106_serializable",
    "Verif.World.C106_one_local",
    "Verif.World.C106_all_or_nothing",
    "Verif.World.C106_returns_partial",
    "Verif.World.C106_two_local_violated"
   ],
   "note": "C106_returns_partial: **C106**: the call returns exactly if it is a send to at most one process, which is of this node; then its effect is that of `World.send`. In part: that it does not return for several processes *of this node*, see `C106_two_local_violated`. C106_two_local_violated: **C106** is violated for lists: the documentation says that a `Local` can be sent to local processes, but a send to two of them panics, and neither gets it (all but the first are sent the serialized value, process_kernel.rs:52-53)."
  },
  {
   "property": "C107",
   "status": "partial",
   "theorems": [
    "Verif.NodeText.C107_last_counts",
    "Verif.NodeText.C107_defaults",
    "Verif.NodeText.C107_significant_partial",
    "Verif.NodeText.C107_significant_violated"
   ],
   "note": "C107_significant_partial: **C107**, in part: as long as `restart` is not called after `significant`, only temporary and transient children are significant. What is missing: `C107_significant_violated`. C107_significant_violated: **C107** is violated: \"only transient and temporary child processes can be marked as significant\", but `restart` does not look at the mark."
  },
  {
   "property": "C108",
   "status": "partial",
   "theorems": [
    "Verif.World.C108_accept_ends_with_server",
    "Verif.World.C108_bind_fails",
    "Verif.World.C108_accept_dies_violated"
   ],
   "note": "C108_accept_dies_violated: **C108** is violated in the other direction: a server whose accepting process has died goes on as if nothing had happened. It receives the exit message, hands it to the default `handle_info` (gen_server.rs:319-329), which ignores it; the server is alive, has no accepting process and waits for the next message; its supervisor, process 1, is not told anything."
  },
  {
   "property": "C109",
   "status": "proved",
   "theorems": [
    "Verif.World.C109_normal_is_own",
    "Verif.World.C109_down_is_own"
   ],
   "note": ""
  },
  {
   "property": "C110",
   "status": "proved",
   "theorems": [
    "Verif.Race.Conn.C110_at_most_one",
    "Verif.Race.Conn.C110_no_watch_lost",
    "Verif.Race.Conn.C110_told_in_the_end",
    "Verif.Race.Conn.C110_loss_is_told",
    "Verif.Race.Conn.C110_frames_in_order",
    "Verif.Race.Conn.C110_nothing_left_over"
   ],
   "note": ""
  },
  {
   "property": "C111",
   "status": "proved",
   "theorems": [
    "Verif.World.C111_stop",
    "Verif.World.C111_call",
    "Verif.World.C111_shutdown"
   ],
   "note": ""
  },
  {
   "property": "C112",
   "status": "proved",
   "theorems": [
    "Verif.Sup.C112_runs_machine",
    "Verif.Sup.C112_retries",
    "Verif.Sup.C112_init_fails"
   ],
   "note": ""
  },
  {
   "property": "C113",
   "status": "partial",
   "theorems": [
    "Verif.Sup.C113_none_left_partial",
    "Verif.Sup.C113_none_left",
    "Verif.Sup.C113_init_fails",
    "Verif.Sup.C113_none_left_violated"
   ],
   "note": "C113_none_left_partial: **C113**, without any assumption about the children: when a supervisor process has ended, every process of this node that it had started is dead, or the supervisor was told of its exit. C113_none_left_violated: **C113** is violated: a child that calls `Process::exit(supervisor, \"shutdown\")` is forgotten although it is alive, and when the supervisor has stopped normally the child is still there, even after the supervisor's process has been dropped."
  },
  {
   "property": "C114",
   "status": "proved",
   "theorems": [
    "Verif.Sup.C114_one_at_a_time",
    "Verif.Sup.C114_signals",
    "Verif.Sup.C114_restart",
    "Verif.Sup.C114_termination"
   ],
   "note": ""
  },
  {
   "property": "C115",
   "status": "proved",
   "theorems": [
    "Verif.World.C115_stop",
    "Verif.World.C115_call",
    "Verif.World.C115_shutdown"
   ],
   "note": ""
  },
  {
   "property": "C116",
   "status": "proved",
   "theorems": [
    "Verif.World.C116_answered",
    "Verif.World.C116_order",
    "Verif.World.C116_sequential"
   ],
   "note": ""
  },
  {
   "property": "C117",
   "status": "proved",
   "theorems": [
    "Verif.World.C117_at_most_once"
   ],
   "note": ""
  },
  {
   "property": "C118",
   "status": "proved",
   "theorems": [
    "Verif.World.C118_order",
    "Verif.World.C118_server",
    "Verif.World.C118_cast_then_call"
   ],
   "note": ""
  },
  {
   "property": "C119",
   "status": "proved",
   "theorems": [
    "Verif.World.C119_answered",
    "Verif.World.C119_order",
    "Verif.World.C119_names"
   ],
   "note": ""
  },
  {
   "property": "C120",
   "status": "proved",
   "theorems": [
    "Verif.World.C120_cast_then_call"
   ],
   "note": ""
  },
  {
   "property": "C121",
   "status": "proved",
   "theorems": [
    "Verif.World.C121_local_then_remote",
    "Verif.World.C121_remote_then_local"
   ],
   "note": ""
  },
  {
   "property": "C122",
   "status": "proved",
   "theorems": [
    "Verif.Sup.C122_answered",
    "Verif.Sup.C122_meanwhile",
    "Verif.Sup.C122_no_panic",
    "Verif.Sup.C122_failed",
    "Verif.Sup.C122_order"
   ],
   "note": ""
  },
  {
   "property": "C123",
   "status": "proved",
   "theorems": [
    "Verif.Sup.C123_terminated",
    "Verif.Sup.C123_started",
    "Verif.Sup.C123_restarted"
   ],
   "note": ""
  },
  {
   "property": "C124",
   "status": "proved",
   "theorems": [
    "Verif.World.C124_within",
    "Verif.World.C124_one_at_a_time"
   ],
   "note": ""
  },
  {
   "property": "C125",
   "status": "proved",
   "theorems": [
    "Verif.World.C125_at_once",
    "Verif.World.C125_linearizable",
    "Verif.World.C125_stopped",
    "Verif.World.C125_stop_overlaps"
   ],
   "note": ""
  },
  {
   "property": "C126",
   "status": "proved",
   "theorems": [
    "Verif.World.C126_one_process",
    "Verif.World.C126_started_once"
   ],
   "note": ""
  },
  {
   "property": "C127",
   "status": "proved",
   "theorems": [
    "Verif.World.C127_no_forgery",
    "Verif.World.C127_unforged",
    "Verif.World.C127_registry",
    "Verif.World.C127_answered",
    "Verif.World.C127_order",
    "Verif.World.C127_programs",
    "Verif.World.C127_call",
    "Verif.World.C127_server",
    "Verif.World.C127_compose",
    "Verif.World.C127_only_in_loop",
    "Verif.World.C127_ask",
    "Verif.World.C127_registry_server",
    "Verif.World.C127_linearizable"
   ],
   "note": ""
  },
  {
   "property": "C128",
   "status": "proved",
   "theorems": [
    "Verif.World.C128_arrives",
    "Verif.World.C128_no_overtaking",
    "Verif.World.C128_turns",
    "Verif.World.C128_server",
    "Verif.World.C128_answered"
   ],
   "note": ""
  },
  {
   "property": "C129",
   "status": "proved",
   "theorems": [
    "Verif.World.C129_busy",
    "Verif.World.C129_waiting",
    "Verif.World.C129_self_name",
    "Verif.World.C129_self_pid_panics",
    "Verif.World.C129_self_pid"
   ],
   "note": ""
  },
  {
   "property": "C130",
   "status": "proved",
   "theorems": [
    "Verif.Sup.C130_ask",
    "Verif.Sup.C130_server",
    "Verif.Sup.C130_life",
    "Verif.Sup.C130_unforged",
    "Verif.Sup.C130_only_in_life",
    "Verif.Sup.C130_linearizable"
   ],
   "note": ""
  },
  {
   "property": "C131",
   "status": "proved",
   "theorems": [
    "Verif.World.C131_left",
    "Verif.World.C131_right",
    "Verif.World.C131_no_guess",
    "Verif.World.C131_unforged",
    "Verif.World.C131_once",
    "Verif.World.C131_order",
    "Verif.World.C131_linearizable",
    "Verif.World.C131_cast_then_call",
    "Verif.World.C131_programs",
    "Verif.World.C131_telling",
    "Verif.World.C131_only_in_loop"
   ],
   "note": ""
  },
  {
   "property": "C132",
   "status": "partial",
   "theorems": [
    "Verif.World.C132_processes",
    "Verif.World.C132_nodes",
    "Verif.World.C132_infos",
    "Verif.World.C132_remote",
    "Verif.World.C132_answers",
    "Verif.World.C132_foreign_violated"
   ],
   "note": "C132_foreign_violated: **C132** is violated for pids that are not of the node of the console, among them those of the client's own node: the console does not answer but panics, whatever else is asked for."
  },
  {
   "property": "C133",
   "status": "partial",
   "theorems": [
    "Verif.Handshake.C133_once",
    "Verif.Handshake.C133_connection",
    "Verif.Handshake.C133_in_order_partial",
    "Verif.Handshake.C133_overtaken_violated"
   ],
   "note": "C133_in_order_partial: **C133**, what holds: whatever connections come and go, all that is got is got in the order in which it was sent, as long as no node accepts a connection that the other one has already replaced by another one. C133_overtaken_violated: **C133** is violated: a message overtakes one that was sent before it."
  },
  {
   "property": "C134",
   "status": "proved",
   "theorems": [
    "Verif.World.C134_across",
    "Verif.World.C134_across_all",
    "Verif.World.C134_handled",
    "Verif.World.C134_accounted",
    "Verif.World.C134_state"
   ],
   "note": ""
  },
  {
   "property": "C135",
   "status": "proved",
   "theorems": [
    "Verif.World.C135_cut",
    "Verif.World.C135_causal",
    "Verif.World.C135_handled"
   ],
   "note": ""
  },
  {
   "property": "C136",
   "status": "proved",
   "theorems": [
    "Verif.World.C136_last",
    "Verif.World.C136_last_named",
    "Verif.World.C136_link"
   ],
   "note": ""
  },
  {
   "property": "C137",
   "status": "proved",
   "theorems": [
    "Verif.World.C137_told",
    "Verif.World.C137_spawned",
    "Verif.World.C137_run",
    "Verif.Sup.C137_supervisor"
   ],
   "note": ""
  },
  {
   "property": "C138",
   "status": "partial",
   "theorems": [
    "Verif.World.C138_restarts",
    "Verif.World.C138_returns",
    "Verif.World.C138_kept",
    "Verif.World.C138_refused_violated"
   ],
   "note": "C138_refused_violated: What is wrong: `run` is given up when a console server cannot be started again. Its process dies and `run` returns although the main process goes on."
  },
  {
   "property": "C139",
   "status": "partial",
   "theorems": [
    "Verif.Auth.C139_agreement_partial",
    "Verif.Auth.C139_connector",
    "Verif.Auth.C139_strangers_partial",
    "Verif.Auth.C139_settled",
    "Verif.Auth.C139_same_cookie",
    "Verif.Auth.C139_first_frame",
    "Verif.Auth.C139_reflection_violated",
    "Verif.Auth.C139_replay_violated"
   ],
   "note": "C139_agreement_partial: **C139**, what a good handshake means, with an ideal MAC and an attacker who controls the network: if a handshake of node `h` ends well, as one with the node `n` at `a`, then the attacker knows the key of `h`'s cookie, or some node has sent its hello before, while its cookie stood for the same key; and this node's name and address are `n` and `a`, up to their concatenation. Missing: that the node is at the other end of the connection (`C139_replay_violated`), that it is another node (`C139_reflection_violated`), and that name and address are the same (`C07_binding_violated`). C139_strangers_partial: **C139**, strangers: if no other node has sent its hello with a cookie that stands for the same key, and the attacker does not know the key, then a handshake can end well only with the node's own name and address, up to their concatenation (and so it can: `C139_reflection_violated`). C139_reflection_violated: **C139** fails: whatever its cookie, a node accepts a connection from somebody who knows no key at all and sends back what it gets: the node's own hello. From then on it decodes and carries out whatever frames (`extra`) this peer sends. C139_replay_violated: **C139** fails: a node that is connected to `n` at `a` need not be connected to the node of this name and address. Here the attacker, who knows no key, has a hello of node 1 from an earlier connection; the only handshake that node 1 took part in has failed, and node 0 is connected to \"node 1\"."
  },
  {
   "property": "C140",
   "status": "proved",
   "theorems": [
    "Verif.World.C140_not_outlived",
    "Verif.World.C140_soon",
    "Verif.World.C140_killed",
    "Verif.World.C140_left_alone"
   ],
   "note": ""
  },
  {
   "property": "C141",
   "status": "proved",
   "theorems": [
    "Verif.WsAccept.C141_only_if_accepted",
    "Verif.WsAccept.C141_no_lingering",
    "Verif.WsAccept.C141_panics_only_in_accept",
    "Verif.WsAccept.C141_on_its_own",
    "Verif.WsAccept.C141_refused",
    "Verif.WsAccept.C141_one_handler",
    "Verif.WsAccept.C141_if_accepted"
   ],
   "note": ""
  },
  {
   "property": "C142",
   "status": "proved",
   "theorems": [
    "Verif.Sup.C142_supervisor",
    "Verif.Sup.C142_soon",
    "Verif.World.C142_comes_down",
    "Verif.World.C142_no_orphans",
    "Verif.World.C142_supervisor_hangs"
   ],
   "note": ""
  },
  {
   "property": "C143",
   "status": "proved",
   "theorems": [
    "Verif.World.C143_dead_nameless",
    "Verif.World.C143_start",
    "Verif.Sup.C143_told",
    "Verif.Sup.C143_restart",
    "Verif.Sup.C143_siblings",
    "Verif.Race.Names.C143_concurrent"
   ],
   "note": ""
  },
  {
   "property": "C144",
   "status": "proved",
   "theorems": [
    "Verif.Sup.C144_all_listed"
   ],
   "note": ""
  },
  {
   "property": "C145",
   "status": "partial",
   "theorems": [
    "Verif.Sup.C145_running_partial",
    "Verif.Sup.C145_stale_violated"
   ],
   "note": "C145_running_partial: **C145** (partial): with `OneForOne` and `RestForOne` - and with `OneForAll` while `which_children` shows no child without a process as being restarted - at every moment between two messages, every process of this node that `which_children` shows as running exists, or its exit message waits in the mailbox of the supervisor (or the supervisor was killed). Missing: with `OneForAll` and a failed restart it is false, see `C145_stale_violated`. C145_stale_violated: **C145** is violated with `OneForAll`: the child \"b\" (4) is killed; the supervisor handles its exit, shuts the child \"a\" (3) down and runs the start routine of \"a\", which fails. Then `which_children` shows 4 as running, although it is dead and the supervisor knows it."
  }
 ]
}