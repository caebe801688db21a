# Axioms of every property theorem (generated by tools/axioms.lean.txt)

| theorem | axioms |
|---|---|
| Verif.Auth.C139_agreement_partial | Classical.choice, Quot.sound, propext |
| Verif.Auth.C139_connector | Classical.choice, Quot.sound, propext |
| Verif.Auth.C139_first_frame | Classical.choice, Quot.sound, propext |
| Verif.Auth.C139_reflection_violated | Classical.choice, Quot.sound, propext |
| Verif.Auth.C139_replay_violated | Classical.choice, Quot.sound, propext |
| Verif.Auth.C139_same_cookie | Classical.choice, Quot.sound, propext |
| Verif.Auth.C139_settled | Classical.choice, Quot.sound, propext |
| Verif.Auth.C139_strangers_partial | Classical.choice, Quot.sound, propext |
| Verif.Codec.C01_encode_injective | Classical.choice, Quot.sound, propext |
| Verif.Codec.C01_frame_roundtrip | Classical.choice, Quot.sound, propext |
| Verif.Codec.C02_any_chunking | Classical.choice, Quot.sound, propext |
| Verif.Codec.C02_any_chunking_one_buffer | Classical.choice, Quot.sound, propext |
| Verif.Codec.C03_complete_then_prefix | Classical.choice, Quot.sound, propext |
| Verif.Codec.C03_prefix_incomplete | Classical.choice, Quot.sound, propext |
| Verif.Codec.C04_encode_appends | Classical.choice, Quot.sound, propext |
| Verif.Codec.C05_bad_record_ends_stream | Classical.choice, Quot.sound, propext |
| Verif.Codec.C05_decode_canonical | Classical.choice, Quot.sound, propext |
| Verif.Codec.C05_decode_total | Classical.choice, Quot.sound, propext |
| Verif.Codec.C05_error_is_genuine | Classical.choice, Quot.sound, propext |
| Verif.Codec.C05_stream_bounded | Classical.choice, Quot.sound, propext |
| Verif.Codec.C06_record_isolated_partial | Classical.choice, Quot.sound, propext |
| Verif.Codec.C06_record_isolated_violated | Classical.choice, Quot.sound, propext |
| Verif.Handshake.C101_agree | Classical.choice, Quot.sound, propext |
| Verif.Handshake.C101_one_side_partial | Classical.choice, Quot.sound, propext |
| Verif.Handshake.C101_settles | Classical.choice, Quot.sound, propext |
| Verif.Handshake.C101_simultaneous_violated | Classical.choice, Quot.sound, propext |
| Verif.Handshake.C101_stays | Classical.choice, Quot.sound, propext |
| Verif.Handshake.C133_connection | Classical.choice, Quot.sound, propext |
| Verif.Handshake.C133_in_order_partial | Classical.choice, Quot.sound, propext |
| Verif.Handshake.C133_once | Classical.choice, Quot.sound, propext |
| Verif.Handshake.C133_overtaken_violated | propext |
| Verif.HashRing.C12_find_successor | Classical.choice, Quot.sound, propext |
| Verif.HashRing.C13_add_minimal_disruption | Classical.choice, Quot.sound, propext |
| Verif.HashRing.C13_remove_minimal_disruption | Classical.choice, Quot.sound, propext |
| Verif.HashRing.C13_remove_only_own_keys | Classical.choice, Quot.sound, propext |
| Verif.HashRing.C14_override_precedence | Classical.choice, Quot.sound, propext |
| Verif.HashRing.C15_behaves_like_map | Classical.choice, Quot.sound, propext |
| Verif.HashRing.C16_clear_partial | Quot.sound, propext |
| Verif.HashRing.C16_clear_violated | Quot.sound, propext |
| Verif.HashRing.C17_bulk_eq_single | Quot.sound, propext |
| Verif.HashRing.C17_history_independent | Classical.choice, Quot.sound, propext |
| Verif.HashRing.C17_order_independent | Classical.choice, Quot.sound, propext |
| Verif.Heartbeat.C53_broken | Quot.sound, propext |
| Verif.Heartbeat.C53_down_only | Classical.choice, Quot.sound, propext |
| Verif.Heartbeat.C53_end_to_end | Classical.choice, Quot.sound, propext |
| Verif.Heartbeat.C53_keeps_writing | Quot.sound, propext |
| Verif.Heartbeat.C53_live | Quot.sound, propext |
| Verif.Heartbeat.C53_no_ping_if_ready | Quot.sound, propext |
| Verif.Heartbeat.C53_paced | Quot.sound, propext |
| Verif.Heartbeat.C53_ping | Quot.sound, propext |
| Verif.Heartbeat.C53_refused | Classical.choice, Quot.sound, propext |
| Verif.Heartbeat.C53_silent | Quot.sound, propext |
| Verif.Heartbeat.C53_transparent | Quot.sound, propext |
| Verif.Hello.C07_accepts_iff_partial | propext |
| Verif.Hello.C07_binding_partial | Classical.choice, Quot.sound, propext |
| Verif.Hello.C07_binding_violated | Classical.choice, Quot.sound, propext |
| Verif.Hello.C07_same_cookie_accepts | Classical.choice, Quot.sound, propext |
| Verif.Hello.C07_same_cookie_accepts_over_wire | Classical.choice, Quot.sound, propext |
| Verif.Hello.C07_tampered_address_rejected_partial | Classical.choice, Quot.sound, propext |
| Verif.Hello.C07_tampered_field_rejected_partial | Classical.choice, Quot.sound, propext |
| Verif.Hello.C07_validate_consumes | propext |
| Verif.Hello.C07_wrong_cookie_rejected_partial | Classical.choice, Quot.sound, propext |
| Verif.Hello.C08_no_cookie_accepts_iff | Quot.sound, propext |
| Verif.Hello.C08_no_cookie_mutual | Classical.choice, Quot.sound, propext |
| Verif.Locks.C103_no_deadlock | Classical.choice, Quot.sound, propext |
| Verif.Locks.C103_returns | Classical.choice, Quot.sound, propext |
| Verif.Mailbox.C18_reachable_wf | Quot.sound, propext |
| Verif.Mailbox.C18_schedule_independent | Quot.sound, propext |
| Verif.Mailbox.C18_select_earliest | Quot.sound, propext |
| Verif.Mailbox.C19_receive_fifo | Quot.sound, propext |
| Verif.Mailbox.C20_cancel_loses_nothing | Quot.sound, propext |
| Verif.Mailbox.C21_nonstrict_never_panics | Quot.sound, propext |
| Verif.Mailbox.C21_strict_panics_iff | Quot.sound, propext |
| Verif.Mailbox.C22_remove_exact | Quot.sound, propext |
| Verif.Mailbox.C81_other_type_unaffected_partial | Quot.sound, propext |
| Verif.Mailbox.C81_other_type_unaffected_violated | Quot.sound, propext |
| Verif.Misc.C54_builders_partial | propext |
| Verif.Misc.C54_heartbeat_timeout_violated | Quot.sound, propext |
| Verif.Misc.C79_first_error_violated | Quot.sound, propext |
| Verif.Misc.C79_in_order_partial | propext |
| Verif.Misc.C79_returns | propext |
| Verif.Misc.C80_comparisons_partial | Quot.sound, propext |
| Verif.Misc.C80_reference_violated | propext |
| Verif.NodeText.C105_comparison | Classical.choice, Quot.sound, propext |
| Verif.NodeText.C105_conversion | Classical.choice, Quot.sound, propext |
| Verif.NodeText.C105_every_node_partial | none |
| Verif.NodeText.C105_name_with_at_violated | none |
| Verif.NodeText.C105_one_node | Classical.choice, Quot.sound, propext |
| Verif.NodeText.C105_pair | propext |
| Verif.NodeText.C107_defaults | Classical.choice, Quot.sound, propext |
| Verif.NodeText.C107_last_counts | Quot.sound, propext |
| Verif.NodeText.C107_significant_partial | Quot.sound, propext |
| Verif.NodeText.C107_significant_violated | none |
| Verif.Race.Alias.C35_at_most_once | Quot.sound, propext |
| Verif.Race.Alias.C35_first_delivers | Quot.sound, propext |
| Verif.Race.Alias.C35_inactive_afterwards | Quot.sound, propext |
| Verif.Race.Alias.C36_race | Quot.sound, propext |
| Verif.Race.Conn.C110_at_most_one | Classical.choice, Quot.sound, propext |
| Verif.Race.Conn.C110_frames_in_order | Classical.choice, Quot.sound, propext |
| Verif.Race.Conn.C110_loss_is_told | Classical.choice, Quot.sound, propext |
| Verif.Race.Conn.C110_no_watch_lost | Classical.choice, Quot.sound, propext |
| Verif.Race.Conn.C110_nothing_left_over | Classical.choice, Quot.sound, propext |
| Verif.Race.Conn.C110_told_in_the_end | Classical.choice, Quot.sound, propext |
| Verif.Race.Down.C35_monitor_alias | Classical.choice, Quot.sound, propext |
| Verif.Race.Down.C57_race_partial | Classical.choice, Quot.sound, propext |
| Verif.Race.Down.C57_race_violated | Quot.sound, propext |
| Verif.Race.Down.C94_race_down_once | Quot.sound, propext |
| Verif.Race.Down.C94_race_frame_partial | Classical.choice, Quot.sound, propext |
| Verif.Race.Down.C94_race_partial | Classical.choice, Quot.sound, propext |
| Verif.Race.Down.C94_race_violated | propext |
| Verif.Race.Names.C143_concurrent | Classical.choice, Quot.sound, propext |
| Verif.Race.Names.C44_distinct_partial | Classical.choice, Quot.sound, propext |
| Verif.Race.Names.C44_keeps_partial | Classical.choice, Quot.sound, propext |
| Verif.Race.Names.C44_no_takeover | Classical.choice, Quot.sound, propext |
| Verif.Race.Names.C44_violated | Classical.choice, Quot.sound, propext |
| Verif.Race.Restart.C83_failed | Classical.choice, Quot.sound, propext |
| Verif.Race.Restart.C83_partial | Classical.choice, Quot.sound, propext |
| Verif.Race.Restart.C83_stopped | Classical.choice, Quot.sound, propext |
| Verif.Race.Restart.C83_violated | propext |
| Verif.Race.Spawn.C42_exit_lost_violated | none |
| Verif.Race.Spawn.C42_killed | Quot.sound, propext |
| Verif.Race.Spawn.C42_partial | Quot.sound, propext |
| Verif.Race.Spawn.C42_violated | Quot.sound, propext |
| Verif.Race.Watch.C43_at_most_one | Classical.choice, Quot.sound, propext |
| Verif.Race.Watch.C43_exactly_one_partial | Classical.choice, Quot.sound, propext |
| Verif.Race.Watch.C43_violated | Quot.sound, propext |
| Verif.Race.Watch.C89_at_most_one | Classical.choice, Quot.sound, propext |
| Verif.Race.Watch.C89_exactly_one_partial | Classical.choice, Quot.sound, propext |
| Verif.Race.Watch.C89_violated | Quot.sound, propext |
| Verif.Sup.C100_one_for_all_partial | Classical.choice, Quot.sound, propext |
| Verif.Sup.C100_retry_pending_partial | Classical.choice, Quot.sound, propext |
| Verif.Sup.C100_retry_runs | Classical.choice, Quot.sound, propext |
| Verif.Sup.C100_stuck_violated | propext |
| Verif.Sup.C112_init_fails | Classical.choice, Quot.sound, propext |
| Verif.Sup.C112_retries | Classical.choice, Quot.sound, propext |
| Verif.Sup.C112_runs_machine | Classical.choice, Quot.sound, propext |
| Verif.Sup.C113_init_fails | Classical.choice, Quot.sound, propext |
| Verif.Sup.C113_none_left | Classical.choice, Quot.sound, propext |
| Verif.Sup.C113_none_left_partial | Classical.choice, Quot.sound, propext |
| Verif.Sup.C113_none_left_violated | Classical.choice, Quot.sound, propext |
| Verif.Sup.C114_one_at_a_time | Classical.choice, Quot.sound, propext |
| Verif.Sup.C114_restart | Classical.choice, Quot.sound, propext |
| Verif.Sup.C114_signals | Classical.choice, Quot.sound, propext |
| Verif.Sup.C114_termination | Classical.choice, Quot.sound, propext |
| Verif.Sup.C122_answered | Classical.choice, Quot.sound, propext |
| Verif.Sup.C122_failed | Classical.choice, Quot.sound, propext |
| Verif.Sup.C122_meanwhile | Classical.choice, Quot.sound, propext |
| Verif.Sup.C122_no_panic | Classical.choice, Quot.sound, propext |
| Verif.Sup.C122_order | Classical.choice, Quot.sound, propext |
| Verif.Sup.C123_restarted | Classical.choice, Quot.sound, propext |
| Verif.Sup.C123_started | Classical.choice, Quot.sound, propext |
| Verif.Sup.C123_terminated | Classical.choice, Quot.sound, propext |
| Verif.Sup.C130_ask | Classical.choice, Quot.sound, propext |
| Verif.Sup.C130_life | Classical.choice, Quot.sound, propext |
| Verif.Sup.C130_linearizable | Classical.choice, Quot.sound, propext |
| Verif.Sup.C130_only_in_life | Quot.sound, propext |
| Verif.Sup.C130_server | Classical.choice, Quot.sound, propext |
| Verif.Sup.C130_unforged | Classical.choice, Quot.sound, propext |
| Verif.Sup.C137_supervisor | Classical.choice, Quot.sound, propext |
| Verif.Sup.C142_soon | Classical.choice, Quot.sound, propext |
| Verif.Sup.C142_supervisor | Classical.choice, Quot.sound, propext |
| Verif.Sup.C143_restart | Classical.choice, Quot.sound, propext |
| Verif.Sup.C143_siblings | Classical.choice, Quot.sound, propext |
| Verif.Sup.C143_told | Classical.choice, Quot.sound, propext |
| Verif.Sup.C144_all_listed | Classical.choice, Quot.sound, propext |
| Verif.Sup.C145_running_partial | Classical.choice, Quot.sound, propext |
| Verif.Sup.C145_stale_violated | Classical.choice, Quot.sound, propext |
| Verif.Sup.C61_build | Classical.choice, Quot.sound, propext |
| Verif.Sup.C61_start_failure | Classical.choice, Quot.sound, propext |
| Verif.Sup.C61_start_order | Classical.choice, Quot.sound, propext |
| Verif.Sup.C61_stop_order | Classical.choice, Quot.sound, propext |
| Verif.Sup.C62_restart_policy | Classical.choice, Quot.sound, propext |
| Verif.Sup.C62_temporary | Classical.choice, Quot.sound, propext |
| Verif.Sup.C63_gives_up_partial | Classical.choice, Quot.sound, propext |
| Verif.Sup.C63_gives_up_violated | propext |
| Verif.Sup.C63_intensity | Classical.choice, Quot.sound, propext |
| Verif.Sup.C64_one_for_one | Classical.choice, Quot.sound, propext |
| Verif.Sup.C65_one_for_all_partial | Classical.choice, Quot.sound, propext |
| Verif.Sup.C65_rest_for_one_partial | Classical.choice, Quot.sound, propext |
| Verif.Sup.C65_temporary_violated | propext |
| Verif.Sup.C66_start_existing | Classical.choice, Quot.sound, propext |
| Verif.Sup.C66_unique_ids | Classical.choice, Quot.sound, propext |
| Verif.Sup.C67_delete | Quot.sound, propext |
| Verif.Sup.C67_restart | Quot.sound, propext |
| Verif.Sup.C67_terminate_partial | Quot.sound, propext |
| Verif.Sup.C67_terminate_violated | propext |
| Verif.Sup.C68_all_significant_partial | Classical.choice, Quot.sound, propext |
| Verif.Sup.C68_all_significant_violated | propext |
| Verif.Sup.C68_any_significant | Classical.choice, Quot.sound, propext |
| Verif.Sup.C68_never | Classical.choice, Quot.sound, propext |
| Verif.Sup.C69_active_violated | propext |
| Verif.Sup.C69_counts | Classical.choice, Quot.sound, propext |
| Verif.Sup.C70_no_panic_partial | Classical.choice, Quot.sound, propext |
| Verif.Sup.C70_panic_violated | propext |
| Verif.Sup.C84_listed | Classical.choice, Quot.sound, propext |
| Verif.Sup.C84_none_left | Classical.choice, Quot.sound, propext |
| Verif.Timer.C41_cancel_partial | Classical.choice, Quot.sound, propext |
| Verif.Timer.C41_cancel_violated | propext |
| Verif.Timer.C41_fires | Classical.choice, Quot.sound, propext |
| Verif.Timer.C41_once | Classical.choice, Quot.sound, propext |
| Verif.Timer.C41_read | Classical.choice, Quot.sound, propext |
| Verif.Timer.C41_read_fired_partial | Quot.sound, propext |
| Verif.Timer.C41_read_pending | Quot.sound, propext |
| Verif.Timer.C41_read_violated | Quot.sound, propext |
| Verif.Websocket.C76_commands | Quot.sound, propext |
| Verif.Websocket.C76_complete | Quot.sound, propext |
| Verif.Websocket.C76_in_order | Quot.sound, propext |
| Verif.Websocket.C76_nothing_after_close | Classical.choice, Quot.sound, propext |
| Verif.Websocket.C77_after_violated | propext |
| Verif.Websocket.C77_at_most_once_partial | Classical.choice, Quot.sound, propext |
| Verif.Websocket.C77_called | propext |
| Verif.Websocket.C77_close_violated | propext |
| Verif.Websocket.C77_eof_violated | propext |
| Verif.Websocket.C77_init_violated | propext |
| Verif.Websocket.C77_returned_partial | Classical.choice, Quot.sound, propext |
| Verif.Websocket.C77_twice_violated | propext |
| Verif.Websocket.C90_answered | propext |
| Verif.Websocket.C90_pong_first | Quot.sound, propext |
| Verif.World.C09_distinct | Quot.sound, propext |
| Verif.World.C09_home | Quot.sound, propext |
| Verif.World.C09_same_process | Quot.sound, propext |
| Verif.World.C09_stable | Quot.sound, propext |
| Verif.World.C09_undistributed_violated | propext |
| Verif.World.C09_unknown_nodes_violated | Quot.sound, propext |
| Verif.World.C102_client | Quot.sound, propext |
| Verif.World.C102_stop | Classical.choice, Quot.sound, propext |
| Verif.World.C104_death | Classical.choice, Quot.sound, propext |
| Verif.World.C104_exists | none |
| Verif.World.C104_name | Quot.sound, propext |
| Verif.World.C104_queue_partial | Classical.choice, Quot.sound, propext |
| Verif.World.C104_queue_violated | Quot.sound, propext |
| Verif.World.C104_trap | Quot.sound, propext |
| Verif.World.C106_all_or_nothing | Quot.sound, propext |
| Verif.World.C106_one_local | propext |
| Verif.World.C106_returns_partial | Quot.sound, propext |
| Verif.World.C106_serializable | Quot.sound, propext |
| Verif.World.C106_two_local_violated | propext |
| Verif.World.C108_accept_dies_violated | Quot.sound, propext |
| Verif.World.C108_accept_ends_with_server | Classical.choice, Quot.sound, propext |
| Verif.World.C108_bind_fails | Classical.choice, Quot.sound, propext |
| Verif.World.C109_down_is_own | Classical.choice, Quot.sound, propext |
| Verif.World.C109_normal_is_own | Classical.choice, Quot.sound, propext |
| Verif.World.C10_home | Quot.sound, propext |
| Verif.World.C10_same_reference | Quot.sound, propext |
| Verif.World.C111_call | Classical.choice, Quot.sound, propext |
| Verif.World.C111_shutdown | Classical.choice, Quot.sound, propext |
| Verif.World.C111_stop | Classical.choice, Quot.sound, propext |
| Verif.World.C115_call | Classical.choice, Quot.sound, propext |
| Verif.World.C115_shutdown | Classical.choice, Quot.sound, propext |
| Verif.World.C115_stop | Classical.choice, Quot.sound, propext |
| Verif.World.C116_answered | Classical.choice, Quot.sound, propext |
| Verif.World.C116_order | Classical.choice, Quot.sound, propext |
| Verif.World.C116_sequential | Classical.choice, Quot.sound, propext |
| Verif.World.C117_at_most_once | Classical.choice, Quot.sound, propext |
| Verif.World.C118_cast_then_call | Classical.choice, Quot.sound, propext |
| Verif.World.C118_order | Classical.choice, Quot.sound, propext |
| Verif.World.C118_server | Classical.choice, Quot.sound, propext |
| Verif.World.C119_answered | Classical.choice, Quot.sound, propext |
| Verif.World.C119_names | Quot.sound, propext |
| Verif.World.C119_order | Classical.choice, Quot.sound, propext |
| Verif.World.C11_foreign_never_local | Quot.sound, propext |
| Verif.World.C11_other_owner | Quot.sound, propext |
| Verif.World.C120_cast_then_call | Classical.choice, Quot.sound, propext |
| Verif.World.C121_local_then_remote | Classical.choice, Quot.sound, propext |
| Verif.World.C121_remote_then_local | Classical.choice, Quot.sound, propext |
| Verif.World.C124_one_at_a_time | Classical.choice, Quot.sound, propext |
| Verif.World.C124_within | Classical.choice, Quot.sound, propext |
| Verif.World.C125_at_once | Classical.choice, Quot.sound, propext |
| Verif.World.C125_linearizable | Classical.choice, Quot.sound, propext |
| Verif.World.C125_stop_overlaps | Classical.choice, Quot.sound, propext |
| Verif.World.C125_stopped | Classical.choice, Quot.sound, propext |
| Verif.World.C126_one_process | Classical.choice, Quot.sound, propext |
| Verif.World.C126_started_once | Classical.choice, Quot.sound, propext |
| Verif.World.C127_answered | Classical.choice, Quot.sound, propext |
| Verif.World.C127_ask | Classical.choice, Quot.sound, propext |
| Verif.World.C127_call | Classical.choice, Quot.sound, propext |
| Verif.World.C127_compose | Quot.sound, propext |
| Verif.World.C127_linearizable | Classical.choice, Quot.sound, propext |
| Verif.World.C127_no_forgery | Classical.choice, Quot.sound, propext |
| Verif.World.C127_only_in_loop | Quot.sound, propext |
| Verif.World.C127_order | Classical.choice, Quot.sound, propext |
| Verif.World.C127_programs | Quot.sound, propext |
| Verif.World.C127_registry | Classical.choice, Quot.sound, propext |
| Verif.World.C127_registry_server | Classical.choice, Quot.sound, propext |
| Verif.World.C127_server | Classical.choice, Quot.sound, propext |
| Verif.World.C127_unforged | Classical.choice, Quot.sound, propext |
| Verif.World.C128_answered | Classical.choice, Quot.sound, propext |
| Verif.World.C128_arrives | Classical.choice, Quot.sound, propext |
| Verif.World.C128_no_overtaking | Classical.choice, Quot.sound, propext |
| Verif.World.C128_server | Classical.choice, Quot.sound, propext |
| Verif.World.C128_turns | Classical.choice, Quot.sound, propext |
| Verif.World.C129_busy | Classical.choice, Quot.sound, propext |
| Verif.World.C129_self_name | Classical.choice, Quot.sound, propext |
| Verif.World.C129_self_pid | Classical.choice, Quot.sound, propext |
| Verif.World.C129_self_pid_panics | Quot.sound, propext |
| Verif.World.C129_waiting | Classical.choice, Quot.sound, propext |
| Verif.World.C131_cast_then_call | Classical.choice, Quot.sound, propext |
| Verif.World.C131_left | Classical.choice, Quot.sound, propext |
| Verif.World.C131_linearizable | Classical.choice, Quot.sound, propext |
| Verif.World.C131_no_guess | Classical.choice, Quot.sound, propext |
| Verif.World.C131_once | Classical.choice, Quot.sound, propext |
| Verif.World.C131_only_in_loop | Quot.sound, propext |
| Verif.World.C131_order | Classical.choice, Quot.sound, propext |
| Verif.World.C131_programs | Quot.sound, propext |
| Verif.World.C131_right | Classical.choice, Quot.sound, propext |
| Verif.World.C131_telling | propext |
| Verif.World.C131_unforged | Classical.choice, Quot.sound, propext |
| Verif.World.C132_answers | Quot.sound, propext |
| Verif.World.C132_foreign_violated | Quot.sound, propext |
| Verif.World.C132_infos | propext |
| Verif.World.C132_nodes | Quot.sound, propext |
| Verif.World.C132_processes | Classical.choice, Quot.sound, propext |
| Verif.World.C132_remote | Classical.choice, Quot.sound, propext |
| Verif.World.C134_accounted | Classical.choice, Quot.sound, propext |
| Verif.World.C134_across | Classical.choice, Quot.sound, propext |
| Verif.World.C134_across_all | Classical.choice, Quot.sound, propext |
| Verif.World.C134_handled | Classical.choice, Quot.sound, propext |
| Verif.World.C134_state | Classical.choice, Quot.sound, propext |
| Verif.World.C135_causal | Classical.choice, Quot.sound, propext |
| Verif.World.C135_cut | Classical.choice, Quot.sound, propext |
| Verif.World.C135_handled | Classical.choice, Quot.sound, propext |
| Verif.World.C136_last | Classical.choice, Quot.sound, propext |
| Verif.World.C136_last_named | Classical.choice, Quot.sound, propext |
| Verif.World.C136_link | Classical.choice, Quot.sound, propext |
| Verif.World.C137_run | Classical.choice, Quot.sound, propext |
| Verif.World.C137_spawned | Classical.choice, Quot.sound, propext |
| Verif.World.C137_told | Classical.choice, Quot.sound, propext |
| Verif.World.C138_kept | Classical.choice, Quot.sound, propext |
| Verif.World.C138_refused_violated | Quot.sound, propext |
| Verif.World.C138_restarts | Classical.choice, Quot.sound, propext |
| Verif.World.C138_returns | Classical.choice, Quot.sound, propext |
| Verif.World.C140_killed | Classical.choice, Quot.sound, propext |
| Verif.World.C140_left_alone | Quot.sound, propext |
| Verif.World.C140_not_outlived | Classical.choice, Quot.sound, propext |
| Verif.World.C140_soon | Classical.choice, Quot.sound, propext |
| Verif.World.C142_comes_down | Classical.choice, Quot.sound, propext |
| Verif.World.C142_no_orphans | Classical.choice, Quot.sound, propext |
| Verif.World.C142_supervisor_hangs | Classical.choice, Quot.sound, propext |
| Verif.World.C143_dead_nameless | Classical.choice, Quot.sound, propext |
| Verif.World.C143_start | Classical.choice, Quot.sound, propext |
| Verif.World.C23_ids_never_reused | Classical.choice, Quot.sound, propext |
| Verif.World.C23_spawn_fresh | Classical.choice, Quot.sound, propext |
| Verif.World.C24_alive_after_spawn | Quot.sound, propext |
| Verif.World.C24_alive_until_terminated | Classical.choice, Quot.sound, propext |
| Verif.World.C24_dead_stays_dead | Quot.sound, propext |
| Verif.World.C25_names_bijection | Quot.sound, propext |
| Verif.World.C26_failure_unchanged | propext |
| Verif.World.C26_register_iff | Quot.sound, propext |
| Verif.World.C26_success_effect | Quot.sound, propext |
| Verif.World.C27_exit_missing | propext |
| Verif.World.C27_exit_table | Classical.choice, Quot.sound, propext |
| Verif.World.C27_trap_flag | Classical.choice, Quot.sound, propext |
| Verif.World.C28_kill | Classical.choice, Quot.sound, propext |
| Verif.World.C28_kill_final | Classical.choice, Quot.sound, propext |
| Verif.World.C29_death_signals | Classical.choice, Quot.sound, propext |
| Verif.World.C29_link_establishes | Quot.sound, propext |
| Verif.World.C29_link_persists | Quot.sound, propext |
| Verif.World.C29_link_self | Quot.sound, propext |
| Verif.World.C29_link_then_death | Classical.choice, Quot.sound, propext |
| Verif.World.C29_spawn_link_establishes | Quot.sound, propext |
| Verif.World.C29_unlinked_persists | Classical.choice, Quot.sound, propext |
| Verif.World.C30_unlink_bidirectional_violated | Quot.sound, propext |
| Verif.World.C30_unlink_partial | Classical.choice, Quot.sound, propext |
| Verif.World.C31_cascade | Classical.choice, Quot.sound, propext |
| Verif.World.C32_dest_known | Quot.sound, propext |
| Verif.World.C32_down_accepted | Classical.choice, Quot.sound, propext |
| Verif.World.C32_exactly_one_down | Classical.choice, Quot.sound, propext |
| Verif.World.C33_entry_gone | Classical.choice, Quot.sound, propext |
| Verif.World.C33_no_down_after_demonitor_partial | Classical.choice, Quot.sound, propext |
| Verif.World.C33_no_down_after_demonitor_violated | Quot.sound, propext |
| Verif.World.C34_link_dead | Quot.sound, propext |
| Verif.World.C34_monitor_dead | Quot.sound, propext |
| Verif.World.C34_monitor_unknown_name | Quot.sound, propext |
| Verif.World.C35_used_up | Classical.choice, Quot.sound, propext |
| Verif.World.C36_unalias_own_only_violated | Quot.sound, propext |
| Verif.World.C36_unalias_partial | Classical.choice, Quot.sound, propext |
| Verif.World.C37_aliases_removed_partial | Classical.choice, Quot.sound, propext |
| Verif.World.C37_node_monitor_left_violated | Quot.sound, propext |
| Verif.World.C37_node_monitors_removed_partial | Classical.choice, Quot.sound, propext |
| Verif.World.C37_nothing_left_violated | Quot.sound, propext |
| Verif.World.C37_outgoing_monitors_removed_partial | Classical.choice, Quot.sound, propext |
| Verif.World.C37_tables_cleaned_partial | Classical.choice, Quot.sound, propext |
| Verif.World.C38_remote_one | Quot.sound, propext |
| Verif.World.C38_send_many | Classical.choice, Quot.sound, propext |
| Verif.World.C38_send_one | Classical.choice, Quot.sound, propext |
| Verif.World.C39_missing_many | Quot.sound, propext |
| Verif.World.C39_missing_one | propext |
| Verif.World.C40_first_reason_violated | Quot.sound, propext |
| Verif.World.C40_one_reason_partial | Classical.choice, Quot.sound, propext |
| Verif.World.C40_own_reason | Classical.choice, Quot.sound, propext |
| Verif.World.C40_reason_kept_partial | Classical.choice, Quot.sound, propext |
| Verif.World.C45_ids_identify | Quot.sound, propext |
| Verif.World.C45_ids_never_reused | Quot.sound, propext |
| Verif.World.C46_in_order_partial | Classical.choice, Quot.sound, propext |
| Verif.World.C46_reconnect_loses_frames_violated | Quot.sound, propext |
| Verif.World.C47_down_accepted | Classical.choice, Quot.sound, propext |
| Verif.World.C47_incoming_link_signal | Classical.choice, Quot.sound, propext |
| Verif.World.C47_link_signal | Classical.choice, Quot.sound, propext |
| Verif.World.C47_monitor_exactly_one | Classical.choice, Quot.sound, propext |
| Verif.World.C47_node_monitor_exactly_one | Classical.choice, Quot.sound, propext |
| Verif.World.C48_connection_killed | Quot.sound, propext |
| Verif.World.C48_disconnect_reports_partial | Classical.choice, Quot.sound, propext |
| Verif.World.C48_forget_silent_violated | Quot.sound, propext |
| Verif.World.C48_forgotten_events_ignored_violated | Quot.sound, propext |
| Verif.World.C49_exactly_once | Classical.choice, Quot.sound, propext |
| Verif.World.C49_once_despite_loss | Classical.choice, Quot.sound, propext |
| Verif.World.C50_never_told_violated | Classical.choice, Quot.sound, propext |
| Verif.World.C50_no_down_partial | Classical.choice, Quot.sound, propext |
| Verif.World.C50_state_remains_violated | Quot.sound, propext |
| Verif.World.C51_linking_end_dies | Classical.choice, Quot.sound, propext |
| Verif.World.C51_remote_end_dies | Classical.choice, Quot.sound, propext |
| Verif.World.C51_signal_despite_loss | Classical.choice, Quot.sound, propext |
| Verif.World.C52_accepted_iff | Quot.sound, propext |
| Verif.World.C52_one_connection | Quot.sound, propext |
| Verif.World.C52_pending_attempt_killed | Quot.sound, propext |
| Verif.World.C55_forward_send | Classical.choice, Quot.sound, propext |
| Verif.World.C55_frame | Quot.sound, propext |
| Verif.World.C56_reply | Classical.choice, Quot.sound, propext |
| Verif.World.C56_server_down | Classical.choice, Quot.sound, propext |
| Verif.World.C56_tags_distinct | Classical.choice, Quot.sound, propext |
| Verif.World.C57_late_reply_violated | Quot.sound, propext |
| Verif.World.C57_named_late_reply_violated | Quot.sound, propext |
| Verif.World.C57_no_stale_reply_partial | Classical.choice, Quot.sound, propext |
| Verif.World.C57_removed_partial | Quot.sound, propext |
| Verif.World.C57_reply_to_alias | propext |
| Verif.World.C57_reply_to_caller | none |
| Verif.World.C58_serve | Classical.choice, Quot.sound, propext |
| Verif.World.C59_error | Quot.sound, propext |
| Verif.World.C59_ok | Quot.sound, propext |
| Verif.World.C59_ok_if | Quot.sound, propext |
| Verif.World.C60_error | Classical.choice, Quot.sound, propext |
| Verif.World.C60_success | Classical.choice, Quot.sound, propext |
| Verif.World.C60_success_any | Classical.choice, Quot.sound, propext |
| Verif.World.C71_always_ok | Quot.sound, propext |
| Verif.World.C71_child_dead | Classical.choice, Quot.sound, propext |
| Verif.World.C71_exit_flushed | Classical.choice, Quot.sound, propext |
| Verif.World.C71_signals | Quot.sound, propext |
| Verif.World.C72_count | Quot.sound, propext |
| Verif.World.C72_distinct_partial | Classical.choice, Quot.sound, propext |
| Verif.World.C72_exclusive_partial | Classical.choice, Quot.sound, propext |
| Verif.World.C72_last_started_partial | Classical.choice, Quot.sound, propext |
| Verif.World.C72_list | Quot.sound, propext |
| Verif.World.C72_lookup | Quot.sound, propext |
| Verif.World.C72_other_name_violated | Quot.sound, propext |
| Verif.World.C72_resolves_partial | Classical.choice, Quot.sound, propext |
| Verif.World.C72_second_registry_violated | Classical.choice, Quot.sound, propext |
| Verif.World.C72_shared_process_violated | Quot.sound, propext |
| Verif.World.C72_traps | Classical.choice, Quot.sound, propext |
| Verif.World.C72_traps_init | Classical.choice, Quot.sound, propext |
| Verif.World.C73_client | Quot.sound, propext |
| Verif.World.C73_lookup_or_start | Quot.sound, propext |
| Verif.World.C73_lookup_or_start_client | Quot.sound, propext |
| Verif.World.C73_start | Classical.choice, Quot.sound, propext |
| Verif.World.C73_starts_once | Quot.sound, propext |
| Verif.World.C74_answers_partial | Classical.choice, Quot.sound, propext |
| Verif.World.C74_violated | Quot.sound, propext |
| Verif.World.C75_drop | Classical.choice, Quot.sound, propext |
| Verif.World.C75_stopped_partial | Classical.choice, Quot.sound, propext |
| Verif.World.C78_kill_violated | Quot.sound, propext |
| Verif.World.C78_panic_violated | Quot.sound, propext |
| Verif.World.C78_test_partial | Quot.sound, propext |
| Verif.World.C82_accepted_violated | Quot.sound, propext |
| Verif.World.C82_initiated_partial | Classical.choice, Quot.sound, propext |
| Verif.World.C85_nohost_violated | propext |
| Verif.World.C85_same_node_partial | Quot.sound, propext |
| Verif.World.C85_undistributed_violated | propext |
| Verif.World.C86_same_destination | Quot.sound, propext |
| Verif.World.C87_does_return | Quot.sound, propext |
| Verif.World.C87_early_violated | Quot.sound, propext |
| Verif.World.C87_exit_violated | Quot.sound, propext |
| Verif.World.C87_returns_partial | Classical.choice, Quot.sound, propext |
| Verif.World.C87_run | Classical.choice, Quot.sound, propext |
| Verif.World.C88_forgets | Classical.choice, Quot.sound, propext |
| Verif.World.C88_remove | Classical.choice, Quot.sound, propext |
| Verif.World.C88_remove_call | Classical.choice, Quot.sound, propext |
| Verif.World.C88_spared_partial | Quot.sound, propext |
| Verif.World.C88_violated | Quot.sound, propext |
| Verif.World.C91_entry_gone | Quot.sound, propext |
| Verif.World.C91_no_nodedown_partial | Classical.choice, Quot.sound, propext |
| Verif.World.C91_no_nodedown_violated | Quot.sound, propext |
| Verif.World.C92_in_order | Classical.choice, Quot.sound, propext |
| Verif.World.C93_in_order | Classical.choice, Quot.sound, propext |
| Verif.World.C93_kill | Classical.choice, Quot.sound, propext |
| Verif.World.C94_alias_ends | Classical.choice, Quot.sound, propext |
| Verif.World.C95_start | Quot.sound, propext |
| Verif.World.C95_stop | Quot.sound, propext |
| Verif.World.C95_twice | Quot.sound, propext |
| Verif.World.C96_connects | Quot.sound, propext |
| Verif.World.C97_remote_monitors_removed | Classical.choice, Quot.sound, propext |
| Verif.World.C98_lists | Classical.choice, Quot.sound, propext |
| Verif.World.C99_forgotten_unreachable | Quot.sound, propext |
| Verif.WsAccept.C141_if_accepted | Classical.choice, Quot.sound, propext |
| Verif.WsAccept.C141_no_lingering | Classical.choice, Quot.sound, propext |
| Verif.WsAccept.C141_on_its_own | Quot.sound, propext |
| Verif.WsAccept.C141_one_handler | Quot.sound, propext |
| Verif.WsAccept.C141_only_if_accepted | Classical.choice, Quot.sound, propext |
| Verif.WsAccept.C141_panics_only_in_accept | Classical.choice, Quot.sound, propext |
| Verif.WsAccept.C141_refused | Quot.sound, propext |
