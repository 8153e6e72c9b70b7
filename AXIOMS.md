# Axioms of the property theorems

Generated by `tools/axioms.py`.

| Theorem | Axioms |
|---|---|
| C01_length_round_trip | propext, Quot.sound |
| C02_length_bounded | propext, Classical.choice, Quot.sound |
| C02_length_no_overflow | propext, Quot.sound |
| C03_lengths_accepted_fails | propext, Quot.sound |
| C03_lengths_accepted_partial | propext, Quot.sound |
| C03_lengths_iff | propext, Classical.choice, Quot.sound |
| C04_wire_format | propext, Quot.sound |
| C05_publish_round_trip | propext, Classical.choice, Quot.sound |
| C06_relay_faithful | propext, Classical.choice, Quot.sound |
| C07_client_packets | propext, Classical.choice, Quot.sound |
| C08_framing | propext, Classical.choice, Quot.sound |
| C09_will_decoded_fails | propext, Classical.choice, Quot.sound |
| C09_will_decoded_iff | propext, Classical.choice, Quot.sound |
| C09_will_decoded_partial | propext, Classical.choice, Quot.sound |
| C100_common_order | propext, Classical.choice, Quot.sound |
| C100_no_reversal | propext, Classical.choice, Quot.sound |
| C101_causal | propext, Classical.choice, Quot.sound |
| C101_order_grows | propext, Classical.choice, Quot.sound |
| C102_client_view | propext, Classical.choice, Quot.sound |
| C103_only_while_subscribed | propext, Classical.choice, Quot.sound |
| C104_suback_promise | propext, Classical.choice, Quot.sound |
| C105_hung_up_exactly | propext, Classical.choice, Quot.sound |
| C105_hung_up_only | propext, Classical.choice, Quot.sound |
| C105_told_closed | propext, Classical.choice, Quot.sound |
| C106_closed_iff | propext, Classical.choice, Quot.sound |
| C106_never_closed_fails | propext, Classical.choice, Quot.sound |
| C106_violation_fails | propext, Classical.choice, Quot.sound |
| C106_violation_partial | propext, Classical.choice, Quot.sound |
| C107_freed_fails | propext, Classical.choice, Quot.sound |
| C107_freed_in_the_end_partial | propext, Classical.choice, Quot.sound |
| C107_freed_partial | propext, Classical.choice, Quot.sound |
| C107_unreceived_fails | propext, Classical.choice, Quot.sound |
| C108_refused_closed | propext, Classical.choice, Quot.sound |
| C109_flags_fails | propext, Classical.choice, Quot.sound |
| C109_flags_iff | propext, Classical.choice, Quot.sound |
| C109_flags_partial | propext, Classical.choice, Quot.sound |
| C10_bad_qos | propext, Classical.choice, Quot.sound |
| C10_bad_utf8_publish | propext, Classical.choice, Quot.sound |
| C10_bad_utf8_subscribe | propext, Classical.choice, Quot.sound |
| C10_bad_utf8_unsubscribe | propext, Classical.choice, Quot.sound |
| C10_language | propext, Classical.choice, Quot.sound |
| C10_malformed_iff | propext, Classical.choice, Quot.sound |
| C10_no_payload | propext, Classical.choice, Quot.sound |
| C10_only_well_formed | propext, Classical.choice, Quot.sound |
| C10_wrong_flags | propext, Classical.choice, Quot.sound |
| C110_ids_iff | propext, Classical.choice, Quot.sound |
| C110_ids_partial | propext, Classical.choice, Quot.sound |
| C110_publish_zero_fails | propext, Classical.choice, Quot.sound |
| C110_subscribe_zero_fails | propext, Classical.choice, Quot.sound |
| C111_password_alone_fails | propext, Classical.choice, Quot.sound |
| C111_password_partial | propext, Classical.choice, Quot.sound |
| C111_welcome_fails | propext, Classical.choice, Quot.sound |
| C112_generated_id_partial | propext, Classical.choice, Quot.sound |
| C112_never_fails | propext, Classical.choice, Quot.sound |
| C112_no_id_fails | propext, Classical.choice, Quot.sound |
| C113_will_fails | propext, Classical.choice, Quot.sound |
| C113_will_partial | propext, Classical.choice, Quot.sound |
| C114_ack_ignored | propext, Classical.choice, Quot.sound |
| C114_acks_unseen | propext, Classical.choice, Quot.sound |
| C115_deaf_fails | propext, Classical.choice, Quot.sound |
| C115_failed_bind_partial | propext, Classical.choice, Quot.sound |
| C115_lingers_fails | propext, Classical.choice, Quot.sound |
| C115_ready_partial | propext, Classical.choice, Quot.sound |
| C115_served_first_fails | propext, Classical.choice, Quot.sound |
| C116_launch | propext, Quot.sound |
| C117_boot_is_process | propext, Classical.choice, Quot.sound |
| C118_access | propext, Classical.choice, Quot.sound |
| C119_delete_user_partial | propext, Classical.choice, Quot.sound |
| C119_set_password_fails | propext, Classical.choice, Quot.sound |
| C119_set_password_partial | propext, Classical.choice, Quot.sound |
| C11_never_panics_fails | propext, Classical.choice, Quot.sound |
| C11_never_panics_partial | propext, Classical.choice, Quot.sound |
| C11_panics_iff | propext, Classical.choice, Quot.sound |
| C11_short_publish_fails | propext, Classical.choice, Quot.sound |
| C11_unsupported_type_fails | propext, Classical.choice, Quot.sound |
| C120_flood_fails | propext, Classical.choice, Quot.sound |
| C120_nodes_fails | propext, Classical.choice, Quot.sound |
| C120_nodes_partial | propext, Classical.choice, Quot.sound |
| C120_sends_partial | propext, Classical.choice, Quot.sound |
| C121_depth | propext, Classical.choice, Quot.sound |
| C121_sizes | propext, Classical.choice, Quot.sound |
| C122_header_fails | propext, Classical.choice, Quot.sound |
| C122_patience_partial | propext, Classical.choice, Quot.sound |
| C122_subscribe_fails | propext, Classical.choice, Quot.sound |
| C122_unsubscribe_fails | propext, Classical.choice, Quot.sound |
| C123_binary_password_fails | propext, Classical.choice, Quot.sound |
| C123_password_iff | propext, Classical.choice, Quot.sound |
| C123_text_password_partial | propext, Classical.choice, Quot.sound |
| C124_subscribe | propext, Classical.choice, Quot.sound |
| C124_unsubscribe | propext, Classical.choice, Quot.sound |
| C125_deliveries | propext, Classical.choice, Quot.sound |
| C125_matches_itself | propext, Classical.choice, Quot.sound |
| C125_received | propext, Classical.choice, Quot.sound |
| C126_atomic_fails | propext, Quot.sound |
| C126_moments_partial | propext, Quot.sound |
| C126_pieces_partial | propext, Classical.choice, Quot.sound |
| C126_started_meanwhile_fails | propext, Classical.choice, Quot.sound |
| C127_first_user_fails | propext, Quot.sound |
| C127_first_user_partial | propext, Classical.choice, Quot.sound |
| C128_absent | propext, Quot.sound |
| C128_cases | propext, Classical.choice, Quot.sound |
| C128_delete_found | propext, Quot.sound |
| C128_set_found | propext, Quot.sound |
| C129_dotenv | propext, Quot.sound |
| C129_file | propext, Classical.choice, Quot.sound |
| C129_loads | propext, Classical.choice, Quot.sound |
| C129_started | propext, Classical.choice, Quot.sound |
| C129_variable | propext, Classical.choice, Quot.sound |
| C12_boundaries_fails | propext, Classical.choice, Quot.sound |
| C12_boundaries_partial | propext, Classical.choice, Quot.sound |
| C130_listeners_fails | propext, Classical.choice, Quot.sound |
| C130_listeners_partial | propext, Classical.choice, Quot.sound |
| C131_not_unicode_fails | propext, Classical.choice, Quot.sound |
| C131_unrelated_partial | propext, Classical.choice, Quot.sound |
| C132_end | propext, Classical.choice, Quot.sound |
| C132_fate | propext, Classical.choice, Quot.sound |
| C132_final | propext, Classical.choice, Quot.sound |
| C133_clients | propext, Classical.choice, Quot.sound |
| C133_handled | propext, Classical.choice, Quot.sound |
| C133_written | propext, Classical.choice, Quot.sound |
| C134_connections | propext, Classical.choice, Quot.sound |
| C134_not_shut_out | propext, Classical.choice, Quot.sound |
| C134_same_states | propext, Classical.choice, Quot.sound |
| C135_any_length_iff | propext, Classical.choice, Quot.sound |
| C135_crash_iff | propext, Classical.choice, Quot.sound |
| C136_includes | propext, Classical.choice, Quot.sound |
| C136_reactive | propext, Classical.choice, Quot.sound |
| C136_transfer | propext, Classical.choice, Quot.sound |
| C137_linearizable | propext, Classical.choice, Quot.sound |
| C137_real_time | propext, Classical.choice, Quot.sound |
| C138_subscribe_then_publish | propext, Classical.choice, Quot.sound |
| C139_read_back | propext, Classical.choice, Quot.sound |
| C139_unambiguous | propext, Quot.sound |
| C13_fragmentation | propext, Classical.choice, Quot.sound |
| C13_fragmentation_small | propext, Classical.choice, Quot.sound |
| C140_side_by_side | propext, Classical.choice, Quot.sound |
| C141_sessions | propext, Quot.sound |
| C142_after_disconnect_partial | propext, Classical.choice, Quot.sound |
| C142_clean_session_fails | propext, Classical.choice, Quot.sound |
| C142_clean_session_partial | propext, Classical.choice, Quot.sound |
| C142_ignored_fails | propext, Classical.choice, Quot.sound |
| C143_between_packets | propext, Classical.choice, Quot.sound |
| C143_keeps_running | propext, Classical.choice, Quot.sound |
| C143_on_the_wire | propext, Classical.choice, Quot.sound |
| C143_served_for_ever | propext, Classical.choice, Quot.sound |
| C144_messages_arrive | propext, Classical.choice, Quot.sound |
| C145_copies | propext, Classical.choice, Quot.sound |
| C145_exactly | propext, Classical.choice, Quot.sound |
| C145_settled | propext, Classical.choice, Quot.sound |
| C145_silence | propext, Classical.choice, Quot.sound |
| C146_answers | propext, Classical.choice, Quot.sound |
| C147_afresh_partial | propext, Classical.choice, Quot.sound |
| C147_overtaken_fails | propext, Classical.choice, Quot.sound |
| C147_reconnect_fails | propext, Classical.choice, Quot.sound |
| C147_reconnect_partial | propext, Classical.choice, Quot.sound |
| C148_bound_partial | propext, Classical.choice, Quot.sound |
| C148_leak_fails | propext, Classical.choice, Quot.sound |
| C149_accepted_partial | propext, Classical.choice, Quot.sound |
| C149_exhausted_fails | propext, Classical.choice, Quot.sound |
| C14_reader_progress_fails | propext, Classical.choice, Quot.sound |
| C14_reader_progress_partial | propext, Classical.choice, Quot.sound |
| C150_lost_fails | propext, Classical.choice, Quot.sound |
| C150_mixed_fails | propext, Classical.choice, Quot.sound |
| C150_serial_partial | propext, Classical.choice, Quot.sound |
| C151_failed_fails | propext, Classical.choice, Quot.sound |
| C151_failed_iff | propext, Classical.choice, Quot.sound |
| C151_unreadable_partial | propext, Classical.choice, Quot.sound |
| C152_dialogue | propext, Classical.choice, Quot.sound |
| C152_read | propext, Classical.choice, Quot.sound |
| C153_deleted_fails | propext, Classical.choice, Quot.sound |
| C153_since_start_partial | propext, Classical.choice, Quot.sound |
| C154_lasting_fails | propext, Classical.choice, Quot.sound |
| C154_lasting_partial | propext, Classical.choice, Quot.sound |
| C154_process_partial | propext, Classical.choice, Quot.sound |
| C155_image_fails | propext, Classical.choice, Quot.sound |
| C155_image_partial | propext, Classical.choice, Quot.sound |
| C156_named_iff | propext, Classical.choice, Quot.sound |
| C156_named_partial | propext, Classical.choice, Quot.sound |
| C156_other_file_fails | propext, Classical.choice, Quot.sound |
| C157_all_fails | propext, Classical.choice, Quot.sound |
| C157_debug_partial | propext, Classical.choice, Quot.sound |
| C157_password_fails | propext, Classical.choice, Quot.sound |
| C157_process_fails | propext, Classical.choice, Quot.sound |
| C157_process_partial | propext, Classical.choice, Quot.sound |
| C157_rules_fails | propext, Classical.choice, Quot.sound |
| C157_rules_partial | propext, Classical.choice, Quot.sound |
| C158_process | propext, Classical.choice, Quot.sound |
| C158_refusals | propext, Classical.choice, Quot.sound |
| C159_readable | propext, Classical.choice, Quot.sound |
| C159_same_text | propext, Classical.choice, Quot.sound |
| C15_large_messages_fails | propext, Classical.choice, Quot.sound |
| C15_large_messages_partial | propext, Classical.choice, Quot.sound |
| C160_client_id_fails | propext, Classical.choice, Quot.sound |
| C160_control_partial | propext, Classical.choice, Quot.sound |
| C160_process_partial | propext, Classical.choice, Quot.sound |
| C160_user_name_fails | propext, Classical.choice, Quot.sound |
| C161_process_fails | propext, Classical.choice, Quot.sound |
| C161_trace_partial | propext, Classical.choice, Quot.sound |
| C161_who_fails | propext, Classical.choice, Quot.sound |
| C162_addresses | propext, Classical.choice, Quot.sound |
| C162_life | propext, Classical.choice, Quot.sound |
| C163_flood_fails | propext, Classical.choice, Quot.sound |
| C163_quiet_partial | propext, Classical.choice, Quot.sound |
| C164_any_addresses | propext, Classical.choice, Quot.sound |
| C164_any_listener | propext, Classical.choice, Quot.sound |
| C165_any_length_partial | propext, Classical.choice, Quot.sound |
| C165_versions_fails | propext, Classical.choice, Quot.sound |
| C165_versions_partial | propext, Classical.choice, Quot.sound |
| C166_closed_partial | propext, Classical.choice, Quot.sound |
| C166_full_fails | propext, Classical.choice, Quot.sound |
| C166_keep_out_fails | propext, Classical.choice, Quot.sound |
| C166_kept_fails | propext, Classical.choice, Quot.sound |
| C166_short_partial | propext, Classical.choice, Quot.sound |
| C167_buffer_partial | propext, Classical.choice, Quot.sound |
| C167_no_bound_fails | propext, Classical.choice, Quot.sound |
| C167_slow_reader_fails | propext, Classical.choice, Quot.sound |
| C168_clients_partial | propext, Classical.choice, Quot.sound |
| C168_only_packets | propext, Classical.choice, Quot.sound |
| C168_pieces_fails | propext, Classical.choice, Quot.sound |
| C168_pieces_partial | propext, Classical.choice, Quot.sound |
| C169_later | propext, Classical.choice, Quot.sound |
| C169_more_packets | propext, Classical.choice, Quot.sound |
| C16_writer_faithful | propext, Quot.sound |
| C170_flood_fails | propext, Classical.choice, Quot.sound |
| C170_no_bound_fails | propext, Classical.choice, Quot.sound |
| C170_records_partial | propext, Classical.choice, Quot.sound |
| C170_sessions_partial | propext, Classical.choice, Quot.sound |
| C171_own_messages_partial | propext, Classical.choice, Quot.sound |
| C171_takeover_fails | propext, Classical.choice, Quot.sound |
| C172_no_commit_fails | propext, Classical.choice, Quot.sound |
| C172_no_repository_fails | propext, Classical.choice, Quot.sound |
| C172_starts_iff | propext, Classical.choice, Quot.sound |
| C172_version_partial | propext, Classical.choice, Quot.sound |
| C173_events | propext, Classical.choice, Quot.sound |
| C173_state | propext, Classical.choice, Quot.sound |
| C173_text | propext, Classical.choice, Quot.sound |
| C174_clients | propext, Classical.choice, Quot.sound |
| C174_names | propext, Classical.choice, Quot.sound |
| C174_names_iff | propext, Classical.choice, Quot.sound |
| C175_clock | propext, Classical.choice, Quot.sound |
| C176_order | propext, Classical.choice, Quot.sound |
| C176_races | propext, Classical.choice, Quot.sound |
| C177_apart | propext, Classical.choice, Quot.sound |
| C177_communities | propext, Classical.choice, Quot.sound |
| C178_more | propext, Classical.choice, Quot.sound |
| C178_order | propext, Classical.choice, Quot.sound |
| C179_twins | propext, Classical.choice, Quot.sound |
| C17_writer_terminates | propext, Quot.sound |
| C180_executions | propext, Classical.choice, Quot.sound |
| C180_past_iff | propext, Classical.choice, Quot.sound |
| C181_opaque | propext, Classical.choice, Quot.sound |
| C181_order | propext, Classical.choice, Quot.sound |
| C182_independent | propext, Classical.choice, Quot.sound |
| C182_order | propext, Classical.choice, Quot.sound |
| C183_level | propext, Classical.choice, Quot.sound |
| C183_rules | propext, Classical.choice, Quot.sound |
| C183_unset | propext, Classical.choice, Quot.sound |
| C184_no_more | propext, Classical.choice, Quot.sound |
| C184_reasons_iff | propext, Classical.choice, Quot.sound |
| C185_lengths | propext, Classical.choice, Quot.sound |
| C185_password | propext, Classical.choice, Quot.sound |
| C185_read_back | propext, Classical.choice, Quot.sound |
| C185_unchanged | propext, Classical.choice, Quot.sound |
| C185_whole | propext, Classical.choice, Quot.sound |
| C18_full_writes_partial | propext, Classical.choice, Quot.sound |
| C18_packet_reaches_socket_fails | propext, Quot.sound |
| C18_packet_reaches_socket_partial | propext, Quot.sound |
| C18_short_write_fails | propext, Quot.sound |
| C19_any_topic | propext, Classical.choice, Quot.sound |
| C19_matching | propext, Classical.choice, Quot.sound |
| C19_matching_standard | propext, Classical.choice, Quot.sound |
| C19_no_other_client | propext, Classical.choice, Quot.sound |
| C20_hash_parent_fails | propext, Classical.choice, Quot.sound |
| C20_hash_parent_partial | propext, Classical.choice, Quot.sound |
| C20_missed_iff | propext, Classical.choice, Quot.sound |
| C21_dollar_fails | propext, Classical.choice, Quot.sound |
| C21_dollar_partial | propext, Classical.choice, Quot.sound |
| C21_dollar_plus_fails | propext, Classical.choice, Quot.sound |
| C21_unwanted_iff | propext, Classical.choice, Quot.sound |
| C22_resubscribe_fails | propext, Classical.choice, Quot.sound |
| C22_resubscribe_partial | propext, Classical.choice, Quot.sound |
| C22_standard_iff | propext, Classical.choice, Quot.sound |
| C23_unsubscribe_fails | propext, Classical.choice, Quot.sound |
| C23_unsubscribe_iff | propext, Classical.choice, Quot.sound |
| C23_unsubscribe_partial | propext, Classical.choice, Quot.sound |
| C24_disconnect_counts | propext, Classical.choice, Quot.sound |
| C24_disconnect_fails | propext, Classical.choice, Quot.sound |
| C24_disconnect_iff | propext, Classical.choice, Quot.sound |
| C24_disconnect_partial | propext, Classical.choice, Quot.sound |
| C25_isolation | propext, Classical.choice, Quot.sound |
| C25_own_requests | propext, Classical.choice, Quot.sound |
| C26_commute | propext, Classical.choice, Quot.sound |
| C27_nothing_to_disconnect | propext, Classical.choice, Quot.sound |
| C27_unknown_filter | propext, Classical.choice, Quot.sound |
| C27_unknown_filter_standard | propext, Classical.choice, Quot.sound |
| C28_delivered_iff | propext, Classical.choice, Quot.sound |
| C28_wildcard_topic_fails | propext, Classical.choice, Quot.sound |
| C28_wildcard_topic_partial | propext, Classical.choice, Quot.sound |
| C28_wildcard_topic_twice_fails | propext, Classical.choice, Quot.sound |
| C29_effective | propext, Classical.choice, Quot.sound |
| C29_suback | propext, Classical.choice, Quot.sound |
| C30_effective | propext, Classical.choice, Quot.sound |
| C30_unsuback | propext, Classical.choice, Quot.sound |
| C31_ping | propext, Classical.choice, Quot.sound |
| C31_ping_history | propext, Classical.choice, Quot.sound |
| C32_any_topic | propext, Classical.choice, Quot.sound |
| C32_fan_out | propext, Classical.choice, Quot.sound |
| C33_refused | propext, Classical.choice, Quot.sound |
| C34_accepted | propext, Classical.choice, Quot.sound |
| C35_ignored_fails | propext, Classical.choice, Quot.sound |
| C35_refused_acts_fails | propext, Classical.choice, Quot.sound |
| C35_refused_acts_partial | propext, Classical.choice, Quot.sound |
| C35_refused_publishes_fails | propext, Classical.choice, Quot.sound |
| C35_refused_silences_fails | propext, Classical.choice, Quot.sound |
| C36_newest_wins | propext, Classical.choice, Quot.sound |
| C36_one_connection | propext, Classical.choice, Quot.sound |
| C37_never_fails | propext, Classical.choice, Quot.sound |
| C37_takeover_fails | propext, Classical.choice, Quot.sound |
| C37_takeover_partial | propext, Classical.choice, Quot.sound |
| C38_never_fails | propext, Classical.choice, Quot.sound |
| C38_persistent_fails | propext, Classical.choice, Quot.sound |
| C38_persistent_partial | propext, Classical.choice, Quot.sound |
| C39_acks_fails | propext, Classical.choice, Quot.sound |
| C39_acks_partial | propext, Classical.choice, Quot.sound |
| C39_never_fails | propext, Classical.choice, Quot.sound |
| C40_ignored_fails | propext, Classical.choice, Quot.sound |
| C40_qos_fails | propext, Classical.choice, Quot.sound |
| C40_qos_iff | propext, Classical.choice, Quot.sound |
| C40_qos_partial | propext, Classical.choice, Quot.sound |
| C41_never_fails | propext, Classical.choice, Quot.sound |
| C41_retained_fails | propext, Classical.choice, Quot.sound |
| C41_retained_partial | propext, Classical.choice, Quot.sound |
| C42_never_fails | propext, Classical.choice, Quot.sound |
| C42_second_connect_fails | propext, Classical.choice, Quot.sound |
| C42_second_connect_partial | propext, Classical.choice, Quot.sound |
| C43_no_crash_partial | propext, Classical.choice, Quot.sound |
| C43_no_password_fails | propext, Classical.choice, Quot.sound |
| C43_refused_fails | propext, Classical.choice, Quot.sound |
| C44_publish_never_crashes | propext, Classical.choice, Quot.sound |
| C45_crashed_serves_nobody | propext, Classical.choice, Quot.sound |
| C46_nothing_before_connect | propext, Classical.choice, Quot.sound |
| C47_identity | propext, Classical.choice, Quot.sound |
| C48_linearizable | propext, Classical.choice, Quot.sound |
| C48_nothing_lost | propext, Classical.choice, Quot.sound |
| C49_publisher_order | propext, Classical.choice, Quot.sound |
| C50_no_invented_messages | propext, Classical.choice, Quot.sound |
| C51_bounded | propext, Classical.choice, Quot.sound |
| C52_at_least_34_partial | propext, Classical.choice, Quot.sound |
| C52_exactly_34_fails | propext, Classical.choice, Quot.sound |
| C52_slow_subscriber_fails | propext, Classical.choice, Quot.sound |
| C52_slow_subscriber_partial | propext, Classical.choice, Quot.sound |
| C52_tolerated_partial | propext, Classical.choice, Quot.sound |
| C53_no_deadlock | propext, Classical.choice, Quot.sound |
| C54_cleanup_fails | propext, Classical.choice, Quot.sound |
| C54_cleanup_partial | propext, Classical.choice, Quot.sound |
| C55_shutdown_fails | propext, Classical.choice, Quot.sound |
| C55_shutdown_partial | propext, Classical.choice, Quot.sound |
| C56_accepted | propext, Quot.sound |
| C56_credential | propext, Classical.choice, Quot.sound |
| C56_lines | propext, Quot.sound |
| C57_success | propext, Classical.choice, Quot.sound |
| C57_unknown | propext, Classical.choice, Quot.sound |
| C58_mandatory_fails | propext, Classical.choice, Quot.sound |
| C58_mandatory_partial | propext, Classical.choice, Quot.sound |
| C58_welcome_iff | propext, Classical.choice, Quot.sound |
| C59_set_works_fails | propext, Classical.choice, Quot.sound |
| C59_set_works_iff | propext, Classical.choice, Quot.sound |
| C59_set_works_partial | propext, Classical.choice, Quot.sound |
| C60_others_fails | propext, Classical.choice, Quot.sound |
| C60_others_iff | propext, Classical.choice, Quot.sound |
| C60_others_partial | propext, Classical.choice, Quot.sound |
| C61_delete_works_fails | propext, Classical.choice, Quot.sound |
| C61_delete_works_iff | propext, Classical.choice, Quot.sound |
| C61_delete_works_partial | propext, Classical.choice, Quot.sound |
| C62_in_file | propext, Quot.sound |
| C62_verbatim | propext, Quot.sound |
| C63_f32_exact | propext, Classical.choice, Quot.sound |
| C63_threshold | propext, Classical.choice, Quot.sound |
| C64_activity | propext, Classical.choice, Quot.sound |
| C64_stays_expired | propext, Classical.choice, Quot.sound |
| C64_zero_never | propext, Classical.choice, Quot.sound |
| C65_enforced_fails | propext, Classical.choice, Quot.sound |
| C65_enforced_partial | propext, Classical.choice, Quot.sound |
| C65_ignored_fails | propext, Classical.choice, Quot.sound |
| C66_bookkeeping | propext, Classical.choice, Quot.sound |
| C66_bookkeeping_events | propext, Classical.choice, Quot.sound |
| C67_publish_op_fails | propext, Classical.choice, Quot.sound |
| C67_publish_op_partial | propext, Classical.choice, Quot.sound |
| C68_same_refusal | propext, Classical.choice, Quot.sound |
| C69_levels | propext, Classical.choice, Quot.sound |
| C69_levels_exist | propext, Classical.choice, Quot.sound |
| C69_levels_injective | propext, Classical.choice, Quot.sound |
| C70_failed_write_fails | propext, Quot.sound |
| C70_failed_write_partial | propext, Classical.choice, Quot.sound |
| C70_pieces_partial | propext, Quot.sound |
| C71_connack_first | propext, Classical.choice, Quot.sound |
| C72_acks_in_order | propext, Classical.choice, Quot.sound |
| C73_message_reaches_subscribers | propext, Classical.choice, Quot.sound |
| C74_refused_hears_nothing | propext, Classical.choice, Quot.sound |
| C75_silence_after_disconnect | propext, Classical.choice, Quot.sound |
| C76_after_disconnect_fails | propext, Classical.choice, Quot.sound |
| C76_after_disconnect_partial | propext, Classical.choice, Quot.sound |
| C77_any_interleaving | propext, Classical.choice, Quot.sound |
| C77_any_length_iff | propext, Classical.choice, Quot.sound |
| C77_any_possible | propext, Classical.choice, Quot.sound |
| C77_any_servable | propext, Classical.choice, Quot.sound |
| C77_in_stages | propext, Classical.choice, Quot.sound |
| C77_orders_iff | propext, Classical.choice, Quot.sound |
| C78_comes_to_rest | propext, Classical.choice, Quot.sound |
| C79_everything_handled | propext, Classical.choice, Quot.sound |
| C79_received | propext, Classical.choice, Quot.sound |
| C80_clients | propext, Classical.choice, Quot.sound |
| C80_everything_delivered | propext, Classical.choice, Quot.sound |
| C80_process | propext, Classical.choice, Quot.sound |
| C80_process_received | propext, Classical.choice, Quot.sound |
| C80_received | propext, Classical.choice, Quot.sound |
| C81_bounded_traffic | propext, Classical.choice, Quot.sound |
| C81_events | propext, Classical.choice, Quot.sound |
| C81_square | propext, Classical.choice, Quot.sound |
| C81_square_reached | propext, Classical.choice, Quot.sound |
| C82_process_is_broker | propext, Classical.choice, Quot.sound |
| C82_process_linearizable | propext, Classical.choice, Quot.sound |
| C82_process_realizes | propext, Classical.choice, Quot.sound |
| C83_exit | propext, Classical.choice, Quot.sound |
| C83_order | propext, Classical.choice, Quot.sound |
| C84_ctrl_c_partial | propext, Classical.choice, Quot.sound |
| C84_ends_well_partial | propext, Classical.choice, Quot.sound |
| C84_spinning_fails | propext, Classical.choice, Quot.sound |
| C84_spinning_partial | propext, Classical.choice, Quot.sound |
| C84_stalled_fails | propext, Classical.choice, Quot.sound |
| C84_starting_fails | propext, Classical.choice, Quot.sound |
| C85_crash_partial | propext, Classical.choice, Quot.sound |
| C85_zombie_fails | propext, Classical.choice, Quot.sound |
| C86_served_partial | propext, Classical.choice, Quot.sound |
| C86_spinning_partial | propext, Classical.choice, Quot.sound |
| C86_starvation_fails | propext, Classical.choice, Quot.sound |
| C87_dropped_fails | propext, Classical.choice, Quot.sound |
| C87_whole_events_partial | propext, Classical.choice, Quot.sound |
| C88_realizes | propext, Classical.choice, Quot.sound |
| C88_refines | propext, Classical.choice, Quot.sound |
| C88_same | propext, Classical.choice, Quot.sound |
| C89_answered | propext, Classical.choice, Quot.sound |
| C89_no_panic | propext, Classical.choice, Quot.sound |
| C89_waits_for_clients_only | propext, Classical.choice, Quot.sound |
| C90_bare_partial | propext, Classical.choice, Quot.sound |
| C90_small_messages_fails | propext, Classical.choice, Quot.sound |
| C90_small_messages_partial | propext, Classical.choice, Quot.sound |
| C90_test_message_fails | propext, Classical.choice, Quot.sound |
| C91_split_fails | propext, Classical.choice, Quot.sound |
| C91_split_partial | propext, Classical.choice, Quot.sound |
| C92_divisor | propext, Classical.choice, Quot.sound |
| C92_window | propext, Classical.choice, Quot.sound |
| C93_group | propext, Classical.choice, Quot.sound |
| C93_noninterference | propext, Classical.choice, Quot.sound |
| C93_quiet | propext, Classical.choice, Quot.sound |
| C94_memory_fails | propext, Classical.choice, Quot.sound |
| C94_nodes_partial | propext, Classical.choice, Quot.sound |
| C95_flags_fails | propext, Classical.choice, Quot.sound |
| C95_flags_iff | propext, Classical.choice, Quot.sound |
| C95_flags_partial | propext, Classical.choice, Quot.sound |
| C96_packet_ids_fails | propext, Classical.choice, Quot.sound |
| C96_packet_ids_partial | propext, Classical.choice, Quot.sound |
| C97_exactly_once_fails | propext, Classical.choice, Quot.sound |
| C97_exactly_once_partial | propext, Classical.choice, Quot.sound |
| C98_never_fails | propext, Classical.choice, Quot.sound |
| C98_protocol_fails | propext, Classical.choice, Quot.sound |
| C98_protocol_partial | propext, Classical.choice, Quot.sound |
| C98_reserved_flag_fails | propext, Classical.choice, Quot.sound |
| C99_filter_fails | propext, Classical.choice, Quot.sound |
| C99_filter_partial | propext, Classical.choice, Quot.sound |
| C99_never_fails | propext, Classical.choice, Quot.sound |
| C99_topic_fails | propext, Classical.choice, Quot.sound |
