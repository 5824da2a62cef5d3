# Axioms per theorem

Output of `#print axioms` for every theorem named in MANIFEST.json (tools/axioms.py). No theorem uses an axiom other than
the three standard ones of Lean: `propext`, `Classical.choice`, `Quot.sound`.

## Classical.choice, Quot.sound, propext (288)

* `Resmix.Topology.C01_layers_are_permutations`
* `Resmix.Topology.C02_names_unique_and_lookup_exact`
* `Resmix.Topology.C03_links_form_chains`
* `Resmix.Topology.C04_chain_hosts_distinct`
* `Resmix.Topology.C05_server_mix_list`
* `Resmix.Server.C06_newRound_propagates_workload`
* `Resmix.Mixer.C08_outputs_are_the_decryptions`
* `Resmix.Mixer.C09_answer_is_complete_and_final`
* `Resmix.Mixer.C10_forwards_once_partial`
* `Resmix.Mixer.C10_many_predecessors_partial`
* `Resmix.Mixer.C11_empty_mix_blocks_refuted`
* `Resmix.Mixer.C11_fully_delivered_round_completes_partial`
* `Resmix.Mixer.C12_good_requests_are_safe_partial`
* `Resmix.Mixer.C13_batching_is_irrelevant`
* `Resmix.Shuffle.C15_every_order_exactly_one_draw_sequence`
* `Resmix.Shuffle.C15_modulo_bias`
* `Resmix.Shuffle.C15_orders_nearly_uniform`
* `Resmix.Onion.C17_trailer_roundtrip`
* `Resmix.Onion.C17_wrap_routes`
* `Resmix.Onion.C18_cipher_roundtrip`
* `Resmix.Onion.C18_encrypt_mac_length`
* `Resmix.Onion.C19_peel_yields_message`
* `Resmix.Onion.C20_chain_count`
* `Resmix.Onion.C20_chain_deterministic`
* `Resmix.Onion.C20_generateOnion`
* `Resmix.Generate.C21_counts`
* `Resmix.Generate.C21_collector_terminates`
* `Resmix.Onion.C22_by_mix_name`
* `Resmix.Onion.C22_by_hostname`
* `Resmix.Sender.C23_each_onion_once`
* `Resmix.Sender.C24_within_round_partial`
* `Resmix.Sender.C25_identities_differ_partial`
* `Resmix.Sender.C25_equal_length_partial`
* `Resmix.Tibe.C26_eval_and_shares`
* `Resmix.Tibe.C27_public_share`
* `Resmix.Tibe.C27_calls_return`
* `Resmix.Tibe.C27_verify_share`
* `Resmix.Tibe.C28_reconstruct_secret`
* `Resmix.Tibe.C29_exactly_one`
* `Resmix.Tibe.C29_no_information`
* `Resmix.Tibe.C30_decrypt_encrypt`
* `Resmix.Tibe.C30_encrypt_for`
* `Resmix.Tibe.C30_other_id_rejected`
* `Resmix.Tibe.C31_decrypt_twice_refuted`
* `Resmix.Tibe.C32_validate_vote`
* `Resmix.Tibe.C32_honest_vote_accepted`
* `Resmix.Tibe.C32_publisher_verify`
* `Resmix.Tibe.C33_reconstruct`
* `Resmix.Tibe.C33_errors`
* `Resmix.Tibe.C33_received`
* `Resmix.Tibe.C34_degree_plus_one_refuted`
* `Resmix.Tibe.C34_degree_plus_two_partial`
* `Resmix.Tibe.C35_mixed_ids_refuted`
* `Resmix.Tibe.C35_never_wrong_partial`
* `Resmix.Tibe.C36_joint_key_partial`
* `Resmix.Tibe.C36_too_few_keys_refuted`
* `Resmix.Tibe.C36_far_too_few_partial`
* `Resmix.Tibe.C37_hide_reveal_partial`
* `Resmix.Tibe.C37_wrong_vote_refuted`
* `Resmix.Tibe.C38_poly`
* `Resmix.Tibe.C38_exponent_poly`
* `Resmix.Tibe.C38_share`
* `Resmix.Tibe.C38_public_key`
* `Resmix.Config.C39_all_built`
* `Resmix.Config.C39_encrypt_decrypt`
* `Resmix.Config.C39_votes_reconstruct`
* `Resmix.Config.C39_publishers`
* `Resmix.Ecc.C40_round_trip`
* `Resmix.Rrpc.C41_request_parcels`
* `Resmix.Rrpc.C41_too_long`
* `Resmix.Rrpc.C41_reply_parts`
* `Resmix.Merkle.C42_proofs_verify`
* `Resmix.Merkle.C42_refusals`
* `Resmix.Merkle.C43_binding`
* `Resmix.Merkle.C43_position_fits`
* `Resmix.Merkle.C44_inner_node_as_leaf_refuted`
* `Resmix.Merkle.C44_no_64_byte_objects_partial`
* `Resmix.Rrpc.C45_receiver_side`
* `Resmix.Rrpc.C45_sender_side`
* `Resmix.Rrpc.C45_robust_call`
* `Resmix.Rrpc.C45_direct_call`
* `Resmix.Rrpc.C45_responses`
* `Resmix.Rrpc.C46_impersonation_refuted`
* `Resmix.Rrpc.C46_cached_root_refuted`
* `Resmix.Rrpc.C47_sequential_is_concurrent`
* `Resmix.Rrpc.C47_concurrent_refuted`
* `Resmix.Rrpc.C48_parcel_unchanged`
* `Resmix.Rrpc.C49_relay_alters_reply_refuted`
* `Resmix.Rrpc.C49_note_unchanged_partial`
* `Resmix.Rrpc.C50_decides`
* `Resmix.Rrpc.C51_configured`
* `Resmix.Rrpc.C52_server_list`
* `Resmix.Rrpc.C52_order_irrelevant`
* `Resmix.Rrpc.C52_relay_index`
* `Resmix.Rrpc.C53_exactly_once_partial`
* `Resmix.Rrpc.C53_runs_twice_refuted`
* `Resmix.Rrpc.C53_slow_parcels_refuted`
* `Resmix.Rrpc.C53_at_most_once_partial`
* `Resmix.Rrpc.C54_duplicate_refuted`
* `Resmix.Rrpc.C54_crash_faults_partial`
* `Resmix.Rrpc.C55_second_call_refuted`
* `Resmix.Rrpc.C57_outcome`
* `Resmix.Rrpc.C58_only_admissible`
* `Resmix.Rrpc.C58_first_violation`
* `Resmix.Rrpc.DirectClient.C61_calm_partial`
* `Resmix.Rrpc.DirectClient.C61_stuck_refuted`
* `Resmix.Rrpc.Relay.C62_only_own_partial`
* `Resmix.Rrpc.Relay.C62_at_most_once_partial`
* `Resmix.Rrpc.Relay.C62_exactly_once_partial`
* `Resmix.Rrpc.Relay.C62_overtaken_refuted`
* `Resmix.Rrpc.Relay.C62_cleaned_refuted`
* `Resmix.System.C64_end_to_end`
* `Resmix.System.C64_created_system`
* `Resmix.Server.C67_newRound_is_safe_partial`
* `Resmix.Server.C68_endRound_after_addMessages_is_safe_partial`
* `Resmix.Tibe.C69_reveal_twice_refuted`
* `Resmix.Tibe.C69_first_success_partial`
* `Resmix.Mixer.C70_last_layer_partial`
* `Resmix.Sender.C70_bad_onion_crashes_refuted`
* `Resmix.Rrpc.C71_well_shaped_partial`
* `Resmix.Rrpc.C71_malformed_parcel_refuted`
* `Resmix.Rrpc.C72_ok_status_refuted`
* `Resmix.Rrpc.C72_relay_index_refuted`
* `Resmix.Rrpc.C73_short_sender_id_refuted`
* `Resmix.Rrpc.C74_honest_parcel_accepted_partial`
* `Resmix.Rrpc.C74_cleanup_tick_refuted`
* `Resmix.Rrpc.Streams.C75_healthy_partial`
* `Resmix.Rrpc.DirectClient.C76_unsent_refuted`
* `Resmix.Rrpc.DirectClient.C76_unread_refuted`
* `Resmix.Rrpc.DirectClient.C76_calm_partial`
* `Resmix.Rrpc.Relay.C77_silent_refuted`
* `Resmix.Rrpc.Relay.C77_gone_refuted`
* `Resmix.Rrpc.Incoming.C78_quiet_partial`
* `Resmix.Rrpc.C79_finitely_many_steps`
* `Resmix.Rrpc.C79_never_stuck`
* `Resmix.Rrpc.C79_all_calls_return`
* `Resmix.Rrpc.Coordinator.C80_all_up_partial`
* `Resmix.Rrpc.C82_request_refuted`
* `Resmix.Rrpc.C82_note_partial`
* `Resmix.Rrpc.Incoming.C84_refuted`
* `Resmix.Rrpc.RelayConn.C86_stuck_refuted`
* `Resmix.System.C87_created_system`
* `Resmix.System.C87_can_complete`
* `Resmix.System.C87_round_completes`
* `Resmix.System.C88_no_crash`
* `Resmix.Rrpc.SendConn.C89_dead_relay_refuted`
* `Resmix.Ecc.Slice.C91_encodes_data`
* `Resmix.Ecc.Slice.C91_refuted`
* `Resmix.Ecc.Slice.C91_only_behind_partial`
* `Resmix.Ecc.EccPool.C92_results`
* `Resmix.Ecc.EccPool.C92_round_trip`
* `Resmix.Ecc.EccPool.C92_bounded`
* `Resmix.Ecc.EccPool.C92_returns`
* `Resmix.Ecc.EccPool.C92_completes`
* `Resmix.Storage.C94_own_file`
* `Resmix.Storage.C94_crash_refuted`
* `Resmix.Storage.C94_history_partial`
* `Resmix.Storage.C94_generator_partial`
* `Resmix.Rrpc.DirectClient.C98_pending_refuted`
* `Resmix.Rrpc.DirectClient.C98_after_close_refuted`
* `Resmix.Rrpc.DirectClient.C98_goroutines_end_partial`
* `Resmix.Config.Seed.C100_outsider_decrypts_refuted`
* `Resmix.Config.Seed.C100_same_keys_refuted`
* `Resmix.Rrpc.C101_same_results`
* `Resmix.Rrpc.C101_accepted`
* `Resmix.Rrpc.C101_no_crash`
* `Resmix.Rrpc.C101_finitely_many_steps`
* `Resmix.Rrpc.C101_never_stuck`
* `Resmix.Rrpc.C101_all_calls_return`
* `Resmix.Rrpc.C102_calls_hang_refuted`
* `Resmix.Rrpc.C102_workers_end_partial`
* `Resmix.Rrpc.C102_checked_partial`
* `Resmix.Rrpc.Stop.C103_collector_hangs_refuted`
* `Resmix.Rrpc.Stop.C103_router_hangs_refuted`
* `Resmix.Rrpc.Stop.C103_returns_partial`
* `Resmix.Rrpc.Stop.C103_after_return_partial`
* `Resmix.Rrpc.Peer.C104_impostor_refuted`
* `Resmix.Rrpc.Peer.C104_honest_partial`
* `Resmix.Rrpc.CallSystem.C105_only_true_results`
* `Resmix.Rrpc.CallSystem.C105_bounded_work`
* `Resmix.Rrpc.CallSystem.C105_calls_complete_partial`
* `Resmix.Rrpc.CallSystem.C105_calm_calls_complete_partial`
* `Resmix.Rrpc.CallSystem.C105_calm_rest`
* `Resmix.Rrpc.CallSystem.C105_overtaken_refuted`
* `Resmix.Rrpc.DirectSystem.C106_own_result`
* `Resmix.Rrpc.DirectSystem.C106_once`
* `Resmix.Rrpc.DirectSystem.C106_bounded`
* `Resmix.Rrpc.DirectSystem.C106_rest`
* `Resmix.Rrpc.DirectSystem.C106_all_return`
* `Resmix.Rrpc.DirectSystem.C107_overtaken_refuted`
* `Resmix.Rrpc.DirectSystem.C107_rounds_refuted`
* `Resmix.Rrpc.DirectSystem.C107_from_start_refuted`
* `Resmix.Rrpc.DirectSystem.C108_from_start_refuted`
* `Resmix.Rrpc.DirectSystem.C108_handler_errors_partial`
* `Resmix.Rrpc.CallSystem.C109_silent_relays`
* `Resmix.Rrpc.CallSystem.C109_silent_rest`
* `Resmix.Rrpc.CallSystem.C110_silent_any_time_partial`
* `Resmix.Rrpc.CallSystem.C110_silenced_refuted`
* `Resmix.Rrpc.CallSystem.C111_only_asked`
* `Resmix.Rrpc.CallSystem.C111_true_or_cancelled`
* `Resmix.Stack.C112_safe`
* `Resmix.Stack.C112_senders_apart_proper`
* `Resmix.Stack.C112_one_round`
* `Resmix.Stack.C113_round_completes`
* `Resmix.Stack.C113_one_round`
* `Resmix.Mixer.C114_mix_hides_contents`
* `Resmix.Mixer.C114_two_onions`
* `Resmix.Mixer.C115_order_tells_little`
* `Resmix.Mixer.C115_shuffle_tells_little`
* `Resmix.Mixer.C115_thousand`
* `Resmix.Mixer.C115_every_order_possible`
* `Resmix.Mixer.C115_not_exactly_equal`
* `Resmix.System.C116_one_honest_mix`
* `Resmix.System.C117_copies_count`
* `Resmix.System.C117_copy_reveals_refuted`
* `Resmix.System.C118_chains_do_not_mix_refuted`
* `Resmix.System.C118_alone_on_a_chain_refuted`
* `Resmix.System.C119_only_the_predecessor_refuted`
* `Resmix.Tibe.C120_stale_share_refuted`
* `Resmix.Tibe.C121_equal`
* `Resmix.Tibe.C121_equal_is_not_sameness_refuted`
* `Resmix.MixerFine.C122_no_data_races`
* `Resmix.MixerFine.C123_no_more_behaviours`
* `Resmix.MixerFine.C123_readers_find_the_decryptions`
* `Resmix.MixerFine.C123_reads_are_final`
* `Resmix.MixerFine.C123_safe`
* `Resmix.MixerFine.C123_progress`
* `Resmix.MixerWatch.C124_long_batch_refuted`
* `Resmix.DialRace.C125_process_ends_refuted`
* `Resmix.DialRace.C125_coordinator_after_dial_partial`
* `Resmix.DialRace.C125_mix_after_dial_partial`
* `Resmix.Rrpc.DirectRace.C126_careful_partial`
* `Resmix.Ecc.EccPool.C127_success_partial`
* `Resmix.Ecc.EccPool.C127_encode_partial`
* `Resmix.Ecc.EccPool.C127_stopped_refuted`
* `Resmix.Ecc.EccPool.C127_failed_refuted`
* `Resmix.Rrpc.VerifierRace.C128_race_free`
* `Resmix.Rrpc.VerifierRace.C128_all_executions`
* `Resmix.Rrpc.VerifierRace.C128_certificate_is_kept`
* `Resmix.Rrpc.ServerRace.C129_race_free`
* `Resmix.Rrpc.ServerRace.C129_note_is_final`
* `Resmix.Rrpc.RobustRace.C130_race_free`
* `Resmix.Rrpc.RelayRace.C131_race_free`
* `Resmix.Ecc.C132_only_fills`
* `Resmix.Ecc.C132_same_results`
* `Resmix.Ecc.C132_encoding`
* `Resmix.Rrpc.C133_quorum`
* `Resmix.Rrpc.C133_at_most_once_partial`
* `Resmix.Rrpc.C133_replay_refuted`
* `Resmix.Rrpc.C133_few_relays_run_nothing`
* `Resmix.Rrpc.C133_diverted_refuted`
* `Resmix.Config.C134_takeover_partial`
* `Resmix.Config.C134_threshold_votes_refuted`
* `Resmix.Config.C134_one_failure_refuted`
* `Resmix.Tibe.VotePool.C135_linearizable`
* `Resmix.Tibe.VotePool.C135_no_crash`
* `Resmix.Tibe.VotePool.C135_calls_return`
* `Resmix.System.C136_same_size`
* `Resmix.System.C136_created_system`
* `Resmix.System.C136_size_tells`
* `Resmix.Config.C138_fits_together`
* `Resmix.Config.C138_local`
* `Resmix.Rrpc.RelayConn.C139_hangs_refuted`
* `Resmix.Rrpc.RelayConn.C139_only_its_id_partial`
* `Resmix.Rrpc.CallSystem.C140_relay`
* `Resmix.Rrpc.CallSystem.C140_only_own`
* `Resmix.Rrpc.CallSystem.C140_client`
* `Resmix.Rrpc.CallSystem.C140_calls`
* `Resmix.Rrpc.C141_other_method_refuted`
* `Resmix.Rrpc.C141_no_arguments_refuted`
* `Resmix.Rrpc.C141_own_parcels_partial`
* `Resmix.Onion.C142_one_chain_refuted`
* `Resmix.Onion.C142_choice_partial`
* `Resmix.Onion.C142_even_partial`
* `Resmix.Onion.C142_repeats_refuted`
* `Resmix.System.C143_lost_for_good_refuted`
* `Resmix.System.C143_other_chains_partial`
* `Resmix.System.C143_exactly_partial`
* `Resmix.Mixer.C144_stranger_refuted`
* `Resmix.Mixer.C144_other_mixes_partial`
* `Resmix.System.C145_opened_first_loses_nothing`
* `Resmix.System.C145_opened_first_completes`
* `Resmix.System.C146_missing_onion_refuted`
* `Resmix.System.C146_other_chains_partial`
* `Resmix.System.C146_exactly_partial`
* `Resmix.Tibe.C147_poly_refuted`
* `Resmix.Tibe.C147_share_partial`
* `Resmix.System.C148_ended_early_refuted`

## Quot.sound, propext (80)

* `Resmix.Server.C07_open_rounds_are_a_map`
* `Resmix.Server.C07_rounds_are_isolated`
* `Resmix.Mixer.C09_notFound_iff_unknown`
* `Resmix.Shuffle.C14_shuffle_permutes`
* `Resmix.Shuffle.C16_shuffler_reuse`
* `Resmix.Tibe.C31_authenticated_partial`
* `Resmix.Tibe.C38_master_public_key`
* `Resmix.Rrpc.C46_some_call_was_valid_partial`
* `Resmix.Rrpc.C46_same_key_partial`
* `Resmix.Rrpc.C46_sequential_partial`
* `Resmix.Rrpc.C47_sequential_partial`
* `Resmix.Rrpc.C47_all_valid_partial`
* `Resmix.Rrpc.C51_sizes`
* `Resmix.Rrpc.C52_lookups`
* `Resmix.Rrpc.C55_fresh_buffer_partial`
* `Resmix.Rrpc.C56_reuse`
* `Resmix.Rrpc.C58_unknown_caller`
* `Resmix.Rrpc.C59_resolve`
* `Resmix.Rrpc.C59_unambiguous`
* `Resmix.Rrpc.C59_same_methods`
* `Resmix.Rrpc.C60_relay_tasks_refuted`
* `Resmix.Rrpc.C60_relay_requests_refuted`
* `Resmix.Rrpc.C60_direct_calls_partial`
* `Resmix.Rrpc.DirectClient.C61_crash_refuted`
* `Resmix.Rrpc.DirectClient.C61_from_start_refuted`
* `Resmix.Rrpc.Relay.C63_refuted`
* `Resmix.Rrpc.Relay.C63_error_with_note_partial`
* `Resmix.Merkle.C65_round_trip`
* `Resmix.Merkle.C65_rejections`
* `Resmix.Server.C66_replaced_round_never_closed_refuted`
* `Resmix.Server.C66_not_replaced_partial`
* `Resmix.Rrpc.C72_well_formed_answers_partial`
* `Resmix.Rrpc.C73_right_length_partial`
* `Resmix.Rrpc.Streams.C75_crash_refuted`
* `Resmix.Rrpc.Streams.C75_from_start_refuted`
* `Resmix.Rrpc.Coordinator.C78_after_failed_dial_refuted`
* `Resmix.Rrpc.Incoming.C78_race_refuted`
* `Resmix.Rrpc.Coordinator.C80_unreported_refuted`
* `Resmix.Rrpc.Coordinator.C80_nil_connection_refuted`
* `Resmix.Rrpc.Streams.C81_full_channel_refuted`
* `Resmix.Rrpc.Incoming.C84_gone_partial`
* `Resmix.Rrpc.RelayConn.C85_own_id`
* `Resmix.Rrpc.RelayConn.C86_calm_partial`
* `Resmix.Rrpc.SendConn.C89_all_up_partial`
* `Resmix.Rrpc.SendConn.C90_dead_server_refuted`
* `Resmix.Rrpc.SendConn.C90_hundred_partial`
* `Resmix.Rrpc.Coordinator.C93_own_error_partial`
* `Resmix.Rrpc.Bypass.C96_same_dispatch`
* `Resmix.Rrpc.Bypass.C96_async`
* `Resmix.Rrpc.Bypass.C96_kind`
* `Resmix.Dial.C97_connects`
* `Resmix.Dial.C97_close_partial`
* `Resmix.Dial.C97_fails_partial`
* `Resmix.Dial.C97_twice_refuted`
* `Resmix.Rrpc.Publish.C99_never_blocks`
* `Resmix.Rrpc.Publish.C99_delivery`
* `Resmix.Rrpc.Stop.C103_crash_refuted`
* `Resmix.Rrpc.Stop.C103_handler_runs_refuted`
* `Resmix.Rrpc.Peer.C104_first_name_partial`
* `Resmix.Rrpc.DirectSystem.C108_unknown_method_refuted`
* `Resmix.Rrpc.DirectSystem.C108_unencodable_refuted`
* `Resmix.Rrpc.CallSystem.C111_final`
* `Resmix.Tibe.C120_poly_reuse`
* `Resmix.Tibe.C120_failed_decode_destroys_refuted`
* `Resmix.Tibe.C120_exponent_new_index_partial`
* `Resmix.Tibe.C120_refused_partial`
* `Resmix.Tibe.C120_exponent_failed_decode_destroys_refuted`
* `Resmix.Tibe.C120_poisoned_index_refuted`
* `Resmix.MixerWatch.C124_short_rounds_partial`
* `Resmix.DialRace.C125_missing_refuted`
* `Resmix.DialRace.C125_bad_request_refuted`
* `Resmix.Rrpc.DirectRace.C126_late_response_refuted`
* `Resmix.Rrpc.DirectRace.C126_early_response_refuted`
* `Resmix.Rrpc.DirectRace.C126_timeout_in_queue_refuted`
* `Resmix.Rrpc.RobustRace.C130_shared_request_races`
* `Resmix.Rrpc.RelayRace.C131_concurrent_reads`
* `Resmix.Onion.C136_peel_size`
* `Resmix.Rrpc.C137_server_forgets`
* `Resmix.Rrpc.C137_tables_forget`
* `Resmix.Onion.C149_all_keys_or_none`

## none (5)

* `Resmix.Sender.C25_identities_collide_refuted`
* `Resmix.Rrpc.C57_unverified`
* `Resmix.Storage.C95_empty_refuted`
* `Resmix.Rrpc.Bypass.C96_robust_refuted`
* `Resmix.Rrpc.DirectSystem.C106_reply`

## propext (20)

* `Resmix.Mixer.C10_forwarded_twice_refuted`
* `Resmix.Mixer.C12_requests_crash_refuted`
* `Resmix.Sender.C24_round_not_in_uuid_refuted`
* `Resmix.Rrpc.C50_cancelled`
* `Resmix.Rrpc.C55_stale_reply_refuted`
* `Resmix.Rrpc.C56_pack_once`
* `Resmix.Rrpc.C56_unpack_once`
* `Resmix.Rrpc.Relay.C63_not_forwarded_partial`
* `Resmix.Server.C67_huge_workload_crashes_refuted`
* `Resmix.Server.C68_endRound_during_addMessages_crashes_refuted`
* `Resmix.Rrpc.C72_no_note_refuted`
* `Resmix.Rrpc.Relay.C77_room_partial`
* `Resmix.Rrpc.Streams.C81_room_partial`
* `Resmix.Rrpc.C82_response_refuted`
* `Resmix.Rrpc.Incoming.C83_in_order`
* `Resmix.Rrpc.Coordinator.C93_overwritten_refuted`
* `Resmix.Storage.C94_other_system_refuted`
* `Resmix.Storage.C95_nonempty_partial`
* `Resmix.Dial.C97_peer_down_refuted`
* `Resmix.Dial.C97_retry_refuted`
