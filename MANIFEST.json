{
 "claims": [
  {
   "property": "C01",
   "status": "proved",
   "theorems": [
    "Resmix.Topology.C01_layers_are_permutations"
   ],
   "note": ""
  },
  {
   "property": "C02",
   "status": "proved",
   "theorems": [
    "Resmix.Topology.C02_names_unique_and_lookup_exact"
   ],
   "note": ""
  },
  {
   "property": "C03",
   "status": "proved",
   "theorems": [
    "Resmix.Topology.C03_links_form_chains"
   ],
   "note": ""
  },
  {
   "property": "C04",
   "status": "proved",
   "theorems": [
    "Resmix.Topology.C04_chain_hosts_distinct"
   ],
   "note": ""
  },
  {
   "property": "C05",
   "status": "proved",
   "theorems": [
    "Resmix.Topology.C05_server_mix_list"
   ],
   "note": ""
  },
  {
   "property": "C06",
   "status": "proved",
   "theorems": [
    "Resmix.Server.C06_newRound_propagates_workload"
   ],
   "note": "Stated for workloads below 2^63 (Go int); larger ones are C67."
  },
  {
   "property": "C07",
   "status": "proved",
   "theorems": [
    "Resmix.Server.C07_open_rounds_are_a_map",
    "Resmix.Server.C07_rounds_are_isolated"
   ],
   "note": ""
  },
  {
   "property": "C08",
   "status": "proved",
   "theorems": [
    "Resmix.Mixer.C08_outputs_are_the_decryptions"
   ],
   "note": ""
  },
  {
   "property": "C09",
   "status": "proved",
   "theorems": [
    "Resmix.Mixer.C09_answer_is_complete_and_final",
    "Resmix.Mixer.C09_notFound_iff_unknown"
   ],
   "note": ""
  },
  {
   "property": "C10",
   "status": "partial",
   "theorems": [
    "Resmix.Mixer.C10_forwarded_twice_refuted",
    "Resmix.Mixer.C10_forwards_once_partial",
    "Resmix.Mixer.C10_many_predecessors_partial"
   ],
   "note": "As stated it is false: C10_forwarded_twice_refuted. The partial theorem proves at-most-once/exactly-once forwarding when every batch carries at least one onion; the shuffle count and the last-layer claim are proved unconditionally."
  },
  {
   "property": "C11",
   "status": "partial",
   "theorems": [
    "Resmix.Mixer.C11_empty_mix_blocks_refuted",
    "Resmix.Mixer.C11_fully_delivered_round_completes_partial"
   ],
   "note": "As stated it is false for workload zero: C11_empty_mix_blocks_refuted. Proved for positive workloads (termination bound + completeness at rest)."
  },
  {
   "property": "C12",
   "status": "partial",
   "theorems": [
    "Resmix.Mixer.C12_requests_crash_refuted",
    "Resmix.Mixer.C12_good_requests_are_safe_partial"
   ],
   "note": "As stated it is false: C12_requests_crash_refuted exhibits four crashing requests. Proved safe for requests with known receivers, parseable onions, no over-delivery, no close."
  },
  {
   "property": "C13",
   "status": "proved",
   "theorems": [
    "Resmix.Mixer.C13_batching_is_irrelevant"
   ],
   "note": ""
  },
  {
   "property": "C14",
   "status": "proved",
   "theorems": [
    "Resmix.Shuffle.C14_shuffle_permutes"
   ],
   "note": ""
  },
  {
   "property": "C15",
   "status": "proved",
   "theorems": [
    "Resmix.Shuffle.C15_every_order_exactly_one_draw_sequence",
    "Resmix.Shuffle.C15_modulo_bias",
    "Resmix.Shuffle.C15_orders_nearly_uniform"
   ],
   "note": "C15_orders_nearly_uniform counts the word sequences of every order (probability within the stated factors of 1/n!)."
  },
  {
   "property": "C16",
   "status": "proved",
   "theorems": [
    "Resmix.Shuffle.C16_shuffler_reuse"
   ],
   "note": ""
  },
  {
   "property": "C17",
   "status": "proved",
   "theorems": [
    "Resmix.Onion.C17_trailer_roundtrip",
    "Resmix.Onion.C17_wrap_routes"
   ],
   "note": ""
  },
  {
   "property": "C18",
   "status": "proved",
   "theorems": [
    "Resmix.Onion.C18_cipher_roundtrip",
    "Resmix.Onion.C18_encrypt_mac_length"
   ],
   "note": ""
  },
  {
   "property": "C19",
   "status": "proved",
   "theorems": [
    "Resmix.Onion.C19_peel_yields_message"
   ],
   "note": ""
  },
  {
   "property": "C20",
   "status": "proved",
   "theorems": [
    "Resmix.Onion.C20_chain_count",
    "Resmix.Onion.C20_chain_deterministic",
    "Resmix.Onion.C20_generateOnion"
   ],
   "note": "For at most 2^50 messages. math.Sqrt on float64 is modelled by the IEEE contract: the result is some correctly rounded double nearest to the real root."
  },
  {
   "property": "C21",
   "status": "proved",
   "theorems": [
    "Resmix.Generate.C21_counts",
    "Resmix.Generate.C21_collector_terminates"
   ],
   "note": ""
  },
  {
   "property": "C22",
   "status": "proved",
   "theorems": [
    "Resmix.Onion.C22_by_mix_name",
    "Resmix.Onion.C22_by_hostname"
   ],
   "note": ""
  },
  {
   "property": "C23",
   "status": "proved",
   "theorems": [
    "Resmix.Sender.C23_each_onion_once"
   ],
   "note": ""
  },
  {
   "property": "C24",
   "status": "partial",
   "theorems": [
    "Resmix.Sender.C24_within_round_partial",
    "Resmix.Sender.C24_round_not_in_uuid_refuted"
   ],
   "note": "False across rounds (uuids do not contain the round): refuted. Proved within a round."
  },
  {
   "property": "C25",
   "status": "partial",
   "theorems": [
    "Resmix.Sender.C25_identities_collide_refuted",
    "Resmix.Sender.C25_identities_differ_partial",
    "Resmix.Sender.C25_equal_length_partial"
   ],
   "note": "False of the code: (\"h:505\", 10) and (\"h:5051\", 0) share an id. Proved when no host name is another one followed by digits."
  },
  {
   "property": "C26",
   "status": "proved",
   "theorems": [
    "Resmix.Tibe.C26_eval_and_shares"
   ],
   "note": ""
  },
  {
   "property": "C27",
   "status": "proved",
   "theorems": [
    "Resmix.Tibe.C27_public_share",
    "Resmix.Tibe.C27_calls_return",
    "Resmix.Tibe.C27_verify_share"
   ],
   "note": ""
  },
  {
   "property": "C28",
   "status": "proved",
   "theorems": [
    "Resmix.Tibe.C28_reconstruct_secret"
   ],
   "note": ""
  },
  {
   "property": "C29",
   "status": "proved",
   "theorems": [
    "Resmix.Tibe.C29_exactly_one",
    "Resmix.Tibe.C29_no_information"
   ],
   "note": ""
  },
  {
   "property": "C30",
   "status": "proved",
   "theorems": [
    "Resmix.Tibe.C30_decrypt_encrypt",
    "Resmix.Tibe.C30_encrypt_for",
    "Resmix.Tibe.C30_other_id_rejected"
   ],
   "note": ""
  },
  {
   "property": "C31",
   "status": "partial",
   "theorems": [
    "Resmix.Tibe.C31_authenticated_partial",
    "Resmix.Tibe.C31_decrypt_twice_refuted"
   ],
   "note": "Reuse is false of the code: C31_decrypt_twice_refuted (decryption works in place). Authentication and the Copy() behaviour are proved."
  },
  {
   "property": "C32",
   "status": "proved",
   "theorems": [
    "Resmix.Tibe.C32_validate_vote",
    "Resmix.Tibe.C32_honest_vote_accepted",
    "Resmix.Tibe.C32_publisher_verify"
   ],
   "note": ""
  },
  {
   "property": "C33",
   "status": "proved",
   "theorems": [
    "Resmix.Tibe.C33_reconstruct",
    "Resmix.Tibe.C33_errors",
    "Resmix.Tibe.C33_received"
   ],
   "note": ""
  },
  {
   "property": "C34",
   "status": "partial",
   "theorems": [
    "Resmix.Tibe.C34_degree_plus_one_refuted",
    "Resmix.Tibe.C34_degree_plus_two_partial"
   ],
   "note": "False of the code: Threshold() is degree+2, so degree+1 votes are always refused (C34_degree_plus_one_refuted); degree+2 suffice (partial)."
  },
  {
   "property": "C35",
   "status": "partial",
   "theorems": [
    "Resmix.Tibe.C35_mixed_ids_refuted",
    "Resmix.Tibe.C35_never_wrong_partial"
   ],
   "note": "False of the code: votes on two ids are combined into a wrong key (C35_mixed_ids_refuted). With one id no wrong key is ever returned (partial)."
  },
  {
   "property": "C36",
   "status": "partial",
   "theorems": [
    "Resmix.Tibe.C36_joint_key_partial",
    "Resmix.Tibe.C36_too_few_keys_refuted",
    "Resmix.Tibe.C36_far_too_few_partial"
   ],
   "note": "False of the code for t-1 keys: the shared key is the identity, with no error (C36_too_few_keys_refuted). Proved for at least t keys and for at most t-2 keys."
  },
  {
   "property": "C37",
   "status": "partial",
   "theorems": [
    "Resmix.Tibe.C37_hide_reveal_partial",
    "Resmix.Tibe.C37_wrong_vote_refuted"
   ],
   "note": "The wrong-vote part is false of the code (C37_wrong_vote_refuted: Reveal returns garbage without error). The rest is proved."
  },
  {
   "property": "C38",
   "status": "proved",
   "theorems": [
    "Resmix.Tibe.C38_poly",
    "Resmix.Tibe.C38_exponent_poly",
    "Resmix.Tibe.C38_share",
    "Resmix.Tibe.C38_public_key",
    "Resmix.Tibe.C38_master_public_key"
   ],
   "note": ""
  },
  {
   "property": "C39",
   "status": "proved",
   "theorems": [
    "Resmix.Config.C39_all_built",
    "Resmix.Config.C39_encrypt_decrypt",
    "Resmix.Config.C39_votes_reconstruct",
    "Resmix.Config.C39_publishers"
   ],
   "note": "degree+2 votes, as the code's Threshold() demands (see C34). Random polynomials are universally quantified; NewRandomPoly's degree is the hypothesis."
  },
  {
   "property": "C40",
   "status": "proved",
   "theorems": [
    "Resmix.Ecc.C40_round_trip"
   ],
   "note": ""
  },
  {
   "property": "C41",
   "status": "proved",
   "theorems": [
    "Resmix.Rrpc.C41_request_parcels",
    "Resmix.Rrpc.C41_too_long",
    "Resmix.Rrpc.C41_reply_parts"
   ],
   "note": ""
  },
  {
   "property": "C42",
   "status": "proved",
   "theorems": [
    "Resmix.Merkle.C42_proofs_verify",
    "Resmix.Merkle.C42_refusals"
   ],
   "note": ""
  },
  {
   "property": "C43",
   "status": "proved",
   "theorems": [
    "Resmix.Merkle.C43_binding",
    "Resmix.Merkle.C43_position_fits"
   ],
   "note": ""
  },
  {
   "property": "C44",
   "status": "partial",
   "theorems": [
    "Resmix.Merkle.C44_inner_node_as_leaf_refuted",
    "Resmix.Merkle.C44_no_64_byte_objects_partial"
   ],
   "note": "False of the code without a length condition: inner nodes are hashed like leaves, so a 64-byte string made of two digests verifies as a leaf. Proved for encodings of other lengths, up to explicit hash collisions."
  },
  {
   "property": "C45",
   "status": "proved",
   "theorems": [
    "Resmix.Rrpc.C45_receiver_side",
    "Resmix.Rrpc.C45_sender_side",
    "Resmix.Rrpc.C45_robust_call",
    "Resmix.Rrpc.C45_direct_call",
    "Resmix.Rrpc.C45_responses"
   ],
   "note": "ed25519 and the protobuf encodings are parameters with laws (SigScheme, Codec)."
  },
  {
   "property": "C46",
   "status": "partial",
   "theorems": [
    "Resmix.Rrpc.C46_impersonation_refuted",
    "Resmix.Rrpc.C46_cached_root_refuted",
    "Resmix.Rrpc.C46_some_call_was_valid_partial",
    "Resmix.Rrpc.C46_same_key_partial",
    "Resmix.Rrpc.C46_sequential_partial"
   ],
   "note": "False of the code: the cache is keyed by the root only (refuted, also as impersonation). Proved: some earlier call for this root was valid; with one key per root the claim holds."
  },
  {
   "property": "C47",
   "status": "partial",
   "theorems": [
    "Resmix.Rrpc.C47_sequential_partial",
    "Resmix.Rrpc.C47_sequential_is_concurrent",
    "Resmix.Rrpc.C47_concurrent_refuted",
    "Resmix.Rrpc.C47_all_valid_partial"
   ],
   "note": "False for concurrent calls (refuted). Proved for sequential histories, and for concurrent ones in which all certificates of the root are valid."
  },
  {
   "property": "C48",
   "status": "proved",
   "theorems": [
    "Resmix.Rrpc.C48_parcel_unchanged"
   ],
   "note": "For wire encodings longer than 64 bytes (every parcel and note contains two 32-byte keys and more), up to explicitly exhibited hash collisions / zero-digest preimages. Holds whatever roots the verifier remembers."
  },
  {
   "property": "C49",
   "status": "partial",
   "theorems": [
    "Resmix.Rrpc.C49_relay_alters_reply_refuted",
    "Resmix.Rrpc.C49_note_unchanged_partial"
   ],
   "note": "As stated it is false: C49_relay_alters_reply_refuted (the signed object is only the note; the reply part is not covered). The partial theorem proves the note of an accepted response is the one the server signed."
  },
  {
   "property": "C50",
   "status": "proved",
   "theorems": [
    "Resmix.Rrpc.C50_decides",
    "Resmix.Rrpc.C50_cancelled"
   ],
   "note": "Answers that make the client panic are excluded here; they are C72."
  },
  {
   "property": "C51",
   "status": "proved",
   "theorems": [
    "Resmix.Rrpc.C51_sizes",
    "Resmix.Rrpc.C51_configured"
   ],
   "note": ""
  },
  {
   "property": "C52",
   "status": "proved",
   "theorems": [
    "Resmix.Rrpc.C52_server_list",
    "Resmix.Rrpc.C52_order_irrelevant",
    "Resmix.Rrpc.C52_relay_index",
    "Resmix.Rrpc.C52_lookups"
   ],
   "note": ""
  },
  {
   "property": "C53",
   "status": "partial",
   "theorems": [
    "Resmix.Rrpc.C53_exactly_once_partial",
    "Resmix.Rrpc.C53_runs_twice_refuted",
    "Resmix.Rrpc.C53_slow_parcels_refuted",
    "Resmix.Rrpc.C53_at_most_once_partial"
   ],
   "note": "As stated it is false: C53_runs_twice_refuted (tau large: a second complete group starts a second run) and C53_slow_parcels_refuted (parcels straddling a cleanup tick are lost). C53_exactly_once_partial proves it for networks that need more than half of the parcels (all networks of CreateCoordinator: configNetwork_majority) and timely parcels, for every order, interleaving and loss. C53_at_most_once_partial: whatever the cleanups do, at most one run, on the right bytes."
  },
  {
   "property": "C54",
   "status": "partial",
   "theorems": [
    "Resmix.Rrpc.C54_duplicate_refuted",
    "Resmix.Rrpc.C54_crash_faults_partial"
   ],
   "note": "As stated it is false: C54_duplicate_refuted (one relay delivering its own parcel twice makes the call fail). C54_crash_faults_partial proves the end-to-end success for relays that lose parcels or answers or answer what is rejected."
  },
  {
   "property": "C55",
   "status": "partial",
   "theorems": [
    "Resmix.Rrpc.C55_stale_reply_refuted",
    "Resmix.Rrpc.C55_second_call_refuted",
    "Resmix.Rrpc.C55_fresh_buffer_partial"
   ],
   "note": "As stated it is false: pooled buffers are never reset (C55_stale_reply_refuted, C55_second_call_refuted: the second call's reply decodes to the first's). C55_fresh_buffer_partial: a call that gets a new buffer sends its own reply."
  },
  {
   "property": "C56",
   "status": "proved",
   "theorems": [
    "Resmix.Rrpc.C56_pack_once",
    "Resmix.Rrpc.C56_unpack_once",
    "Resmix.Rrpc.C56_reuse"
   ],
   "note": "Requests without a context are not modelled."
  },
  {
   "property": "C57",
   "status": "proved",
   "theorems": [
    "Resmix.Rrpc.C57_outcome",
    "Resmix.Rrpc.C57_unverified"
   ],
   "note": "For handler errors with a status code other than OK and values the codec can encode."
  },
  {
   "property": "C58",
   "status": "proved",
   "theorems": [
    "Resmix.Rrpc.C58_only_admissible",
    "Resmix.Rrpc.C58_first_violation",
    "Resmix.Rrpc.C58_unknown_caller"
   ],
   "note": "The certificate check is the result of Verify (C46-C50); handler runs are those of the stream's loop."
  },
  {
   "property": "C59",
   "status": "proved",
   "theorems": [
    "Resmix.Rrpc.C59_resolve",
    "Resmix.Rrpc.C59_unambiguous",
    "Resmix.Rrpc.C59_same_methods"
   ],
   "note": "Service tables without nil entries. The short form needs a service name that is not empty and does not begin with a slash."
  },
  {
   "property": "C60",
   "status": "partial",
   "theorems": [
    "Resmix.Rrpc.C60_relay_tasks_refuted",
    "Resmix.Rrpc.C60_relay_requests_refuted",
    "Resmix.Rrpc.C60_direct_calls_partial"
   ],
   "note": "False as stated for relay tasks and requests to relays, whose entries are dropped at any age (C60_relay_tasks_refuted, C60_relay_requests_refuted). C60_direct_calls_partial: for direct calls it holds, a cleanup with nobody else at work."
  },
  {
   "property": "C61",
   "status": "partial",
   "theorems": [
    "Resmix.Rrpc.DirectClient.C61_calm_partial",
    "Resmix.Rrpc.DirectClient.C61_crash_refuted",
    "Resmix.Rrpc.DirectClient.C61_from_start_refuted",
    "Resmix.Rrpc.DirectClient.C61_stuck_refuted"
   ],
   "note": "False as stated: the cleanup races with the dispatch of a response: C61_crash_refuted, C61_from_start_refuted (send on a closed channel), C61_stuck_refuted (deadlock). C61_calm_partial: it holds in every run in which the cleanup does not look at a call whose response is being handed over (CalmRun)."
  },
  {
   "property": "C62",
   "status": "partial",
   "theorems": [
    "Resmix.Rrpc.Relay.C62_only_own_partial",
    "Resmix.Rrpc.Relay.C62_at_most_once_partial",
    "Resmix.Rrpc.Relay.C62_exactly_once_partial",
    "Resmix.Rrpc.Relay.C62_overtaken_refuted",
    "Resmix.Rrpc.Relay.C62_cleaned_refuted"
   ],
   "note": "False as stated: the response can overtake the bookkeeping or come after a cleanup (C62_overtaken_refuted, C62_cleaned_refuted). In every interleaving: only own responses, at most once. Exactly once in runs where every response finds its entry and no stream fails."
  },
  {
   "property": "C63",
   "status": "partial",
   "theorems": [
    "Resmix.Rrpc.Relay.C63_refuted",
    "Resmix.Rrpc.Relay.C63_error_with_note_partial",
    "Resmix.Rrpc.Relay.C63_not_forwarded_partial"
   ],
   "note": "False as stated: the answer to a refused parcel has no note and ends the relay's process (C63_refuted). What holds: errors with a note and requests that cannot be forwarded are reported."
  },
  {
   "property": "C64",
   "status": "proved",
   "theorems": [
    "Resmix.System.C64_end_to_end",
    "Resmix.System.C64_created_system"
   ],
   "note": "Model/System composes all servers, mixers, senders and requests in flight (any interleaving, loss, reordering, crashes, other rounds with arbitrary traffic). Hypotheses: clients of the round open each server at most once with the true per-chain workload and do not exceed their submissions. Replays of a request by the RPC layer are not part of this model (C59 shows that layer does not exclude them)."
  },
  {
   "property": "C65",
   "status": "proved",
   "theorems": [
    "Resmix.Merkle.C65_round_trip",
    "Resmix.Merkle.C65_rejections"
   ],
   "note": ""
  },
  {
   "property": "C66",
   "status": "partial",
   "theorems": [
    "Resmix.Server.C66_replaced_round_never_closed_refuted",
    "Resmix.Server.C66_not_replaced_partial"
   ],
   "note": "False of the code: the refutation proves that the replaced object stays unclosed in every continuation. Partial (holds): if no successful NewRound hits a round that is still open, then every round object is closed or still referred to by its round, in every reachable state."
  },
  {
   "property": "C67",
   "status": "partial",
   "theorems": [
    "Resmix.Server.C67_huge_workload_crashes_refuted",
    "Resmix.Server.C67_newRound_is_safe_partial"
   ],
   "note": "False of the code for workloads >= 2^63; proved safe below."
  },
  {
   "property": "C68",
   "status": "partial",
   "theorems": [
    "Resmix.Server.C68_endRound_during_addMessages_crashes_refuted",
    "Resmix.Server.C68_endRound_after_addMessages_is_safe_partial"
   ],
   "note": "False of the code when an AddMessages handler is inside the round object; proved safe otherwise."
  },
  {
   "property": "C69",
   "status": "partial",
   "theorems": [
    "Resmix.Tibe.C69_reveal_twice_refuted",
    "Resmix.Tibe.C69_first_success_partial"
   ],
   "note": "False of the code: C69_reveal_twice_refuted (Reveal decrypts in place). C69_first_success_partial: failing calls leave the secret intact, the first sufficient call gives the message, and calls on copies all give it."
  },
  {
   "property": "C70",
   "status": "partial",
   "theorems": [
    "Resmix.Mixer.C70_last_layer_partial",
    "Resmix.Sender.C70_bad_onion_crashes_refuted"
   ],
   "note": "False of the code: a failed decryption leaves an empty onion in the output and ExtractMixConfig panics on it in the sender (refuted). C70_last_layer_partial: the mixer itself does not crash, all good onions come out, and in the last layer nothing is forwarded."
  },
  {
   "property": "C71",
   "status": "partial",
   "theorems": [
    "Resmix.Rrpc.C71_well_shaped_partial",
    "Resmix.Rrpc.C71_malformed_parcel_refuted"
   ],
   "note": "As stated it is false: C71_malformed_parcel_refuted. C71_well_shaped_partial: no panic for any parcels with a 4-byte length field and 36 pieces."
  },
  {
   "property": "C72",
   "status": "partial",
   "theorems": [
    "Resmix.Rrpc.C72_ok_status_refuted",
    "Resmix.Rrpc.C72_no_note_refuted",
    "Resmix.Rrpc.C72_relay_index_refuted",
    "Resmix.Rrpc.C72_well_formed_answers_partial"
   ],
   "note": "As stated it is false: C72_ok_status_refuted, C72_no_note_refuted, C72_relay_index_refuted. The partial theorem proves that well-formed answers never panic the client."
  },
  {
   "property": "C73",
   "status": "partial",
   "theorems": [
    "Resmix.Rrpc.C73_short_sender_id_refuted",
    "Resmix.Rrpc.C73_right_length_partial"
   ],
   "note": "False of the code (ed25519.Verify panics on keys of a wrong length). Proved safe for 32-byte keys."
  },
  {
   "property": "C74",
   "status": "partial",
   "theorems": [
    "Resmix.Rrpc.C74_honest_parcel_accepted_partial",
    "Resmix.Rrpc.C74_cleanup_tick_refuted"
   ],
   "note": "As stated it is false when a cleanup tick falls between the two checks: C74_cleanup_tick_refuted. Without a tick it is proved for every request, key pair, network and cache (args shorter than 2^32 bytes)."
  },
  {
   "property": "C75",
   "status": "partial",
   "theorems": [
    "Resmix.Rrpc.Streams.C75_crash_refuted",
    "Resmix.Rrpc.Streams.C75_from_start_refuted",
    "Resmix.Rrpc.Streams.C75_healthy_partial"
   ],
   "note": "As stated it is false: a failed Send closes the relay's response channel, the next response for it is a send on a closed channel (C75_crash_refuted, C75_from_start_refuted). C75_healthy_partial: no crash and exact delivery as long as no stream fails."
  },
  {
   "property": "C76",
   "status": "partial",
   "theorems": [
    "Resmix.Rrpc.DirectClient.C76_unsent_refuted",
    "Resmix.Rrpc.DirectClient.C76_unread_refuted",
    "Resmix.Rrpc.DirectClient.C76_calm_partial"
   ],
   "note": "False as stated (C76_unsent_refuted, C76_unread_refuted). C76_calm_partial: it holds while every caller waits for its result and the cleanup does not race."
  },
  {
   "property": "C77",
   "status": "partial",
   "theorems": [
    "Resmix.Rrpc.Relay.C77_silent_refuted",
    "Resmix.Rrpc.Relay.C77_gone_refuted",
    "Resmix.Rrpc.Relay.C77_room_partial"
   ],
   "note": "False as stated: a silent or gone client with more than 100 pending responses blocks the relay (C77_silent_refuted, C77_gone_refuted). C77_room_partial: what holds."
  },
  {
   "property": "C78",
   "status": "partial",
   "theorems": [
    "Resmix.Rrpc.Coordinator.C78_after_failed_dial_refuted",
    "Resmix.Rrpc.Incoming.C78_race_refuted",
    "Resmix.Rrpc.Incoming.C78_quiet_partial"
   ],
   "note": "False as stated: after a failed Dial the user's Close panics, a connection that is nil makes it panic, and it races with a response being handed on (C78_after_failed_dial_refuted, C80_nil_connection_refuted, C78_race_refuted). C78_quiet_partial: a Close while no response is in flight."
  },
  {
   "property": "C79",
   "status": "proved",
   "theorems": [
    "Resmix.Rrpc.C79_finitely_many_steps",
    "Resmix.Rrpc.C79_never_stuck",
    "Resmix.Rrpc.C79_all_calls_return"
   ],
   "note": ""
  },
  {
   "property": "C80",
   "status": "partial",
   "theorems": [
    "Resmix.Rrpc.Coordinator.C80_unreported_refuted",
    "Resmix.Rrpc.Coordinator.C80_nil_connection_refuted",
    "Resmix.Rrpc.Coordinator.C80_all_up_partial"
   ],
   "note": "False as stated: failures are not reported, and a failed stream leaves a nil connection (C80_unreported_refuted, C80_nil_connection_refuted). C80_all_up_partial: the case without failures."
  },
  {
   "property": "C81",
   "status": "partial",
   "theorems": [
    "Resmix.Rrpc.Streams.C81_full_channel_refuted",
    "Resmix.Rrpc.Streams.C81_room_partial"
   ],
   "note": "As stated it is false: C81_full_channel_refuted (the state is reached: full_channel_reachable). C81_room_partial: a send to a relay whose channel has room is always possible."
  },
  {
   "property": "C82",
   "status": "partial",
   "theorems": [
    "Resmix.Rrpc.C82_request_refuted",
    "Resmix.Rrpc.C82_response_refuted",
    "Resmix.Rrpc.C82_note_partial"
   ],
   "note": "As stated it is false: notes cover neither method nor payload, nor are they checked for the receiver or for repetition (C82_request_refuted, C82_response_refuted). C82_note_partial: what holds."
  },
  {
   "property": "C83",
   "status": "proved",
   "theorems": [
    "Resmix.Rrpc.Incoming.C83_in_order"
   ],
   "note": "The reader and the receiving goroutines of all connections, with Close."
  },
  {
   "property": "C84",
   "status": "partial",
   "theorems": [
    "Resmix.Rrpc.Incoming.C84_refuted",
    "Resmix.Rrpc.Incoming.C84_gone_partial"
   ],
   "note": "False as stated: a stream that ends with another status than Unavailable and Canceled leaves a goroutine that spins for ever (C84_refuted); assumes that Recv repeats the final status. C84_gone_partial: the other cases."
  },
  {
   "property": "C85",
   "status": "proved",
   "theorems": [
    "Resmix.Rrpc.RelayConn.C85_own_id"
   ],
   "note": "All interleavings."
  },
  {
   "property": "C86",
   "status": "partial",
   "theorems": [
    "Resmix.Rrpc.RelayConn.C86_stuck_refuted",
    "Resmix.Rrpc.RelayConn.C86_calm_partial"
   ],
   "note": "False as stated (C86_stuck_refuted, with reachable examples): a cleanup that races with an answer sends one message too many. C86_calm_partial: without that race the connections never block."
  },
  {
   "property": "C87",
   "status": "proved",
   "theorems": [
    "Resmix.System.C87_created_system",
    "Resmix.System.C87_can_complete",
    "Resmix.System.C87_round_completes"
   ],
   "note": "Model/System, executions as in C64. Proved: bound on the number of further steps (a measure of the work left in the whole system), existence of a continuation to rest, and results at rest. Hypotheses: servers have dialled each other (Connected), worker pools and channels of positive size, all rounds orderly, no request of the round lost before or after. Chains without submissions are excluded: their GetMessages blocks (C11_empty_mix_blocks_refuted). C87_created_system composes this with CreateSystemConfigs, NewMessageGenerator and generateOnion: over all chains the last mixes return the clients' plaintexts, each \u2308\u221a(2n)\u2309 times. C87_can_complete: for every cascade and all submissions some execution meets the hypotheses."
  },
  {
   "property": "C88",
   "status": "proved",
   "theorems": [
    "Resmix.System.C88_no_crash"
   ],
   "note": "Model/System. Hypotheses: servers have dialled each other, in every round all clients keep to the protocol (Clients, Orderly in Spec/System). EndRound of a round in use is excluded (C13 shows its crash)."
  },
  {
   "property": "C89",
   "status": "partial",
   "theorems": [
    "Resmix.Rrpc.SendConn.C89_dead_relay_refuted",
    "Resmix.Rrpc.SendConn.C89_all_up_partial"
   ],
   "note": "False as stated (C89_dead_relay_refuted): after a relay's stream has ended its channel fills up, and the 102nd call blocks in its send loop, before it looks at its context or at answers. C89_all_up_partial: while no stream ends, everything handed in is sent, in finitely many steps."
  },
  {
   "property": "C90",
   "status": "partial",
   "theorems": [
    "Resmix.Rrpc.SendConn.C90_dead_server_refuted",
    "Resmix.Rrpc.SendConn.C90_hundred_partial"
   ],
   "note": "False as stated (C90_dead_server_refuted), same mechanism at the relay. C90_hundred_partial: up to the capacity of the channel nothing is held up."
  },
  {
   "property": "C91",
   "status": "partial",
   "theorems": [
    "Resmix.Ecc.Slice.C91_encodes_data",
    "Resmix.Ecc.Slice.C91_refuted",
    "Resmix.Ecc.Slice.C91_only_behind_partial"
   ],
   "note": "False as stated (C91_refuted): append writes 36 zero bytes behind the slice if its capacity allows. C91_only_behind_partial says exactly what can change; C91_encodes_data: the data encoded is the caller's."
  },
  {
   "property": "C92",
   "status": "proved",
   "theorems": [
    "Resmix.Ecc.EccPool.C92_results",
    "Resmix.Ecc.EccPool.C92_round_trip",
    "Resmix.Ecc.EccPool.C92_bounded",
    "Resmix.Ecc.EccPool.C92_returns",
    "Resmix.Ecc.EccPool.C92_completes"
   ],
   "note": "All interleavings of any number of calls, workers and Stop. Results: C92_results, C92_round_trip (composition with C40). Termination: C92_bounded + C92_returns + C92_completes. Assumes at least one CPU."
  },
  {
   "property": "C93",
   "status": "partial",
   "theorems": [
    "Resmix.Rrpc.Coordinator.C93_overwritten_refuted",
    "Resmix.Rrpc.Coordinator.C93_own_error_partial"
   ],
   "note": "False as stated (C93_overwritten_refuted): the result of the connection closed last is returned. C93_own_error_partial: what holds."
  },
  {
   "property": "C94",
   "status": "partial",
   "theorems": [
    "Resmix.Storage.C94_own_file",
    "Resmix.Storage.C94_crash_refuted",
    "Resmix.Storage.C94_other_system_refuted",
    "Resmix.Storage.C94_history_partial",
    "Resmix.Storage.C94_generator_partial"
   ],
   "note": "False as stated: an interrupted write leaves a file that no later call can read (C94_crash_refuted), and the name of the file does not depend on the system (C94_other_system_refuted). C94_history_partial, C94_generator_partial: directories used for one system. encoding/json is a parameter with a round-trip law and a law on truncated arrays (exampleJson: both are consistent)."
  },
  {
   "property": "C95",
   "status": "partial",
   "theorems": [
    "Resmix.Storage.C95_empty_refuted",
    "Resmix.Storage.C95_nonempty_partial"
   ],
   "note": "False as stated: AllOnions panics for an empty array (C95_empty_refuted). C95_nonempty_partial: the rest."
  },
  {
   "property": "C96",
   "status": "partial",
   "theorems": [
    "Resmix.Rrpc.Bypass.C96_same_dispatch",
    "Resmix.Rrpc.Bypass.C96_async",
    "Resmix.Rrpc.Bypass.C96_robust_refuted",
    "Resmix.Rrpc.Bypass.C96_kind"
   ],
   "note": "Dispatch, asynchronous calls and the choice of mode hold (C96_same_dispatch, C96_async, C96_kind); robust calls are not implemented in bypass mode (C96_robust_refuted). The service table of google.golang.org/grpc is modelled from its documented behaviour."
  },
  {
   "property": "C97",
   "status": "partial",
   "theorems": [
    "Resmix.Dial.C97_connects",
    "Resmix.Dial.C97_close_partial",
    "Resmix.Dial.C97_fails_partial",
    "Resmix.Dial.C97_peer_down_refuted",
    "Resmix.Dial.C97_retry_refuted",
    "Resmix.Dial.C97_twice_refuted"
   ],
   "note": "False as stated: outside bypass mode a peer that is not up makes Dial panic (C97_peer_down_refuted); a repeated Dial leaks connections (C97_retry_refuted, C97_twice_refuted). C97_connects: the successful case, for all states; C97_fails_partial, C97_close_partial: first Dial of a server with distinct peers."
  },
  {
   "property": "C98",
   "status": "partial",
   "theorems": [
    "Resmix.Rrpc.DirectClient.C98_pending_refuted",
    "Resmix.Rrpc.DirectClient.C98_after_close_refuted",
    "Resmix.Rrpc.DirectClient.C98_goroutines_end_partial"
   ],
   "note": "False as stated: pending and later calls never return (C98_pending_refuted, C98_after_close_refuted). C98_goroutines_end_partial: without the races of C61 and with callers that wait, no goroutine is stuck at Close."
  },
  {
   "property": "C99",
   "status": "proved",
   "theorems": [
    "Resmix.Rrpc.Publish.C99_never_blocks",
    "Resmix.Rrpc.Publish.C99_delivery"
   ],
   "note": "All interleavings. C99_never_blocks, C99_delivery."
  },
  {
   "property": "C100",
   "status": "partial",
   "theorems": [
    "Resmix.Config.Seed.C100_outsider_decrypts_refuted",
    "Resmix.Config.Seed.C100_same_keys_refuted"
   ],
   "note": "False: the polynomials of CreateSystemConfigs come from SHAKE-128 of a constant in the source. C100_outsider_decrypts_refuted: the keys are computed from public data and decrypt everything; C100_same_keys_refuted: systems of the same size share keys."
  },
  {
   "property": "C101",
   "status": "proved",
   "theorems": [
    "Resmix.Rrpc.C101_same_results",
    "Resmix.Rrpc.C101_accepted",
    "Resmix.Rrpc.C101_no_crash",
    "Resmix.Rrpc.C101_finitely_many_steps",
    "Resmix.Rrpc.C101_never_stuck",
    "Resmix.Rrpc.C101_all_calls_return"
   ],
   "note": "Model/VerifierPool has every channel operation of lines 86-203 as its own step and is proved to refine Model/Verifier (C101_same_results), so C46, C47, C73 carry over; C101_accepted is one of them spelled out."
  },
  {
   "property": "C102",
   "status": "partial",
   "theorems": [
    "Resmix.Rrpc.C102_calls_hang_refuted",
    "Resmix.Rrpc.C102_workers_end_partial",
    "Resmix.Rrpc.C102_checked_partial"
   ],
   "note": "Fails: C102_calls_hang_refuted (a call in progress at Stop and one made after it never return). Holds: C102_workers_end_partial, C102_checked_partial."
  },
  {
   "property": "C103",
   "status": "partial",
   "theorems": [
    "Resmix.Rrpc.Stop.C103_collector_hangs_refuted",
    "Resmix.Rrpc.Stop.C103_router_hangs_refuted",
    "Resmix.Rrpc.Stop.C103_crash_refuted",
    "Resmix.Rrpc.Stop.C103_handler_runs_refuted",
    "Resmix.Rrpc.Stop.C103_returns_partial",
    "Resmix.Rrpc.Stop.C103_after_return_partial"
   ],
   "note": "False as stated: Stop can hang (C103_collector_hangs_refuted, C103_router_hangs_refuted), can end the process (C103_crash_refuted) and returns while handlers run (C103_handler_runs_refuted). Holds: C103_returns_partial (no full channel), C103_after_return_partial."
  },
  {
   "property": "C104",
   "status": "partial",
   "theorems": [
    "Resmix.Rrpc.Peer.C104_impostor_refuted",
    "Resmix.Rrpc.Peer.C104_first_name_partial",
    "Resmix.Rrpc.Peer.C104_honest_partial"
   ],
   "note": "False as stated: the name in the metadata is not authenticated (C104_impostor_refuted). C104_honest_partial: if all processes give their own names; unknown callers are always refused."
  },
  {
   "property": "C105",
   "status": "partial",
   "theorems": [
    "Resmix.Rrpc.CallSystem.C105_only_true_results",
    "Resmix.Rrpc.CallSystem.C105_bounded_work",
    "Resmix.Rrpc.CallSystem.C105_calls_complete_partial",
    "Resmix.Rrpc.CallSystem.C105_calm_calls_complete_partial",
    "Resmix.Rrpc.CallSystem.C105_calm_rest",
    "Resmix.Rrpc.CallSystem.C105_overtaken_refuted"
   ],
   "note": "Safety and bounded work hold for every interleaving (C105_only_true_results, C105_bounded_work). Completion is false in general: responses can overtake the relays' records of who is waiting (C105_overtaken_refuted, in every honest system). C105_calls_complete_partial: if at most MaxErrors relays ignore the response; C105_calm_calls_complete_partial: if no relay is overtaken and no cleanup strikes. Assumed: streams do not fail, error codes are not OK, replies under 4 GiB, more than half of the parcels needed."
  },
  {
   "property": "C106",
   "status": "proved",
   "theorems": [
    "Resmix.Rrpc.DirectSystem.C106_own_result",
    "Resmix.Rrpc.DirectSystem.C106_once",
    "Resmix.Rrpc.DirectSystem.C106_bounded",
    "Resmix.Rrpc.DirectSystem.C106_rest",
    "Resmix.Rrpc.DirectSystem.C106_all_return",
    "Resmix.Rrpc.DirectSystem.C106_reply"
   ],
   "note": "Client, streams and server composed (Model/DirectSystem). Ids may be reused once the earlier calls with them have returned; handlers return encodable values; the cleanup finds no call older than its time (otherwise C61, C107, C108)."
  },
  {
   "property": "C107",
   "status": "partial",
   "theorems": [
    "Resmix.Rrpc.DirectSystem.C107_overtaken_refuted",
    "Resmix.Rrpc.DirectSystem.C107_rounds_refuted",
    "Resmix.Rrpc.DirectSystem.C107_from_start_refuted"
   ],
   "note": "False: call ids of senders do not contain the round (C24), and a second call with an id replaces the first one's entry: C107_overtaken_refuted, C107_rounds_refuted, C107_from_start_refuted (the first call never returns, in any continuation; the cleanup cannot time it out). Calls that do not overlap are covered by C106."
  },
  {
   "property": "C108",
   "status": "partial",
   "theorems": [
    "Resmix.Rrpc.DirectSystem.C108_unknown_method_refuted",
    "Resmix.Rrpc.DirectSystem.C108_unencodable_refuted",
    "Resmix.Rrpc.DirectSystem.C108_from_start_refuted",
    "Resmix.Rrpc.DirectSystem.C108_handler_errors_partial"
   ],
   "note": "False: both cases end the stream, and no handler runs on the connection any more (C108_unknown_method_refuted, C108_unencodable_refuted, C108_from_start_refuted). Errors returned by handlers harm nobody (C108_handler_errors_partial)."
  },
  {
   "property": "C109",
   "status": "proved",
   "theorems": [
    "Resmix.Rrpc.CallSystem.C109_silent_relays",
    "Resmix.Rrpc.CallSystem.C109_silent_rest"
   ],
   "note": "Composed system (Model/CallSystem); silence is that a relay makes no step. C109_silent_relays for calls made after the relays fell silent; C109_silent_rest: everybody else always comes to rest. Beyond 100 calls see C89; relays whose streams fail see C75."
  },
  {
   "property": "C110",
   "status": "partial",
   "theorems": [
    "Resmix.Rrpc.CallSystem.C110_silent_any_time_partial",
    "Resmix.Rrpc.CallSystem.C110_silenced_refuted"
   ],
   "note": "False: C110_silenced_refuted, in every honest system with MaxErrors >= 1: the server starts the task with the parcels of relays that then fall silent, and a relay that is merely slow ignores the response because it has not passed its parcel on yet; nothing is sent again. C110_silent_any_time_partial: holds if silent relays and relays that ignored the response are together at most MaxErrors."
  },
  {
   "property": "C111",
   "status": "proved",
   "theorems": [
    "Resmix.Rrpc.CallSystem.C111_only_asked",
    "Resmix.Rrpc.CallSystem.C111_true_or_cancelled",
    "Resmix.Rrpc.CallSystem.C111_final"
   ],
   "note": "All interleavings of Model/CallSystem. Assumed as in C105 (streams do not fail, proper handlers, no used reply buffer C55, no verifier cleanup between the two checks of a parcel C74)."
  },
  {
   "property": "C112",
   "status": "proved",
   "theorems": [
    "Resmix.Stack.C112_safe",
    "Resmix.Stack.C112_senders_apart_proper",
    "Resmix.Stack.C112_one_round"
   ],
   "note": "Model/Stack: Model/System refined by Model/DirectSystem for every pair of hosts. Assumed: requests can be encoded, AddMessages is registered, honest keys, no process is stopped, ids reused only after return (Proper; C107 shows what happens otherwise). The condition on ids is discharged where senders of different rounds do not call the same server at the same time (C112_senders_apart_proper), in particular if only one round is opened (C112_one_round)."
  },
  {
   "property": "C113",
   "status": "proved",
   "theorems": [
    "Resmix.Stack.C113_round_completes",
    "Resmix.Stack.C113_one_round"
   ],
   "note": "As C112; also that no request of the round found it closed (Lossless), as in C87. C113_one_round: without a condition on ids when only one round is opened."
  },
  {
   "property": "C114",
   "status": "proved",
   "theorems": [
    "Resmix.Mixer.C114_mix_hides_contents",
    "Resmix.Mixer.C114_two_onions"
   ],
   "note": "Possibilistic; C115 gives the probabilities. Batches of up to 2^32 onions. The decryption is an arbitrary function (Env.decrypt); the two keys must reject the same onions as unparsable. Timing of the workers is not modelled."
  },
  {
   "property": "C115",
   "status": "proved",
   "theorems": [
    "Resmix.Mixer.C115_order_tells_little",
    "Resmix.Mixer.C115_shuffle_tells_little",
    "Resmix.Mixer.C115_thousand",
    "Resmix.Mixer.C115_every_order_possible",
    "Resmix.Mixer.C115_not_exactly_equal"
   ],
   "note": "Counts random 4-byte words exactly (uniform words assumed: crypto/rand). The counts are really different (C115_not_exactly_equal: the modulo bias of randInt), and every order has at least one word sequence (C115_every_order_possible)."
  },
  {
   "property": "C116",
   "status": "proved",
   "theorems": [
    "Resmix.System.C116_one_honest_mix"
   ],
   "note": "Possibilistic (C115 bounds the probabilities). The other servers may show their whole state to the observer but execute the code; all clients of the round send onions that open. The arriving onions at the honest host are pairwise different (Distinct; encryption is randomised). Another key means another decryption function for that host and round; no computational argument. Timing is not modelled."
  },
  {
   "property": "C117",
   "status": "partial",
   "theorems": [
    "Resmix.System.C117_copies_count",
    "Resmix.System.C117_copy_reveals_refuted"
   ],
   "note": "Refuted: the round does not deduplicate onions (todo in mixer.go), so the copied message comes out twice and is identified if the other messages differ (C117_copy_reveals_refuted: in every execution). What holds: a message comes out exactly as often as onions with it went in (C117_copies_count)."
  },
  {
   "property": "C118",
   "status": "partial",
   "theorems": [
    "Resmix.System.C118_chains_do_not_mix_refuted",
    "Resmix.System.C118_alone_on_a_chain_refuted"
   ],
   "note": "Refuted: chains never mix with each other, so the answers of the last mixes differ in every pair of such executions (C118_chains_do_not_mix_refuted); a message alone on its chain comes out alone (C118_alone_on_a_chain_refuted). The anonymity set is the chain: C116."
  },
  {
   "property": "C119",
   "status": "partial",
   "theorems": [
    "Resmix.System.C119_only_the_predecessor_refuted"
   ],
   "note": "Refuted by an execution of the model: AddMessages is open to everybody and the sender fields are not checked against the caller; a forged batch of the right size takes the place of the predecessor's. With clients that address first-layer mixes only (Clients.first), C64 holds."
  },
  {
   "property": "C120",
   "status": "partial",
   "theorems": [
    "Resmix.Tibe.C120_poly_reuse",
    "Resmix.Tibe.C120_failed_decode_destroys_refuted",
    "Resmix.Tibe.C120_exponent_new_index_partial",
    "Resmix.Tibe.C120_refused_partial",
    "Resmix.Tibe.C120_exponent_failed_decode_destroys_refuted",
    "Resmix.Tibe.C120_poisoned_index_refuted",
    "Resmix.Tibe.C120_stale_share_refuted"
   ],
   "note": "Holds for successful decoding of polynomials (C120_poly_reuse) and for the indices of exponent polynomials not asked for before. False: a refused SetBytes replaces the coefficients by nil pointers (the allocation precedes the length check), and an exponent polynomial keeps the cached public shares of its former value; bytes of the right length whose points do not decode leave an exponent polynomial half overwritten (C120_exponent_failed_decode_destroys_refuted), while bytes refused for their length alone leave it as it was (C120_refused_partial); an index whose first computation panicked panics on every later call, also after the polynomial was set to something good (C120_poisoned_index_refuted). Calls are sequential here. G1.SetBytes stays abstract."
  },
  {
   "property": "C121",
   "status": "partial",
   "theorems": [
    "Resmix.Tibe.C121_equal",
    "Resmix.Tibe.C121_equal_is_not_sameness_refuted"
   ],
   "note": "Holds for polynomials with the same number of coefficients (interpolation). False in general: trailing zero coefficients make polynomials with the same shares unequal, and after a refused SetBytes Equal panics."
  },
  {
   "property": "C122",
   "status": "proved",
   "theorems": [
    "Resmix.MixerFine.C122_no_data_races"
   ],
   "note": "Model/MixerFine takes one memory access per step and records the accesses and synchronisations; happens-before is defined in Spec/Race. Fields written only before NewMixers returns, and the decrypter, are not locations. sync.Mutex, WaitGroup, Once, channels and go statements order as the Go memory model says."
  },
  {
   "property": "C123",
   "status": "proved",
   "theorems": [
    "Resmix.MixerFine.C123_no_more_behaviours",
    "Resmix.MixerFine.C123_readers_find_the_decryptions",
    "Resmix.MixerFine.C123_reads_are_final",
    "Resmix.MixerFine.C123_safe",
    "Resmix.MixerFine.C123_progress"
   ],
   "note": "A refinement of Model/Mixer (which the theorems on rounds, C08-C13 and C97-C119, are about) by a model with one access per step. The decision to crash is the same in both. Progress (C123_progress) is for mixes with a positive workload, as C11."
  },
  {
   "property": "C124",
   "status": "partial",
   "theorems": [
    "Resmix.MixerWatch.C124_long_batch_refuted",
    "Resmix.MixerWatch.C124_short_rounds_partial"
   ],
   "note": "False: AddMessages keeps the mutex (github.com/algorand/go-deadlock, mixer.go:51) while it waits for room in the task channel, so another caller waits about as long as the decryption of all but the last 1000 onions of the batch takes (_refuted, for every time-out and number of workers). The only file that would disable the watchdog is in a package nobody imports. Holds when few enough onions are sent for the time-out and decryption rate (_partial; the two bounds differ by at most two ticks of work). That the library exits the process after 30 s is an assumption: it is not in /repo."
  },
  {
   "property": "C125",
   "status": "partial",
   "theorems": [
    "Resmix.DialRace.C125_process_ends_refuted",
    "Resmix.DialRace.C125_missing_refuted",
    "Resmix.DialRace.C125_bad_request_refuted",
    "Resmix.DialRace.C125_coordinator_after_dial_partial",
    "Resmix.DialRace.C125_mix_after_dial_partial"
   ],
   "note": "False: Dial fills the maps without a lock, while the handlers, which must be serving already (Dial opens streams to all servers, also to itself), read them: at every write a lookup ends the process (_process_ends_refuted); before it, a host is not found and RobustRequest refuses every call (_missing_refuted, _bad_request_refuted). Holds for goroutines that are told that Dial has returned, e.g. calls made afterwards (_partial)."
  },
  {
   "property": "C126",
   "status": "partial",
   "theorems": [
    "Resmix.Rrpc.DirectRace.C126_careful_partial",
    "Resmix.Rrpc.DirectRace.C126_late_response_refuted",
    "Resmix.Rrpc.DirectRace.C126_early_response_refuted",
    "Resmix.Rrpc.DirectRace.C126_timeout_in_queue_refuted"
   ],
   "note": "False: the time-out is reported before the call is removed from the table, so that a late response still writes the reply (_late_response_refuted); a time-out does not take the request out of the send channel (_timeout_in_queue_refuted); a response is accepted before the request was sent (_early_response_refuted). Holds if responses come after their requests and not during the cleanup of their call, ids are distinct, sends succeed, and after a time-out the request is only looked at (_partial)."
  },
  {
   "property": "C127",
   "status": "partial",
   "theorems": [
    "Resmix.Ecc.EccPool.C127_success_partial",
    "Resmix.Ecc.EccPool.C127_encode_partial",
    "Resmix.Ecc.EccPool.C127_stopped_refuted",
    "Resmix.Ecc.EccPool.C127_failed_refuted"
   ],
   "note": "False for calls that fail: after Stop AuthEncode returns although a worker may only start to read its data (_stopped_refuted), and AuthReconstruct returns with the first failing chunk while workers complete the shards of others (_failed_refuted). Holds for every call that succeeded (_success_partial), and so for every AuthEncode on a coder that is not stopped (_encode_partial)."
  },
  {
   "property": "C128",
   "status": "proved",
   "theorems": [
    "Resmix.Rrpc.VerifierRace.C128_race_free",
    "Resmix.Rrpc.VerifierRace.C128_all_executions",
    "Resmix.Rrpc.VerifierRace.C128_certificate_is_kept"
   ],
   "note": "C128_race_free: every reachable trace of accesses is race free if no object and no certificate is used by two goroutines (needed: shared_object_races). C128_all_executions: the traces cover all executions of Model/VerifierPool. C128_certificate_is_kept: a certificate that is changed after its call has returned can race with another call that compares signatures."
  },
  {
   "property": "C129",
   "status": "proved",
   "theorems": [
    "Resmix.Rrpc.ServerRace.C129_race_free",
    "Resmix.Rrpc.ServerRace.C129_note_is_final"
   ],
   "note": "C129_race_free: every reachable trace of accesses is race free. C129_note_is_final: a reachable state in which one response was sent and another not; a further write of the shared note would be a race."
  },
  {
   "property": "C130",
   "status": "proved",
   "theorems": [
    "Resmix.Rrpc.RobustRace.C130_race_free",
    "Resmix.Rrpc.RobustRace.C130_shared_request_races"
   ],
   "note": "C130_race_free: every reachable trace of accesses in which no Request is used by two goroutines is race free. C130_shared_request_races: the condition is needed. The run reach12 shows a Request that is changed while one of its parcels has still to be sent."
  },
  {
   "property": "C131",
   "status": "proved",
   "theorems": [
    "Resmix.Rrpc.RelayRace.C131_race_free",
    "Resmix.Rrpc.RelayRace.C131_concurrent_reads"
   ],
   "note": "C131_race_free: every reachable trace of accesses is race free. C131_concurrent_reads: the sender's and the handler's reads of a request really are unordered. The run reach13 shows all kinds of steps."
  },
  {
   "property": "C132",
   "status": "proved",
   "theorems": [
    "Resmix.Ecc.C132_only_fills",
    "Resmix.Ecc.C132_same_results",
    "Resmix.Ecc.C132_encoding"
   ],
   "note": "C132_only_fills, C132_same_results (any shards), C132_encoding (shards of one encoding). InPlace, the contract of klauspost's Reconstruct for shards that belong to no encoding, is met by Reed-Solomon codes (rsCode_inPlace)."
  },
  {
   "property": "C133",
   "status": "partial",
   "theorems": [
    "Resmix.Rrpc.C133_quorum",
    "Resmix.Rrpc.C133_at_most_once_partial",
    "Resmix.Rrpc.C133_replay_refuted",
    "Resmix.Rrpc.C133_few_relays_run_nothing",
    "Resmix.Rrpc.C133_diverted_refuted"
   ],
   "note": "False as stated: C133_replay_refuted (no more than MaxErrors relays repeat their parcels; handler runs twice if n <= 2*MaxErrors+f, which the networks of CreateCoordinator with an even number of servers from 6 on meet with f = 2), C133_diverted_refuted (any server runs the parcels of a call for another server, given MinimalRelayedParcels of them). What holds: C133_quorum (no handler runs without parcels of MinimalRelayedParcels different relays), C133_few_relays_run_nothing, C133_at_most_once_partial (n > 2*MaxErrors + number of repeating relays)."
  },
  {
   "property": "C134",
   "status": "partial",
   "theorems": [
    "Resmix.Config.C134_takeover_partial",
    "Resmix.Config.C134_threshold_votes_refuted",
    "Resmix.Config.C134_one_failure_refuted"
   ],
   "note": "False as stated: one vote more than the configured Threshold is needed (C134_threshold_votes_refuted), so in systems of Threshold+1 servers a single failure makes the failed server's keys unrecoverable, and in systems of Threshold servers votes are never of use (C134_one_failure_refuted). C134_takeover_partial: Threshold+1 or more votes suffice."
  },
  {
   "property": "C135",
   "status": "proved",
   "theorems": [
    "Resmix.Tibe.VotePool.C135_linearizable",
    "Resmix.Tibe.VotePool.C135_no_crash",
    "Resmix.Tibe.VotePool.C135_calls_return"
   ],
   "note": "C135_linearizable, C135_no_crash (shares' polynomials have coefficients), C135_calls_return (bounded number of steps, never stuck)."
  },
  {
   "property": "C136",
   "status": "proved",
   "theorems": [
    "Resmix.Onion.C136_peel_size",
    "Resmix.System.C136_same_size",
    "Resmix.System.C136_created_system",
    "Resmix.System.C136_size_tells"
   ],
   "note": "C136_peel_size (any onion, any key), C136_same_size, C136_created_system, C136_size_tells (converse)."
  },
  {
   "property": "C137",
   "status": "proved",
   "theorems": [
    "Resmix.Rrpc.C137_server_forgets",
    "Resmix.Rrpc.C137_tables_forget"
   ],
   "note": "C137_server_forgets (collector), C137_tables_forget (the four maps). Hypothesis: a cleanup starts in every stretch of length P; C86 shows how a client's cleaner can be held up for ever, then nothing is forgotten."
  },
  {
   "property": "C138",
   "status": "proved",
   "theorems": [
    "Resmix.Config.C138_fits_together",
    "Resmix.Config.C138_local"
   ],
   "note": "C138_fits_together (FitsTogether in Props/SystemConfig spells it out), C138_local. Public keys are assumed distinct (GenerateKeys is random)."
  },
  {
   "property": "C139",
   "status": "partial",
   "theorems": [
    "Resmix.Rrpc.RelayConn.C139_hangs_refuted",
    "Resmix.Rrpc.RelayConn.C139_only_its_id_partial"
   ],
   "note": "C139_hangs_refuted: a call that waits for answers receives nothing any more after it was cancelled, in no continuation, so it does not return (until a context is done). C139_only_its_id_partial: the rest holds. CancelRequest is exported but the repository never calls it."
  },
  {
   "property": "C140",
   "status": "proved",
   "theorems": [
    "Resmix.Rrpc.CallSystem.C140_relay",
    "Resmix.Rrpc.CallSystem.C140_only_own",
    "Resmix.Rrpc.CallSystem.C140_client",
    "Resmix.Rrpc.CallSystem.C140_calls"
   ],
   "note": "C140_relay: every run of Model/CallSystem, seen at a relay, is a run of Model/Relay with the same streams, pending calls and response in hand (so C62 and the others about a relay hold there). C140_only_own: every response on the stream from a relay to a client carries the id of a call that this client has made. C140_client, C140_calls: the same for clients and Model/RelayConn, and what follows for calls from C85 and C86."
  },
  {
   "property": "C141",
   "status": "partial",
   "theorems": [
    "Resmix.Rrpc.C141_other_method_refuted",
    "Resmix.Rrpc.C141_no_arguments_refuted",
    "Resmix.Rrpc.C141_own_parcels_partial"
   ],
   "note": "False: C141_other_method_refuted (one relay signs a copy of its parcel with its own key and another method; if it arrives first, the server runs that method on the client's arguments and the client's call returns its result), C141_no_arguments_refuted (the same with length 0: the client's method is run without arguments). What holds: C141_own_parcels_partial (if all accepted parcels with the call's id carry the root the client signed, the handlers run for it are those of the client's method and arguments, up to hash collisions)."
  },
  {
   "property": "C142",
   "status": "partial",
   "theorems": [
    "Resmix.Onion.C142_one_chain_refuted",
    "Resmix.Onion.C142_choice_partial",
    "Resmix.Onion.C142_even_partial",
    "Resmix.Onion.C142_repeats_refuted"
   ],
   "note": "False: C142_one_chain_refuted (with one chain both copies take it, for every message), C142_repeats_refuted (for every n, at least half of all sequences of ceil(sqrt(2n)) chain numbers repeat one: a birthday bound). What holds: C142_choice_partial (copy i takes the chain given by the first eight bytes of the (i+1)-fold hash of the message, modulo n; nothing else goes into the choice), C142_even_partial (every chain is taken by 2^64/n of the 2^64 values, or one more)."
  },
  {
   "property": "C143",
   "status": "partial",
   "theorems": [
    "Resmix.System.C143_lost_for_good_refuted",
    "Resmix.System.C143_other_chains_partial",
    "Resmix.System.C143_exactly_partial"
   ],
   "note": "False: C143_lost_for_good_refuted (once a request carrying onions of a chain was lost, dropped or too early, the last mix of that chain never returns anything, however the execution goes on). What holds: C143_other_chains_partial (at rest, every chain of whose onions none was lost has returned its plaintexts, whatever else was lost), C143_exactly_partial (at rest, exactly those chains have returned)."
  },
  {
   "property": "C144",
   "status": "partial",
   "theorems": [
    "Resmix.Mixer.C144_stranger_refuted",
    "Resmix.Mixer.C144_other_mixes_partial"
   ],
   "note": "False: C144_stranger_refuted (after one onion under another sender name, whatever else is sent, the process comes to rest, and at rest GetMixOutputs of that mix has not returned: it blocks, or the process is dead). What holds: C144_other_mixes_partial (with known receivers, parseable onions and no more onions than announced, nothing crashes whatever the sender names, and at rest exactly those mixes have returned whose predecessor delivered everything)."
  },
  {
   "property": "C145",
   "status": "proved",
   "theorems": [
    "Resmix.System.C145_opened_first_loses_nothing",
    "Resmix.System.C145_opened_first_completes"
   ],
   "note": "The observable behaviour of the clients replaces the hypotheses of C87 that nothing was lost and that the round is open everywhere; C143 shows what happens without it."
  },
  {
   "property": "C146",
   "status": "partial",
   "theorems": [
    "Resmix.System.C146_missing_onion_refuted",
    "Resmix.System.C146_other_chains_partial",
    "Resmix.System.C146_exactly_partial"
   ],
   "note": "False: C146_missing_onion_refuted (one onion missing: the last mix of its chain returns nothing to anybody, in no continuation). What holds: C146_other_chains_partial (other chains are not touched), C146_exactly_partial (at rest exactly those chains with submissions have returned all of whose onions were accepted and none lost between servers)."
  },
  {
   "property": "C147",
   "status": "partial",
   "theorems": [
    "Resmix.Tibe.C147_poly_refuted",
    "Resmix.Tibe.C147_share_partial"
   ],
   "note": "False for polynomials: C147_poly_refuted (the coefficients are reduced modulo the order, so every non-empty polynomial is also read from another string of the same length). What holds: C147_share_partial (shares are read from one string of each length, of 36 bytes from their own serialisation only; a scalar that is not below the order is refused)."
  },
  {
   "property": "C148",
   "status": "partial",
   "theorems": [
    "Resmix.System.C148_ended_early_refuted"
   ],
   "note": "False: C148_ended_early_refuted (one onion missing when EndRound comes: the last mix of the chain returns nothing in any continuation; the late onions are answered with NotFound and the round cannot be reopened with the clients opening it once)."
  },
  {
   "property": "C149",
   "status": "proved",
   "theorems": [
    "Resmix.Onion.C149_all_keys_or_none"
   ],
   "note": "C149_all_keys_or_none (which of the two happens depends only on the first configuration, not on the iteration order)."
  }
 ]
}