{
 "C06": "Stated for workloads below 2^63 (Go int); larger ones are C67.",
 "C10": "As stated it is false: C10_forwarded_twice_refuted. The partial theorem proves at-most-once/exactly-once forwarding when every batch carries at least one onion; the shuffle count and the last-layer claim are proved unconditionally.",
 "C11": "As stated it is false for workload zero: C11_empty_mix_blocks_refuted. Proved for positive workloads (termination bound + completeness at rest).",
 "C12": "As stated it is false: C12_requests_crash_refuted exhibits four crashing requests. Proved safe for requests with known receivers, parseable onions, no over-delivery, no close.",
 "C66": "False of the code: the refutation proves that the replaced object stays unclosed in every continuation. Partial (holds): if no successful NewRound hits a round that is still open, then every round object is closed or still referred to by its round, in every reachable state.",
 "C67": "False of the code for workloads >= 2^63; proved safe below.",
 "C68": "False of the code when an AddMessages handler is inside the round object; proved safe otherwise.",
 "C31": "Reuse is false of the code: C31_decrypt_twice_refuted (decryption works in place). Authentication and the Copy() behaviour are proved.",
 "C34": "False of the code: Threshold() is degree+2, so degree+1 votes are always refused (C34_degree_plus_one_refuted); degree+2 suffice (partial).",
 "C35": "False of the code: votes on two ids are combined into a wrong key (C35_mixed_ids_refuted). With one id no wrong key is ever returned (partial).",
 "C36": "False of the code for t-1 keys: the shared key is the identity, with no error (C36_too_few_keys_refuted). Proved for at least t keys and for at most t-2 keys.",
 "C37": "The wrong-vote part is false of the code (C37_wrong_vote_refuted: Reveal returns garbage without error). The rest is proved.",
 "C69": "False of the code: C69_reveal_twice_refuted (Reveal decrypts in place). C69_first_success_partial: failing calls leave the secret intact, the first sufficient call gives the message, and calls on copies all give it.",
 "C39": "degree+2 votes, as the code's Threshold() demands (see C34). Random polynomials are universally quantified; NewRandomPoly's degree is the hypothesis.",
 "C20": "For at most 2^50 messages. math.Sqrt on float64 is modelled by the IEEE contract: the result is some correctly rounded double nearest to the real root.",
 "C24": "False across rounds (uuids do not contain the round): refuted. Proved within a round.",
 "C25": "False of the code: (\"h:505\", 10) and (\"h:5051\", 0) share an id. Proved when no host name is another one followed by digits.",
 "C70": "False of the code: a failed decryption leaves an empty onion in the output and ExtractMixConfig panics on it in the sender (refuted). C70_last_layer_partial: the mixer itself does not crash, all good onions come out, and in the last layer nothing is forwarded.",
 "C44": "False of the code without a length condition: inner nodes are hashed like leaves, so a 64-byte string made of two digests verifies as a leaf. Proved for encodings of other lengths, up to explicit hash collisions.",
 "C45": "ed25519 and the protobuf encodings are parameters with laws (SigScheme, Codec).",
 "C46": "False of the code: the cache is keyed by the root only (refuted, also as impersonation). Proved: some earlier call for this root was valid; with one key per root the claim holds.",
 "C47": "False for concurrent calls (refuted). Proved for sequential histories, and for concurrent ones in which all certificates of the root are valid.",
 "C73": "False of the code (ed25519.Verify panics on keys of a wrong length). Proved safe for 32-byte keys.",
 "C48": "For wire encodings longer than 64 bytes (every parcel and note contains two 32-byte keys and more), up to explicitly exhibited hash collisions / zero-digest preimages. Holds whatever roots the verifier remembers.",
 "C49": "As stated it is false: C49_relay_alters_reply_refuted (the signed object is only the note; the reply part is not covered). The partial theorem proves the note of an accepted response is the one the server signed.",
 "C50": "Answers that make the client panic are excluded here; they are C72.",
 "C72": "As stated it is false: C72_ok_status_refuted, C72_no_note_refuted, C72_relay_index_refuted. The partial theorem proves that well-formed answers never panic the client.",
 "C74": "As stated it is false when a cleanup tick falls between the two checks: C74_cleanup_tick_refuted. Without a tick it is proved for every request, key pair, network and cache (args shorter than 2^32 bytes).",
 "C53": "As stated it is false: C53_runs_twice_refuted (tau large: a second complete group starts a second run) and C53_slow_parcels_refuted (parcels straddling a cleanup tick are lost). C53_exactly_once_partial proves it for networks that need more than half of the parcels (all networks of CreateCoordinator: configNetwork_majority) and timely parcels, for every order, interleaving and loss. C53_at_most_once_partial: whatever the cleanups do, at most one run, on the right bytes.",
 "C54": "As stated it is false: C54_duplicate_refuted (one relay delivering its own parcel twice makes the call fail). C54_crash_faults_partial proves the end-to-end success for relays that lose parcels or answers or answer what is rejected.",
 "C71": "As stated it is false: C71_malformed_parcel_refuted. C71_well_shaped_partial: no panic for any parcels with a 4-byte length field and 36 pieces.",
 "C55": "As stated it is false: pooled buffers are never reset (C55_stale_reply_refuted, C55_second_call_refuted: the second call's reply decodes to the first's). C55_fresh_buffer_partial: a call that gets a new buffer sends its own reply.",
 "C75": "As stated it is false: a failed Send closes the relay's response channel, the next response for it is a send on a closed channel (C75_crash_refuted, C75_from_start_refuted). C75_healthy_partial: no crash and exact delivery as long as no stream fails.",
 "C81": "As stated it is false: C81_full_channel_refuted (the state is reached: full_channel_reachable). C81_room_partial: a send to a relay whose channel has room is always possible.",
 "C56": "Requests without a context are not modelled.",
 "C57": "For handler errors with a status code other than OK and values the codec can encode.",
 "C58": "The certificate check is the result of Verify (C46-C50); handler runs are those of the stream's loop.",
 "C59": "Service tables without nil entries. The short form needs a service name that is not empty and does not begin with a slash.",
 "C82": "As stated it is false: notes cover neither method nor payload, nor are they checked for the receiver or for repetition (C82_request_refuted, C82_response_refuted). C82_note_partial: what holds.",
 "C60": "False as stated for relay tasks and requests to relays, whose entries are dropped at any age (C60_relay_tasks_refuted, C60_relay_requests_refuted). C60_direct_calls_partial: for direct calls it holds, a cleanup with nobody else at work.",
 "C61": "False as stated: the cleanup races with the dispatch of a response: C61_crash_refuted, C61_from_start_refuted (send on a closed channel), C61_stuck_refuted (deadlock). C61_calm_partial: it holds in every run in which the cleanup does not look at a call whose response is being handed over (CalmRun).",
 "C62": "False as stated: the response can overtake the bookkeeping or come after a cleanup (C62_overtaken_refuted, C62_cleaned_refuted). In every interleaving: only own responses, at most once. Exactly once in runs where every response finds its entry and no stream fails.",
 "C63": "False as stated: the answer to a refused parcel has no note and ends the relay's process (C63_refuted). What holds: errors with a note and requests that cannot be forwarded are reported.",
 "C76": "False as stated (C76_unsent_refuted, C76_unread_refuted). C76_calm_partial: it holds while every caller waits for its result and the cleanup does not race.",
 "C77": "False as stated: a silent or gone client with more than 100 pending responses blocks the relay (C77_silent_refuted, C77_gone_refuted). C77_room_partial: what holds.",
 "C78": "False as stated: after a failed Dial the user's Close panics, a connection that is nil makes it panic, and it races with a response being handed on (C78_after_failed_dial_refuted, C80_nil_connection_refuted, C78_race_refuted). C78_quiet_partial: a Close while no response is in flight.",
 "C80": "False as stated: failures are not reported, and a failed stream leaves a nil connection (C80_unreported_refuted, C80_nil_connection_refuted). C80_all_up_partial: the case without failures.",
 "C83": "The reader and the receiving goroutines of all connections, with Close.",
 "C84": "False as stated: a stream that ends with another status than Unavailable and Canceled leaves a goroutine that spins for ever (C84_refuted); assumes that Recv repeats the final status. C84_gone_partial: the other cases.",
 "C85": "All interleavings.",
 "C86": "False as stated (C86_stuck_refuted, with reachable examples): a cleanup that races with an answer sends one message too many. C86_calm_partial: without that race the connections never block.",
 "C64": "Model/System composes all servers, mixers, senders and requests in flight (any interleaving, loss, reordering, crashes, other rounds with arbitrary traffic). Hypotheses: clients of the round open each server at most once with the true per-chain workload and do not exceed their submissions. Replays of a request by the RPC layer are not part of this model (C59 shows that layer does not exclude them).",
 "C87": "Model/System, executions as in C64. Proved: bound on the number of further steps (a measure of the work left in the whole system), existence of a continuation to rest, and results at rest. Hypotheses: servers have dialled each other (Connected), worker pools and channels of positive size, all rounds orderly, no request of the round lost before or after. Chains without submissions are excluded: their GetMessages blocks (C11_empty_mix_blocks_refuted). C87_created_system composes this with CreateSystemConfigs, NewMessageGenerator and generateOnion: over all chains the last mixes return the clients' plaintexts, each ⌈√(2n)⌉ times. C87_can_complete: for every cascade and all submissions some execution meets the hypotheses.",
 "C88": "Model/System. Hypotheses: servers have dialled each other, in every round all clients keep to the protocol (Clients, Orderly in Spec/System). EndRound of a round in use is excluded (C13 shows its crash).",
 "C89": "False as stated (C89_dead_relay_refuted): after a relay's stream has ended its channel fills up, and the 102nd call blocks in its send loop, before it looks at its context or at answers. C89_all_up_partial: while no stream ends, everything handed in is sent, in finitely many steps.",
 "C90": "False as stated (C90_dead_server_refuted), same mechanism at the relay. C90_hundred_partial: up to the capacity of the channel nothing is held up.",
 "C91": "False as stated (C91_refuted): append writes 36 zero bytes behind the slice if its capacity allows. C91_only_behind_partial says exactly what can change; C91_encodes_data: the data encoded is the caller's.",
 "C92": "All interleavings of any number of calls, workers and Stop. Results: C92_results, C92_round_trip (composition with C40). Termination: C92_bounded + C92_returns + C92_completes. Assumes at least one CPU.",
 "C93": "False as stated (C93_overwritten_refuted): the result of the connection closed last is returned. C93_own_error_partial: what holds.",
 "C94": "False as stated: an interrupted write leaves a file that no later call can read (C94_crash_refuted), and the name of the file does not depend on the system (C94_other_system_refuted). C94_history_partial, C94_generator_partial: directories used for one system. encoding/json is a parameter with a round-trip law and a law on truncated arrays (exampleJson: both are consistent).",
 "C95": "False as stated: AllOnions panics for an empty array (C95_empty_refuted). C95_nonempty_partial: the rest.",
 "C96": "Dispatch, asynchronous calls and the choice of mode hold (C96_same_dispatch, C96_async, C96_kind); robust calls are not implemented in bypass mode (C96_robust_refuted). The service table of google.golang.org/grpc is modelled from its documented behaviour.",
 "C97": "False as stated: outside bypass mode a peer that is not up makes Dial panic (C97_peer_down_refuted); a repeated Dial leaks connections (C97_retry_refuted, C97_twice_refuted). C97_connects: the successful case, for all states; C97_fails_partial, C97_close_partial: first Dial of a server with distinct peers.",
 "C98": "False as stated: pending and later calls never return (C98_pending_refuted, C98_after_close_refuted). C98_goroutines_end_partial: without the races of C61 and with callers that wait, no goroutine is stuck at Close.",
 "C99": "All interleavings. C99_never_blocks, C99_delivery.",
 "C100": "False: the polynomials of CreateSystemConfigs come from SHAKE-128 of a constant in the source. C100_outsider_decrypts_refuted: the keys are computed from public data and decrypt everything; C100_same_keys_refuted: systems of the same size share keys.",
 "C101": "Model/VerifierPool has every channel operation of lines 86-203 as its own step and is proved to refine Model/Verifier (C101_same_results), so C46, C47, C73 carry over; C101_accepted is one of them spelled out.",
 "C102": "Fails: C102_calls_hang_refuted (a call in progress at Stop and one made after it never return). Holds: C102_workers_end_partial, C102_checked_partial.",
 "C103": "False as stated: Stop can hang (C103_collector_hangs_refuted, C103_router_hangs_refuted), can end the process (C103_crash_refuted) and returns while handlers run (C103_handler_runs_refuted). Holds: C103_returns_partial (no full channel), C103_after_return_partial.",
 "C104": "False as stated: the name in the metadata is not authenticated (C104_impostor_refuted). C104_honest_partial: if all processes give their own names; unknown callers are always refused.",
 "C15": "C15_orders_nearly_uniform counts the word sequences of every order (probability within the stated factors of 1/n!).",
 "C105": "Safety and bounded work hold for every interleaving (C105_only_true_results, C105_bounded_work). Completion is false in general: responses can overtake the relays' records of who is waiting (C105_overtaken_refuted, in every honest system). C105_calls_complete_partial: if at most MaxErrors relays ignore the response; C105_calm_calls_complete_partial: if no relay is overtaken and no cleanup strikes. Assumed: streams do not fail, error codes are not OK, replies under 4 GiB, more than half of the parcels needed.",
 "C106": "Client, streams and server composed (Model/DirectSystem). Ids may be reused once the earlier calls with them have returned; handlers return encodable values; the cleanup finds no call older than its time (otherwise C61, C107, C108).",
 "C107": "False: call ids of senders do not contain the round (C24), and a second call with an id replaces the first one's entry: C107_overtaken_refuted, C107_rounds_refuted, C107_from_start_refuted (the first call never returns, in any continuation; the cleanup cannot time it out). Calls that do not overlap are covered by C106.",
 "C108": "False: both cases end the stream, and no handler runs on the connection any more (C108_unknown_method_refuted, C108_unencodable_refuted, C108_from_start_refuted). Errors returned by handlers harm nobody (C108_handler_errors_partial).",
 "C109": "Composed system (Model/CallSystem); silence is that a relay makes no step. C109_silent_relays for calls made after the relays fell silent; C109_silent_rest: everybody else always comes to rest. Beyond 100 calls see C89; relays whose streams fail see C75.",
 "C110": "False: C110_silenced_refuted, in every honest system with MaxErrors >= 1: the server starts the task with the parcels of relays that then fall silent, and a relay that is merely slow ignores the response because it has not passed its parcel on yet; nothing is sent again. C110_silent_any_time_partial: holds if silent relays and relays that ignored the response are together at most MaxErrors.",
 "C111": "All interleavings of Model/CallSystem. Assumed as in C105 (streams do not fail, proper handlers, no used reply buffer C55, no verifier cleanup between the two checks of a parcel C74).",
 "C112": "Model/Stack: Model/System refined by Model/DirectSystem for every pair of hosts. Assumed: requests can be encoded, AddMessages is registered, honest keys, no process is stopped, ids reused only after return (Proper; C107 shows what happens otherwise). The condition on ids is discharged where senders of different rounds do not call the same server at the same time (C112_senders_apart_proper), in particular if only one round is opened (C112_one_round).",
 "C113": "As C112; also that no request of the round found it closed (Lossless), as in C87. C113_one_round: without a condition on ids when only one round is opened.",
 "C114": "Possibilistic; C115 gives the probabilities. Batches of up to 2^32 onions. The decryption is an arbitrary function (Env.decrypt); the two keys must reject the same onions as unparsable. Timing of the workers is not modelled.",
 "C115": "Counts random 4-byte words exactly (uniform words assumed: crypto/rand). The counts are really different (C115_not_exactly_equal: the modulo bias of randInt), and every order has at least one word sequence (C115_every_order_possible).",
 "C116": "Possibilistic (C115 bounds the probabilities). The other servers may show their whole state to the observer but execute the code; all clients of the round send onions that open. The arriving onions at the honest host are pairwise different (Distinct; encryption is randomised). Another key means another decryption function for that host and round; no computational argument. Timing is not modelled.",
 "C117": "Refuted: the round does not deduplicate onions (todo in mixer.go), so the copied message comes out twice and is identified if the other messages differ (C117_copy_reveals_refuted: in every execution). What holds: a message comes out exactly as often as onions with it went in (C117_copies_count).",
 "C118": "Refuted: chains never mix with each other, so the answers of the last mixes differ in every pair of such executions (C118_chains_do_not_mix_refuted); a message alone on its chain comes out alone (C118_alone_on_a_chain_refuted). The anonymity set is the chain: C116.",
 "C119": "Refuted by an execution of the model: AddMessages is open to everybody and the sender fields are not checked against the caller; a forged batch of the right size takes the place of the predecessor's. With clients that address first-layer mixes only (Clients.first), C64 holds.",
 "C120": "Holds for successful decoding of polynomials (C120_poly_reuse) and for the indices of exponent polynomials not asked for before. False: a refused SetBytes replaces the coefficients by nil pointers (the allocation precedes the length check), and an exponent polynomial keeps the cached public shares of its former value; bytes of the right length whose points do not decode leave an exponent polynomial half overwritten (C120_exponent_failed_decode_destroys_refuted), while bytes refused for their length alone leave it as it was (C120_refused_partial); an index whose first computation panicked panics on every later call, also after the polynomial was set to something good (C120_poisoned_index_refuted). Calls are sequential here. G1.SetBytes stays abstract.",
 "C121": "Holds for polynomials with the same number of coefficients (interpolation). False in general: trailing zero coefficients make polynomials with the same shares unequal, and after a refused SetBytes Equal panics.",
 "C122": "Model/MixerFine takes one memory access per step and records the accesses and synchronisations; happens-before is defined in Spec/Race. Fields written only before NewMixers returns, and the decrypter, are not locations. sync.Mutex, WaitGroup, Once, channels and go statements order as the Go memory model says.",
 "C123": "A refinement of Model/Mixer (which the theorems on rounds, C08-C13 and C97-C119, are about) by a model with one access per step. The decision to crash is the same in both. Progress (C123_progress) is for mixes with a positive workload, as C11.",
 "C124": "False: AddMessages keeps the mutex (github.com/algorand/go-deadlock, mixer.go:51) while it waits for room in the task channel, so another caller waits about as long as the decryption of all but the last 1000 onions of the batch takes (_refuted, for every time-out and number of workers). The only file that would disable the watchdog is in a package nobody imports. Holds when few enough onions are sent for the time-out and decryption rate (_partial; the two bounds differ by at most two ticks of work). That the library exits the process after 30 s is an assumption: it is not in /repo.",
 "C125": "False: Dial fills the maps without a lock, while the handlers, which must be serving already (Dial opens streams to all servers, also to itself), read them: at every write a lookup ends the process (_process_ends_refuted); before it, a host is not found and RobustRequest refuses every call (_missing_refuted, _bad_request_refuted). Holds for goroutines that are told that Dial has returned, e.g. calls made afterwards (_partial).",
 "C126": "False: the time-out is reported before the call is removed from the table, so that a late response still writes the reply (_late_response_refuted); a time-out does not take the request out of the send channel (_timeout_in_queue_refuted); a response is accepted before the request was sent (_early_response_refuted). Holds if responses come after their requests and not during the cleanup of their call, ids are distinct, sends succeed, and after a time-out the request is only looked at (_partial).",
 "C127": "False for calls that fail: after Stop AuthEncode returns although a worker may only start to read its data (_stopped_refuted), and AuthReconstruct returns with the first failing chunk while workers complete the shards of others (_failed_refuted). Holds for every call that succeeded (_success_partial), and so for every AuthEncode on a coder that is not stopped (_encode_partial).",
 "C128": "C128_race_free: every reachable trace of accesses is race free if no object and no certificate is used by two goroutines (needed: shared_object_races). C128_all_executions: the traces cover all executions of Model/VerifierPool. C128_certificate_is_kept: a certificate that is changed after its call has returned can race with another call that compares signatures.",
 "C129": "C129_race_free: every reachable trace of accesses is race free. C129_note_is_final: a reachable state in which one response was sent and another not; a further write of the shared note would be a race.",
 "C130": "C130_race_free: every reachable trace of accesses in which no Request is used by two goroutines is race free. C130_shared_request_races: the condition is needed. The run reach12 shows a Request that is changed while one of its parcels has still to be sent.",
 "C131": "C131_race_free: every reachable trace of accesses is race free. C131_concurrent_reads: the sender's and the handler's reads of a request really are unordered. The run reach13 shows all kinds of steps.",
 "C132": "C132_only_fills, C132_same_results (any shards), C132_encoding (shards of one encoding). InPlace, the contract of klauspost's Reconstruct for shards that belong to no encoding, is met by Reed-Solomon codes (rsCode_inPlace).",
 "C133": "False as stated: C133_replay_refuted (no more than MaxErrors relays repeat their parcels; handler runs twice if n <= 2*MaxErrors+f, which the networks of CreateCoordinator with an even number of servers from 6 on meet with f = 2), C133_diverted_refuted (any server runs the parcels of a call for another server, given MinimalRelayedParcels of them). What holds: C133_quorum (no handler runs without parcels of MinimalRelayedParcels different relays), C133_few_relays_run_nothing, C133_at_most_once_partial (n > 2*MaxErrors + number of repeating relays).",
 "C134": "False as stated: one vote more than the configured Threshold is needed (C134_threshold_votes_refuted), so in systems of Threshold+1 servers a single failure makes the failed server's keys unrecoverable, and in systems of Threshold servers votes are never of use (C134_one_failure_refuted). C134_takeover_partial: Threshold+1 or more votes suffice.",
 "C135": "C135_linearizable, C135_no_crash (shares' polynomials have coefficients), C135_calls_return (bounded number of steps, never stuck).",
 "C136": "C136_peel_size (any onion, any key), C136_same_size, C136_created_system, C136_size_tells (converse).",
 "C137": "C137_server_forgets (collector), C137_tables_forget (the four maps). Hypothesis: a cleanup starts in every stretch of length P; C86 shows how a client's cleaner can be held up for ever, then nothing is forgotten.",
 "C138": "C138_fits_together (FitsTogether in Props/SystemConfig spells it out), C138_local. Public keys are assumed distinct (GenerateKeys is random).",
 "C139": "C139_hangs_refuted: a call that waits for answers receives nothing any more after it was cancelled, in no continuation, so it does not return (until a context is done). C139_only_its_id_partial: the rest holds. CancelRequest is exported but the repository never calls it.",
 "C140": "C140_relay: every run of Model/CallSystem, seen at a relay, is a run of Model/Relay with the same streams, pending calls and response in hand (so C62 and the others about a relay hold there). C140_only_own: every response on the stream from a relay to a client carries the id of a call that this client has made. C140_client, C140_calls: the same for clients and Model/RelayConn, and what follows for calls from C85 and C86.",
 "C141": "False: C141_other_method_refuted (one relay signs a copy of its parcel with its own key and another method; if it arrives first, the server runs that method on the client's arguments and the client's call returns its result), C141_no_arguments_refuted (the same with length 0: the client's method is run without arguments). What holds: C141_own_parcels_partial (if all accepted parcels with the call's id carry the root the client signed, the handlers run for it are those of the client's method and arguments, up to hash collisions).",
 "C142": "False: C142_one_chain_refuted (with one chain both copies take it, for every message), C142_repeats_refuted (for every n, at least half of all sequences of ceil(sqrt(2n)) chain numbers repeat one: a birthday bound). What holds: C142_choice_partial (copy i takes the chain given by the first eight bytes of the (i+1)-fold hash of the message, modulo n; nothing else goes into the choice), C142_even_partial (every chain is taken by 2^64/n of the 2^64 values, or one more).",
 "C143": "False: C143_lost_for_good_refuted (once a request carrying onions of a chain was lost, dropped or too early, the last mix of that chain never returns anything, however the execution goes on). What holds: C143_other_chains_partial (at rest, every chain of whose onions none was lost has returned its plaintexts, whatever else was lost), C143_exactly_partial (at rest, exactly those chains have returned).",
 "C144": "False: C144_stranger_refuted (after one onion under another sender name, whatever else is sent, the process comes to rest, and at rest GetMixOutputs of that mix has not returned: it blocks, or the process is dead). What holds: C144_other_mixes_partial (with known receivers, parseable onions and no more onions than announced, nothing crashes whatever the sender names, and at rest exactly those mixes have returned whose predecessor delivered everything).",
 "C145": "The observable behaviour of the clients replaces the hypotheses of C87 that nothing was lost and that the round is open everywhere; C143 shows what happens without it.",
 "C146": "False: C146_missing_onion_refuted (one onion missing: the last mix of its chain returns nothing to anybody, in no continuation). What holds: C146_other_chains_partial (other chains are not touched), C146_exactly_partial (at rest exactly those chains with submissions have returned all of whose onions were accepted and none lost between servers).",
 "C147": "False for polynomials: C147_poly_refuted (the coefficients are reduced modulo the order, so every non-empty polynomial is also read from another string of the same length). What holds: C147_share_partial (shares are read from one string of each length, of 36 bytes from their own serialisation only; a scalar that is not below the order is refused).",
 "C148": "False: C148_ended_early_refuted (one onion missing when EndRound comes: the last mix of the chain returns nothing in any continuation; the late onions are answered with NotFound and the round cannot be reopened with the clients opening it once).",
 "C149": "C149_all_keys_or_none (which of the two happens depends only on the first configuration, not on the iteration order)."
}