# Formal model of resmix in Lean 4 — design

## Method

* `lean/Verif/Model/*.lean` — executable model, definitions only, every definition cites file:lines of /repo.
* `lean/Verif/Spec/*.lean`  — small specifications, independent of the model's helpers (plain lists, maps, multisets, sums).
* `lean/Verif/Proofs/*.lean` — lemmas.
* `lean/Verif/Props/*.lean` — the property theorems (named `Cnn_...`) with, beside each, an `example` showing that
  a concrete non-trivial case meets the hypotheses. Refuted properties get `Cnn_..._refuted` (a concrete witness) and a
  `Cnn_..._partial` theorem for what does hold.

Go constructs: an `error` return is `Except.error (Fail.err ..)`, a run-time panic (index out of range, nil dereference,
explicit `panic`) is `Except.error Fail.panic`; maps are association lists / functions with the iteration order as an explicit
universally quantified permutation; slices are lists (plus explicit buffer state where aliasing matters); goroutines are
transition systems whose `Step` relation allows every interleaving of the atomic actions; external primitives are structure
parameters whose laws are stated as fields and inhabited by a concrete instance (so that no theorem is vacuous).

## Trusted base

* Lean 4.33.0's kernel, which checks every proof (`lake build`; `vcheck` replays the compiled modules). No `native_decide`, no
  `bv_decide`, no own axioms. Mathlib is used as a library of checked proofs.
* Axioms: `propext`, `Classical.choice`, `Quot.sound` at most; AXIOMS.md lists them per theorem (written by tools/axioms.py).
* The reading of the Go code: that the definitions in `Model/` say what the cited lines do. This is the part a reader has to check;
  simplifications are named at the definitions and in the coverage table below.
* The contracts of external code listed next, as far as they are hypotheses (structure fields) of theorems.
* The semantics of Go assumed by the transition systems: sequential consistency between synchronisation points, unbuffered and
  buffered channels, `sync.Map`, `sync.Once`, `WaitGroup`, `select` choosing any ready case; a panic in any goroutine ends the process.

## External code, modelled by parameters (trusted contracts)

* BLS12-381 (circl v1.3.0): G1, G2, GT are modules over the scalar field (GT written additively), `pair` bilinear and
  non-degenerate on the generator; `ZMod r` with r the real group order (primality proved in Lean); `g2Hash`, `hashGt`
  arbitrary functions; byte encodings injective with fixed size, `SetBytes` a left inverse.
* AES: arbitrary block function (CFB only ever uses the forward direction); HMAC/SHA: arbitrary functions with fixed-size
  output. Collision statements are of the form "or here is an explicit collision".
  In Lean these laws are the fields of the structure `Bls`; `Bls.toy` is an instance, so the laws are consistent. Nil
  group-element pointers, `rand.Reader` errors and allocation size before a length check (Poly.SetBytes) are not modelled.
* math.Sqrt on float64: the result is a nearest double to the real root (`RoundsTo`), rounding to nearest, ties either way.
* sha3: structure `Sha3`, an arbitrary function with 32-byte outputs. Message files / JSON (LoadOrCreateMessages): not modelled.
* klauspost/reedsolomon: contract structure (encode, reconstruct from any k present shards, join), inhabited.
* ugorji codec: `enc`/`dec` with `dec (enc v ++ rest) = v` (a decoder reads one value from the front of the buffer).
* ed25519: structure `SigScheme` (`valid (pub sk) m (sign sk m)`, 32-byte public keys); nothing is assumed about forgeries.
  protobuf encodings of parcels and notes: structure `Codec`, injective functions with disjoint ranges. More than 256 shards
  (klauspost's other code path) are not modelled.
* gRPC, TCP, TLS, time, logging, OS files: not modelled beyond messages being delivered, delayed, dropped or duplicated as
  the respective theorem says.

## Plan per property

| Id | Modelled how | Proof idea |
|----|--------------|-----------|
| C01-C05 | `Model/Topology` (CreateCascadeTopology, createLayer, SetPredecessors, SetSuccessors, setMixNames) | rotation is a permutation; decimal format injective; induction along the chain |
| C06-C07 | `Model/Server` (NewRound, EndRound, AddMessages, GetMessages over msync.Map) | fold invariant over chains; refinement to a map, induction over call sequences |
| C08-C13 | `Model/Mixer`: transition system (lock-protected AddMessages, task queue, workers, wait groups, Once, shuffle goroutines) | invariant over history: slots = tasks done, counters; permutation at quiescence; measure for progress; concrete witnesses for the refuted parts |
| C14-C16 | `Model/Shuffle` (Fisher-Yates with arbitrary 32-bit draws) | swap preserves permutation; bijection by induction; counting residues; `Props/ShuffleCount` counts, with Mathlib cardinalities, the word sequences leading to each order |
| C17-C23 | `Model/Onion`, `Model/Sender` | byte-level round trips; induction over layers; partition lemmas for fold-grouping under any map order |
| C24-C25 | `Model/Sender`, `Model/Server` strings | format injectivity; concrete collisions refute the full claims |
| C26-C29 | `Model/Poly` over any field / ZMod r | Horner; Lagrange interpolation (Mathlib); existence/uniqueness |
| C30-C39 | `Model/Ibe` (AES-CFB, IBE, publisher), `Model/Poly` (marshalling), `Model/Config` | CFB inverse by induction; bilinearity; Lagrange in the exponent |
| C40-C41 | `Model/Ecc`, `Model/Parcel` | chunking arithmetic for all lengths; order independence of column writes |
| C42-C45 | `Model/Merkle`, `Model/Cert` | up-sweep invariant for partial layers; collision extraction by induction on height |
| C46-C49 | `Model/Verifier` sequential + interleaved | history invariant on the root cache; witnesses for the refutations |
| C50-C55 | `Model/Robust`, `Model/Collector`, `Model/Network` | counting/pigeonhole; invariant over arrival sequences; witnesses |
| C56-C63 | `Model/Request`, `Model/Direct`, `Model/Services`, `Model/Gc`, `Model/Relay` | decision logic; history invariants; interleaving witnesses |
| C64 | `Model/System`: all mixers + senders + network | global conservation invariant on top of C08, C19, C23 |
| C65 | `Model/Base32` | 5-bit regrouping round trip |
| C66-C68 | `Model/Server`, `Model/Mixer` | histories of map updates; the close/send race as an interleaving witness plus the safe case; no replacement -> every object closed or referred to, by induction over the history |
| C69 | `Model/Ibe` | in-place decryption with explicit buffer state; concrete witness; failing calls leave the buffer alone, by induction over the calls |
| C70 | `Model/Sender`, `Model/Onion` | empty result of a failed decryption reaches ExtractMixConfig; concrete witness; last layer safe, from C08, C10, C12 |
| C71, C72 | `Model/Parcel`, `Model/Robust` | concrete malformed messages reach an index panic; safe for well-formed sizes |
| C73, C79 | `Model/Verifier` | invariant over all interleavings; lexicographic measure for termination, progress lemma |
| C74 | `Model/Sign`, `Model/Verifier`, `Model/Parcel` | composition of encoding, signing and validation |
| C75, C81 | `Model/Streams` (response channels of a server, their senders, the collector's goroutines) | invariant for healthy relays; witness runs |
| C76 | `Model/DirectClient` | invariant of calm executions; witness runs |
| C77 | `Model/Relay` | full channel as a stuck state; invariant while there is room |
| C78, C80 | `Model/Coordinator`, `Model/Incoming` | Dial / Close as functions of the dial results; close-while-sending race |
| C82 | `Model/Direct`, `Model/Sign`, `Model/Verifier` | explicit changed request / response that verifies; what the note does fix |
| C83, C84 | `Model/Incoming` (receive goroutines, output channel, reader) | FIFO invariant; spinning receiver witness |
| C85, C86 | `Model/RelayConn` (live tasks, receivers, cleaners, response channel) | history invariant; overfull channel witness |
| C87, C88 | `Model/System` | potential function (bounded number of own steps), progress at every non-rest state, at-rest states are complete; composed with key generation and onions in `Props/SystemCreated` (C87_created_system), and shown never vacuous (C87_can_complete) |
| C89, C90 | `Model/SendConn` (sending goroutines with bounded channels and their users) | full channel of an ended stream as a stuck invariant; accounting of everything sent while all is up |
| C91 | `Model/Slice` (arrays, slices with capacity, append) | what in-place append overwrites, for all slices |
| C92 | `Model/EccPool` (calls, two bounded queues, workers, Stop) | counting invariant: every chunk of a call is in exactly one place; potential for termination |
| C93 | `Model/Coordinator` | Close as a fold over the connections in any order |
| C94 | `Model/Storage` | files as a function from names; fold over all histories of completed and interrupted calls; names injective |
| C95 | `Model/Storage` | direct |
| C96 | `Model/Bypass` | map iteration as any permutation; grpc's table as a map; async call as a small transition system with an invariant |
| C97 | `Model/Dial` | Dial as a relation (free order of Close); counterexamples for repeated calls |
| C98 | `Model/CloseClient` on `Model/DirectClient` | goroutine ends added as steps; invariants over all runs; composition with C76 |
| C99 | `Model/Publish` | transition system of all connections; sublist invariant; exact accounting while served |
| C100 | `Model/Seed` on `Model/Config` | the reader as a fixed stream; composition with C39 |
| C101-C102 | `Model/VerifierPool` (channel, workers, Stop) | forward simulation to `Model/Verifier`; lexicographic measure (the one of C79, then hidden steps); progress by cases on channel and workers |
| C103 | `Model/Stop` (on top of `Model/Streams`, `Model/Relay`) | stuck states as invariants of every step; concrete crash; otherwise a measure on the three counted goroutines and progress by cases |
| C104 | `Model/Peer` (on top of `Model/Streams`, `Model/Network`) | ghost owners of streams; invariant over histories; impostor from every suitable reachable state |
| C105 | `Model/CallSystem` (a transition system of all goroutines, channels and streams, composed of the functions of Model/{Robust, Collector, Relay, Verifier, Sign, Parcel}) | invariant over reachable states (`Proofs/CallC`–`CallG`); a decreasing measure bounds all own steps (`CallM`); at rest everything is delivered (`CallR`); a constructed execution in which the relays are overtaken (`CallO`) |
| C106 | `Model/DirectSystem`: the goroutines of the client (Model/DirectClient), the streams (with flow control) and the server's loop (Model/Direct, with signatures and certificates) in one transition system | invariant (`Proofs/DirectSystemB`): ids of pending calls are distinct, every message in a stream belongs to its call; an exact measure of seven steps per call, and at rest everything is delivered (`DirectSystemC`) |
| C107 | the same system, with the ids of Model/Sender | refuted: a pending call whose id is used again is referred to by nothing any more (`Forgotten`, an invariant of all steps) |
| C108 | the same system | refuted: once the server's loop has returned no step runs a handler or delivers a response (`Ended`, `Dead`) |
| C109 | Model/CallSystem; a silent relay makes no step from some state on (Spec `Event.relay`, `AtRestBut`) | what may be left in channels when everybody else is at rest (`RestBut`); the relays that contributed to the task are neither silent nor ignored the response |
| C110 | the same system | refuted: two phases of "come to rest with these steps only" (`Inv.rest_calm_but`) with invariants `Stuck`, `Slow`; partial: counting the silent and the ignoring relays |
| C111 | Model/CallSystem | the invariant `Inv` of C105; the collector's runs are made of parcels that arrived (`collector_any`); the receive loop's result is stable under more events |
| C112 | Model/Stack: servers, senders' workers, one direct-call connection per pair of hosts, handlers that block in AddMessages | forward simulation by Model/System (`Sim`: requests in flight = a ledger of places in workers and connections), then C64 and C88; which round object made each call (`Makers`) discharges the condition on ids for senders that keep apart and for a single round |
| C113 | Model/Stack | the simulation, a bound on calls from C87 and on the connections' steps per call (`Left`), and: rest of the stack is rest of the abstraction (`rest_abs`), so no deadlock is possible |
| C114 | Model/Mixer; Spec/Hide (Exchanged, SameButWords, LooksSame) | a simulation between two executions (`Like`: states differ only in outputs nobody has seen yet), step by step; at the shuffle, the words that produce the same order exist (C15's bijection) |
| C115 | Model/Shuffle, Model/Mixer; Spec/Hide (`ways`, `shuffleWays`) | words reduce to draws (fibres counted by C15b), draws are in bijection with orders, equally many orders lead from two arrangements to the same result; product bound by induction |
| C116 | Model/System; Spec/Hide (SameEvent, SameView, Trace, before, Distinct, exchange, exchanged) | simulation of the whole system step by step (HideD, HideE): the accounting invariant of C64 shows that a mix that got everything holds exactly its chain's onions, whose contents the exchanged key only permutes; then C114's argument for the shuffle |
| C117 | Model/System; Spec/System | from C64 by counting; the attack is also executed in the model |
| C118 | Model/System; Spec/Hide (exchanged) | from C64: multiplicity of the message on the chain |
| C119 | Model/System; Spec/System | executed in the model |
| C120 | Model/Reuse | case analysis; induction on the operations for cached and for uncached indices |
| C121 | Model/Reuse; Model/Poly | induction on the coefficients; uniqueness of the interpolating polynomial |
| C122 | Model/MixerFine; Spec/Race (HB, RaceFree) | invariants: task indices are distinct while the wait group is positive, control of Once and shuffleWait, and what each goroutine or synchronisation object "knows" (every access to a slot happens before) |
| C123 | Model/MixerFine, Model/Mixer | forward simulation: HandleNewInputs takes effect at the last write of a batch, a result when it is written, the shuffle when it is signalled; progress: a measure for the single steps, and a state at rest refines a state at rest |
| C124 | Model/MixerWatch (clock, waiting callers, watchdog around Model/Mixer); Spec/MixerWatch (Prompt, Rate) | refuted: an explicit run of arbitrary length; positive: conservation of onions, and work done per tick of waiting |
| C125 | Model/DialRace (writes of a map in two steps, with the runtime's mark); Spec/Race | refuted: a run for every position of Dial; positive: invariant with what each goroutine knows (Proofs/Race) |
| C126 | Model/DirectRace (the accesses and synchronisations of each step of Model/DirectClient); Spec/Race | refuted: runs; positive: phases of a call, and which goroutine or synchronisation object knows its accesses |
| C127 | Model/EccPool | count of the tasks of a call in queues, workers and response channel: a call that succeeded has received all 36; refuted: runs |
| C128 | Model/VerifierRace (accesses and synchronisation of every step of VerifierPool), Spec/Race | ownership ghost state (Proofs/Own): who holds each object, who knows of each frozen location; preserved by every step |
| C129 | Model/ServerRace (goroutines, objects, accesses), Spec/Race | ownership ghost state (Proofs/Own, OwnList): queue, collector, goroutine of the call, response channel; shared memory is frozen before the first response is sent |
| C130 | Model/RobustRace (goroutines, objects, accesses), Spec/Race | ownership ghost state (Proofs/Own, OwnLe): Requests belong to their user, parcels and proofs are frozen before they are passed on, responses are handed over |
| C131 | Model/RelayRace (goroutines, objects, accesses), Spec/Race | ownership ghost state (Proofs/Own, OwnLe): requests are frozen when decoded, responses are handed over, then frozen |
| C132 | Model/EccFill (the caller's shards after a call), contract InPlace | Reconstruct is idempotent; chunk by chunk |
| C133 | Model/Collector, Model/Verifier, Model/Parcel; Spec/Replay | each parcel is used by one task only (collector_flat); a payload can be reconstructed only from MinimalRelayedParcels different relay indices, so two runs overlap in n-2*MaxErrors relays, counting; counterexamples: honest client's parcels |
| C134 | Model/Config, Model/Ibe, Model/Onion | C39_votes_reconstruct (now for any number of votes from degree+2 on); counting |
| C135 | Model/VotePool (workers, queue, response channels), Spec/VotePool | invariant over all interleavings (each vote's task exists once, its channel carries its result); work measure |
| C136 | Model/Ibe, Model/Onion, Model/System | length of decrypt inverted step by step; C64's accounting invariant says every onion in flight is one of the layer's; induction over Peels |
| C137 | Model/Collector, Model/Gc (TableEv), Spec/Abandoned | invariant: no tick seen by an entry is later than its start + ttl; what is held is a sub-multiset of what was received since any given time |
| C138 | Model/SystemConfig (whole SystemConfig: mixes, keys, peers) | composition of C01, C02, C05, C39, C51, C52; injectivity of decimal formatting |
| C139 | Model/RelayConn (cancel) | invariants over all continuations; the entries of other ids are untouched |
| C140 | Model/CallSystem, Model/Relay, Model/RelayConn, Spec/Project | forward simulations, step by step; invariants that a relay's handler has only parcels of its client and that entries at a client are for calls it has made |
| C141 | Model/Collector, Sign, Verifier, Robust, Spec/Inject | the forged parcel is signed (C45), merges with the client's (collector invariant), erasure decoding sees the client's shards; C48 with the distinct positions needed to decode (C133) |
| C142 | Chain | float contract (C20), iterated hash by induction; counting injective functions: descFactorial n k <= n^k exp(-k(k-1)/2n) |
| C143 | System | ghost list of the lost requests; the run is simulated by a lossless one in which they are still on their way; per-chain accounting of C64/C87 |
| C144 | Mixer | invariant: over-delivery leaves a task with a negative index; no shuffle before the predecessor's count is full; a stranger's onion uses up a place |
| C145 | System | invariant: before the first client onion of a round nothing of it is queued, worked on, or in flight anywhere; then C87 |
| C146 | System | refused requests leave no trace, fewer events of well-behaved clients are events of well-behaved clients; then the conservation invariant of C64 and starvation along the chain (C143) |
| C147 | Bls, Poly | big-endian numbers of one length are injective; adding the order to the first coefficient still fits into 32 bytes |
| C148 | System | a round unknown to a server stays unknown until it is asked to open it, so later onions are refused; then C146 |
| C149 | Onion | induction over the iteration order |

No property is considered inexpressible; where the runtime matters (fairness of the Go scheduler, clocks, crypto hardness)
the theorem is about the transition system / algebra and the remaining assumption is named.

## Observations made while reading (each turned into a refutation theorem where a property is named)

1. `ExponentPoly.Threshold()` is `len(Coefs)+1 = degree+2`; ReconstructDecrypter therefore refuses degree+1 votes although
   `CreateSystemConfigs` documents degree+1 (C34).
2. `NewPublisher` zero-fills `indices`; with exactly t-1 public keys it succeeds with the identity as shared key (C36).
3. `ReconstructDecrypter` validates each vote against the vote's own ID and never compares IDs: votes on different IDs are
   combined into a wrong key without error (C35). `Reveal` does not validate votes at all (C37).
4. `aesDecrypt` works in place: a second Decrypt of the same Cipher sees the plaintext as ciphertext (C31).
5. Mixer: an empty batch after completion starts a second shuffleAndSend => the batch is emitted twice (C10). A mix with
   workload 0 never completes unless someone sends it an empty batch; senders never do (C11). Over-delivery gives a negative
   slot index => panic in a worker; unknown receiver => nil dereference; short onions => slice panic (C12).
6. computeId concatenates host and round without separator: ("h:505",10) and ("h:5051",0) collide (C25). Sender uuids do not
   contain the round (C24).
7. Merkle pair and leaf hashing ignore the HashID => no domain separation (C44).
8. MerkleCertVerifier caches by root only: after one success for a root every key/signature is accepted for it (C46);
   `validateParcel` relies on this (it checks the sender note against the *receiver's* key); the cache is wiped on every GC
   tick. On failure, waiters with a *different* signature are rejected instead of retried (C47).
9. CallStreamResponse / receiver notes do not cover the payload (C49).
10. Collector does not deduplicate by relay index: one relay repeating its parcel exhausts the quorum (C54).
11. `prepareCallResponse` never resets the pooled buffer: later replies are appended behind earlier ones (C55).
12. `relaytask` is stored by value but implements GCable on the pointer: dropped at every tick whatever its age, without
    notification (C60). Cleanup's check-notify-delete is not atomic with dispatch: send on closed channel (C61).
13. Relay stores `uuidToPeer` after AsyncSend: a fast response is dropped (C62). A refused parcel is answered without Note:
    nil dereference in the relay (C63).
14. A failed decryption stores an empty result; the sender's ExtractMixConfig slices it and panics (C70).
15. `Dial` returns `n.Close()` when a connection fails: nil, i.e. success, on a closed coordinator; `newServerConn` returns
    `nil, cc.Close()`, so a failed stream becomes a nil connection (C80). A following `Close` closes the channel again (C78).
16. Anyone may sign, with any key, a tree that holds a parcel naming somebody else as sender: once the root is cached the
    forged parcel is accepted (C46).
17. A relay answer carrying `RelayStreamError` (or a response `RpcError`) with status code OK is *not* an error for the client:
    grpc's status.ErrorProto/status.Error give nil for OK, so `validateRrpcResponse` returns nil before any certificate check
    and RobustRequest keeps the (possibly nil) response (C72).
18. The certificates of direct calls cover neither method nor payload (request) nor the result (response); the receiver of a note is not
    compared with the server; a note can be replayed (C82). A `DirectCallResponse` with unset result is a success without reply.
19. A parcel or request without note or parcel panics the server (validateParcel), the client (VerifyAndDispatch) or the relay.
20. A relay that died with a full response channel blocks the collector's reply goroutines for all later relays (C81).
21. Tasks of robust calls are keyed by the uuid alone: calls of different clients with the same uuid are merged (C53).
22. `relayConnRequest.Time` is never set: every pending robust request is timed out at the next tick (C60). The cleaner and the receiver
    may both answer one request: one response too many for the channel, the receiver blocks for ever and `Close` hangs (C86).
23. The receive goroutine of a server connection spins on errors other than Unavailable / Canceled / EOF (C84).
24. `Coordinator.Close` closes the channel its connections still send on (C78); `CancelRequest` is never called in the repository (see C139).
25. The identity of a caller is taken from unauthenticated metadata (`caller`); only the note's certificate binds the sender key.
26. `AuthEncode` appends its padding in place: it overwrites up to 36 bytes behind the caller's slice (C91).
27. The send goroutine of a connection returns when its stream has ended, but the channel stays: after 101 more requests the caller blocks (C89, C90).
28. `Close` returns the result of the connection closed last; earlier errors are lost (C93).
29. `LoadOrCreateMessages` names its file by round and number of clients only, so a second system in the same directory gets the onions of the first; a crash during the write leaves a file every later call fails on (C94).
30. `AllOnions` panics on an empty array (C95).
31. Robust calls are not implemented in bypass mode (C96).
32. `Dial` of a mix server panics if a peer is not up yet (the stream of `newClient`); a repeated `Dial` leaks connections; after a failed `Dial` closed connections stay in the table, and `NewRound`'s check for missing connections never fires, because the table is never nil (C97). `GetCoordinator` of a mix server returns nil: nothing sets it.
33. `Close` of a client strands its pending and later direct calls for ever (C98); the gRPC connection below is never closed.
34. All secrets but the RRPC keys are a function of a constant in the source (C100).
35. `Attest` of a relay is `panic("implement me")`: any client that opens that stream ends the relay's process (rrpc/relay.go:60-63; not modelled).
36. After Stop of a verifier (closing a coordinator does that) `Verify` blocks for ever: it sends to workers that have ended (C102).
37. `Stop` of a server hangs if its collector or its router waits for room in a full channel, crashes the process if two robust calls are being served, and returns while handlers run (C103).
38. A stream is attributed to the peer named in its metadata, which anyone can choose (rrpc/peer.go:11-23): an impostor takes a relay's responses (C104).
39. A relay records who waits for a response only after it has passed the parcel on (rrpc/relay.go:141-158). A response that is faster is ignored; if more than `MaxErrors` relays are overtaken, a call that was served waits until its context ends, although nothing failed (C105_overtaken_refuted).
40. The ids of senders' calls do not contain the round, and `waitingTasks.Store` replaces an entry: if two rounds forward the output of the same mix to the same host at the same time, the first call never returns and the sender of its round stops for good (C107_rounds_refuted). C87 models delivery of AddMessages requests without this.
41. A direct call with an unknown method or a reply that cannot be encoded ends the stream, which is never reopened: no later call of the connection is ever served (C108).
42. A server answers every relay, also those whose parcel it has not got yet; such a relay ignores the response because it has no record, and later waits for one. So the relays that may fail after passing on a parcel and the relays that are merely slow share the budget of MaxErrors (C110_silenced_refuted).
43. The blocking calls of the senders cannot deadlock the servers: an AddMessages handler waits only for the lock and the task channel of its round object, which the object's workers drain without help of the sender (C113). What can block a round is the reuse of a call id by another round (C107) and the cleanup of calls that take too long (C76).
44. The shuffle hides the assignment of messages to onions up to a factor 1 - m(m+1)/2^33 (C114, C115): randInt's modulo bias is harmless for batches of thousands, and the bound says nothing from about 92000 onions on.
45. The anonymity of the system is per chain: two submissions over one chain are indistinguishable to everybody but a mix they share (C116), those over different chains are not (C118).
46. Onions are not deduplicated: a copy of a victim's onion doubles its message in the output and reveals it (C117; mixer.go has a todo for it).
47. Any caller of AddMessages can pose as the preceding mix and replace a chain's batch by one of its own (C119).
48. A SetBytes that is refused destroys the polynomial it was called on (poly.go:185 precedes the check of line 187), and a four-byte header makes it allocate up to 2^32 pointers first (C120).
49. ExponentPoly.SetBytes keeps the cached public shares: after decoding into a used object VerifyShare works with the old polynomial (C120).
50. internal/bparams, whose init would disable the deadlock watchdog of go-deadlock, is imported by no package; AddMessages holds the mutex while it waits for the workers, so a batch that takes longer than the time-out (30 s by default) to decrypt ends the process as soon as anybody else calls AddMessages or GetMixOutputs (C124).
51. Dial of the coordinator and of the mix server fill plain maps while request handlers read them: a request that arrives during Dial is a data race, which the Go runtime may answer with "fatal error: concurrent map read and map write" (C125).
52. After a direct call timed out, its request is not the caller's: it may still be read from the send channel, and a late response still writes its reply (C126).
53. A call of the coder that returns early, because of Stop or of a failing chunk, leaves its workers at work on the caller's slices (C127).
54. Verify keeps the certificate of the first object with a root in its map: it must not be changed after the call returned, even if the call failed (C128). No caller in the repository does.
55. The responses of a robust call share the saved note, the length field and the error status, and error responses the sender's certificate; this is sound only because merkleSign signs all responses before the first is sent (C129).
56. Two goroutines must not make calls with the same *Request: pack and unpack write it without a lock (C130).
57. AuthReconstruct stores the shards it computes into the caller's slices; its comment does not say so. The results of later calls are not affected (C132).
58. The server compares the ReceiverID of a robust request with nothing (rrpc/rrpc_server_stream.go:93-106) and forgets a call once it has run, so parcels can be used at another server or again: MaxErrors relays that send their parcels twice can make a handler run twice (C133).
59. The Threshold in the configurations is degree+1, but ReconstructDecrypter wants degree+2 votes (observation on C34): a system of n servers with degree n-2 cannot recover the key of a failed server although Threshold servers are left (C134).
60. NewNode starts NumCPU goroutines that end only when workQueue is closed, which nothing does: every node, also the temporary ones CreateSystemConfigs makes per server, leaves its goroutines behind for ever (C135 shows that they do no other harm).
61. AddMessages accepts onions of any size (mixer.go checks no length beyond the 8-byte trailer), and every layer keeps the differences: a message of another size than the others can be followed through the whole cascade (C136_size_tells).
62. CreateLocalSystemConfigs numbers ports from 5050 without an upper bound: from 60487 servers on the addresses are no longer valid TCP ports; and a system of one server is created without complaint although its coordinator panics (C51, C138).
63. The client refuses arguments of 2^32 bytes or more (C41_too_long), but the server puts `uint32(len)` of a reply into the responses unchecked (rrpc/rrpc_server_stream.go:255-256): a longer reply would be cut to its length modulo 2^32 (not reachable with gRPC's default message sizes).
64. CancelRequest deletes the entries of a call on all relay connections without telling the call, which then waits for ever: its answers are dropped and its entries are no longer timed out (C139).
65. A server merges parcels by call id without comparing their senders or methods: one relay that signs its own copy of its parcel, with another method or with length 0, makes the server run that method on the client's arguments or the client's method on none; the client checks only the server's signature on the note and accepts the result (C141).
66. The number of copies per message, ceil(sqrt(2n)), comes from a scheme where chains are assigned so that any two users share one; here they are drawn independently, so for every n the copies of a message repeat a chain in at least half of the draws, always for n = 1 (C142). The routes are a public function of the message.
67. The sender only logs a failed DirectCall (sender.go:51-53) and AddMessages on a round not yet open is answered NotFound, so the order in which the servers open a round matters: a server that forwards before its successor has opened the round loses all its chains' onions on that hop, and the last mixes of those chains never return (C143). The clients see no error.
68. HandleNewInputs counts an onion of any sender against the mix's total (mixer.go:218-227), but isDone compares per expected sender (mixer.go:237-245): one onion under a wrong sender name (which anybody can send, AddMessages does not check who calls) uses up a place; the round of that mix then blocks for ever, or, if the predecessor still delivers everything, the last onion gets index -1 and its worker panics (C144).
69. A chain waits for exactly the number of onions announced at NewRound, and there is no time-out: one client who announces an onion and does not send it, or sends it before the first mix's server has opened the round and does not repeat it, keeps all submissions of that chain from coming out (C146).
70. Poly.SetBytes reduces its coefficients modulo the order of the group where PolyShare.SetBytes refuses a scalar that is out of range: serialised polynomials are malleable, serialised shares are not (C147).
71. EndRound at the server of a first mix before all announced onions came leaves the chain short for ever: what had arrived does not come out either (C148).
72. NewMessageGenerator looks only at the first server's configuration and panics on one malformed key in it (C149): whoever writes that file can stop every client, and the other servers' copies are not compared with it.

## Coverage: which code is modelled

| File | Modelled | Not modelled |
|------|----------|--------------|
| shuffle.go | all (Model/Shuffle) | |
| messages.go | ExtractMixConfig, ExtractCipher, grouping, onionWrap, NewMessageGenerator, generateOnion(s), calculateChain (Onion, Chain, Generate); LoadOrCreateMessages, loadMessages, AllOnions, AllMessages (Storage) | the `rand.Read` of messages (arguments) |
| mixer.go | all except UpdateMixes, which nobody calls and which panics "implement me" (Mixer; MixerWatch: the watchdog of the mutex; MixerFine: single memory accesses) | logging |
| sender.go | all except Close, which is empty (Sender) | logging |
| server.go | computeId, NewRound, EndRound, AddMessages, GetMessages, RoundState.Close (Server); Dial, Close (Dial; DialRace: memory accesses during Dial); ValidateTotalWork is empty | GetCoordinator |
| config/topology.go | all (Topology) | int32 truncation |
| config/config.go | createConfigs, DKGSetup, vsspolynomialsSetup, CreateTIBEPublisher, CreateTIBENode, setMixNames, CreateCoordinator, CreateSystemConfigs, CreateLocalSystemConfigs, GetServerConfig (Config, SystemConfig, Topology, Network), init, NewRandomPoly's reader (Seed) | RRPC key generation |
| internal/crypto/tibe/* | Poly, PolyShare, ExponentPoly, Lagrange, Cipher, MasterPublicKey, Node, shareableIbeScheme, aes, mac, Player, PublicKey (Poly, Ibe), the vote workers and queue (VotePool) | circl (parameter), nil group elements, `rand` errors |
| internal/crypto/merklearray/* | all (Merkle) | |
| internal/crypto/util.go | Digest, hashing, base32 (Merkle, Base32) | TrimUint64 |
| internal/crypto/ed25519.go | OWSign / OWVerify, Sign / Verify as parameter `SigScheme` (Verifier) | key generation |
| internal/crypto/rand.go | | system randomness; PRNG used by tests only |
| internal/ecc/* | all (Ecc; Slice, EccFill: memory; EccPool: goroutines); klauspost as parameter | |
| internal/codec | as contracts (Pool, Request) | ugorji |
| internal/msync | as maps (GoMap) | |
| internal/bparams, rrpc/vars.go, rrpc/internal | | build tags, logging levels; the ttl is a number |
| rrpc/network_data.go | all (Network) | |
| rrpc/coordinator.go | NewCoordinator (code sizes), Close, AsyncSend, Incoming, RobustRequest, validateRrpcResponse, Dial (Network, Coordinator, Robust, Incoming, RelayConn; DialRace: memory accesses during Dial), PublishProof (Publish), CancelRequest (RelayConn) | |
| rrpc/net_conns.go | newRelayConn, sendRequest, receiveParcels, cleanup, Close, newServerConn (RelayConn, SendConn, Incoming, Coordinator), SendProof, proofSendingStream (Publish) | |
| rrpc/client.go | setServerStream, VerifyAndDispatch, DirectCall, AsyncDirectCall, RobustCall, requestIntoRobust, reconstruct (Direct, DirectClient, Parcel, Robust; DirectRace, RobustRace: memory accesses of direct and robust calls), Close (CloseClient), newClient's failures (Dial) | |
| rrpc/server.go | DirectCall, intoDirectCallResponse, errToRpcErr, buffer pool (Direct, Pool, Collector), Stop (Stop) | Serve, gRPC registration |
| rrpc/rrpc_server_stream.go | all (Streams, Verifier.validateParcel, Collector, Parcel, Pool; accesses: ServerRace) | |
| rrpc/relay.go | relaySetup, RelayStream, relaytask (Relay, Gc; RelayRace: memory accesses), SendProof (Publish) | Attest (panics: not implemented) |
| rrpc/merkle_verifier.go | all (Verifier; VerifierPool: channel, workers, Stop; VerifierRace: memory accesses) | the bytes of the public keys, which belong to the network configuration, are not a location of VerifierRace |
| rrpc/verifiables.go | all (Sign, Verifier) | |
| rrpc/peer.go | all (Peer) | |
| rrpc/requests.go, services.go, gc.go, ecc_packing.go | all (Request, Services, Gc, Parcel) | |
| rrpc/grpc_wrapper.go, interfaces.go | all (Bypass, Dial) | gRPC transport, interceptors |
