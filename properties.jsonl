{"id": "C01", "title": "Every layer of a cascade uses every server exactly once", "statement": "CreateCascadeTopology(servers, L) returns exactly L layers; the host names of each layer's mixes are a permutation of the given server list, so every server hosts exactly one mix in every layer and L mixes in total. Each mix records its own layer number and the index of its host in the server list.", "quantifier": "every server list, every number of layers, every layer", "why_tests_cant": "The unit test looks at one 5x4 topology; the rotation arithmetic (i+layer)%n has to be right for every n and every layer, including layers beyond n.", "anchors": ["config/topology.go:CreateCascadeTopology", "config/topology.go:createLayer"]}
{"id": "C02", "title": "Mix names are unique and name lookup is exact", "statement": "In a topology built by CreateCascadeTopology no two mixes (different layer or different position) carry the same name, no mix is called GENESIS, the name index has exactly L*n entries, and GetMix(name) returns precisely the mix that carries that name.", "quantifier": "every server list, every number of layers, every pair of mixes", "why_tests_cant": "Uniqueness depends on the textual format m(layer,server) being injective for all decimal widths (e.g. m(1,12) vs m(11,2)); a test samples a few widths.", "anchors": ["config/topology.go:createLayer", "config/topology.go:GetMix", "config/topology.go:GenesisName"]}
{"id": "C03", "title": "Successor and predecessor links form disjoint complete chains", "statement": "Starting from the i-th mix of the first layer and repeatedly following Successors[0] through the name index visits the i-th mix of layer 1, 2, ..., L-1 and then stops (GENESIS is not a mix); following Predecessors[0] from the last layer walks the same chain backwards and stops. Every mix has exactly one successor and one predecessor.", "quantifier": "every server list, every number of layers, every chain position", "why_tests_cant": "Termination and completeness of a pointer walk over all sizes cannot be sampled; NewRound loops on this walk.", "anchors": ["config/topology.go:SetPredecessors", "config/topology.go:SetSuccessors", "server.go:NewRound"]}
{"id": "C04", "title": "Consecutive mixes of a chain run on different servers", "statement": "In a cascade over n>=2 distinct servers, the mixes of one chain in adjacent layers run on different hosts, and any window of at most n consecutive layers of a chain is hosted by pairwise distinct servers (so a chain of n layers passes every server).", "quantifier": "every list of distinct servers, every chain, every window of layers", "why_tests_cant": "Anytrust-style guarantees need this for all sizes; the test inspects one chain.", "anchors": ["config/topology.go:createLayer"]}
{"id": "C05", "title": "A server's mix list is complete and ordered by layer", "statement": "After CreateSystemConfigs over distinct addresses, GetMixesSortedByLayer of server s returns exactly the names of the mixes hosted by s, one per layer, with the l-th entry being the mix of layer l, whatever iteration order the Go map uses.", "quantifier": "every list of distinct addresses, every number of layers, every map iteration order and every sort.Slice-admissible result", "why_tests_cant": "Go map iteration order is random and sort.Slice is unstable: a test sees one order per run.", "anchors": ["config/config.go:setMixNames", "config/config.go:GetMixesSortedByLayer", "config/config.go:CreateSystemConfigs"]}
{"id": "C06", "title": "NewRound gives every mix the workload of its chain", "statement": "NewRound succeeds exactly when the request names a workload for every first-layer mix (and connections exist); after success the workload used for every mix of the cascade is the workload the request gave for the first-layer mix of its chain, whatever else the request contained; otherwise it returns FailedPrecondition and changes nothing.", "quantifier": "every cascade topology, every request map with workloads that fit a Go int (see C67 for the others)", "why_tests_cant": "The propagation loop overwrites entries while walking chains; correctness for all topologies and maps needs an invariant.", "anchors": ["server.go:NewRound"]}
{"id": "C07", "title": "Round life cycle behaves like a map from rounds to state", "statement": "For any sequence of NewRound/AddMessages/GetMessages/EndRound calls: AddMessages and EndRound on a round that is not open return NotFound, GetMessages returns FailedPrecondition, a round is open exactly if its last successful NewRound was not followed by an EndRound, EndRound closes it once, and operations on one round never change the state of another.", "quantifier": "every finite sequence of API calls on a mix server", "why_tests_cant": "Requires all histories and all pairs of rounds.", "anchors": ["server.go:NewRound", "server.go:EndRound", "server.go:AddMessages", "server.go:GetMessages", "internal/msync/map.go"]}
{"id": "C08", "title": "A mix outputs exactly the decryptions of its inputs", "statement": "When a mix has been given as many onions as its workload and its outputs are returned by GetMixOutputs, the returned list is a permutation of the decryptions of exactly the onions added (one slot per onion, nothing lost, duplicated or overwritten), for every interleaving of AddMessages calls, decryption workers and the shuffling goroutine.", "quantifier": "every workload, every list of onions, every split into batches, every interleaving of the worker pool", "why_tests_cant": "Slots are handed out by a shared counter and filled by concurrent workers; tests see a few schedules.", "anchors": ["mixer.go:HandleNewInputs", "mixer.go:NewMixers", "mixer.go:shuffleAndSend", "mixer.go:GetOutputs"]}
{"id": "C09", "title": "GetMixOutputs never returns partial results and its answer is final", "statement": "GetMixOutputs returns for a known mix only after every onion of the mix's workload was decrypted and the shuffle finished, and from then on it returns the same list in every later state of an execution without over-delivery; for an unknown mix name it returns NotFound.", "quantifier": "every reachable state of the mixer, every schedule", "why_tests_cant": "Blocking conditions over all schedules.", "anchors": ["mixer.go:GetMixOutputs", "mixer.go:GetOutputs", "mixer.go:signalDone"]}
{"id": "C10", "title": "A completed mix forwards its batch exactly once", "statement": "A mix that is not in the last layer puts its batch on the output channel exactly once per round, a last-layer mix never does, and the shuffle runs exactly once.", "quantifier": "every schedule and every sequence of AddMessages calls", "why_tests_cant": "Depends on which call observes the mix as done; an extra empty batch after completion is enough to change the answer.", "anchors": ["mixer.go:AddMessages", "mixer.go:isDone", "mixer.go:shuffleAndSend"]}
{"id": "C11", "title": "Every fair schedule of a fully delivered round completes", "statement": "If a mix is given its whole expected workload, the round cannot get stuck: in every reachable state with undone work some worker or shuffle step is enabled, each such step decreases a bounded measure, and once no step is enabled GetMixOutputs returns. This should also hold for a mix whose expected workload is zero.", "quantifier": "every workload, every batch split, every schedule", "why_tests_cant": "Absence of deadlock over all schedules; the zero-workload mix never occurs in the tests.", "anchors": ["mixer.go:AddMessages", "mixer.go:GetOutputs", "mixer.go:newMixState"]}
{"id": "C12", "title": "No AddMessages request can crash the mix server", "statement": "Whatever batch a peer sends (unknown logical receiver, more onions than the announced workload, onions too short to parse), the server answers with an error or ignores the batch; it never panics.", "quantifier": "every AddMessages request in every reachable state", "why_tests_cant": "Adversarial inputs are unbounded; unit tests only send well-formed ones.", "anchors": ["mixer.go:AddMessages", "mixer.go:HandleNewInputs", "messages.go:ExtractCipher", "messages.go:ExtractMixConfig"]}
{"id": "C13", "title": "The multiset of outputs does not depend on batching or arrival order", "statement": "Two executions in which a mix receives the same onions, split into different batches, in different order and scheduled differently, end with output lists that are permutations of each other.", "quantifier": "all pairs of executions delivering the same onions", "why_tests_cant": "Two-execution (hyper)property over all schedules.", "anchors": ["mixer.go:AddMessages", "mixer.go:HandleNewInputs"]}
{"id": "C14", "title": "Shuffling permutes", "statement": "ShuffleOnions leaves the array with exactly the same elements with the same multiplicities, for every array and every (even failing) randomness source and every previous use of the shuffler.", "quantifier": "every array, every byte stream of the random source, every history of the shuffler", "why_tests_cant": "All lengths and all random streams.", "anchors": ["shuffle.go:ShuffleOnions", "shuffle.go:permutation"]}
{"id": "C15", "title": "The shuffle can produce every order and is unbiased up to the modulo", "statement": "For every n and every permutation there is exactly one sequence of reduced draws (j_i <= i for i=n-1..0) that makes the shuffler apply that permutation, and each reduced draw value is hit by either floor(2^32/m) or floor(2^32/m)+1 of the 2^32 possible 4-byte words (m<=2^32).", "quantifier": "every length n, every permutation, every modulus", "why_tests_cant": "Counting argument over the whole sample space.", "anchors": ["shuffle.go:permutation", "shuffle.go:randInt"]}
{"id": "C16", "title": "A shuffler keeps its permutation while lengths match", "statement": "Two ShuffleOnions calls on one shuffler with arrays of equal length apply the same index permutation (no fresh randomness is consumed); with a different length a fresh permutation of the right length is drawn, so indexing never goes out of range.", "quantifier": "every pair of arrays and every random source", "why_tests_cant": "All lengths and histories.", "anchors": ["shuffle.go:ShuffleOnions"]}
{"id": "C17", "title": "Onion routing trailer round-trips", "statement": "An onion built for (layer, position) is routed by ExtractMixConfig to exactly Layers[layer].LogicalMixes[position], for every cipher content and all 32-bit layer/position values inside the topology.", "quantifier": "every cipher, every layer and position in range", "why_tests_cant": "All byte contents and positions.", "anchors": ["messages.go:onionWrap", "messages.go:ExtractMixConfig"]}
{"id": "C18", "title": "Onion cipher part round-trips", "statement": "ExtractCipher of an onion returns the same cipher (group element, mac, ciphertext) that onionWrap serialised, and Cipher.Size is the number of bytes written.", "quantifier": "every cipher whose mac is a 32-byte HMAC value, every ciphertext length", "why_tests_cant": "All lengths.", "anchors": ["messages.go:ExtractCipher", "internal/crypto/tibe/vss_ibe.go:ToBuffer", "internal/crypto/tibe/vss_ibe.go:SetBytes", "internal/crypto/tibe/vss_ibe.go:Size"]}
{"id": "C19", "title": "Peeling a generated onion through its chain yields the message", "statement": "For every message, round and chain chosen by generateOnion, decrypting the onion with the round key of the host of the mix it is addressed to, layer after layer, addresses the chain's position in layer 0,1,...,L-1 in turn and ends with the original message.", "quantifier": "every message, round, number of layers, encryption randomness", "why_tests_cant": "Induction over the number of layers and all random choices.", "anchors": ["messages.go:generateOnion", "messages.go:onionWrap", "server.go:computeId"]}
{"id": "C20", "title": "Chain selection is well-formed", "statement": "For n>=1 chains, calculateChain returns exactly ceil(sqrt(2n)) chain numbers, all smaller than n, and is a function of the message only; generateOnion therefore produces ceil(sqrt(2n)) onions.", "quantifier": "every number of chains and every message", "why_tests_cant": "All n; floating-point sqrt/ceil must be exact on all admissible n.", "anchors": ["messages.go:calculateChain", "messages.go:generateOnion"]}
{"id": "C21", "title": "Message generation produces exactly the requested number of messages", "statement": "generateOnions(numClients) splits the work among the CPUs such that the per-thread counts add up to numClients, none is negative, and the collector terminates after receiving exactly numClients results, for every CPU count.", "quantifier": "every number of clients and CPUs", "why_tests_cant": "CPU counts and divisions with remainder over all values.", "anchors": ["messages.go:generateOnions"]}
{"id": "C22", "title": "Grouping onions is a partition that follows the routing trailer", "statement": "GroupOnionsByMixName and GroupOnionsByHostname put every onion into exactly one group, namely the one named by the mix (or its host) the onion's trailer addresses, keep the original relative order within a group, create no empty group, and the group sizes add up to the number of onions.", "quantifier": "every list of well-formed onions, every topology", "why_tests_cant": "All lists and topologies.", "anchors": ["messages.go:GroupOnionsByMixName", "messages.go:GroupOnionsByHostname"]}
{"id": "C23", "title": "The sender forwards every onion once, to the right mix on the right host", "statement": "For every batch taken from the mixer, the requests the sender issues contain every onion exactly once; each sits in a Messages entry whose LogicalReceiver is the mix addressed by its trailer, in the request to that mix's host, tagged with the batch's logical sender and this server's address.", "quantifier": "every batch of well-formed onions, every topology, every map iteration order", "why_tests_cant": "All batches and iteration orders.", "anchors": ["sender.go:worker", "sender.go:createRRPCRequest"]}
{"id": "C24", "title": "Sender call ids identify a call", "statement": "Two different requests issued by the senders of one system (different sending server, different destination host, different logical mix or different round) carry different uuids.", "quantifier": "every pair of requests of a run", "why_tests_cant": "Injectivity of a textual format over all names and rounds.", "anchors": ["sender.go:createRRPCRequest"]}
{"id": "C25", "title": "Round keys of different servers or rounds have different identities", "statement": "computeId(host, round) hashes different strings for different (host, round) pairs, so no two round keys coincide (up to SHA3 collisions).", "quantifier": "every pair of hosts and rounds", "why_tests_cant": "Injectivity of a concatenation over all strings.", "anchors": ["server.go:computeId"]}
{"id": "C26", "title": "Polynomial evaluation and shares are correct", "statement": "Poly.Eval(i) is a_0 + a_1*i + ... + a_d*i^d in the scalar field, Secret() is Eval(0), and CreateShares(n) returns n shares with indices 1..n and values Eval(1..n); the share index 0 (the secret) is never handed out.", "quantifier": "every polynomial, every index, every n", "why_tests_cant": "All degrees and points.", "anchors": ["internal/crypto/tibe/poly.go:Eval", "internal/crypto/tibe/poly.go:CreateShares", "internal/crypto/tibe/poly.go:Secret"]}
{"id": "C27", "title": "Public shares match secret shares under any call history", "statement": "For the exponent polynomial of P, GetPublicShare(i) returns g^{P(i)} for every i including 0, no matter which (concurrent or earlier) calls filled the cache, and VerifyShare(i, s) accepts exactly s = P(i).", "quantifier": "every polynomial, index, share value and history of cache-filling calls", "why_tests_cant": "All histories of a shared cache and all values.", "anchors": ["internal/crypto/tibe/exponent_poly.go:GetPublicShare", "internal/crypto/tibe/exponent_poly.go:VerifyShare", "internal/crypto/tibe/poly.go:GetExponentPoly"]}
{"id": "C28", "title": "Any large enough set of shares reconstructs the secret", "statement": "Interpolating at 0 from any set of more than d distinct share indices of a degree-d polynomial yields the secret, in whatever order the map is iterated.", "quantifier": "every polynomial, every set of more than d distinct indices below 2^64, every iteration order", "why_tests_cant": "All subsets and degrees.", "anchors": ["internal/crypto/tibe/poly.go:reconstructSecret", "internal/crypto/tibe/poly.go:computeLagrangeIndexMultiplier"]}
{"id": "C29", "title": "d shares reveal nothing about the secret", "statement": "For any d (or fewer) distinct non-zero share indices with arbitrary share values and any candidate secret there is exactly one (respectively at least one) polynomial of degree <= d with that secret and those shares.", "quantifier": "every set of at most d indices, all share values, all candidate secrets", "why_tests_cant": "Quantifies over all secrets and share values.", "anchors": ["internal/crypto/tibe/poly.go:NewRandomPoly", "internal/crypto/tibe/poly.go:CreateShares"]}
{"id": "C30", "title": "Encrypt then Decrypt returns the message", "statement": "A cipher produced by MasterPublicKey.Encrypt(id, msg) is decrypted by the owner's Decrypter(id) to exactly msg, for every message (including empty), id, random scalar and IV; with the key of a different id it is rejected unless the hash/MAC primitives collide.", "quantifier": "every message, id, master polynomial, encryption randomness", "why_tests_cant": "All lengths and randomness.", "anchors": ["internal/crypto/tibe/vss_ibe.go:Encrypt", "internal/crypto/tibe/vss_ibe.go:Decrypt", "internal/crypto/tibe/aes.go"]}
{"id": "C31", "title": "A successful Decrypt is authenticated and leaves the cipher usable", "statement": "Decrypt succeeds only if the MAC of the presented group element and ciphertext verifies under the derived key; a cipher that was decrypted once can be decrypted again with the same result.", "quantifier": "every cipher, every key, every sequence of Decrypt calls on one cipher value", "why_tests_cant": "All tampered ciphers; in-place mutation shows only on a second use.", "anchors": ["internal/crypto/tibe/vss_ibe.go:Decrypt", "internal/crypto/tibe/aes.go:aesDecrypt", "internal/crypto/tibe/vss_ibe.go:Copy"]}
{"id": "C32", "title": "Vote verification accepts exactly the honest vote", "statement": "ValidateVote / Verify accept a vote for (index, id) exactly if its signature is H(id)^{P(index)}; honest votes created from a share are always accepted.", "quantifier": "every polynomial, index, id and candidate signature", "why_tests_cant": "All group elements.", "anchors": ["internal/crypto/tibe/util.go:isValidSignature", "internal/crypto/tibe/vss_ibe.go:ValidateVote", "internal/crypto/tibe/scheme2.go:Verify"]}
{"id": "C33", "title": "Reconstructing a decrypter from enough honest votes gives the owner's key", "statement": "If the first Threshold() votes passed to ReconstructDecrypter come from distinct shares of the named node's polynomial for one id and all votes are valid, the result is the same key as the node's own Decrypter(id), and so decrypts everything that key decrypts; duplicate votes among them or too few votes give an error.", "quantifier": "every polynomial, every choice and order of votes", "why_tests_cant": "All subsets, orders and degrees.", "anchors": ["internal/crypto/tibe/vss_ibe.go:ReconstructDecrypter", "internal/crypto/tibe/scheme2.go:reconstructSecretIbeKey", "internal/crypto/tibe/poly.go:newLagrangeIndexMultiplier"]}
{"id": "C34", "title": "degree+1 votes suffice to reconstruct a decrypter", "statement": "As documented for CreateSystemConfigs ('determines the threshold of VSS (degree + 1)'), any degree+1 distinct valid votes let a node reconstruct another node's round key.", "quantifier": "every polynomial degree and every set of degree+1 votes", "why_tests_cant": "The tests always supply more votes than degree+1, hiding the boundary.", "anchors": ["internal/crypto/tibe/exponent_poly.go:Threshold", "internal/crypto/tibe/poly.go:Threshold", "config/config.go:CreateSystemConfigs"]}
{"id": "C35", "title": "A reconstructed decrypter is never wrong", "statement": "Whenever ReconstructDecrypter(node, votes) returns without error, the returned key is that node's key for the id of the votes, even if some votes were produced by malicious servers.", "quantifier": "every list of votes, honest or not", "why_tests_cant": "Adversarial vote lists.", "anchors": ["internal/crypto/tibe/vss_ibe.go:ReconstructDecrypter"]}
{"id": "C36", "title": "NewPublisher derives the joint public key or fails", "statement": "NewPublisher(t, share, pubkeys) with at least t public keys of shares of one degree-(t-1) polynomial P returns a publisher whose shared public key is g^{P(0)}; with fewer than t public keys it returns an error.", "quantifier": "every threshold, polynomial and list of public keys", "why_tests_cant": "The boundary t-1 is never tested.", "anchors": ["internal/crypto/tibe/scheme2.go:NewPublisher", "internal/crypto/tibe/scheme2.go:computeSharedPubkey"]}
{"id": "C37", "title": "Hide/Reveal round-trips with any t honest votes and only then", "statement": "A secret hidden by any publisher under id is revealed as the original message by any publisher given votes of t distinct publishers for that id in any order; with fewer than t votes, or a duplicate among the first t, Reveal returns an error; a list containing a wrong vote never yields a wrong message without an error.", "quantifier": "every threshold, group size, message, id, choice and order of votes", "why_tests_cant": "All subsets and orders; adversarial votes.", "anchors": ["internal/crypto/tibe/scheme2.go:Hide", "internal/crypto/tibe/scheme2.go:Reveal", "internal/crypto/tibe/scheme2.go:Vote"]}
{"id": "C38", "title": "Key material serialisation round-trips and rejects wrong lengths", "statement": "Marshal followed by SetBytes gives back the same Poly, PolyShare, PublicKey, ExponentPoly and MasterPublicKey (indices below 2^32, fewer than 2^32 coefficients); inputs of any length other than the announced one are rejected for Poly and ExponentPoly, and shares/keys shorter than the header plus one element are rejected.", "quantifier": "every value and every byte string", "why_tests_cant": "All lengths and values.", "anchors": ["internal/crypto/tibe/poly.go:Marshal", "internal/crypto/tibe/poly.go:SetBytes", "internal/crypto/tibe/exponent_poly.go:Marshal", "internal/crypto/tibe/exponent_poly.go:SetBytes", "internal/crypto/tibe/scheme2.go:SetBytes"]}
{"id": "C39", "title": "Generated configurations are mutually consistent", "statement": "For configurations from CreateSystemConfigs over distinct addresses: every server builds its TIBE node and publisher without error; every server encrypts to host h under the key that h's node can decrypt; the votes of any degree+2 servers reconstruct h's round key; all publishers share one public key and any degree+1 of them can reveal.", "quantifier": "every list of distinct addresses, degree < number of servers, all random polynomials", "why_tests_cant": "n^2 shares over all sizes and random choices.", "anchors": ["config/config.go:createConfigs", "config/config.go:CreateTIBENode", "config/config.go:CreateTIBEPublisher", "config/config.go:DKGSetup"]}
{"id": "C40", "title": "Erasure coding round-trips under any tolerable erasure", "statement": "AuthReconstruct(AuthEncode(data), len(data)) = data for every data (including empty), even if in every chunk up to NumParities shards (possibly different ones per chunk) are missing, and independently of the order in which workers finish; a stopped coder returns an error and never wrong data.", "quantifier": "every byte string, every erasure pattern within tolerance, every worker schedule", "why_tests_cant": "All lengths modulo 36, all erasure patterns and all completion orders.", "anchors": ["internal/ecc/reedsolomon.go:AuthEncode", "internal/ecc/reedsolomon.go:AuthReconstruct"]}
{"id": "C41", "title": "A robust request survives the loss of MaxErrors relays", "statement": "Splitting a call into one parcel per relay and reassembling any MinimalRelayedParcels of them, in any order of arrival, yields the original request bytes; the length header is preserved for all lengths below 2^32. The same holds for the response direction.", "quantifier": "every payload below 4 GiB, every subset and order of surviving parcels, every network size and tau with 1 <= tau <= n", "why_tests_cant": "All subsets, orders and sizes.", "anchors": ["rrpc/ecc_packing.go", "rrpc/client.go:requestIntoRobust", "rrpc/client.go:reconstruct", "rrpc/rrpc_server_stream.go:reconstructParcels", "rrpc/rrpc_server_stream.go:prepareCallResponse"]}
{"id": "C42", "title": "Merkle proofs verify", "statement": "For every array and every non-empty set of in-range positions (given in any order, with duplicates), Verify(Root(), {pos -> a[pos]}, Prove(positions)) accepts; out-of-range positions and proofs in an empty tree are refused.", "quantifier": "every array length, every set of positions, every hash function", "why_tests_cant": "Tests go up to 1023 leaves; correctness is needed for all sizes and all subsets.", "anchors": ["internal/crypto/merklearray/merkle.go:Build", "internal/crypto/merklearray/merkle.go:Prove", "internal/crypto/merklearray/merkle.go:Verify", "internal/crypto/merklearray/partial.go:up", "internal/crypto/merklearray/layer.go:up"]}
{"id": "C43", "title": "Merkle proofs are binding", "statement": "If a proof of tree height for one position verifies against the root of a tree, then the verified element is the element at that position, or the byte strings hashed in building the tree and in checking the proof contain an explicit collision or one of the latter is a preimage of the all-zero digest (the implicit value beyond the end); no proof verifies for a position that does not fit the proof's height.", "quantifier": "every array, position, element and proof", "why_tests_cant": "Adversarial proofs are unbounded.", "anchors": ["internal/crypto/merklearray/merkle.go:Verify"]}
{"id": "C44", "title": "Only leaves can be proved to be leaves", "statement": "No object other than one of the array's elements can be verified against the root of the tree at any position with any proof (unless the hash function collides).", "quantifier": "every array, object, position and proof of any length", "why_tests_cant": "Needs domain separation between leaves and inner nodes; only an adversarial object shows the gap.", "anchors": ["internal/crypto/merklearray/merkle.go:Verify", "internal/crypto/merklearray/layer.go:ToBeHashed", "internal/crypto/util.go:hashRep"]}
{"id": "C45", "title": "Everything merkleSign signs verifies", "statement": "After merkleSign over any list of messages with a secret key, every message's certificate is accepted by a fresh verifier under the matching public key, also when several list entries share one note object (as the server's call responses do).", "quantifier": "every list length and content, every key pair", "why_tests_cant": "All list lengths; aliasing between entries.", "anchors": ["rrpc/verifiables.go:merkleSign", "rrpc/merkle_verifier.go:Verify"]}
{"id": "C46", "title": "Certificate verification authenticates the named key", "statement": "If MerkleCertVerifier.Verify(pk, v) returns nil then the certificate carried by v contains a valid signature of pk over its Merkle root and v is a leaf under that root.", "quantifier": "every sequence of earlier Verify calls with arbitrary keys and certificates", "why_tests_cant": "Depends on the history that filled the root cache.", "anchors": ["rrpc/merkle_verifier.go:Verify"]}
{"id": "C47", "title": "A bad certificate cannot make a good one fail", "statement": "A valid certificate is accepted by Verify whatever other (invalid) certificates were verified before or are being verified concurrently.", "quantifier": "every history and every interleaving of concurrent Verify calls", "why_tests_cant": "The failing interleaving needs two overlapping calls on one root.", "anchors": ["rrpc/merkle_verifier.go:Verify"]}
{"id": "C48", "title": "A relay cannot alter a request parcel", "statement": "If a parcel passes the server's signature check against the certificate a client issued, its method, payload, length, relay index and note are those the client signed (up to hash collisions).", "quantifier": "every pair of original and altered parcels", "why_tests_cant": "All alterations.", "anchors": ["rrpc/verifiables.go:Parcel.ToBeHashed", "rrpc/rrpc_server_stream.go:validateParcel"]}
{"id": "C49", "title": "A relay cannot alter a reply", "statement": "If a client accepts a response in a robust or direct call then the reply payload is the one the called server produced.", "quantifier": "every pair of original and altered responses", "why_tests_cant": "All alterations of all fields.", "anchors": ["rrpc/verifiables.go:CallStreamResponse.ToBeHashed", "rrpc/coordinator.go:validateRrpcResponse", "rrpc/client.go:VerifyAndDispatch"]}
{"id": "C50", "title": "A robust request always decides, and the order of replies does not matter", "statement": "When every relay answers once, RobustRequest returns after at most n answers; it succeeds exactly if at most MaxErrors answers are bad, in whatever order they arrive, and then returns exactly MinimalRelayedParcels valid answers, the first ones to arrive.", "quantifier": "every number of relays, every tau with 1 <= tau <= n, every sequence of answers", "why_tests_cant": "All arrival orders and all error patterns.", "anchors": ["rrpc/coordinator.go:RobustRequest", "rrpc/network_data.go:MaxErrors", "rrpc/network_data.go:MinimalRelayedParcels"]}
{"id": "C51", "title": "Quorum sizes are consistent", "statement": "MinimalRelayedParcels + MaxErrors is the number of servers; with the configured tau = n/2 two sets of MinimalRelayedParcels servers always intersect and the erasure code is configured with exactly MinimalRelayedParcels data shards and MaxErrors parity shards, for every n >= 2; MinimalAttestationNumber is the least integer exceeding tau/2 by at least one.", "quantifier": "every number of servers", "why_tests_cant": "Integer and floating point rounding over all n.", "anchors": ["rrpc/network_data.go", "config/config.go:CreateCoordinator", "rrpc/coordinator.go:NewCoordinator"]}
{"id": "C52", "title": "All participants agree on relay indices", "statement": "Any two networks built from the same set of valid server entries, listed in any order, have identical server lists, and GetRelayIndex(s) is the position of s in that list for every registered s; entries without address or key are ignored; key and host lookups are inverse to each other when addresses and keys are distinct.", "quantifier": "every list of server entries and every permutation of it", "why_tests_cant": "All permutations and sizes.", "anchors": ["rrpc/network_data.go:NewNetworkData", "rrpc/network_data.go:GetRelayIndex", "rrpc/network_data.go:GetPublicKey", "rrpc/network_data.go:GetHostname"]}
{"id": "C53", "title": "The handler of a robust call runs exactly once", "statement": "If the parcels of one call (one per relay) reach the server in any order and interleaved with the parcels of other calls, at least MinimalRelayedParcels of them arriving, the handler runs exactly once for that call, on the payload the client sent.", "quantifier": "every arrival order, every set of concurrent calls with distinct ids, every subset of missing parcels within tolerance", "why_tests_cant": "All interleavings.", "anchors": ["rrpc/rrpc_server_stream.go:collector", "rrpc/rrpc_server_stream.go:getOrCreateTask"]}
{"id": "C54", "title": "One malicious relay cannot break a robust call", "statement": "If at most MaxErrors relays misbehave in any way, a robust call of an honest client to an honest server succeeds.", "quantifier": "every behaviour of up to MaxErrors relays", "why_tests_cant": "All byzantine behaviours.", "anchors": ["rrpc/rrpc_server_stream.go:collector", "rrpc/rrpc_server_stream.go:reconstructParcels"]}
{"id": "C55", "title": "A robust call returns the reply of its own handler run", "statement": "The reply bytes sent back for a call decode to the value that call's handler returned, for every sequence of calls the server served before.", "quantifier": "every sequence of calls and every reuse pattern of the buffer pool", "why_tests_cant": "Depends on the history of pooled buffers; a test that repeats one reply cannot notice.", "anchors": ["rrpc/rrpc_server_stream.go:prepareCallResponse"]}
{"id": "C56", "title": "Requests are packed once and replies unpacked once", "statement": "A Request is serialised by the first call that packs it and the reply is decoded by the first successful unpack; packing or unpacking again changes nothing; a cancelled request that was not packed yet fails with Canceled and stays unpacked. In particular a Request object must not be reused for a second call with new arguments.", "quantifier": "every sequence of pack/unpack calls with every cancellation point", "why_tests_cant": "All histories.", "anchors": ["rrpc/requests.go:pack", "rrpc/requests.go:unpack"]}
{"id": "C57", "title": "A direct call reports exactly the service's outcome", "statement": "If the server's handler returned an error, DirectCall returns an error with the same status code and message (Unknown for plain errors); if it returned a value, the reply decodes to it; a response whose server note does not verify yields an error and never a reply.", "quantifier": "every handler outcome, every response", "why_tests_cant": "All outcomes and malformed responses.", "anchors": ["rrpc/client.go:VerifyAndDispatch", "rrpc/server.go:DirectCall", "rrpc/server.go:errToRpcErr", "rrpc/server.go:intoDirectCallResponse"]}
{"id": "C58", "title": "The server runs a direct call only for the authenticated caller", "statement": "On a direct-call stream a handler runs for a request only if the method is registered, a note is present, its sender id is the public key registered for the caller address and the note's certificate was accepted; the first violating request ends the stream and nothing after it runs.", "quantifier": "every stream of requests", "why_tests_cant": "All request sequences.", "anchors": ["rrpc/server.go:DirectCall"]}
{"id": "C59", "title": "Method names resolve to the registered handler", "statement": "A full method name '/service/method' or 'service/method' resolves to the handler registered for exactly that service and method; names without a separator or with unknown parts are refused; the gRPC description and the rRPC description expose the same methods.", "quantifier": "every name and every service table", "why_tests_cant": "All strings.", "anchors": ["rrpc/services.go:extractMethodInfo", "rrpc/services.go:getServiceAndMethodDesc", "rrpc/services.go:SingleServiceFromGRPCServiceDesc"]}
{"id": "C60", "title": "Pending calls time out once and only when they are old", "statement": "The periodic cleanup removes a pending entry only if it is at least ttl old, notifies its owner exactly once, and leaves younger entries untouched.", "quantifier": "every map content and every time", "why_tests_cant": "Depends on dynamic types of stored values and on all ages.", "anchors": ["rrpc/gc.go:cleanmapAccordingToTTL", "rrpc/relay.go:relaytask", "rrpc/net_conns.go:relayConnRequest", "rrpc/client.go:rqstWithErr"]}
{"id": "C61", "title": "Every direct call gets exactly one result", "statement": "For calls with pairwise distinct ids every AsyncDirectCall result channel delivers exactly one result (a response or a timeout) in every interleaving of responses and cleanup, and no interleaving crashes the client.", "quantifier": "every interleaving of senders, responses and cleanup ticks", "why_tests_cant": "A race between cleanup and dispatch.", "anchors": ["rrpc/client.go:AsyncDirectCall", "rrpc/client.go:VerifyAndDispatch", "rrpc/gc.go:cleanmapAccordingToTTL"]}
{"id": "C62", "title": "A relay routes each response to the client that asked", "statement": "Every server response that reaches a relay for a call id it forwarded is delivered exactly once, on the stream of the client that sent that request, in every interleaving of the forwarding loop and the incoming responses.", "quantifier": "every interleaving, every set of pending calls with distinct ids", "why_tests_cant": "The response can overtake the bookkeeping.", "anchors": ["rrpc/relay.go:RelayStream", "rrpc/relay.go:relaySetup"]}
{"id": "C63", "title": "A rejected parcel does not harm the relay", "statement": "If a server refuses a parcel, the relay that forwarded it reports an error for that call to the client and keeps serving other calls.", "quantifier": "every refused parcel", "why_tests_cant": "Adversarial parcels only.", "anchors": ["rrpc/rrpc_server_stream.go:CallStream", "rrpc/relay.go:relaySetup"]}
{"id": "C64", "title": "End-to-end: every message leaves the cascade exactly as often as it was sent in", "statement": "If clients' onions are handed to the first-layer mixes they address, with the matching workloads, then in every execution of all servers (any interleaving of deliveries, decryption workers, shuffles and senders), once all last-layer mixes return their messages the union of the returned messages is, with multiplicities, the list of the clients' plaintext messages over their chosen chains; each last-layer mix returns those of its chain.", "quantifier": "every topology, every set of messages and chains, every interleaving of the whole system", "why_tests_cant": "Whole-system executions.", "anchors": ["server.go", "mixer.go", "sender.go", "messages.go", "config/topology.go", "system_test.go:verifyResults"]}
{"id": "C65", "title": "Digest strings round-trip", "statement": "DigestFromString(d.String()) = d for every 32-byte digest, strings of other decoded length are rejected; distinct digests have distinct strings (the verifier's cache key).", "quantifier": "every digest, every string", "why_tests_cant": "All 2^256 digests.", "anchors": ["internal/crypto/util.go:String", "internal/crypto/util.go:DigestFromString"]}
{"id": "C66", "title": "Ending rounds releases every round object", "statement": "After EndRound succeeded for every open round, the worker pool of every round object ever created by NewRound has been told to stop (its task channel is closed), or some API call can still reach the object.", "quantifier": "every sequence of NewRound and EndRound calls", "why_tests_cant": "Needs the whole history of map updates; a leak is invisible to response-based tests.", "anchors": ["server.go:NewRound", "server.go:EndRound", "mixer.go:Close"]}
{"id": "C67", "title": "No NewRound request can crash the server", "statement": "Whatever round number and workload map a NewRound request carries, the server answers it; it never panics.", "quantifier": "every NewRound request", "why_tests_cant": "uint64 to int conversion misbehaves only for values a test would not think of.", "anchors": ["server.go:NewRound", "mixer.go:newMixState"]}
{"id": "C68", "title": "EndRound is safe at any time", "statement": "Ending a round never crashes the server, whatever AddMessages handlers, decryption workers and shuffle goroutines of that round are doing.", "quantifier": "every interleaving of EndRound with the handlers and goroutines of the round", "why_tests_cant": "A race between close and send on a channel.", "anchors": ["server.go:EndRound", "mixer.go:Close", "mixer.go:AddMessages"]}
{"id": "C69", "title": "A hidden secret can be revealed more than once", "statement": "Calling Reveal on the same Secret value again, with the same sufficient votes, gives the same message again.", "quantifier": "every secret, every sufficient list of votes", "why_tests_cant": "Needs the aliasing of the decryption buffer; unit tests reveal once.", "anchors": ["internal/crypto/tibe/scheme2.go:Reveal", "internal/crypto/tibe/scheme2.go:aesDecrypt"]}
{"id": "C70", "title": "An onion that does not decrypt harms only itself", "statement": "A badly encrypted onion among the onions of a batch never crashes the server, and the other onions of the batch are delivered as if it were not there.", "quantifier": "every batch of onions, every content of the bad onion", "why_tests_cant": "Needs the failure path of every stage of the pipeline for arbitrary bytes.", "anchors": ["mixer.go:NewMixers", "sender.go:createRRPCRequest", "messages.go:ExtractMixConfig"]}
{"id": "C71", "title": "A malformed but signed parcel cannot crash the server", "statement": "Whatever payload and length field a correctly signed request parcel carries, the server answers it or ignores it; it never panics.", "quantifier": "every list of parcels with arbitrary payload sizes and length fields", "why_tests_cant": "Needs arbitrary malformed contents behind a valid signature.", "anchors": ["rrpc/rrpc_server_stream.go:reconstructParcels", "rrpc/rrpc_server_stream.go:collector", "internal/ecc/reedsolomon.go:AuthReconstruct"]}
{"id": "C72", "title": "A malicious relay cannot crash a client", "statement": "Whatever response a relay delivers, RobustRequest returns a reply or an error to its caller; it never panics.", "quantifier": "every response a relay can send", "why_tests_cant": "Adversarial messages only.", "anchors": ["rrpc/coordinator.go:RobustRequest", "rrpc/coordinator.go:validateRrpcResponse", "rrpc/client.go:reconstruct"]}
{"id": "C73", "title": "A wrongly sized sender id cannot crash the server", "statement": "A parcel or direct request whose sender id does not have the length of a public key is refused; the server never panics on it.", "quantifier": "every sender id of every length", "why_tests_cant": "Needs malformed keys.", "anchors": ["rrpc/rrpc_server_stream.go:validateParcel", "internal/crypto/ed25519.go:OWVerify"]}
{"id": "C74", "title": "An honest client's parcel is always accepted", "statement": "Every request parcel an honest client signs for a robust call passes the server's validation at the relay index it was made for.", "quantifier": "every request, every key pair, every network", "why_tests_cant": "Needs the composition of signing, encoding and every validation check.", "anchors": ["rrpc/rrpc_server_stream.go:validateParcel", "rrpc/client.go:RobustCall", "rrpc/verifiables.go:merkleSign"]}
{"id": "C75", "title": "A relay that disconnects cannot crash the server", "statement": "A relay stream may end at any time; whatever collector tasks are computing replies for that relay, the server keeps running.", "quantifier": "every interleaving of a stream's end with running collector tasks", "why_tests_cant": "A race between closing a channel and sending on it.", "anchors": ["rrpc/rrpc_server_stream.go", "rrpc/rrpc_server_stream.go:collector"]}
{"id": "C76", "title": "A direct call that cannot be sent does not harm later calls", "statement": "If the send of a direct call fails, or its result is never read, the client keeps dispatching the results of its other direct calls.", "quantifier": "every interleaving of failing sends, responses and cleanup", "why_tests_cant": "Deadlocks need a particular history.", "anchors": ["rrpc/client.go:setServerStream", "rrpc/gc.go"]}
{"id": "C77", "title": "A client that stops reading cannot block a relay", "statement": "If one client of a relay stops receiving, the relay still forwards the responses for its other clients.", "quantifier": "every number of pending calls of the silent client", "why_tests_cant": "Needs more pending responses than the channel buffer.", "anchors": ["rrpc/relay.go"]}
{"id": "C78", "title": "Closing a coordinator is safe at any time", "statement": "Close may be called once, at any time and in any state of the connections, without a crash.", "quantifier": "every interleaving of Close with incoming responses and failing dials", "why_tests_cant": "A race between close and send on a channel, and a double close.", "anchors": ["rrpc/coordinator.go:Close", "rrpc/coordinator.go:Dial", "rrpc/net_conns.go:newServerConn"]}
{"id": "C79", "title": "Certificate verification always returns", "statement": "Every call of MerkleCertVerifier.Verify returns after finitely many steps, and is never blocked for ever, in every interleaving with other calls, the verifier's workers and its cache cleanup.", "quantifier": "every interleaving of any number of calls", "why_tests_cant": "Liveness over all schedules.", "anchors": ["rrpc/merkle_verifier.go:Verify", "rrpc/merkle_verifier.go:merkleVerificationWorker"]}
{"id": "C80", "title": "A failed dial is reported and leaves no half-open coordinator in use", "statement": "If a connection to some server cannot be set up, Dial returns an error; after Dial returned nil every registered server can be sent to.", "quantifier": "every list of servers and every pattern of dial and stream failures", "why_tests_cant": "Needs failures of chosen connections at chosen points.", "anchors": ["rrpc/coordinator.go:Dial", "rrpc/coordinator.go:AsyncSend", "rrpc/net_conns.go:newServerConn"]}
{"id": "C81", "title": "A silent relay cannot hold back the replies for other relays", "statement": "A server delivers the reply of a robust call to every connected relay, whatever the other relays do: in particular if a relay never connects or stops receiving.", "quantifier": "every number of calls and every interleaving", "why_tests_cant": "Needs more responses for the silent relay than the channel buffer holds.", "anchors": ["rrpc/rrpc_server_stream.go:sendTo", "rrpc/rrpc_server_stream.go:collector"]}
{"id": "C82", "title": "Direct calls authenticate what is asked and what is answered", "statement": "A direct call runs a handler only for the method and arguments its caller signed, at the server it was made for, and once; the reply it returns is the one the server signed.", "quantifier": "every sequence of requests an attacker on the connection can send, and every response", "why_tests_cant": "Needs an adversary; the happy path looks the same.", "anchors": ["rrpc/server.go:DirectCall", "rrpc/client.go:VerifyAndDispatch", "rrpc/verifiables.go"]}
{"id": "C83", "title": "Responses of servers are handed on once and in order", "statement": "What a coordinator hands on from its servers (Incoming) is, for every server, exactly the responses received from it, in order, without loss or duplication, up to the response its connection is about to hand on.", "quantifier": "every interleaving of any number of servers, the reader and Close", "why_tests_cant": "Interleavings of one goroutine per server.", "anchors": ["rrpc/coordinator.go:Incoming", "rrpc/net_conns.go:newServerConn"]}
{"id": "C84", "title": "A connection to a server ends with its stream", "statement": "When the stream of a connection to a server has ended, for whatever reason, the goroutine receiving from it returns.", "quantifier": "every way a stream can end, every interleaving with Close", "why_tests_cant": "Needs streams that end with chosen statuses; a goroutine that spins is not visible in a test.", "anchors": ["rrpc/net_conns.go:newServerConn", "rrpc/net_conns.go:isEOFFromServer"]}
{"id": "C85", "title": "A robust call gets only answers to itself", "statement": "A robust call only ever sees answers and time-outs that carry its own call id, in every interleaving of concurrent robust calls, answers and cleanups.", "quantifier": "every interleaving of any number of calls, answers and cleanups", "why_tests_cant": "All schedules.", "anchors": ["rrpc/coordinator.go:RobustRequest", "rrpc/net_conns.go:sendRequest", "rrpc/net_conns.go:receiveParcels"]}
{"id": "C86", "title": "A robust call that is over does not block its relays' connections", "statement": "Whatever becomes of a robust call (it returned early, was cancelled or timed out), the connections to the relays keep receiving the answers to other calls, and their cleanups keep running.", "quantifier": "every interleaving of calls, answers and cleanups", "why_tests_cant": "Needs a cleanup that races with an answer to an abandoned call.", "anchors": ["rrpc/net_conns.go:receiveParcels", "rrpc/net_conns.go:PrepareForDeletion", "rrpc/gc.go"]}
{"id": "C87", "title": "A round whose messages were all submitted completes", "statement": "If all clients keep to the protocol and no request of a round is lost, then once the round is open at every server and all its onions were sent, the servers need only finitely many further steps, however they are scheduled, and then GetMessages of the last mix of every chain with a submission returns the plaintexts submitted over that chain.", "quantifier": "every cascade, every list of submissions, every execution of all servers and every schedule of its continuation, with other rounds running at the same time", "why_tests_cant": "Liveness of the whole system over all schedules; a test sees one schedule, and a time-out is not a proof that nothing more would happen.", "anchors": ["mixer.go", "server.go:NewRound", "server.go:AddMessages", "server.go:GetMessages", "sender.go:worker"]}
{"id": "C88", "title": "Servers whose clients keep to the protocol do not crash", "statement": "If in every round the clients open each server at most once with the true workloads, send only onions of their submissions to the right first-layer mixes, and end no round that is in use, then no server process ever panics, whatever requests between servers are lost, delayed or reordered.", "quantifier": "every cascade, every number of concurrent rounds, every execution", "why_tests_cant": "A panic in any goroutine ends the process; which schedules lead to one cannot be sampled.", "anchors": ["mixer.go", "server.go", "sender.go:worker", "sender.go:createRRPCRequest"]}
{"id": "C89", "title": "A relay that stops cannot hold up robust calls", "statement": "A robust call does not wait for ever for a relay that has ended its stream: it hands its requests to the other relays and decides.", "quantifier": "every number of earlier calls, every interleaving", "why_tests_cant": "Needs more calls than the channel to the relay holds after the relay is gone.", "anchors": ["rrpc/net_conns.go:sendRequest", "rrpc/net_conns.go:parcelStream", "rrpc/coordinator.go:RobustRequest"]}
{"id": "C90", "title": "A server that stops cannot hold up a relay's traffic for other servers", "statement": "A relay forwards parcels for a server whatever has become of the other servers it is connected to.", "quantifier": "every sequence of parcels, every interleaving", "why_tests_cant": "Needs more parcels for the dead server than the channel holds.", "anchors": ["rrpc/net_conns.go:newServerConn", "rrpc/relay.go:RelayStream", "rrpc/coordinator.go:AsyncSend"]}
{"id": "C91", "title": "Encoding leaves the caller's memory alone", "statement": "AuthEncode does not change memory of its caller.", "quantifier": "every slice handed in, wherever it lies in its array", "why_tests_cant": "The change hits bytes behind the slice, which the usual test does not own.", "anchors": ["internal/ecc/reedsolomon.go:AuthEncode"]}
{"id": "C92", "title": "Concurrent users of one coder do not disturb each other", "statement": "If many goroutines call AuthEncode and AuthReconstruct of one coder at the same time, every call returns, with the result it would have had alone; after Stop the workers end and pending calls return an error or their result.", "quantifier": "every number of calls, every interleaving with the workers and with Stop", "why_tests_cant": "All schedules of calls and workers over shared queues.", "anchors": ["internal/ecc/reedsolomon.go:AuthEncode", "internal/ecc/reedsolomon.go:AuthReconstruct", "internal/ecc/reedsolomon.go:worker", "internal/ecc/reedsolomon.go:Stop"]}
{"id": "C93", "title": "Closing a coordinator reports failures", "statement": "Close of a coordinator returns an error exactly if the closing of some connection failed, and that error.", "quantifier": "every set of connections and every pattern of failures", "why_tests_cant": "Needs chosen connections to fail.", "anchors": ["rrpc/coordinator.go:Close"]}
{"id": "C94", "title": "Messages loaded again are the messages generated first", "statement": "LoadOrCreateMessages returns, for its number of clients and its round, the messages of an earlier call with the same arguments, or new messages of its own generator if there was none; calls for other rounds or other numbers of clients do not affect it.", "quantifier": "every history of calls, completed or interrupted at any point", "why_tests_cant": "A crash while the file is written, at any byte, followed by any history.", "anchors": ["messages.go:LoadOrCreateMessages", "messages.go:loadMessages"]}
{"id": "C95", "title": "AllOnions and AllMessages return everything", "statement": "AllOnions returns the onions of all messages of the array and AllMessages all its messages, in order, for every array that LoadOrCreateMessages returns.", "quantifier": "every array of messages", "why_tests_cant": "The empty array is not a case anyone tests.", "anchors": ["messages.go:AllOnions", "messages.go:AllMessages"]}
{"id": "C96", "title": "Bypass mode serves the same methods", "statement": "A server made in bypass (plain gRPC) mode from a service table runs, for every method name, the handler and the server object that the RPC layer would run, and refuses all others; direct, asynchronous and robust calls of a connection made in bypass mode work like those of the RPC layer, an asynchronous call giving exactly one result; without configuration NewServer and NewConnection return an error.", "quantifier": "every service table, every order in which Go visits its maps, every method name, every schedule of an asynchronous call", "why_tests_cant": "Map order is random, and the capture of loop variables shows only for some orders.", "anchors": ["rrpc/grpc_wrapper.go:newGrpcServer", "rrpc/grpc_wrapper.go:AsyncDirectCall", "rrpc/grpc_wrapper.go:RobustCall", "rrpc/interfaces.go:NewServer", "rrpc/interfaces.go:NewConnection"]}
{"id": "C97", "title": "A mix server dials all its peers or reports a failure, and leaves nothing open", "statement": "Dial connects a server to all its peers and returns nil, or it returns an error and leaves no connection open; Close closes all connections of the server. Neither panics, also if called again.", "quantifier": "every list of peers, every pattern of failures, every order of Go's maps, every sequence of Dial and Close", "why_tests_cant": "Needs chosen peers to fail in a chosen order, and repeated calls.", "anchors": ["server.go:Dial", "server.go:Close", "rrpc/client.go:newClient", "rrpc/interfaces.go:NewConnection"]}
{"id": "C98", "title": "Closing a client ends its calls", "statement": "After Close of a client, its goroutines end, and every direct call, pending at Close or made afterwards, returns.", "quantifier": "every number of calls, every interleaving of calls, responses, time-outs and Close", "why_tests_cant": "Needs Close at every point of the interleaving of four goroutines.", "anchors": ["rrpc/client.go:Close", "rrpc/client.go:setServerStream", "rrpc/client.go:AsyncDirectCall", "rrpc/gc.go:foreverCleanup"]}
{"id": "C99", "title": "Publishing proofs never blocks and keeps their order", "statement": "Publishing the proof of a call returns immediately whatever the relays do; every relay receives the published proofs in order and none twice, and all of them as long as its connection is up and fewer than 100 are waiting for it.", "quantifier": "every sequence of proofs, every behaviour of every relay, every interleaving", "why_tests_cant": "Needs relays that stop, at every point.", "anchors": ["rrpc/coordinator.go:PublishProof", "rrpc/net_conns.go:SendProof", "rrpc/net_conns.go:proofSendingStream", "rrpc/relay.go:SendProof"]}
{"id": "C100", "title": "Only a server has its decryption keys", "statement": "What is encrypted for a server of a created system cannot be decrypted by someone who knows only the source code and the size of the system; different systems have different keys.", "quantifier": "every system created by CreateSystemConfigs, every history of the creating process", "why_tests_cant": "A test cannot look at what an adversary could compute.", "anchors": ["config/config.go:init", "config/config.go:CreateSystemConfigs", "config/config.go:DKGSetup", "config/config.go:vsspolynomialsSetup", "internal/crypto/tibe/poly.go:NewRandomPoly"]}
{"id": "C101", "title": "Verification with a pool of workers returns, with unchanged results", "statement": "Verify returns for every one of any number of concurrent calls, whatever the number of workers (at least one) and however full their queue is; accepted and refused calls are those described for a single call, no answer is given twice, and with keys of the right length the process does not crash.", "quantifier": "every number of workers, every number of concurrent calls, every interleaving of calls, workers and cleanups", "why_tests_cant": "A deadlock needs a full queue and one particular interleaving.", "anchors": ["rrpc/merkle_verifier.go:Verify", "rrpc/merkle_verifier.go:merkleVerificationWorker", "rrpc/merkle_verifier.go:NewVerifier"]}
{"id": "C102", "title": "Stopping a verifier ends its workers and its calls", "statement": "After Stop of a verifier (a coordinator that is closed stops its verifier) all its workers end, and every call of Verify, in progress or made afterwards, returns; Stop may be called repeatedly.", "quantifier": "every number of workers and calls, every interleaving of calls, workers and Stop", "why_tests_cant": "Needs Stop at every point of the interleaving.", "anchors": ["rrpc/merkle_verifier.go:Stop", "rrpc/merkle_verifier.go:Verify", "rrpc/coordinator.go:Close"]}
{"id": "C103", "title": "Stopping a server is safe at any time", "statement": "Stop of an rRPC server returns, does not crash the process, and when it has returned none of the server's calls is served any more.", "quantifier": "every history of the server, every interleaving of Stop with parcels, responses, streams and running calls", "why_tests_cant": "Needs Stop at every point of the interleaving of the server's goroutines, and full channels.", "anchors": ["rrpc/server.go:Stop", "rrpc/server.go:newServerService", "rrpc/rrpc_server_stream.go:collector", "rrpc/relay.go:relaySetup", "rrpc/gc.go:foreverCleanup"]}
{"id": "C104", "title": "Responses for a relay reach that relay only", "statement": "A stream is served as that of relay r only if relay r opened it; what the server sends to relay r only relay r receives; streams of unknown callers are refused.", "quantifier": "every list of servers, every caller, every metadata, every history of streams and responses", "why_tests_cant": "Needs an adversary that chooses the metadata, and every history.", "anchors": ["rrpc/peer.go:getPeerFromContext", "rrpc/peer.go:addIPToContext", "rrpc/rrpc_server_stream.go:CallStream", "rrpc/network_data.go:GetRelayIndex"]}
{"id": "C105", "title": "Robust calls complete when nothing fails", "statement": "In a network of honest clients, relays and servers whose streams do not fail, robust calls made at any time and in any number do not crash or block any process; a method runs at most once for a call, on the call's arguments, and every call that is not cancelled returns what the method returned.", "quantifier": "every number of clients, servers and calls, every interleaving of all goroutines, channels (with their capacities) and streams, every handler behaviour", "why_tests_cant": "Only some interleavings of some sixty kinds of steps go wrong; tests see a handful of schedules.", "anchors": ["rrpc/client.go:RobustCall", "rrpc/coordinator.go:RobustRequest", "rrpc/coordinator.go:AsyncSend", "rrpc/net_conns.go:sendRequest", "rrpc/net_conns.go:receiveParcels", "rrpc/relay.go:RelayStream", "rrpc/relay.go:relaySetup", "rrpc/rrpc_server_stream.go:CallStream", "rrpc/rrpc_server_stream.go:collector"]}
{"id": "C106", "title": "Direct calls return their own results", "statement": "On a connection between an honest client and an honest server, direct calls with different ids to registered methods, made by any number of goroutines at any time, do not crash the client or end the stream; the handlers of the calls run in the order of the calls, each once, with the call's id and arguments; every caller gets what the handler did for his call, after at most seven steps per call, and nobody waits for ever if all callers read their results.", "quantifier": "every number of calls, every interleaving of callers, goroutines, streams with any flow control window and the server's handler, every handler behaviour (errors included) and every state of the certificate caches; ids may be used again once their calls have returned; no call gets older than the cleanup time", "why_tests_cant": "Needs every interleaving of goroutines at both ends and every content of the certificate caches.", "anchors": ["rrpc/client.go:DirectCall", "rrpc/client.go:AsyncDirectCall", "rrpc/client.go:setServerStream", "rrpc/client.go:VerifyAndDispatch", "rrpc/server.go:DirectCall", "rrpc/gc.go:cleanmapAccordingToTTL"]}
{"id": "C107", "title": "Rounds do not disturb each other on a connection", "statement": "Messages of several rounds may be forwarded at the same time: the direct call by which a server's sender forwards the output of a mix returns whatever other rounds' senders do.", "quantifier": "every pair of rounds, every mix and destination, every execution of the connection and every continuation", "why_tests_cant": "That a call never returns is a statement about all continuations; a test can only wait.", "anchors": ["sender.go:createRRPCRequest", "sender.go:worker", "rrpc/client.go:AsyncDirectCall", "rrpc/client.go:VerifyAndDispatch", "rrpc/gc.go:cleanmapAccordingToTTL"]}
{"id": "C108", "title": "A direct call that cannot be served harms only itself", "statement": "If a direct call names a method that is not registered, or its handler fails or returns a value that cannot be encoded, its caller gets an error and other calls over the same connection are served as if it had not been made.", "quantifier": "every state of a connection, every continuation", "why_tests_cant": "That no handler ever runs again is a statement about all continuations.", "anchors": ["rrpc/server.go:DirectCall", "rrpc/server.go:intoDirectCallResponse", "rrpc/client.go:setServerStream"]}
{"id": "C109", "title": "Silent relays do not stop robust calls", "statement": "If at most MaxErrors relays have stopped doing anything before a robust call is made (their streams stay open), the call still returns what its method returned: nobody waits for the silent relays. This holds for up to 100 calls of a client or to a server, and as long as no other relay routes the call's response before it has recorded the client and no cleanup strikes the call.", "quantifier": "every number of clients, servers and calls, every set of silent relays, every interleaving of all other goroutines, channels (with their capacities) and streams", "why_tests_cant": "Needs every set of silent relays at every time before the call, and every interleaving of the others.", "anchors": ["rrpc/coordinator.go:RobustRequest", "rrpc/net_conns.go:sendRequest", "rrpc/relay.go:RelayStream", "rrpc/rrpc_server_stream.go:collector", "rrpc/rrpc_server_stream.go:CallStream", "rrpc/network_data.go:MinimalRelayedParcels"]}
{"id": "C110", "title": "Relays may fall silent at any time", "statement": "If at most MaxErrors relays stop doing anything at any time, even in the middle of a robust call, the call still returns what its method returned.", "quantifier": "every set of at most MaxErrors relays, every time at which they stop, every interleaving of the others", "why_tests_cant": "Needs every point at which relays stop and every delay of the others; that the call waits for ever is a statement about all continuations.", "anchors": ["rrpc/relay.go:RelayStream", "rrpc/relay.go:relaySetup", "rrpc/rrpc_server_stream.go:collector", "rrpc/coordinator.go:RobustRequest"]}
{"id": "C111", "title": "Servers run only what was asked, and robust calls return only what was run", "statement": "In a network of honest clients, relays and servers, whatever is delayed, cancelled, cleaned up or silent: no process crashes; every run of a method belongs to a robust call that was made to this server, with its method, id and arguments, and no call causes more than one run; a call that returns, returns what its run did, or the error of its context if it was cancelled; and what it returned does not change.", "quantifier": "every number of clients, servers and calls, every interleaving of all goroutines, channels, streams, cancellations and cleanups, every handler behaviour", "why_tests_cant": "A safety property of all interleavings of some sixty kinds of steps, including cancellations and cleanups at any point.", "anchors": ["rrpc/client.go:RobustCall", "rrpc/coordinator.go:RobustRequest", "rrpc/net_conns.go:receiveParcels", "rrpc/relay.go:RelayStream", "rrpc/rrpc_server_stream.go:CallStream", "rrpc/rrpc_server_stream.go:collector"]}
{"id": "C112", "title": "The whole system over its call layer is safe", "statement": "With the senders' direct calls, their connections and handlers included: in a cascade of honest servers that have dialled each other, whose clients keep to the protocol in every round, no server crashes, and whatever the last mix of a chain returns in a round are exactly the plaintexts submitted over that chain, with multiplicities.", "quantifier": "every cascade, every number of rounds and submissions, every interleaving of clients, mixers, senders, the goroutines of all connections and their handlers; a call id is not used again before its earlier call has returned (C107), no call gets older than the cleanup time", "why_tests_cant": "Needs every interleaving of all goroutines of all servers down to the call layer.", "anchors": ["server.go:AddMessages", "mixer.go:AddMessages", "sender.go:worker", "rrpc/client.go:DirectCall", "rrpc/server.go:DirectCall", "rrpc/client.go:setServerStream"]}
{"id": "C113", "title": "A round completes over the call layer", "statement": "Once a round is open at every server and its clients have sent all their onions, the system (mixers, blocking senders, connections that serve one request after the other) makes only a bounded number of steps, never deadlocks before the round is done, and ends with the plaintexts of every chain available at its last mix.", "quantifier": "every cascade, every number of rounds, every execution so far and every schedule from then on, every flow control window and channel capacity of at least one; call ids and cleanup as in C112", "why_tests_cant": "Absence of deadlock between blocking senders, handlers and mixers for all schedules cannot be tested.", "anchors": ["sender.go:worker", "sender.go:createRRPCRequest", "server.go:AddMessages", "mixer.go:shuffleAndSend", "rrpc/client.go:AsyncDirectCall", "rrpc/server.go:DirectCall"]}
{"id": "C114", "title": "A mix hides which onion contained which message", "statement": "Whatever is sent to a round object and however its goroutines are scheduled (as long as no mix is given more onions than announced): if the messages in the onions of its mixes had been assigned to the onions in any other way, the same requests and the same schedule could have produced exactly the same forwarded batches, GetMixOutputs answers, blocking and crashes, with other random words in the shuffles only.", "quantifier": "every configuration, every sequence of requests (forged, unparsable, empty or to unknown mixes included), every schedule, every reassignment of contents, every moment of the execution", "why_tests_cant": "Indistinguishability compares all executions under all reassignments; a test sees one.", "anchors": ["mixer.go:AddMessages", "mixer.go:shuffleAndSend", "mixer.go:GetMixOutputs", "shuffle.go:ShuffleOnions"]}
{"id": "C115", "title": "The order of a batch tells hardly anything", "statement": "For two assignments of the same messages to the m onions of a mix, and any order in which the messages may come out, the numbers of random word sequences that lead to this order differ at most by the factor 1 - m(m+1)/2^33 (0.9998 for up to a thousand messages).", "quantifier": "every round object, every number m of onions, every two histories that delivered the same messages, every order", "why_tests_cant": "A statement about the distribution over (2^32)^m random words for every m.", "anchors": ["shuffle.go:permutation", "shuffle.go:randInt", "shuffle.go:ShuffleOnions", "mixer.go:shuffleAndSend"]}
{"id": "C116", "title": "One honest mix on the way hides which message is whose", "statement": "For two submissions over the same chain and any host that has a mix on this chain: every execution of the whole system (with well-behaved clients of that round) could have been one in which the two onions contained each other's messages, with the same client calls, the same onions and, after every event, the same requests in flight, the same states of all other servers, and the same answers, batches and crashes of that host; only its key for the round and the random words of its shuffles are different.", "quantifier": "every cascade, every list of submissions whose onions open along their chains, every execution (schedules, losses, crashes, arbitrary other rounds), every pair of submissions over a common chain, every position of the honest host", "why_tests_cant": "Compares every execution of the distributed system with another one; a test runs one execution and cannot show that it looks like another.", "anchors": ["mixer.go:AddMessages", "mixer.go:shuffleAndSend", "server.go:AddMessages", "server.go:GetMessages", "sender.go:worker", "messages.go:WrapOnionByTopo"]}
{"id": "C117", "title": "Copying an onion tells nothing about it", "statement": "Whoever sends a copy of somebody else's onion in the same round learns nothing about the message in it (copies are recognised and not processed).", "quantifier": "every cascade, every execution, every submission that is copied", "why_tests_cant": "False for every execution in which the chain delivers: the copy is a valid onion, so the defect is not visible as a failure of any run.", "anchors": ["mixer.go:AddMessages", "server.go:AddMessages"]}
{"id": "C118", "title": "Messages of different chains hide each other", "statement": "The messages of any two submissions of a round could be exchanged without anybody noticing, also if they travel over different chains.", "quantifier": "every cascade, every two submissions, every execution", "why_tests_cant": "A comparison of all pairs of executions.", "anchors": ["topology.go:CreateCascadeTopology", "messages.go:calculateChain", "server.go:GetMessages"]}
{"id": "C119", "title": "A mix takes onions only from its predecessor", "statement": "A mix beyond the first layer processes only onions that the preceding mix of its chain has forwarded, so that with correct submissions to the first layer the last mix of a chain returns submitted messages only.", "quantifier": "every cascade, every execution, every client call", "why_tests_cant": "Ranges over arbitrary calls of arbitrary clients.", "anchors": ["server.go:AddMessages", "mixer.go:HandleNewInputs", "mixer.go:isDone"]}
{"id": "C120", "title": "Decoding into a used key object", "statement": "SetBytes on a polynomial or an exponent polynomial that already holds a value makes it equal to the decoded one in every later use; if the bytes are refused, the object is as before.", "quantifier": "every state of the object (any history of SetBytes and GetPublicShare calls), every byte string, every index", "why_tests_cant": "Ranges over the histories of an object; a test decodes into new objects.", "anchors": ["internal/crypto/tibe/poly.go:SetBytes", "internal/crypto/tibe/exponent_poly.go:SetBytes", "internal/crypto/tibe/exponent_poly.go:GetPublicShare"]}
{"id": "C121", "title": "Equal recognises equal polynomials", "statement": "Equal holds exactly for polynomials that define the same shares; Copy returns an equal one; both return normally.", "quantifier": "every pair of polynomials, every number of shares", "why_tests_cant": "Sameness of all shares is a statement about every index.", "anchors": ["internal/crypto/tibe/poly.go:Equal", "internal/crypto/tibe/poly.go:Copy"]}
{"id": "C122", "title": "The mixer has no data races", "statement": "Whatever AddMessages and GetMixOutputs calls arrive and however the goroutines of a round are scheduled, any two conflicting accesses to the round's shared memory (workload counters, received counts, every output slot, the shufflers) are ordered by the Go memory model's happens-before.", "quantifier": "every topology, workload, sequence of AddMessages batches (well formed or not), GetMixOutputs calls, worker count, channel size, schedule and random words", "why_tests_cant": "A race shows only in some interleavings, and the race detector sees only those that happen; here every interleaving of single accesses is covered.", "anchors": ["mixer.go:AddMessages", "mixer.go:HandleNewInputs", "mixer.go:NewMixers", "mixer.go:shuffleAndSend", "mixer.go:GetOutputs", "shuffle.go:ShuffleOnions"]}
{"id": "C123", "title": "Interleaving of single accesses changes nothing", "statement": "When the goroutines of the mixer interleave at every single read and write of shared memory, the round still behaves as if each batch, each decryption result and the shuffle took effect at once: readers find exactly a permutation of the decryptions, what they hold never changes again, well-formed requests never crash the process, and every call for a mix that got all its onions returns.", "quantifier": "as for C122; every execution, every state in which a reader holds outputs, every continuation", "why_tests_cant": "The statement compares all interleavings of accesses with all atomic executions.", "anchors": ["mixer.go:AddMessages", "mixer.go:shuffleAndSend", "mixer.go:GetMixOutputs", "shuffle.go:ShuffleOnions", "sender.go:worker"]}
{"id": "C124", "title": "The mixer's deadlock watchdog does not end a healthy process", "statement": "A mixer that keeps decrypting is not killed: however many onions one AddMessages call carries, no caller waits for the round's mutex so long that the mutex's built-in deadlock watchdog exits the process.", "quantifier": "every topology, workload, batch, number of workers, channel capacity, watchdog time-out, schedule and timing of the calls", "why_tests_cant": "The wait depends on the size of a batch, the speed of all workers and when the other caller arrives.", "anchors": ["mixer.go:Mixers", "mixer.go:AddMessages", "mixer.go:GetMixOutputs", "internal/bparams/deadlockcheck.disabled.go"]}
{"id": "C125", "title": "A server can be used while it is still dialling", "statement": "Requests and calls that arrive while a coordinator's (or a mix server's) Dial is still running are answered like later ones: no data race on the tables of connections, no end of the process, every server of the network is found.", "quantifier": "every network, moment at which a request arrives, number of goroutines and schedule", "why_tests_cant": "Whether a request meets a write of Dial depends on the scheduler; the runtime's check for concurrent map accesses is best effort.", "anchors": ["rrpc/coordinator.go:Dial", "rrpc/coordinator.go:AsyncSend", "rrpc/coordinator.go:RobustRequest", "rrpc/coordinator.go:PublishProof", "server.go:Dial", "sender.go:worker"]}
{"id": "C126", "title": "A returned direct call gives the request back", "statement": "When DirectCall has returned (or the result of AsyncDirectCall was received), the Request belongs to the caller again: reading its reply, or using it for another call, does not race with anything the client still does.", "quantifier": "every history of calls, responses (honest or not, early, late), time-outs and cleanups of one client, and every schedule of its goroutines", "why_tests_cant": "The race needs a response at the moment of a time-out, or a stuck stream, or a server that answers before it was asked.", "anchors": ["rrpc/client.go:DirectCall", "rrpc/client.go:AsyncDirectCall", "rrpc/client.go:VerifyAndDispatch", "rrpc/client.go:setServerStream", "rrpc/gc.go:cleanmapAccordingToTTL"]}
{"id": "C127", "title": "A returned coder call gives the memory back", "statement": "When AuthEncode or AuthReconstruct has returned, the coder no longer reads or writes the slices it was given: the caller may reuse them (the server puts the encoded buffer back into its pool).", "quantifier": "every history of concurrent calls and Stop, every schedule of callers and workers, any number of workers, every data", "why_tests_cant": "The workers go on after an early return, which needs a Stop or a failing chunk at the right moment.", "anchors": ["internal/ecc/reedsolomon.go:AuthEncode", "internal/ecc/reedsolomon.go:AuthReconstruct", "internal/ecc/reedsolomon.go:worker", "rrpc/rrpc_server_stream.go:prepareCallResponse"]}
{"id": "C128", "title": "Concurrent verifications have no data races", "statement": "Any number of goroutines may call Verify on one verifier, each on objects and certificates of its own, also with equal contents and roots, while others are cleaned up or the verifier is stopped: no memory is accessed without synchronisation. When a call has returned, the caller may change the object (not the certificate).", "quantifier": "every history of calls, clean-ups and Stop, every schedule of callers and workers, any number of workers, every signature scheme and hash function", "why_tests_cant": "The race detector only sees the schedules that a test happens to run; the entry of a root is shared by calls that arrive in a short window.", "anchors": ["rrpc/merkle_verifier.go:Verify", "rrpc/merkle_verifier.go:merkleVerificationWorker", "rrpc/merkle_verifier.go:verifyMerkleSig", "rrpc/merkle_verifier.go:authenticateMerklePath"]}
{"id": "C129", "title": "A server's handling of robust calls has no data races", "statement": "A server receives parcels on any number of streams, collects them, runs calls and sends responses, all at the same time: no parcel, note, task or response is accessed without synchronisation. All responses of a call share its note and other memory; nothing of that is written after the first of them was sent.", "quantifier": "every history of parcels (valid or not, of known and unknown methods), ticks and calls, any number of streams, relays and calls, every schedule", "why_tests_cant": "The race detector only sees the schedules of a test; the objects pass through three goroutines and two kinds of channels, and responses share memory.", "anchors": ["rrpc/rrpc_server_stream.go:CallStream", "rrpc/rrpc_server_stream.go:collector", "rrpc/rrpc_server_stream.go:runTask", "rrpc/rrpc_server_stream.go:prepareCallResponse", "rrpc/rrpc_server_stream.go:erroToCallStreamResponseArray"]}
{"id": "C130", "title": "Concurrent robust calls have no data races", "statement": "Any number of goroutines may make robust calls through the same coordinator at the same time, each with Requests of its own, while responses come in, calls expire and proofs are published: no memory is accessed without synchronisation. A Request may be changed as soon as its call has returned, even though some of its parcels may not have been sent yet.", "quantifier": "every history of calls, responses, expiries and proofs, any number of goroutines and relays, every schedule", "why_tests_cant": "The race detector only sees the schedules of a test; parcels that are sent after their call has returned are rare in tests.", "anchors": ["rrpc/client.go:RobustCall", "rrpc/client.go:requestIntoRobust", "rrpc/coordinator.go:RobustRequest", "rrpc/coordinator.go:PublishProof", "rrpc/net_conns.go:sendRequest", "rrpc/net_conns.go:parcelStream", "rrpc/net_conns.go:receiveParcels"]}
{"id": "C131", "title": "A relay has no data races", "statement": "A relay may serve any number of clients and servers at the same time: no request, parcel or response is accessed without synchronisation. A parcel may be encoded for its server while the handler that received it still reads its call id, and a server's response is passed to the client's stream without being copied.", "quantifier": "every history of requests, responses, failures and cleanups, any number of clients and servers, every schedule", "why_tests_cant": "The race detector only sees the schedules of a test; whether the parcel is being sent while its call id is read depends on timing.", "anchors": ["rrpc/relay.go:relaySetup", "rrpc/relay.go:RelayStream", "rrpc/coordinator.go:AsyncSend", "rrpc/net_conns.go:newServerConn", "rrpc/gc.go:cleanmapAccordingToTTL"]}
{"id": "C132", "title": "Reconstruction only fills in missing shards", "statement": "AuthReconstruct may change the caller's shards, but only by filling in missing ones: shards that are there stay as they are, and using the same shards again, for any number of bytes, gives the results it would have given before. Shards of one encoding stay shards of that encoding, even in a call that fails, so the caller can add more of them and try again; after a successful call the caller has the complete encoding.", "quantifier": "all shards (also of different encodings, or made up), all sizes, all orders in which workers finish, calls that fail or are stopped", "why_tests_cant": "Tests decode a set of shards once, and do not look at the shards afterwards.", "anchors": ["internal/ecc/reedsolomon.go:AuthReconstruct", "internal/ecc/reedsolomon.go:authReconstruct"]}
{"id": "C133", "title": "Relays cannot make a robust call run at another server or a second time", "statement": "A robust call runs its handler at the server it is for, and at most once, as long as no more than MaxErrors relays misbehave: relays that hand over their parcels again, or to another server, do not make the handler run twice or elsewhere.", "quantifier": "all networks, requests, signature and hash functions, all sets of misbehaving relays, all parcels (also made up) in all orders and interleavings, whatever the servers have verified before", "why_tests_cant": "Tests have no relay that repeats or redirects parcels; a test would have to choose the right relays and the right moment.", "anchors": ["rrpc/rrpc_server_stream.go:validateParcel", "rrpc/rrpc_server_stream.go:collector", "rrpc/rrpc_server_stream.go:reconstruct"]}
{"id": "C134", "title": "Threshold servers can take over the keys of failed ones", "statement": "In a system made by CreateSystemConfigs, when servers fail, any Threshold (as configured) or more of the others can vote on a failed server's round key; every server accepts the votes and reconstructs the key, with which it decrypts everything the failed server could.", "quantifier": "all systems (sizes, degrees, polynomials), all failed servers, rounds, sets of voters and orders of votes, all onions", "why_tests_cant": "Tests use one system size with all servers voting; which sizes and failures leave too few votes is a question about all of them.", "anchors": ["config/config.go:createConfigs", "internal/crypto/tibe/vss_ibe.go:ReconstructDecrypter", "internal/crypto/tibe/exponent_poly.go:Threshold", "server.go:computeId"]}
{"id": "C135", "title": "Concurrent vote checks on one node give the sequential results and always return", "statement": "When any number of goroutines call ValidateVote and ReconstructDecrypter on one node while shares arrive, every call returns, and returns what it would have returned alone on the node as it was when it was made; the worker pool neither mixes up votes nor blocks nor crashes.", "quantifier": "all nodes, numbers of processors, calls with any numbers of valid and invalid votes, share arrivals, and interleavings of callers and workers", "why_tests_cant": "Tests check votes from one goroutine; deadlocks of a bounded work queue and mixed-up answers depend on the schedule and on more votes than processors.", "anchors": ["internal/crypto/tibe/vss_ibe.go:NewNode", "internal/crypto/tibe/vss_ibe.go:ValidateVote", "internal/crypto/tibe/vss_ibe.go:ReconstructDecrypter", "internal/crypto/tibe/vss_ibe.go:ReceiveShare"]}
{"id": "C136", "title": "The sizes of what travels between servers tell the layer and nothing else", "statement": "If the clients' messages of a round have the same size (generated ones do, 258 bytes), then in every execution all onions in flight to mixes of layer l have the same size, the message size plus 152 bytes for each layer left, whatever they contain and whoever sent them; messages of other sizes could be told apart at every layer.", "quantifier": "all created systems, layers, messages, randomness and executions with losses, reordering and crashes", "why_tests_cant": "A test looks at the sizes of a few onions; that no onion of any execution stands out has to hold for all messages, keys and schedules.", "anchors": ["messages.go:onionWrap", "messages.go:generateOnion", "messages.go:ExtractCipher", "internal/crypto/tibe/vss_ibe.go:Encrypt", "mixer.go:shuffleAndSend"]}
{"id": "C137", "title": "Calls that never complete are forgotten", "statement": "Whatever calls are begun and never completed: if cleanups come at least every P, a server remembers of robust calls only parcels received in the last 5 s + P, each once and fewer per call than it needs; a client remembers only direct calls begun in the last ttl + P; relays, connections to relays and verifiers remember only what came in the last P.", "quantifier": "all sequences of parcels, calls, answers and ticks with a clock that does not run backwards, all networks and ttls", "why_tests_cant": "A leak shows only in the long run: tests end after a few calls and seldom abandon any.", "anchors": ["rrpc/rrpc_server_stream.go:collector", "rrpc/gc.go:cleanmapAccordingToTTL", "rrpc/gc.go:foreverCleanup", "rrpc/client.go:AsyncDirectCall", "rrpc/relay.go:relay"]}
{"id": "C138", "title": "The configurations of a whole system fit together", "statement": "CreateSystemConfigs with distinct addresses always succeeds, and GetServerConfig finds each server's configuration by its address and no other; every mix of the topology is listed by exactly one server, the one hosting it, and each server lists one mix per layer; the coordinators of all servers work on the same network, with the same relay indices, which maps every server to its public key and back; CreateLocalSystemConfigs gives such a system for every number of servers.", "quantifier": "all address lists, degrees, numbers of layers, polynomials, key pairs with distinct public keys, map iteration orders and results of sort.Slice", "why_tests_cant": "A test creates a few systems of a few servers; that no mix is hosted twice or by nobody and all servers agree on relay indices has to hold for all sizes, addresses and iteration orders.", "anchors": ["config/config.go:CreateSystemConfigs", "config/config.go:CreateLocalSystemConfigs", "config/config.go:GetServerConfig", "config/config.go:setMixNames", "config/config.go:CreateCoordinator"]}
{"id": "C139", "title": "Cancelling a robust call ends it and harms no other call", "statement": "CancelRequest(id) of a coordinator makes the pending robust call with that id return; no other call is affected, and answers to the cancelled call that arrive later are dropped.", "quantifier": "all numbers of relays, histories of calls, answers and cleanups before and after the cancellation, and orders in which the connections are visited", "why_tests_cant": "Whether a cancelled call can still return depends on all that may happen afterwards; a test sees one continuation for a limited time.", "anchors": ["rrpc/coordinator.go:CancelRequest", "rrpc/net_conns.go:cancelRequest", "rrpc/coordinator.go:RobustRequest"]}
{"id": "C140", "title": "Relays and clients keep their guarantees inside the running system", "statement": "While clients make robust calls through the relays to the servers, in the whole system with all its goroutines, channels and streams, relays and clients behave as they do when studied alone; in particular every response a relay sends to a client answers a call that this client has made, a call receives only responses with its own id, and a response that has reached a client can always be handed over to its call.", "quantifier": "all numbers of clients, relays, servers and calls (also calls with equal ids), all handlers, cleanups and interleavings of all processes", "why_tests_cant": "That the guarantees of one process survive composition concerns all interleavings of all processes; a test sees one.", "anchors": ["rrpc/relay.go:RelayStream", "rrpc/relay.go:relaySetup", "rrpc/net_conns.go:AsyncSend"]}
{"id": "C141", "title": "Relays cannot change what a robust call runs", "statement": "Whatever the relays send to a server, a handler that the server runs for a robust call is that of the method the client called, on the arguments the client passed, and the client's call returns what that handler returned.", "quantifier": "all networks, requests, signature and hash functions, all methods, all parcels relays make up with keys of their own, all orders of arrival, whatever servers and clients have verified before", "why_tests_cant": "It is about everything a malicious relay may sign and send, in every order relative to the honest relays' parcels.", "anchors": ["rrpc/rrpc_server_stream.go:validateParcel", "rrpc/rrpc_server_stream.go:getOrCreateTask", "rrpc/rrpc_server_stream.go:runTask", "rrpc/coordinator.go:validateRrpcResponse"]}
{"id": "C142", "title": "The copies of a message take different chains", "statement": "The ceil(sqrt(2n)) copies of one message that generateOnion makes take pairwise different chains, so that a message is not lost with one chain and does not arrive twice through one.", "quantifier": "all numbers of chains n, all messages, all hash functions", "why_tests_cant": "It ranges over all messages and over all numbers of chains; the chains are pseudo-random, so a test sees a few choices only.", "anchors": ["messages.go:calculateChain", "messages.go:generateOnion"]}
{"id": "C143", "title": "A round survives a lost or too early request between servers", "statement": "If a request by which a server passes onions on to the next server is lost in the network, or arrives before that server has opened the round and is answered NotFound, the round still completes: the onions are sent again, and the last mix of the chain returns all plaintexts.", "quantifier": "all cascades, all executions of the whole system (any schedule, any losses, any order of opening the round at the servers), all chains", "why_tests_cant": "It ranges over all executions after the loss: no run of finite length shows that a round never completes.", "anchors": ["sender.go:SendBatch", "sender.go:worker", "server.go:AddMessages"]}
{"id": "C144", "title": "A stranger's onion does not keep a mix from finishing", "statement": "An AddMessages request whose sender names are not those of the mix's predecessor is refused or ignored: the mix still returns once its predecessor has delivered all announced onions.", "quantifier": "all rounds, all contents and orders of AddMessages calls before and after the stranger's, all schedules", "why_tests_cant": "It ranges over everything that may be sent and scheduled afterwards: that a call never returns cannot be observed.", "anchors": ["mixer.go:HandleNewInputs", "mixer.go:isDone", "server.go:AddMessages"]}
{"id": "C145", "title": "A round opened everywhere before its first onion is sent loses nothing and completes", "statement": "If the clients have every server open the round (NewRound) before any client sends an onion of it, and the network drops no request of the round, then no AddMessages call of the round is ever answered with NotFound, and when nothing is left to do the last mix of every chain returns the plaintexts submitted over it.", "quantifier": "all cascades, all rounds running side by side, all interleavings of clients, servers, goroutines and deliveries", "why_tests_cant": "It is about all schedules of all servers: whether some server can be reached by onions before it has opened the round depends on the interleaving.", "anchors": ["server.go:NewRound", "server.go:AddMessages", "sender.go:worker"]}
{"id": "C146", "title": "A client that does not deliver an announced onion harms only itself", "statement": "If an onion that was counted in the workload of NewRound is never sent to its first mix, or is sent only before that server has opened the round (and answered with NotFound), the other clients of the round still get their messages through.", "quantifier": "all cascades, all rounds running side by side, all subsets of onions not delivered, all interleavings of clients, servers, goroutines and the network, all continuations", "why_tests_cant": "That the last mix never returns is a statement about all continuations; whom a missing onion harms depends on who shares the chain.", "anchors": ["mixer.go:HandleNewInputs", "mixer.go:isDone", "mixer.go:GetMixOutputs", "server.go:AddMessages", "server.go:NewRound"]}
{"id": "C147", "title": "Key material has one serialisation", "statement": "No two different strings of bytes of the same length are accepted as the same polynomial or the same share: comparing serialisations compares what they stand for, and a scalar that is not below the order of the group is refused.", "quantifier": "all polynomials and shares, all strings of bytes of all lengths", "why_tests_cant": "A second accepted string differs from the serialisation in numbers above 2^254 that no random test draws.", "anchors": ["internal/crypto/tibe/poly.go:SetBytes", "internal/crypto/tibe/poly.go:Marshal"]}
{"id": "C148", "title": "Ending a round early only costs the onions that were still to come", "statement": "If EndRound reaches the server of the first mix of a chain while some announced onions of the chain are still on their way to it, the chain's submissions that had arrived come out of the last mix all the same.", "quantifier": "all cascades, all rounds, all points of the execution at which EndRound is called, all continuations", "why_tests_cant": "That the last mix never returns is a statement about all continuations after every possible moment of EndRound.", "anchors": ["server.go:EndRound", "server.go:AddMessages", "mixer.go:isDone", "mixer.go:GetMixOutputs"]}
{"id": "C149", "title": "A message generator is made with all keys or not at all", "statement": "NewMessageGenerator gives a generator that has, for every server named in the first configuration, the key encoded there, and for no other server one; if there is no configuration or one of the keys is malformed, it panics, and never leaves that server out.", "quantifier": "all lists of configurations, all maps of keys, all strings of bytes as keys, all iteration orders of the map", "why_tests_cant": "The loop runs in the order of a Go map; a malformed key may be at any place in it.", "anchors": ["messages.go:NewMessageGenerator"]}
