{"id": "C01", "title": "Ledger root is the RFC 6962 Merkle root of the log", "statement": "After any sequence of appends and extends to an initially empty ledger tree, the reported root hash and size are the RFC 6962 Merkle tree head and length of the list of all appended leaves, in order.", "quantifier": "every list of leaves of every length and every way of splitting it into append and extend calls", "why_tests_cant": "The incremental tree keeps only one hash per set bit of its size; whether the carry logic agrees with the recursive definition depends on every possible size and hash value.", "anchors": ["ledger/compact_merkle_tree.py: CompactMerkleTree.append, extend, root_hash, _push_subtree", "ledger/tree_hasher.py: TreeHasher.hash_full_tree, _hash_fold"]}
{"id": "C02", "title": "Every transaction has an inclusion proof that verifies", "statement": "For every ledger and every transaction in a prefix of it, the audit path that the ledger produces for that transaction is accepted by the light-client verifier against the root of that prefix.", "quantifier": "every ledger size n, every prefix size and every transaction index in it, every content", "why_tests_cant": "There are unboundedly many sizes and positions; the produced path mixes stored subtree hashes computed at different times.", "anchors": ["ledger/compact_merkle_tree.py: CompactMerkleTree.inclusion_proof, _path", "ledger/merkle_verifier.py: MerkleVerifier.verify_leaf_inclusion, _calculate_root_hash_from_audit_path"]}
{"id": "C03", "title": "An accepted inclusion proof cannot lie", "statement": "If the verifier accepts an audit path for some leaf data at an index of a ledger of a given size and root, then that leaf is the one really stored at that index, unless the proof exhibits a hash collision.", "quantifier": "every ledger, every claimed leaf, index and audit path an adversary may supply", "why_tests_cant": "An adversary chooses the path; no finite set of forged paths covers all of them.", "anchors": ["ledger/merkle_verifier.py: MerkleVerifier.verify_leaf_inclusion, verify_leaf_hash_inclusion, _calculate_root_hash_from_audit_path, audit_path_length"]}
{"id": "C04", "title": "Consistency proofs produced by a ledger verify", "statement": "For all m <= n, the consistency proof a ledger of at least n transactions produces between sizes m and n is accepted by the verifier for the true roots at sizes m and n.", "quantifier": "every ledger and every pair of sizes m <= n", "why_tests_cant": "Unboundedly many pairs of sizes with different binary shapes.", "anchors": ["ledger/compact_merkle_tree.py: CompactMerkleTree.consistency_proof, _subproof", "ledger/merkle_verifier.py: MerkleVerifier.verify_tree_consistency"]}
{"id": "C05", "title": "An accepted consistency proof implies append-only history", "statement": "If the verifier accepts a consistency proof between the root of a log of size m and the root of a log of size n, then the first log is a prefix of the second, unless the accepted data exhibit a hash collision.", "quantifier": "every pair of logs and every adversarial proof list", "why_tests_cant": "The proof and the larger log are adversarial; safety of catchup rests on this for all of them.", "anchors": ["ledger/merkle_verifier.py: MerkleVerifier.verify_tree_consistency"]}
{"id": "C06", "title": "Persisted Merkle node store answers every historical subtree query", "statement": "After any number of appends, each stored interior node sits at its own distinct position, and the tree head of any prefix computed from the persisted leaf and node hashes equals the RFC 6962 head of that prefix of the log.", "quantifier": "every number of appends and every prefix size", "why_tests_cant": "The storage position is computed by a recursive bit formula; distinctness and correctness must hold for every size.", "anchors": ["ledger/hash_stores/hash_store.py: HashStore.getNodePosition", "ledger/compact_merkle_tree.py: CompactMerkleTree.append, merkle_tree_hash", "plenum/persistence/db_hash_store.py: DbHashStore.writeNode"]}
{"id": "C07", "title": "A crash at any point of a ledger write is recoverable", "statement": "If the process stops at any point between the individual writes performed while adding a transaction (log entry, leaf hash, node hashes), restarting yields a ledger whose transactions are exactly those in the durable log and whose root is the RFC 6962 root of that log.", "quantifier": "every history of adds and every crash point inside the last add", "why_tests_cant": "Crash points multiply with history length; tests exercise a handful.", "anchors": ["ledger/ledger.py: Ledger.add, recoverTree, recoverTreeFromHashStore, recoverTreeFromTxnLog", "ledger/compact_merkle_tree.py: CompactMerkleTree.append, verify_consistency"]}
{"id": "C08", "title": "Uncommitted batches commit and discard exactly", "statement": "For every interleaving of staging, committing and discarding transactions, the ledger's uncommitted root is the Merkle root of the committed log followed by the staged transactions, committing k moves exactly the first k staged transactions to the log in order, and discarding k removes exactly the last k.", "quantifier": "every sequence of appendTxns, commitTxns, discardTxns and reset_uncommitted operations with every argument", "why_tests_cant": "The staged tree is rebuilt from copies at several places; equality must survive every interleaving.", "anchors": ["plenum/common/ledger.py: Ledger.appendTxns, commitTxns, discardTxns, reset_uncommitted, uncommitted_root_hash, uncommitted_size"]}
{"id": "C09", "title": "RLP encoding round-trips", "statement": "Decoding the RLP encoding of any nested list of byte strings returns that value, so two different state nodes never have the same encoding.", "quantifier": "every nested list of byte strings of any depth and length within the format's 2^64 length limit", "why_tests_cant": "Infinite input domain with length boundaries at 55/56, 255/256, ....", "anchors": ["state/util/fast_rlp.py: encode_optimized, length_prefix", "rlp.decode"]}
{"id": "C10", "title": "Trie path packing round-trips", "statement": "Packing a nibble path with its leaf flag and unpacking it returns the same path and flag, for odd and even lengths.", "quantifier": "every nibble list and both flags", "why_tests_cant": "Infinite domain; parity and terminator handling interact.", "anchors": ["state/trie/pruning_trie.py: pack_nibbles, unpack_to_nibbles, without_terminator, bin_to_nibbles"]}
{"id": "C11", "title": "State behaves as a map", "statement": "After any sequence of set and remove operations on the state trie, reading a key returns the last value set for it and not removed since, and nothing for other keys.", "quantifier": "every sequence of operations over all byte-string keys (including prefixes of each other) and non-empty values", "why_tests_cant": "The trie restructures nodes (splits, merges) depending on all keys present; bugs need rare key shapes.", "anchors": ["state/trie/pruning_trie.py: Trie.update, delete, get, _update, _delete, _normalize_branch_node, _get", "state/pruning_state.py: PruningState.set, get, remove"]}
{"id": "C12", "title": "State root depends only on the content", "statement": "Two histories of operations that leave the same key/value content produce the same state root hash, so honest nodes that apply the same content agree on the root.", "quantifier": "every pair of operation histories with equal resulting maps", "why_tests_cant": "Requires canonical shape of the trie after every delete; a relational property over pairs of unbounded histories.", "anchors": ["state/trie/pruning_trie.py: Trie._update, _delete, _normalize_branch_node, _delete_and_delete_storage, root_hash"]}
{"id": "C13", "title": "State proofs cannot lie", "statement": "If proof verification accepts a (key, value) pair against a state root, then that state really maps the key to that value, and the proof the state generates for any of its keys is accepted, unless two different node encodings collide under the hash.", "quantifier": "every state, key, value and adversarial proof node list", "why_tests_cant": "Adversarial proof nodes range over an infinite domain.", "anchors": ["state/trie/pruning_trie.py: Trie.produce_spv_proof, verify_spv_proof", "state/pruning_state.py: PruningState.generate_state_proof, verify_state_proof"]}
{"id": "C14", "title": "State commit and revert are exact", "statement": "Reads of committed state return the values as of the last commit whatever uncommitted writes follow, reverting to a previous root restores exactly the content at that root, every earlier root stays readable, and a restart or a crash in the middle of a write returns to the committed content (a root hash passed to commit explicitly must not consist of ASCII hexadecimal digits only).", "quantifier": "every interleaving of set, remove, commit, revert, restart and crash", "why_tests_cant": "Uncommitted and committed heads share one node store; must hold for every interleaving.", "anchors": ["state/pruning_state.py: PruningState.commit, revertToHead, get, headHash, committedHeadHash"]}
{"id": "C15", "title": "Quorum sizes tolerate f faults", "statement": "For every pool size n, the fault bound f is the largest with 3f < n, every quorum is reachable by the n-f honest nodes alone, and f+1 votes always include an honest node.", "quantifier": "every n >= 1 (f = 0 is used below n = 4)", "why_tests_cant": "Arithmetic over all n with integer division.", "anchors": ["plenum/server/quorums.py: Quorums, Quorum.is_reached", "plenum/common/util.py: getMaxFailures"]}
{"id": "C16", "title": "Any two strong quorums share an honest node", "statement": "Any two sets of n-f voters, and any prepare certificate (primary plus n-f-1 prepares) with any commit or view-change quorum, intersect in at least one non-faulty node.", "quantifier": "every n, every placement of at most f faults, every pair of voter sets", "why_tests_cant": "Ranges over all subsets of an arbitrary-size pool.", "anchors": ["plenum/server/quorums.py: Quorums"]}
{"id": "C17", "title": "No two honest nodes order different batches at the same position in a view", "statement": "In a protocol instance with at most f Byzantine nodes, if two honest nodes order a batch for the same (view, sequence number), they order the same batch digest, for every message schedule.", "quantifier": "every n, every set of at most f Byzantine nodes and all their messages, every delivery order, duplication and loss", "why_tests_cant": "Distributed safety under all schedules and adversaries.", "anchors": ["plenum/server/consensus/ordering_service.py: OrderingService.process_preprepare, process_prepare, process_commit, _can_prepare, _can_commit, _can_order, _validate_prepare", "plenum/server/models.py: Prepares, Commits"]}
{"id": "C18", "title": "Each replica orders batches contiguously and at most once", "statement": "For every sequence of received messages, the batches a replica orders within a view have consecutive sequence numbers starting just after its last ordered one, each exactly once.", "quantifier": "every finite sequence of COMMITs and other 3PC messages in every order, per replica", "why_tests_cant": "Commits arrive in any order, are stashed and retried.", "anchors": ["plenum/server/consensus/ordering_service.py: OrderingService._try_order, _can_order, _all_prev_ordered, _order_3pc_key, process_stashed_out_of_order_commits, _is_next_pre_prepare"]}
{"id": "C19", "title": "Ordering needs quorum evidence", "statement": "A replica orders a batch only if it holds the PRE-PREPARE, PREPAREs for the same digest from n-f-1 distinct non-primary nodes, and COMMITs from n-f distinct nodes.", "quantifier": "every reachable state of a replica under every message sequence", "why_tests_cant": "Depends on vote bookkeeping over arbitrary senders and duplicates.", "anchors": ["plenum/server/consensus/ordering_service.py: OrderingService._can_commit, _can_order, _has_prepared, _has_preprepared", "plenum/server/models.py: Prepares.hasQuorum, Commits.hasQuorum"]}
{"id": "C20", "title": "A view change preserves every ordered batch", "statement": "If an honest node ordered a batch in some view above the chosen stable checkpoint, then the NEW_VIEW computed from any n-f view-change messages of distinct nodes contains that batch at its sequence number.", "quantifier": "every n and f, every set of n-f VIEW_CHANGE messages of which at most f are arbitrary, every window", "why_tests_cant": "Adversarial view-change content over arbitrary sizes.", "anchors": ["plenum/server/consensus/view_change_service.py: NewViewBuilder.calc_batches, calc_checkpoint, _try_find_batch_for_pp_seq_no, _is_batch_prepared, _is_batch_preprepared"]}
{"id": "C21", "title": "A NEW_VIEW accepted by an honest node is justified by n-f distinct nodes", "statement": "An honest replica finishes a view change with a NEW_VIEW only if its checkpoint and batches are the ones computed from VIEW_CHANGE messages of at least n-f distinct nodes.", "quantifier": "every NEW_VIEW message a Byzantine primary may send", "why_tests_cant": "Adversarial message content.", "anchors": ["plenum/server/consensus/view_change_service.py: ViewChangeService._finish_view_change_if_needed, process_new_view_message", "plenum/common/messages/node_messages.py: NewView"]}
{"id": "C22", "title": "Stable checkpoints need n-f-1 matching votes and watermarks only advance", "statement": "A replica's stable checkpoint moves to a sequence number only after at least n-f-1 distinct nodes sent the same checkpoint for it and the replica ordered it with the same digest, or it was caught up to it, or a NEW_VIEW starting from it was accepted. On the master instance the stable checkpoint never moves back, the low watermark never decreases within a view and the window has the configured length.", "quantifier": "every sequence of checkpoint messages, orderings, view changes and catchups", "why_tests_cant": "Vote sets from arbitrary senders, duplicates and conflicting digests.", "anchors": ["plenum/server/consensus/checkpoint_service.py: CheckpointService.process_checkpoint, _try_to_stabilize_checkpoint, _mark_checkpoint_stable, set_watermarks, update_watermark_from_3pc, process_new_view_accepted, process_catchup_finished", "plenum/server/replica.py: Replica.on_propagate_primary_done"]}
{"id": "C23", "title": "Primary selection is a deterministic rotation giving distinct primaries", "statement": "Every node that agrees on the ordered validator list and the view computes the same primaries; the master primary of n consecutive views is each validator exactly once; primaries of up to n instances in a view are pairwise distinct.", "quantifier": "every validator list without duplicates, every view number and instance count", "why_tests_cant": "All n, all views.", "anchors": ["plenum/server/consensus/primary_selector.py: RoundRobinConstantNodesPrimariesSelector, RoundRobinNodeRegPrimariesSelector"]}
{"id": "C24", "title": "View change starts only after n-f votes within the vote window", "statement": "A node starts moving to a new view because of INSTANCE_CHANGE votes only when n-f distinct nodes have voted for that view and none of those votes is older than the configured window. And in turn, such votes of n - f nodes start it.", "quantifier": "every sequence of votes, duplicates, times and restarts", "why_tests_cant": "Vote expiry interleaves with arrivals and persistence.", "anchors": ["plenum/server/view_change/instance_change_provider.py: InstanceChangeProvider.add_vote, has_view, has_quorum, _update_votes", "plenum/server/consensus/view_change_trigger_service.py: ViewChangeTriggerService._try_start_view_change_by_instance_change"]}
{"id": "C25", "title": "Instance-change votes survive restart", "statement": "The votes known after a restart are exactly the votes recorded before the crash.", "quantifier": "every history of votes, removals and expiries followed by a crash", "why_tests_cant": "Cache and database are updated separately for every kind of operation.", "anchors": ["plenum/server/view_change/instance_change_provider.py: InstanceChangeProvider._update_db_from_cache, _fill_cache_by_db, remove_view"]}
{"id": "C26", "title": "A request is ordered only if f+1 nodes vouch for it, and is forwarded once", "statement": "A request is passed to ordering only after PROPAGATEs for its digest from at least f+1 distinct nodes were received (so at least one honest node authenticated it), and at most once while it is tracked.", "quantifier": "every sequence of client requests and PROPAGATEs from arbitrary senders", "why_tests_cant": "Adversarial duplicates and re-sends.", "anchors": ["plenum/server/propagator.py: Requests.add_propagate, req_with_acceptable_quorum, mark_as_forwarded; Propagator.tryForwarding, canForward, forward, propagate"]}
{"id": "C27", "title": "Tracked requests are dropped only when finished everywhere", "statement": "A request record is removed by normal bookkeeping only after it was executed and released by every instance it was forwarded to.", "quantifier": "every sequence of forward, execute, order and free events", "why_tests_cant": "Counter arithmetic over arbitrary interleavings.", "anchors": ["plenum/server/propagator.py: Requests.free, mark_as_executed, mark_as_forwarded, _clean, force_free"]}
{"id": "C28", "title": "Stashed messages are neither lost nor duplicated", "statement": "Every message given to the stashing router is, at any time, in exactly one of: processed, discarded, held in exactly one stash, or dropped because that stash was full; replays keep arrival order (or priority order for sorted stashes).", "quantifier": "every sequence of arrivals, replays and handler verdicts", "why_tests_cant": "Re-entrant replays and re-stashing interleave arbitrarily.", "anchors": ["plenum/common/stashing_router.py: StashingRouter._process, _stash, process_all_stashed, process_stashed_until_first_restash, UnsortedStash, SortedStash"]}
{"id": "C29", "title": "3PC message admission is a total, exclusive decision", "statement": "For every 3PC message and replica state exactly one of process, discard or stash is chosen; a message outside the watermarks, for another view, or before sync is never processed, and an already ordered one is processed only inside the previous view's prepared certificate.", "quantifier": "every message key and every replica state", "why_tests_cant": "Combination of many flags and integer comparisons.", "anchors": ["plenum/server/consensus/ordering_service_msg_validator.py: OrderingServiceMsgValidator"]}
{"id": "C30", "title": "Catchup target is vouched for by an honest node", "statement": "The size and root a node decides to catch up to were reported identically by at least f+1 distinct nodes, hence by at least one honest node, and the node decides it is up to date only if n-f-1 distinct nodes reported a ledger with no more transactions than its own and that agrees with its own.", "quantifier": "every sequence of ledger statuses and consistency proofs from arbitrary senders", "why_tests_cant": "Adversarial replies.", "anchors": ["plenum/server/catchup/cons_proof_service.py: ConsProofService.process_ledger_status, process_consistency_proof, _process_same_ledger_status, _is_catchup_needed, _get_latest_reliable_proof"]}
{"id": "C31", "title": "Catchup never corrupts the ledger", "statement": "Whatever catchup replies arrive from Byzantine seeders, every transaction the node appends is the one in the log whose root is the agreed target, in order, until exactly the target size, unless the replies exhibit a hash collision.", "quantifier": "every sequence of catchup replies with arbitrary content, split and order", "why_tests_cant": "Adversarial content over unboundedly many replies.", "anchors": ["plenum/server/catchup/catchup_rep_service.py: CatchupRepService.process_catchup_rep, _process_catchup_txns, _has_valid_catchup_replies, _num_missing_txns"]}
{"id": "C32", "title": "An honest seeder's catchup reply is always accepted and it is never blamed", "statement": "If an honest seeder replies to a catchup request, its reply verifies and the seeder is not blacklisted.", "quantifier": "every mix of honest and Byzantine replies in every order", "why_tests_cant": "Interaction of cached transactions from different senders.", "anchors": ["plenum/server/catchup/catchup_rep_service.py: CatchupRepService._merge_catchup_txns, _has_valid_catchup_replies, process_catchup_rep"]}
{"id": "C33", "title": "Catchup requests cover the missing range exactly", "statement": "The requests sent to the nodes partition the missing range: every missing transaction is requested exactly once, no other is requested, and no request is empty.", "quantifier": "every missing range and every number of seeders", "why_tests_cant": "Integer division with remainder over all sizes.", "anchors": ["plenum/server/catchup/catchup_rep_service.py: CatchupRepService._build_catchup_reqs"]}
{"id": "C34", "title": "Audit ledger delta fields always resolve to the true value", "statement": "For every history of audited batches, following the delta stored in an audit transaction's primaries, node registry or ledger-root field leads to the audit transaction storing the value that was current for that batch.", "quantifier": "every history of batches over any number of ledgers, with any pattern of changes, commits and rejections", "why_tests_cant": "Delta chains of any length across uncommitted and committed transactions.", "anchors": ["plenum/server/batch_handlers/audit_batch_handler.py: AuditBatchHandler._fill_primaries, _fill_node_reg, _fill_ledger_root_hash", "plenum/server/node.py: Node._get_last_audited_primaries", "plenum/server/catchup/node_leecher_service.py: NodeLeecherService._calc_catchup_till"]}
{"id": "C35", "title": "Batch tracker commits and rejects the right number of transactions", "statement": "For every sequence of applied, committed and rejected batches, each commit returns the oldest applied batch's transaction count and each reject returns the newest one's count and the root before it.", "quantifier": "every sequence of tracker operations", "why_tests_cant": "Differences of sizes over arbitrary interleavings, including empty batches.", "anchors": ["plenum/common/ledger_uncommitted_tracker.py: LedgerUncommittedTracker"]}
{"id": "C36", "title": "Node registry reverts with rejected batches", "statement": "After any sequence of applying, committing and rejecting batches, the uncommitted node registry equals the registry obtained by applying exactly the batches still pending to the committed one.", "quantifier": "every interleaving of batches and rejections", "why_tests_cant": "Aliasing between stored snapshots shows up only in particular interleavings.", "anchors": ["plenum/server/batch_handlers/node_reg_handler.py: NodeRegHandler.post_batch_applied, post_batch_rejected, commit_batch, apply_request"]}
{"id": "C37", "title": "Interval set bookkeeping is exact", "statement": "After adding any sequence of integers the interval list contains exactly those integers, its length is their number, and two interval lists are equal exactly when they hold the same integers.", "quantifier": "every sequence of additions", "why_tests_cant": "Merging of adjacent intervals has many shapes.", "anchors": ["plenum/server/replica_helper.py: IntervalList.add, __contains__, __len__, __eq__; OrderedTracker"]}
{"id": "C38", "title": "Timers fire in time order, not early, and repeating timers keep their period", "statement": "A scheduled callback never runs before its time, callbacks run in order of due time, each scheduled event runs at most once unless cancelled, and cancelled events do not run.", "quantifier": "every sequence of schedule, cancel and service calls and clock readings", "why_tests_cant": "Schedules and cancellations interleave with re-entrant callbacks.", "anchors": ["plenum/common/timer.py: QueueTimer.service, schedule, cancel, RepeatingTimer"]}
{"id": "C39", "title": "Timestamp lookups return the state root in force at that time", "statement": "For any history of (time, root) records per ledger, looking up a time returns the root recorded at the greatest recorded time not after it, or nothing if there is none.", "quantifier": "every history of records and every query time", "why_tests_cant": "All record sets and query times.", "anchors": ["storage/state_ts_store.py: StateTsDbStorage.get, get_equal_or_prev", "storage/kv_store_leveldb_int_keys.py: KeyValueStorageLeveldbIntKeys.get_equal_or_prev"]}
{"id": "C40", "title": "Chunked transaction files return every record at its sequence number", "statement": "In a chunked file store, after any number of appends, reading key k returns the k-th appended value, ranges return exactly the keys in the range, and the size is the number of appended values.", "quantifier": "every chunk size, number of records, key and range", "why_tests_cant": "Chunk-boundary arithmetic.", "anchors": ["storage/chunked_file_store.py: ChunkedFileStore._get_key_location, put, get, _get_range, size"]}
{"id": "C41", "title": "Uncommitted key-value batches are isolated and committed in order", "statement": "An optimistic key-value store returns the newest uncommitted value for uncommitted reads, the committed one otherwise; committing the oldest batch makes exactly its values permanent and rejecting the newest batch removes exactly its effect.", "quantifier": "every interleaving of set, remove, create, commit and reject", "why_tests_cant": "All interleavings.", "anchors": ["storage/optimistic_kv_store.py: OptimisticKVStore"]}
{"id": "C42", "title": "Different signed contents have different signing bytes", "statement": "Two requests with different content never serialize to the same bytes for signing and digest computation.", "quantifier": "every pair of request contents", "why_tests_cant": "Injectivity over an infinite domain.", "anchors": ["common/serializers/signing_serializer.py: SigningSerializer.serialize", "plenum/common/request.py: Request.digest, payload_digest"]}
{"id": "C43", "title": "Ledger serialization does not depend on field insertion order", "statement": "Two structurally equal transactions serialize to the same bytes whatever the insertion order of their fields, so all nodes hash the same leaf.", "quantifier": "every pair of equal values at every nesting depth", "why_tests_cant": "Depth and nesting unbounded.", "anchors": ["common/serializers/msgpack_serializer.py: MsgPackSerializer._sort_dict"]}
{"id": "C44", "title": "Batching of outgoing messages loses nothing and respects the size limit", "statement": "When messages are packed for sending, every transmitted batch is within the limit and the batches contain exactly the given messages in order.", "quantifier": "every list of messages and every limit", "why_tests_cant": "Greedy packing over all size patterns.", "anchors": ["plenum/common/prepare_batch.py: split_messages_on_batches", "plenum/common/batched.py: Batched.prepare_for_sending, flushOutBoxes"]}
{"id": "C45", "title": "An observer applies only batches confirmed by f+1 validators", "statement": "Every batch an observer applies was reported identically by at least f+1 distinct validators, and batches are applied in sequence without gaps.", "quantifier": "every sequence of batch reports from validators of which f are Byzantine", "why_tests_cant": "Adversarial reports and stashing.", "anchors": ["plenum/server/observer/observer_sync_policy_each_batch.py: ObserverSyncPolicyEachBatch"]}
{"id": "C46", "title": "Transaction author agreement acceptance is enforced", "statement": "A write request to a ledger requiring acceptance passes the check exactly when it carries the required acceptance: an existing, not retired agreement digest, a mechanism from the list in force, and an acceptance time within the allowed window; and requests elsewhere pass only without acceptance data.", "quantifier": "every request, agreement state and batch time", "why_tests_cant": "Decision table over many optional fields and time comparisons.", "anchors": ["plenum/server/request_managers/write_request_manager.py: WriteRequestManager.do_taa_validation"]}
{"id": "C47", "title": "Only trustees change the author agreement", "statement": "Creating, updating or disabling the transaction author agreement, or changing its acceptance mechanisms, is authorized only for a trustee.", "quantifier": "every request and every domain state", "why_tests_cant": "Every request type must be covered by the role check.", "anchors": ["plenum/server/request_handlers/static_taa_helper.py: StaticTAAHelper.authorize", "plenum/server/request_handlers/base_taa_handler.py: BaseTAAHandler.authorize", "plenum/server/request_handlers/txn_author_agreement_disable_handler.py: TxnAuthorAgreementDisableHandler"]}
{"id": "C48", "title": "Multi-signature requests need the required number of valid distinct signers", "statement": "Multi-signature authentication succeeds only if at least the required number of distinct identifiers gave a valid signature over the request, and with no threshold only if all signatures are valid.", "quantifier": "every set of signatures and every threshold", "why_tests_cant": "Adversarial signature sets.", "anchors": ["plenum/server/client_authn.py: CoreAuthMixin.authenticate_multi", "plenum/server/req_authenticator.py: ReqAuthenticator.authenticate"]}
{"id": "C49", "title": "A stored pool multi-signature is backed by n-f nodes", "statement": "Every multi-signature a node saves for a state root was built from valid signatures of at least n-f distinct validators.", "quantifier": "every sequence of PRE-PREPAREs and COMMITs from Byzantine senders", "why_tests_cant": "Adversarial message content.", "anchors": ["plenum/bls/bls_bft_replica_plenum.py: BlsBftReplicaPlenum.process_pre_prepare, process_order, validate_pre_prepare, _validate_multi_sig, _can_calculate_multi_sig, update_commit"]}
{"id": "C50", "title": "Validators have unique names and addresses", "statement": "After any sequence of accepted NODE transactions, no two nodes share an alias, a node address or a client address, and each steward has at most one node.", "quantifier": "every sequence of add and update transactions with any subset of fields", "why_tests_cant": "Partial updates combine with stored fields in unboundedly many ways.", "anchors": ["plenum/server/request_handlers/node_handler.py: NodeHandler.additional_dynamic_validation, _is_node_data_conflicting, _steward_has_node, update_state"]}
{"id": "C51", "title": "The steward limit is enforced and every node agrees on it", "statement": "A steward is accepted only while the state holds fewer stewards than the limit, and nodes with equal state take the same decision.", "quantifier": "every history of NYM transactions, batch rejections and restarts", "why_tests_cant": "Hidden counter versus replicated state across all histories.", "anchors": ["plenum/server/request_handlers/nym_handler.py: NymHandler._steward_threshold_exceeded, _NymHandler__update_steward_count, additional_dynamic_validation"]}
{"id": "C52", "title": "Requested view-change messages are attributed correctly", "statement": "A VIEW_CHANGE obtained through message requests is attributed to a node only if that node sent it itself or f+1 distinct nodes returned the same message for it.", "quantifier": "every sequence of replies from arbitrary senders", "why_tests_cant": "Adversarial replies.", "anchors": ["plenum/server/consensus/message_request/message_handlers.py: ViewChangeHandler.extract_message, _validate_view_change"]}
{"id": "C53", "title": "Freezing a ledger records its last audited roots and size", "statement": "After a ledger freeze transaction the frozen-ledgers record holds, for each newly frozen ledger, the ledger root, state root and size last recorded for it in the audit ledger, and previously frozen entries are unchanged.", "quantifier": "every audit history and list of ledgers", "why_tests_cant": "Delta resolution over arbitrary histories.", "anchors": ["plenum/server/request_handlers/ledgers_freeze/ledgers_freeze_handler.py: LedgersFreezeHandler.make_frozen_ledgers_list, _load_hash_roots_from_audit_ledger"]}
{"id": "C54", "title": "Freshness checks report each stale ledger once per timeout, oldest first", "statement": "Checking freshness returns exactly the ledgers not updated and not reported for more than the timeout, ordered from stalest to newest, and marks them reported.", "quantifier": "every history of updates, checks and times", "why_tests_cant": "All interleavings and times.", "anchors": ["plenum/server/replica_freshness_checker.py: FreshnessChecker.check_freshness, update_freshness"]}
{"id": "C55", "title": "Already executed requests are recognised", "statement": "After a transaction is recorded, looking up its payload digest returns its ledger and sequence number and looking up its full digest returns its payload digest; lookups of other digests are unaffected.", "quantifier": "every history of recorded batches", "why_tests_cant": "Two key families share one store.", "anchors": ["plenum/persistence/req_id_to_txn.py: ReqIdrToTxn.add, addBatch, get_by_payload_digest, get_by_full_digest"]}
{"id": "C56", "title": "A backup instance is removed only by f+1 nodes or repeated own evidence", "statement": "A backup instance is removed due to BACKUP_INSTANCE_FAULTY votes only if f+1 distinct nodes voted against it in the current view or the node itself did so f+1 times.", "quantifier": "every sequence of votes", "why_tests_cant": "Vote bookkeeping over arbitrary senders and instance lists.", "anchors": ["plenum/server/backup_instance_faulty_processor.py: BackupInstanceFaultyProcessor.process_backup_instance_faulty_msg"]}
{"id": "C57", "title": "Range iteration honours its bounds", "statement": "Iterating a persistent key-value store from start to end yields exactly the stored keys between them, in key order.", "quantifier": "every store content and bounds", "why_tests_cant": "All contents and bounds, including absent bounds.", "anchors": ["storage/kv_store_rocksdb.py: KeyValueStorageRocksdb.iterator, WrappingIter", "storage/kv_in_memory.py: KeyValueStorageInMemory.iterator"]}
{"id": "C58", "title": "Throttled actions respect the window", "statement": "Two granted actions within the same window are separated by more than the required delay, and a refusal returns a wait after which a retry would be granted.", "quantifier": "every delay function, window and sequence of call times", "why_tests_cant": "All call-time sequences.", "anchors": ["plenum/common/throttler.py: Throttler.acquire"]}
{"id": "C59", "title": "A node answers a request for its COMMIT with its COMMIT", "statement": "When a node is asked for its COMMIT for a batch it answers with the COMMIT it sent, if it sent one, so the answer of a correct node passes the checks of a COMMIT from that node.", "quantifier": "all orders in which COMMITs of any nodes were taken in before", "why_tests_cant": "depends on the order of arrival of COMMITs", "anchors": ["plenum/server/consensus/message_request/message_handlers.py: CommitHandler._get_reply", "plenum/server/models.py: Commits.addVote"]}
{"id": "C60", "title": "The prepared certificate taken from a NEW_VIEW covers all its batches", "statement": "After a node finishes a view change with a NEW_VIEW, the sequence number up to which batches are taken over from earlier views is the highest one among the NEW_VIEW's batches (or its checkpoint, if there are none).", "quantifier": "every set of VIEW_CHANGE messages over any number of views", "why_tests_cant": "Depends on which of arbitrarily many batches were prepared again in which of several views.", "anchors": ["plenum/server/consensus/view_change_service.py: NewViewBuilder.calc_batches, ViewChangeService._finish_view_change"]}
{"id": "C61", "title": "An honest primary's NEW_VIEW is valid for every node holding the same VIEW_CHANGEs", "statement": "The NEW_VIEW an honest primary sends is found valid by every honest node that has the VIEW_CHANGE messages it names, whatever the order in which the primary received them.", "quantifier": "every set and order of VIEW_CHANGE messages, at most f of them of Byzantine nodes", "why_tests_cant": "All arrival orders and adversarial contents.", "anchors": ["plenum/server/consensus/view_change_service.py: ViewChangeService._send_new_view_if_needed, _finish_view_change_if_needed, NewViewBuilder._try_find_batch_for_pp_seq_no"]}
{"id": "C62", "title": "Copies sent by others do not keep a node from accepting a valid NEW_VIEW", "statement": "A node that has received a valid NEW_VIEW from the view's primary and every VIEW_CHANGE it names finishes the view change, whatever other nodes sent.", "quantifier": "every sequence of messages from other nodes", "why_tests_cant": "Adversarial messages in every interleaving.", "anchors": ["plenum/server/consensus/view_change_storages.py: NewViewVotesForView.get_new_view, add_new_view"]}
{"id": "C63", "title": "A new view starts from a checkpoint a quorum holds", "statement": "The checkpoint a new view starts from is one that n-f of the VIEW_CHANGE messages list and that is not below the stable checkpoint of n-f of them, and it is the highest such one; if any such checkpoint exists one is chosen. So with at most f faulty senders at least n-2f honest nodes hold it.", "quantifier": "every set of VIEW_CHANGE messages, including arbitrary content from faulty nodes", "why_tests_cant": "All contents and orders of VIEW_CHANGE messages of any pool size.", "anchors": ["plenum/server/consensus/view_change_service.py: NewViewBuilder.calc_checkpoint"]}
{"id": "C64", "title": "A request is executed at most once", "statement": "No ledger ever holds two transactions for the same request payload: a request already ordered (committed, or applied and not yet committed) is refused when it is proposed again.", "quantifier": "every history of applied, committed and rejected batches, request contents (including reqId) and crash points", "why_tests_cant": "Replays may come at any time and after any crash; the records are written only for some batches.", "anchors": ["plenum/server/consensus/ordering_service.py: OrderingService._do_dynamic_validation", "plenum/server/node.py: Node.updateSeqNoMap, commitAndSendReplies", "plenum/persistence/req_id_to_txn.py: ReqIdrToTxn"]}
{"id": "C65", "title": "After a timeout exactly the missing transactions are requested again", "statement": "When catchup replies are late, the node asks again for exactly those transactions of the target that it has neither in its ledger nor among the received ones waiting to be applied; it stops asking only when none is missing, and asking never raises an exception.", "quantifier": "every target, ledger size and set of transactions received so far", "why_tests_cant": "The gaps can have any shape, and the received numbers are chosen by other nodes.", "anchors": ["plenum/server/catchup/catchup_rep_service.py: CatchupRepService._request_txns_if_needed, _num_missing_txns, _send_catchup_reqs"]}
{"id": "C66", "title": "A restarted node reads back the registry of the pool", "statement": "After a restart a node has the same current view, current registry and registries at the beginning of the current and the previous view as a node which processed the same batches without restarting.", "quantifier": "every history of batches, views, commits and rejections before the restart", "why_tests_cant": "Depends on where views begin, which primaries they have and which batch changed the registry; only some combinations go wrong.", "anchors": ["plenum/server/batch_handlers/node_reg_handler.py: NodeRegHandler.on_catchup_finished, _load_current_node_reg, _load_last_view_node_reg, __get_first_txn_in_view_from_audit, __load_node_reg_for_first_audit_txn"]}
{"id": "C67", "title": "Reading a range of a ledger gives exactly the transactions in it", "statement": "Whichever database is behind a ledger, asking for the transactions from one sequence number to another, either of them possibly left out or out of range, yields exactly the stored transactions whose sequence numbers lie between them, both included, in ascending order, each under its own number.", "quantifier": "every content of the transaction log, both databases, every pair of bounds", "why_tests_cant": "Contents and bounds are unbounded, including bounds that are not stored, where the two databases behave differently below the ledger.", "anchors": ["ledger/ledger.py: Ledger.getAllTxn", "storage/kv_store_rocksdb.py: KeyValueStorageRocksdb.iterator, WrappingIter", "storage/kv_store_leveldb.py: KeyValueStorageLeveldb.iterator", "storage/helper.py: integer_comparator"]}
{"id": "C68", "title": "A transaction read back from the ledger is the one that was written", "statement": "Deserializing the stored bytes of any transaction gives a value equal to the transaction that was appended, and two different transactions never have the same stored bytes.", "quantifier": "every transaction: any nesting of None, booleans, integers, floats, texts, byte strings, lists and dicts that the serializer accepts", "why_tests_cant": "Round trip and injectivity over an infinite domain, with a different wire form at each size boundary.", "anchors": ["common/serializers/msgpack_serializer.py: MsgPackSerializer.serialize, deserialize"]}
{"id": "C69", "title": "A batch digest identifies the batch", "statement": "If two PRE-PREPAREs have the same batch digest then they have the same original view, the same time and the same requests in the same order, unless SHA-256 collides on their two serialized forms.", "quantifier": "every pair of original views, times and lists of request digests of any length", "why_tests_cant": "Injectivity over lists of any length.", "anchors": ["plenum/server/consensus/ordering_service.py: OrderingService.generate_pp_digest"]}
{"id": "C70", "title": "Author agreements do not change once created", "statement": "Once a version of the transaction author agreement exists, its digest, text and time of ratification never change, whatever is requested later; the same holds for the lists of acceptance mechanisms; the agreement in force is never retired; and after an accepted request to disable, none is in force and all are retired.", "quantifier": "all histories of requests by any senders at any batch times", "why_tests_cant": "a test replays a few requests; the claim is about every later history", "anchors": ["plenum/server/request_handlers/txn_author_agreement_handler.py: TxnAuthorAgreementHandler", "plenum/server/request_handlers/txn_author_agreement_aml_handler.py: TxnAuthorAgreementAmlHandler", "plenum/server/request_handlers/txn_author_agreement_disable_handler.py: TxnAuthorAgreementDisableHandler"]}
{"id": "C71", "title": "Acceptance checks depend only on the state a batch is applied to", "statement": "Two nodes that apply the same request in the same batch to the same uncommitted state take the same decision on its acceptance of the author agreement, however far each has committed.", "quantifier": "all uncommitted states, all committed states, all acceptances and batch times", "why_tests_cant": "tests have committed everything before the next request", "anchors": ["plenum/server/request_managers/write_request_manager.py: WriteRequestManager.do_taa_validation"]}
{"id": "C72", "title": "A node keeps its name and its steward", "statement": "Once a node is in the pool, no request changes its name or the steward recorded for it or removes it, and only its steward can change its other data.", "quantifier": "all pool states and all later sequences of requests by any senders", "why_tests_cant": "tests send requests by the right steward; the claim is about every sender and every set of fields", "anchors": ["plenum/server/request_handlers/node_handler.py: NodeHandler.update_state, _auth_error_while_updating_node, authorize"]}
{"id": "C73", "title": "BLS keys of nodes are proved to be possessed", "statement": "Every BLS key recorded for a node comes with a proof of possession that was verified for this key.", "quantifier": "all sequences of NODE requests with any fields and of reverted batches", "why_tests_cant": "updates combine with stored fields in unboundedly many ways", "anchors": ["plenum/server/request_handlers/node_handler.py: NodeHandler.static_validation, update_state"]}
{"id": "C74", "title": "A NYM transaction changes only what it gives", "statement": "A NYM transaction on an existing identity changes its role only if it gives a role, its key only if it gives a key, never who created it, and no other identity.", "quantifier": "all states, all requests", "why_tests_cant": "all combinations of absent, null and given fields over all states", "anchors": ["plenum/server/request_handlers/nym_handler.py: NymHandler.update_state"]}
{"id": "C75", "title": "A reply brings in only what was asked for", "statement": "A reply to a message request makes a node process a PRE-PREPARE, PREPARE, COMMIT or NEW_VIEW only if the node asked for this message since the last start of a view change, it has the digest and roots asked for and its batch is not ordered yet; it is processed as a message of the replier. Whatever was asked for and fits is processed.", "quantifier": "all histories of requests, replies by any nodes, ordering, checkpoints and view changes", "why_tests_cant": "adversarial replies at any point of any history", "anchors": ["plenum/server/consensus/message_request/message_handlers.py: ThreePhaseMessagesHandler, NewViewHandler", "plenum/server/consensus/message_request/message_req_service.py: MessageReqService.process_message_rep"]}
{"id": "C76", "title": "A correct NEW_VIEW can be completed", "statement": "A node that has the primary's NEW_VIEW finishes the view change as soon as the VIEW_CHANGEs named in it arrive, if the NEW_VIEW agrees with them; a faulty node cannot prevent this.", "quantifier": "all states of a waiting node, all orders of arrival, all messages of faulty nodes", "why_tests_cant": "faulty nodes can send different VIEW_CHANGEs to different nodes", "anchors": ["plenum/server/consensus/view_change_storages.py: ViewChangeVotesForNode.add_view_change", "plenum/server/consensus/view_change_service.py: ViewChangeService._finish_view_change_if_needed"]}
{"id": "C77", "title": "Batch times never go backwards and stay near the clock", "statement": "The times of the batches in a ledger never decrease. A node accepts a batch only if its time is near its own clock or f+1 nodes vouch for it, and it accepts the batches of an honest primary whose clock is near its own.", "quantifier": "all runs of a replica: messages, clocks, view changes, catchups, restarts", "why_tests_cant": "depends on the interleaving of messages, view changes and catchups with arbitrary clock readings", "anchors": ["plenum/server/consensus/ordering_service.py: OrderingService._is_pre_prepare_time_correct", "plenum/server/consensus/ordering_service.py: OrderingService._is_pre_prepare_time_acceptable", "plenum/server/consensus/ordering_service.py: OrderingService._process_stashed_pre_prepare_for_time_if_possible", "plenum/server/consensus/ordering_service.py: OrderingService._get_utc_epoch_for_preprepare", "plenum/server/consensus/ordering_service.py: OrderingService.revert_unordered_batches"]}
{"id": "C78", "title": "A node knows the validators of the pool state, whether or not it was restarted", "statement": "At any time a running node knows exactly the validators that the committed pool state names, with their current names, addresses and keys and with the ranks given by the order in which they joined. Restarting a node, ordering the pool transactions in other batches or catching up with them makes no difference.", "quantifier": "all sequences of accepted NODE transactions, their division into batches and catchups, and all places of restarts", "why_tests_cant": "depends on every history of joins, moves, departures and returns, and on where batches end and restarts happen", "anchors": ["plenum/server/pool_manager.py: TxnPoolManager.onPoolMembershipChange, nodeServicesChanged, nodeHaChanged, _load_nodes_order_from_ledger", "plenum/common/stack_manager.py: TxnStackManager.parseLedgerForHaAndKeys, connectNewRemote, stackKeysChanged", "plenum/server/node.py: Node.execute_pool_txns, Node.postTxnFromCatchupAddedToLedger"]}
{"id": "C79", "title": "A backup instance never uses a batch number twice in a view", "statement": "In every view the primary of a backup instance numbers its batches 1, 2, 3 and so on, each number once, and the other nodes go on from the numbers they accepted, even if nodes are stopped and started again, catch up, or remove and restore backup instances.", "quantifier": "all histories of batches, restarts, catchups, removals of instances and view changes", "why_tests_cant": "depends on where in a history of batches and view changes a node stops, catches up or loses an instance", "anchors": ["plenum/server/last_sent_pp_store_helper.py: LastSentPpStoreHelper", "plenum/server/node.py: Node.select_primaries_on_catchup_complete, Node.on_view_change_start", "plenum/server/consensus/ordering_service.py: OrderingService._do_send_3pc_batch, lastPrePrepareSeqNo", "plenum/server/replica.py: Replica.clear_requests_and_fix_last_ordered"]}
{"id": "C80", "title": "A node recovers from a crash at any point", "statement": "If a node crashes at any moment, while it commits a batch, catches up or starts, then after it is started again and has caught up its ledgers are those of the pool, each state is the one given by its ledger, every executed request is found by its digests, and for every time of a batch the state of that time is found.", "quantifier": "all histories of starts, catchups and commits, and all crash points between two database writes", "why_tests_cant": "there are as many crash points as writes, and several crashes can follow each other", "anchors": ["plenum/server/node.py: Node.commitAndSendReplies, Node.postTxnFromCatchupAddedToLedger, Node.start", "plenum/server/request_managers/write_request_manager.py: WriteRequestManager.commit_batch, restore_state", "plenum/server/batch_handlers/batch_request_handler.py: BatchRequestHandler._commit", "plenum/server/ledgers_bootstrap.py: LedgersBootstrap._init_state_from_ledger", "plenum/persistence/req_id_to_txn.py: ReqIdrToTxn.addBatch", "plenum/server/batch_handlers/ts_store_batch_handler.py: TsStoreBatchHandler.commit_batch", "plenum/server/catchup/node_leecher_service.py: NodeLeecherService._calc_catchup_till"]}
{"id": "C81", "title": "Uncommitted changes are those of the pending batches", "statement": "At any moment the uncommitted transactions of a node's ledgers, the heads of its states and its uncommitted audit transactions are exactly those of the batches it accepted and has neither executed nor reverted, in the order of acceptance. A refused PRE-PREPARE leaves no trace. Executing an ordered batch never raises and commits the transactions of that batch; reverting never raises and gives back what was there before.", "quantifier": "all histories of PRE-PREPAREs (also of a faulty primary), own batches, orderings, executions, view changes, catchups and stable checkpoints, all outcomes of the validation of requests", "why_tests_cant": "the number of interleavings of accepting, refusing, ordering, executing and reverting is unbounded, and a leftover shows only batches later", "anchors": ["plenum/server/consensus/ordering_service.py: OrderingService._apply_and_validate_applied_pre_prepare, _apply_pre_prepare, _revert, _track_batches, revert_unordered_batches, create_3pc_batch, process_view_change_started", "plenum/server/node.py: Node.processOrdered, executeBatch, apply_stashed_reqs, _do_start_catchup", "plenum/server/batch_handlers/batch_request_handler.py: BatchRequestHandler._commit", "plenum/server/batch_handlers/audit_batch_handler.py: AuditBatchHandler", "plenum/common/ledger.py: Ledger.commitTxns, discardTxns"]}
{"id": "C82", "title": "Over all views one batch per sequence number", "statement": "Two honest nodes never order batches with different digests (or different requests) at the same sequence number, in whatever views they order them, if at most f of the n nodes are faulty. After a batch was ordered anywhere, every later view has it in the same place.", "quantifier": "all numbers of nodes, all sets of at most f faulty nodes with arbitrary messages, all schedules with any number of view changes", "why_tests_cant": "a fork needs a particular interleaving of view changes, late messages and forged ones over several views; the number of schedules is unbounded", "anchors": ["plenum/server/consensus/ordering_service.py: OrderingService.process_preprepare, _can_process_pre_prepare, process_new_view_checkpoints_applied, process_old_view_preprepare_reply", "plenum/server/consensus/view_change_service.py: ViewChangeService, NewViewBuilder", "plenum/server/consensus/checkpoint_service.py: CheckpointService.process_new_view_accepted"]}
{"id": "C83", "title": "Nothing that is sent to a node stops it", "statement": "No bytes that a peer or a client sends make a node stop: whatever arrives on either port is dropped, refused with an answer, or queued, and the node goes on with the next message. Every message that is queued has a handler, a message in a batch of a peer is queued whatever else is in the batch, and every request of a client is queued or answered.", "quantifier": "every byte string and every JSON value on either port, every nesting of batches, every sender, every history of arrivals and deliveries, every outcome of schema checks, static validation and signature verification", "why_tests_cant": "Tests send a few malformed messages; the values that raise outside a try are scattered (null, texts containing two letters, signatures of the wrong type, exceptions without arguments) and the claim is about every value.", "anchors": ["stp_zmq/zstack.py: ZStack.processReceived, ZStack._verifyAndAppend, ZStack.handlePingPong", "plenum/common/batched.py: Batched.doProcessReceived", "plenum/server/node.py: handleOneNodeMsg, validateNodeMsg, unpackNodeMsg, handleOneClientMsg, handleInvalidClientMsg, validateClientMsg, unpackClientMsg, routers_init, route_message_req", "plenum/server/message_handlers.py: LedgerStatusHandler, ConsistencyProofHandler, PropagateHandler", "plenum/server/consensus/message_request/message_handlers.py: ViewChangeHandler", "plenum/server/router.py: Router.getFunc"]}
{"id": "C84", "title": "A catchup goes through every ledger, in order, up to what the audit ledger says", "statement": "Whenever a node reports a catchup as complete, it has finished since the start of that catchup the audit ledger, then pool, then config, then each other ledger that is not frozen, exactly once each (and the pool ledger before that if the node was just started); each of them has at least the size the last audit transaction gives for it. One ledger is caught up at a time, no exception gets out, and a catchup asked for while one runs changes nothing.", "quantifier": "every set of registered ledgers, every content of them, every history of starts, decisions about targets, replies, ordered batches and freezes between catchups", "why_tests_cant": "Tests run a few catchups with the usual ledgers; that no ledger is ever skipped depends on fields kept between catchups and on the order of all events.", "anchors": ["plenum/server/catchup/node_leecher_service.py: NodeLeecherService.start, _on_ledger_catchup_complete, _sync_next_ledger, _get_next_ledger, _calc_nodes_ledger_sizes", "plenum/server/catchup/ledger_leecher_service.py: LedgerLeecherService.start", "plenum/server/catchup/catchup_rep_service.py: CatchupRepService.start, process_catchup_rep", "plenum/server/node.py: start_catchup, allLedgersCaughtUp, is_catchup_needed"]}
{"id": "C85", "title": "Replies to read requests are what the state has, with a proof that verifies", "statement": "A reply about acceptance mechanisms, frozen ledgers or author agreements has as data what the config state has for what was asked, at the committed root or at the root of the time asked for, and reading changes nothing. It carries a state proof if and only if the client supports it and a multi-signature has been stored for this root; the proof has this root, the multi-signature stored last for it, and every verifier accepts it for the data sent. A transaction asked for by number comes with a multi-signature over the root its audit path leads to. A request that is refused gets no reply.", "quantifier": "every history of the state, every list of multi-signatures stored, every request, every verifier", "why_tests_cant": "Whether a proof verifies depends on the whole content of the state and on which root and key each handler takes it for; tests try a few states, where values are short and shared nodes hide what is not covered.", "anchors": ["plenum/server/request_handlers/handler_interfaces/read_request_handler.py: _get_value_from_state, lookup, make_result", "plenum/server/request_handlers/get_txn_author_agreement_handler.py: get_result, _return_txn_author_agreement", "plenum/server/request_handlers/get_txn_author_agreement_aml_handler.py: get_result", "plenum/server/request_handlers/ledgers_freeze/get_frozen_ledgers_handler.py: get_result", "plenum/server/request_handlers/get_txn_handler.py: get_result", "plenum/bls/bls_store.py: put, get", "plenum/server/node.py: process_query"]}
{"id": "C86", "title": "Messages to clients are sent at most once, in order, and none is lost without a reason", "statement": "Each message a node has for a client is given to the socket for this client and no other, at most once, in the order of sending; it is kept until then. It is given up only if it fails for good, if it is the oldest of more messages than the limit for one client, or if it has reached the age limit. What is kept is bounded. What happens with one client does not cost another its messages. The caller learns whether this message was sent.", "quantifier": "every history of messages, resends and removals, every behaviour of the socket at each attempt, all limits of at least one", "why_tests_cant": "Tests send a few messages over sockets that work; order and loss depend on which attempts fail, over all interleavings with the timers.", "anchors": ["stp_zmq/client_message_provider.py: transmit_through_listener, _send_pending_messages, _remove_old_messages, _remove_message, _transmit_one_msg_throughlistener", "stp_zmq/zstack.py: send"]}
{"id": "C87", "title": "A message is what its type declares, or it is refused", "statement": "Whatever object a peer sends as a message is either refused with a TypeError, or gives a message all of whose fields have the declared types and ranges, which contains nothing else, and which can be written out, read back and written out again as the same object. So every message in an inbox has the declared form, and no object makes a node fail.", "quantifier": "every JSON object, every type of message, every history of what arrives", "why_tests_cant": "Tests of the schemas try a few bad values per field; the space of nested objects is infinite, and the failures are in combinations (a list of a wrong length inside an optional field of a message inside an answer).", "anchors": ["plenum/common/messages/message_base.py: MessageValidator, MessageBase", "plenum/common/messages/fields.py", "plenum/common/messages/node_messages.py", "plenum/common/messages/client_request.py: ClientMessageValidator", "plenum/server/consensus/message_request/message_handlers.py: extract_message", "plenum/server/consensus/view_change_service.py: process_view_change_message, process_new_view_message"]}
{"id": "C88", "title": "Requests ready to be ordered are kept and sent in batches, in turn", "statement": "A request with enough PROPAGATEs stays in a queue or in a batch which is not ordered until it is ordered or let go for a stated reason; the primary sends it in batches of limited size with consecutive numbers, without duplicates, in the order in which the requests came; no request is in two open batches; the limit on open batches is kept; and no history stops the instance.", "quantifier": "every set of ledgers, every setting, every history of PROPAGATEs, sent and received batches, ordering, reverts, view changes, checkpoints and catchups", "why_tests_cant": "The losses, reorderings and stops need a revert, a late PROPAGATE or a view change between two calls; tests fix one schedule.", "anchors": ["plenum/server/consensus/ordering_service.py: send_3pc_batch, can_send_3pc_batch, create_3pc_batch, _consume_req_queue_for_pre_prepare, revert_unordered_batches, process_view_change_started, gc, _order_3pc_key, _remove_till_caught_up_3pc", "plenum/server/replica.py: readyFor3PC, register_ledger", "plenum/server/propagator.py: Requests"]}
{"id": "C89", "title": "A slow primary is noticed, a good one is not accused", "statement": "When the master instance orders much less, or much later, than most backup instances, the monitor of a node says that the master is degraded, soon and whatever happened before; it does not say so of a master which keeps up with the backups; a request the master does not order in time is reported once; and no history makes the monitor raise.", "quantifier": "every setting, every history of requests coming, being ordered by instances, dropped, of instances added and removed, of resets, and every time of asking", "why_tests_cant": "The verdict depends on averages over the whole history, with four modes and catching up for silence; tests try a few patterns of traffic.", "anchors": ["plenum/server/monitor.py: Monitor, RequestTimeTracker", "plenum/common/throughput_measurements.py: RevivalSpikeResistantEMAThroughputMeasurement", "plenum/common/latency_measurements.py: EMALatencyMeasurementForAllClient", "plenum/common/average_strategies.py", "plenum/server/node.py: checkPerformance, processOrdered"]}
{"id": "C90", "title": "Each request of a client is answered", "statement": "A node answers every request at once, to the client that sent it and to no other; an acknowledged write has been passed on to all nodes; when it is ordered, or turned out to be invalid, the client is told, once; the transaction in a REPLY is in the ledger under the number shown; and a request sent again after it was ordered gets this REPLY.", "quantifier": "every history of requests from clients, PROPAGATEs with or without the name of a client, batches applied, reverted and ordered, catchups, timeouts, view changes and restarts", "why_tests_cant": "Who is told depends on the order in which the client's message and the PROPAGATEs of the other nodes come, and on all that happens until the batch is ordered.", "anchors": ["plenum/server/node.py: handleOneClientMsg, validateClientMsg, unpackClientMsg, processRequest, process_query, process_action, processPropagate, getReplyFromLedgerForRequest, executeBatch, sendRepliesToClients, sendReplyToClient, update_txn_with_extra_data, updateSeqNoMap, postTxnFromCatchupAddedToLedger", "plenum/server/propagator.py: propagate, recordAndPropagate", "plenum/server/consensus/ordering_service.py: _process_valid_preprepare, _apply_pre_prepare, _consume_req_queue_for_pre_prepare"]}
{"id": "C91", "title": "A primary that is gone is voted against, in time and again; one that is connected is not", "statement": "While a node has lost its connection to the primary, and is ready and caught up, it sends a vote for a view change within the configured time, and again in each such time. A vote that says the primary is gone is sent only when it has been gone for the configured time without a break; while the primary is connected there is none. A view change that does not end in the configured time is voted on, again and again, and not before this time.", "quantifier": "every history of connections made and lost, view changes begun and ended, catchups, changes of the validators and of the node's readiness, the clock and the calls of the timer, with any other users of the timer, and things that happen while a callback runs", "why_tests_cant": "Votes come from three timers that are started, stopped and left running by events in any order; what is wrong shows only after certain orders, or when a vote is handled inside the callback that sends it.", "anchors": ["plenum/server/consensus/monitoring/primary_connection_monitor_service.py: PrimaryConnectionMonitorService", "plenum/server/consensus/view_change_service.py: process_need_view_change, _finish_view_change", "plenum/common/timer.py: QueueTimer, RepeatingTimer", "plenum/common/event_bus.py: update_connecteds"]}
{"id": "C92", "title": "A message counts as from the node that holds the key; the connections are those of the pool", "statement": "A message which a node takes as one of another node was sent by one who holds the key the ledger gives for that node. It is taken no more often, and in no other order, than it came in, and what comes in from a node of the pool is taken. A node is connected to the nodes of the pool and no others, at the addresses and with the keys of the ledger; who counts as connected was heard, who is lost no longer counts, and the replicas are told of both.", "quantifier": "every history of frames with any identities, messages processed, looks at the connections, events of sockets, nodes that get in, leave, change address or key, catchups and restarts, in any order", "why_tests_cant": "Remotes, keys on the disk, the index by keys, the waiting messages and the connected are changed by different parts of the code; what is wrong shows only after certain orders, as a restart after a new key, or a loss before the first check.", "anchors": ["stp_zmq/zstack.py: ZStack.processReceived, connect, removeRemote, process_unknown_remote_msgs, handlePingPong", "stp_zmq/kit_zstack.py: KITZStack.maintainConnections, connectToMissing, retryDisconnected", "stp_core/network/keep_in_touch.py: KITNetworkInterface.conns, _connsChanged", "stp_zmq/remote.py: Remote.isConnected, hasLostConnection", "plenum/common/stack_manager.py: TxnStackManager", "plenum/server/pool_manager.py: TxnPoolManager"]}
{"id": "C93", "title": "When the messages of n - f honest nodes arrive, their batches are ordered", "statement": "When the primary of a view and at least n - f honest nodes, itself among them, get each other's messages about the batches the primary made, each of them orders these batches, in their order and as the primary made them.", "quantifier": "every pool with at most f Byzantine nodes, every history of it with messages in any order, lost, doubled or early, checkpoints, catchups and view changes before, and every number of batches", "why_tests_cant": "Votes that are early wait in several queues, votes that are late are thrown away, COMMITs out of order wait for a timer. That nothing is lost between these has to hold for every order of arrival; a test shows one.", "anchors": ["plenum/server/consensus/ordering_service.py: OrderingService.process_preprepare, process_prepare, process_commit, _enqueue_prepare, _dequeue_prepares, _enqueue_commit, _dequeue_commits, _try_commit, _try_order, _process_stashed_out_of_order_commits"]}
{"id": "C94", "title": "A node follows others into a view change when n - f of them have started it, and uses their messages", "statement": "A node that sees the VIEW_CHANGE messages of others for a later view leaves its own view for it only when n - f different nodes have sent one; with n - f it does; and the messages that made it follow are used in the view change.", "quantifier": "every sequence of messages, repeated or not, of arriving and unstashed messages, catchups and view changes started otherwise, and every view number", "why_tests_cant": "Messages for later views are counted, stashed, put back into the inbox and counted again. Which of them are counted, and which are looked at, depends on the whole history; the code is right for the histories of the tests.", "anchors": ["plenum/server/consensus/view_change_service.py: ViewChangeService.process_view_change_message, process_need_view_change, _validate", "plenum/common/stashing_router.py: StashingRouter._process, process_all_stashed", "plenum/server/node.py: Node._process_node_need_view_change"]}
{"id": "C95", "title": "A vote is counted for the node that sent it", "statement": "Every message of a node is counted as a vote of that node and of no other; the votes of different nodes of the pool are different votes.", "quantifier": "every alias the pool ledger takes and every instance", "why_tests_cant": "Aliases are free text of up to 256 characters, chosen by stewards; tests use Alpha, Beta and so on.", "anchors": ["plenum/server/replica.py: Replica.generateName, _handle_external_messages", "plenum/server/replica_helper.py: generateName", "plenum/server/consensus/utils.py: replica_name_to_node_name", "plenum/common/messages/client_request.py: ClientNodeOperationData", "plenum/server/request_handlers/node_handler.py: NodeHandler._is_node_data_conflicting"]}
{"id": "C96", "title": "A view change with an honest primary ends", "statement": "If n - f honest nodes, the primary of the new view among them, start a view change and their messages arrive, then the primary sends a NEW_VIEW and every one of them accepts it and leaves the view change.", "quantifier": "every size of the pool, every order of arrival, every set of batches and checkpoints the nodes have when they start, and whatever other nodes send", "why_tests_cant": "Whether a NEW_VIEW can be built depends on which VIEW_CHANGEs are confirmed in which order, and on the checkpoints and batches of all nodes at once. Tests start the view change from nodes that have the same checkpoints.", "anchors": ["plenum/server/consensus/view_change_service.py: ViewChangeService.process_need_view_change, process_view_change_message, process_view_change_ack_message, process_new_view_message, _send_new_view_if_needed, _finish_view_change, NewViewBuilder.calc_checkpoint, NewViewBuilder.calc_batches", "plenum/server/consensus/view_change_storages.py: ViewChangeVotesForNode, ViewChangeVotesForView"]}
{"id": "C97", "title": "Scheduled actions run once, when due and in order; repeated ones once in a period", "statement": "An action given to a node, replica, monitor or observer to run later runs once, not before its time and not after it was cancelled; when the queue is serviced all that is due has run; what is due earlier runs earlier; a repeated action is called once in every period from its start until it is stopped.", "quantifier": "every sequence of calls, of looks at the clock and of services, and whatever the actions themselves do with the queue", "why_tests_cant": "Actions schedule, cancel, start and stop each other while they run; what happens depends on when the queue is serviced between. Tests schedule one action and wait.", "anchors": ["plenum/server/has_action_queue.py: HasActionQueue._schedule, _cancel, _serviceActions, startRepeating, stopRepeating"]}
{"id": "C98", "title": "A signature counts for the key of the DID and only for the message that was signed", "statement": "The texts of DIDs, keys and signatures stand for exactly one byte string each. Signatures of a DID are checked with exactly the key its record stands for. What a signer signs is accepted, and a request is accepted only if its author signed this very request.", "quantifier": "every byte string, DID, key record, message and signature, of any length", "why_tests_cant": "Tests sign a message and flip bytes of it; they do not try signatures that are longer than a signature, or all pairs of DID and key record.", "anchors": ["plenum/common/verifier.py: DidVerifier", "plenum/common/signer_did.py: DidIdentity, DidSigner", "stp_core/crypto/nacl_wrappers.py: Verifier.verify", "plenum/server/client_authn.py: authenticate_multi", "plenum/common/messages/client_request.py: ClientMessageValidator"]}
{"id": "C99", "title": "A transaction on the ledger says which request it was, who made it and who signed it", "statement": "From the transaction written for a request, and nothing else, anyone can tell the type, data, author, endorser, time and position, put together exactly what was signed, and check every signature. The transaction is applied the same way when it is ordered and when it is taken from the ledger.", "quantifier": "every request, with any operation, fields and signatures, at every position and time", "why_tests_cant": "Tests convert a few requests and look at single fields; that nothing signed is lost is a claim about every operation and every set of fields.", "anchors": ["plenum/common/txn_util.py: reqToTxn, do_req_to_txn, init_empty_txn, get_from, get_digest", "plenum/common/request.py: Request.as_dict, identifier", "plenum/server/request_managers/write_request_manager.py: apply_request, restore_state, _get_handlers_by_version"]}
{"id": "C100", "title": "A node runs the protocol instances its pool asks for", "statement": "A node in a pool of n nodes runs the instances 0 to f, each with the primary that is selected for it, whatever removals, view changes, catchups and changes of the pool came before. Replicas that go on keep the messages they were given, messages for instances that come later are kept for them, and a backup is removed for a lost primary only if its own primary is lost.", "quantifier": "every history of messages, view changes, first batches of views, catchups, removals of backups, lost connections and changes of the pool", "why_tests_cant": "Tests remove a backup or change the pool, not one inside the other; which instances are there depends on the order of all such events.", "anchors": ["plenum/server/node.py: setPoolParams, adjustReplicas, sendToReplica, stash_replica_msg_if_needed, processStashedMsgsForReplica, _remove_replica_if_primary_lost, primaries_disconnection_times, on_view_change_start, select_primaries_on_catchup_complete, on_first_batch_in_view_committed", "plenum/server/replicas.py: add_replica, remove_replica, pass_message", "plenum/server/backup_instance_faulty_processor.py: restore_replicas"]}
{"id": "C101", "title": "A node accuses the primary only of what the primary did", "statement": "A node votes for a view change because of a PRE-PREPARE only if the primary sent that PRE-PREPARE and it is at fault. So a pool with an honest primary and at most f faulty nodes stays in its view, whatever PRE-PREPAREs and InstanceChange messages the faulty nodes send.", "quantifier": "every state of a node, every PRE-PREPARE and sender; every pool size, every set of at most f faulty nodes and every schedule", "why_tests_cant": "Tests send one bad message of one kind from the primary; that no message of any other node in any state is held against the primary, and that votes stay too few in every schedule, is about all messages and all schedules.", "anchors": ["plenum/server/consensus/ordering_service.py: process_preprepare, _can_process_pre_prepare, _apply_and_validate_applied_pre_prepare, _validate_applied_pre_prepare", "plenum/server/replica.py: report_suspicious_node", "plenum/server/node.py: reportSuspiciousNode", "plenum/server/suspicion_codes.py: Suspicions", "plenum/server/consensus/view_change_trigger_service.py: process_vote_for_view_change, process_instance_change"]}
{"id": "C102", "title": "A PRE-PREPARE that comes early is kept and handled when its turn comes", "statement": "A PRE-PREPARE that comes before the requests it names, or before the PRE-PREPAREs that precede it, is kept, and is handled as soon as these have come, in the order of the numbers. Nothing is made up or lost, PRE-PREPAREs of past views are never handled, and what is kept is limited.", "quantifier": "every history of a replica: every order in which PRE-PREPAREs, requests, orderings, checkpoints, view changes and catchups come, and every result of the other checks", "why_tests_cant": "Tests delay one message in one order; that nothing is lost or handled out of order, whatever the order in which messages and requests come and however long the queues, is about all histories.", "anchors": ["plenum/server/consensus/ordering_service.py: process_preprepare, _enqueue_pre_prepare, dequeue_pre_prepares, _can_dequeue_pre_prepare, _can_pp_seq_no_be_in_view, _clear_prev_view_pre_prepares, _is_next_pre_prepare, last_preprepare", "plenum/server/replica.py: serviceQueues"]}
{"id": "C103", "title": "Listing the state gives exactly its content", "statement": "Listing a state gives each of its keys once, with the value that a read of the key returns, and nothing else. Listing it by an earlier root hash gives the content of that moment. Listing the keys with a prefix gives exactly those; the proof that comes with it convinces a verifier of each of them and of the absence of any other. Listing changes nothing.", "quantifier": "every history of a state with writes, removals, commits, reverts, crashes and restarts; every root hash noted in it; every prefix; every order of the proof nodes", "why_tests_cant": "A test lists a few keys; that no key is left out, doubled or put together wrongly depends on how the paths of all keys share prefixes, over all sets of keys and values.", "anchors": ["state/pruning_state.py: as_dict, get_all_leaves_for_root_hash, generate_state_proof_for_keys_with_prefix, verify_state_proof_multi", "state/trie/pruning_trie.py: to_dict, _to_dict, _get_size, _get_last_node_for_prfx, produce_spv_proof_for_keys_with_prefix, nibbles_to_bin, without_terminator_and_flags"]}
{"id": "C104", "title": "The BLS key of a node is the one in the pool state named", "statement": "Asking for the BLS key of a node under a root hash of the pool state gives the key which that pool state has for the node, or none if it has none or the key is not proved, whatever the pool state is now and whatever was asked for before. Asking without a root hash gives the key in the committed pool state. Asking changes nothing that other answers depend on.", "quantifier": "every history of the pool state with writes, commits, reverts, crashes, restarts and lookups in between, every root hash noted in it, every name, every data of nodes", "why_tests_cant": "The register keeps the keys of one root hash. That the kept keys are still those of the pool state asked for depends on all interleavings of lookups and changes.", "anchors": ["plenum/bls/bls_key_register_pool_manager.py: get_key_by_name, _load_keys_for_root", "plenum/server/request_managers/write_request_manager.py: get_all_node_data_for_root_hash", "plenum/bls/bls_bft_replica_plenum.py: _validate_signature, _validate_multi_sig"]}
{"id": "C105", "title": "A node gets the PRE-PREPARE it missed", "statement": "When enough nodes (n-f-1) have sent PREPAREs for a batch whose PRE-PREPARE a node does not have, the node asks the primary for it, and takes from a reply the PRE-PREPARE that the PREPAREs of the honest nodes are for and no other, whatever f nodes send.", "quantifier": "every order of PREPAREs with any content and sender, other messages, view changes, checkpoints and changes of the node's data; every pool size", "why_tests_cant": "What is asked for depends on the order and number of the PREPAREs of faulty and honest nodes, and it decides about all later replies.", "anchors": ["plenum/server/consensus/ordering_service.py: OrderingService._enqueue_prepare, _request_pre_prepare_for_prepare, _get_acceptable_stashed_prepare_state", "plenum/server/consensus/message_request/message_handlers.py: ThreePhaseMessagesHandler.prepare_msg_to_request, _validate_message_rep", "plenum/server/consensus/message_request/message_req_service.py: MessageReqService.process_missing_message"]}
{"id": "C106", "title": "A node that is behind asks for a size it can get", "statement": "A node that looks for a target of catchup asks the others for proofs of one and the same growth once n-f-1 of them have said how far they are and f+1 claim to have more than it. It asks for a size that f+1 nodes claim to have reached and at most f to have passed, decides as soon as f+1 nodes send the same proof from its size, and otherwise asks again.", "quantifier": "every order of ledger statuses and consistency proofs with any content and sender, repeated ones included, and every moment a timer fires; every pool size and ledger size", "why_tests_cant": "What is asked for and which timers remain depend on the order of the replies of faulty, slow and fast nodes.", "anchors": ["plenum/server/catchup/cons_proof_service.py: ConsProofService.process_consistency_proof, _try_asking_for_cons_proofs_without_timeout, _request_CPs_if_needed, _get_consistency_proof_request_params, _schedule_reask_cons_proof, _cancel_reask, _process_newer_ledger_status", "plenum/common/timer.py: RepeatingTimer"]}
{"id": "C107", "title": "What a node takes in at once is limited, and nothing is lost by it", "statement": "In one turn a node takes a limited number of messages and bytes from its listener and a limited number from each node it connects to, whatever the others send. What it does not take waits, in order. With dynamic quotas it takes nothing from clients while the queue of requests is full, takes from nodes as before, and takes all that waits once there is room. No message makes it stop.", "quantifier": "every sequence of arrivals (messages of any content and number of parts, socket errors) and turns, every length of the request queue at each turn, every quota", "why_tests_cant": "The limits must hold for every mixture of messages, probes, malformed ones and errors from clients and nodes, and order and completeness over every schedule of arrivals and turns.", "anchors": ["stp_zmq/zstack.py: ZStack._receiveFromListener, _receiveFromRemotes, _serviceStack", "plenum/server/quota_control.py: StaticQuotaControl, RequestQueueQuotaControl", "plenum/server/node.py: Node.prod, serviceNodeMsgs, serviceClientMsgs"]}
{"id": "C108", "title": "The hash store in files gives back what was written", "statement": "A hash store in files gives at each position the leaf or node hash that was written there since the last reset, refuses every other position, counts right, and refuses hashes of the wrong size without a change. A crash while a hash is written loses that one only, is seen from the counts, and after it hashes can be written and read as before. A range of positions gives the hashes of that range.", "quantifier": "every history of writes with data of any size, resets and restarts, every moment of a crash, every position and range, every entry size", "why_tests_cant": "Positions are offsets in a file without marks, so one misplaced byte shifts all that follows; it must be right for every history and crash point.", "anchors": ["ledger/hash_stores/file_hash_store.py: FileHashStore.write, read, dataGen, readLeaf, readNode, readLeafs, leafCount, reset", "storage/kv_store_single_file.py: SingleFileStore.put, reset", "storage/binary_file_store.py: BinaryFileStore"]}
{"id": "C109", "title": "With the accumulating monitor an instance is called slow exactly when it was too far behind for too long", "statement": "When the accumulating monitor is switched on, the master (and each backup) is called slow exactly if, at every look since one longer ago than the timeout and since the last reset, some watched instance had ordered more requests than it, by more than the allowed number: a factor times the moving average of the requests which came in per window. An instance which has ordered as many as any other is not called slow after the next look; nor is any right after a reset. No call raises an error as long as each added instance is followed by a reset.", "quantifier": "every history of requests coming in and being ordered by any instance, of looks at any times that do not go back, of instances added and taken out and of resets; all settings with a window that is not empty and a weight between 0 and 1", "why_tests_cant": "The answer depends on the whole history since an alert began, on the windows into which requests fell and on all instances; a test sees a few histories.", "anchors": ["plenum/common/monitor_strategies.py: AccumulatingMonitorStrategy", "plenum/common/moving_average.py: ExponentialMovingAverage, EventFrequencyEstimator, EMAEventFrequencyEstimator", "plenum/server/monitor.py: Monitor.isMasterDegraded, areBackupsDegraded, requestOrdered, requestUnOrdered, addInstance, removeInstance, reset", "plenum/server/replicas.py: Replicas.add_replica, remove_replica"]}
{"id": "C110", "title": "The performance check votes against a master that is too far behind for too long", "statement": "With the accumulating monitor, a node that participates and is not in a view change votes against the primary at its next check once the master was behind the other instances by more than the allowed number at every look since one longer ago than the timeout, and never otherwise; the same check reports the backups that are as slow. A check is left out only if nothing was ordered since the last one.", "quantifier": "every history of requests coming in and being ordered by any instance, of resets, of instances added and removed and of checks, at any times that do not go back", "why_tests_cant": "Whether a check is made depends on a sum noted earlier and on resets in between, and its outcome on the whole history since an alert began.", "anchors": ["plenum/server/node.py: Node.checkPerformance, _update_new_ordered_reqs_count", "plenum/server/monitor.py: Monitor.requestOrdered, requestUnOrdered, reset, addInstance, removeInstance, isMasterDegraded, areBackupsDegraded", "plenum/server/replicas.py: Replicas.add_replica, remove_replica"]}
{"id": "C111", "title": "A wallet signs with the key last given for the identifier, and is stored inside its directory only", "statement": "After any calls that add or update identifiers, signing with an identifier uses the key given for it last, and is refused if there is none; without an identifier the one added first is used; a signed request carries the identifier of its signer, also in what is signed; an alias leads to the identifier it was given to last; every identifier is listed once, by itself or by its alias. Whatever path is given, a wallet is written to, and read from, a file inside the base directory only, and permissions are set for the directories in between only.", "quantifier": "every sequence of calls that add and update identifiers, with any signers and aliases, every identifier and request, and every path", "why_tests_cant": "Which key signs depends on the whole sequence of calls and on the form of the identifier, and a path can lead out of the directory in endlessly many ways.", "anchors": ["plenum/client/wallet.py: Wallet.addIdentifier, updateSigner, requiredIdr, signMsg, signRequest, do_multi_sig_on_req, sign_using_multi_sig, getVerkey, listIds; WalletStorageHelper.saveWallet, loadWallet"]}
{"id": "C112", "title": "A node is ready just while it is connected to enough of the pool, and warns once each time it loses the pool", "statement": "At any time, a node that was started and not stopped is ready just if it is connected, with itself, to enough nodes of its pool to order, and fully started just if it is connected to all of them. Once it was connected to n - f nodes it warns, once, when no more than f of them are left, and does not warn again before it had n - f nodes again.", "quantifier": "every pool, every history of starts, stops, changes of the pool and looks at the connections, with any connections at each look", "why_tests_cant": "The status and the warning are judged only when connections change, so they depend on the order of all changes before; tests try a few orders.", "anchors": ["plenum/server/node.py: Node.onConnsChanged, setPoolParams, start, reset, prod, connectedNodeCount", "plenum/server/inconsistency_watchers.py: NetworkInconsistencyWatcher", "plenum/common/motor.py: Motor.start, stop", "plenum/common/startable.py: Status", "stp_core/network/keep_in_touch.py: KITNetworkInterface.conns, checkConns"]}
{"id": "C113", "title": "Missing requests are asked for from the nodes that did not send them, not twice at short notice, and again if the answer does not come", "statement": "When instances miss requests of a batch, the node asks for each of them once, from all nodes if it does not know the request and otherwise from the connected nodes that did not send it yet; instances that miss the same request soon after do not make it ask again; and a request that stays missing is asked for again.", "quantifier": "every history of calls by any instances, with any lists of missing requests, any connections and any nodes that sent them", "why_tests_cant": "Whether a request is asked for depends on all that were asked for before, up to a large number of them.", "anchors": ["plenum/server/propagator.py: Propagator.request_propagates, _add_to_recently_requested", "plenum/server/message_req_processor.py: MessageReqProcessor.request_msg", "plenum/server/node.py: Node.sendToNodes"]}
{"id": "C114", "title": "What the instances of a node send comes out, in order, within the limit, and no instance keeps another one waiting", "statement": "The messages of an instance come out of the node in the order in which it sent them, none is lost or taken twice, also when ordered batches are taken out of turn before a catchup (then the batches keep their order, and so do the other messages); at each turn every instance that has messages gets at least one out, and no more messages come out than the limit.", "quantifier": "every number of instances, every history of messages sent, of turns with any limits, and of batches taken out of turn", "why_tests_cant": "Order, loss and waiting depend on how sending and taking out interleave over any number of turns, and on the rounding of the limit.", "anchors": ["plenum/server/replicas.py: Replicas.get_output, take_ordereds_out_of_turn", "plenum/server/replica.py: Replica.send, _remove_ordered_from_queue"]}
{"id": "C115", "title": "The metrics of a node say what was measured", "statement": "An accumulator of metrics says of the samples it got their number, sum, sum of squares, least and greatest, however they were added, listed or merged and in any order; its average and its range lie between the least and the greatest and are always defined when there are samples; and the totals and frames of time read from the store of a node sum up exactly the samples stored within the times asked for, over restarts and flushes.", "quantifier": "all lists of samples, all ways to split and merge them, all histories of samples, flushes, restarts and closing, all limits of time and all frames", "why_tests_cant": "A lost or doubled sample depends on how flushes, restarts, keys and limits fall together, and a division by zero on one kind of sample lists among all.", "anchors": ["plenum/common/value_accumulator.py: ValueAccumulator", "plenum/common/metrics_collector.py: MetricsCollector.flush_accumulated, KvStoreMetricsFormat, KvStoreMetricsCollector", "plenum/common/metrics_stats.py: MetricsStats, load_metrics_from_kv_store"]}
{"id": "C116", "title": "A client finds in its store what each node answered to each request", "statement": "From the store of requests and answers a client gets, for each request, the request as first written down, the acknowledgements in order, and of each node the last negative acknowledgement, rejection and reply, and nothing that this node did not say; answers to one request never show up with another; and the last number is the greatest one used.", "quantifier": "every history of requests and answers written down, for all identifiers, numbers, senders and texts", "why_tests_cant": "The answers are lines of one file, and what a line is read as depends on texts chosen by nodes that may be faulty; whether files of two requests are the same depends on all identifiers and numbers.", "anchors": ["plenum/persistence/client_req_rep_store_file.py: ClientReqRepStoreFile", "storage/directory_store.py: DirectoryStore.appendToValue"]}
{"id": "C117", "title": "PREPAREs: who is counted and who is reported does not depend on the order of messages, and honest nodes are never reported", "statement": "For a batch, a replica counts exactly the nodes other than the primary whose PREPARE repeats the PRE-PREPARE it has (and itself, if it is not the primary), each once, whether the PREPARE came before or after the PRE-PREPARE. A node whose PREPARE does not match, and a primary that sends a PREPARE, is reported; what a report says of a node is true; and an honest node is never reported.", "quantifier": "every sequence of PREPAREs and PRE-PREPAREs of one batch, from any senders with any content, at a primary or another replica, within or outside of what is ordered again after a view change", "why_tests_cant": "It must hold for all orders of arrival and all contents that faulty nodes send in between.", "anchors": ["plenum/server/consensus/ordering_service.py: OrderingService.process_prepare, _validate_prepare, _enqueue_prepare, _dequeue_prepares, _process_valid_preprepare", "plenum/server/models.py: Prepares"]}
{"id": "C118", "title": "Versions: exactly the well-formed ones are taken, and a version survives being shown, written and read", "statement": "A text is taken for a version exactly if it is written N.N.N[[.]{a|b|rc|dev}[.]N]; it is one version only; what a version shows itself as is read as the same version, and different versions show themselves differently; the version of the node set in its file is the one loaded from it; a plenum version is a release, a release candidate or a development version, and a release version is digits and dots only.", "quantifier": "every text, and every version with numbers of any size", "why_tests_cant": "All texts and all numbers; the optional dots could make texts ambiguous.", "anchors": ["common/version.py: PEP440VersionFallback, DigitDotVersion, SemVerReleaseVersion, PlenumVersion", "plenum/__metadata__.py: load_version, set_version"]}
{"id": "C119", "title": "A store that counts references keeps what is referred to and removes the rest in time", "statement": "In the store that counts references, a key with more puts than deletes is there with the value last put, whatever is committed and cleaned up; when its last reference goes and the epoch is committed, the clean-up of the epoch 500 later removes it and no other does; taking a committed epoch back gives each key the count it had before; the count a user is told is the number of references; and a delete without a reference is refused.", "quantifier": "every history of puts, deletes, commits and clean-ups, for all keys, values and epochs", "why_tests_cant": "A key can be put again after it was marked, marked for several epochs and cleaned up in any order; all interleavings must keep what is referred to.", "anchors": ["state/db/refcount_db.py: RefcountDB"]}
{"id": "C120", "title": "Channels hand on every message once, in order, to every subscriber, and routers to the handler of its type", "statement": "A queued channel hands on messages in the order in which they were put, each once to every subscriber, also if handlers put messages in turn; a service hands on no more than its limit, and fewer only if nothing is left. A router calls exactly one handler for a message, the one last added for its type; without one a strict router raises an exception and another ignores the message.", "quantifier": "every history of puts and services with any limits, any number of subscribers and any messages they put in turn; every sequence of added handlers and every message", "why_tests_cant": "All interleavings of puts, services and answers, and all orders of adding handlers.", "anchors": ["plenum/common/channel.py: QueuedChannelService, create_direct_channel, RouterBase, Router"]}
