{
 "claims": [
  {
   "property": "C01",
   "status": "proved",
   "theorems": [
    "Verif.Props.C01_tree_root",
    "Verif.Props.C01_ledger_root"
   ],
   "note": "tree with any mix of append/extend; ledger over every allowed operation history"
  },
  {
   "property": "C02",
   "status": "proved",
   "theorems": [
    "Verif.Props.C02_inclusion_complete",
    "Verif.Props.C02_add_info",
    "Verif.Props.C02_audit_proof"
   ],
   "note": "every prefix and index of every ledger history"
  },
  {
   "property": "C03",
   "status": "proved",
   "theorems": [
    "Verif.Props.C03_inclusion_sound"
   ],
   "note": "explicit collision between strings hashed by the run and strings of the tree; fixed digest length assumed"
  },
  {
   "property": "C04",
   "status": "proved",
   "theorems": [
    "Verif.Props.C04_consistency_complete"
   ],
   "note": "m > 0; the producer is not called with m = 0"
  },
  {
   "property": "C05",
   "status": "proved",
   "theorems": [
    "Verif.Props.C05_consistency_sound"
   ],
   "note": "explicit collision; fixed digest length assumed"
  },
  {
   "property": "C06",
   "status": "proved",
   "theorems": [
    "Verif.Props.C06_historic_heads",
    "Verif.Props.C06_positions_distinct"
   ],
   "note": "store filled by appends (extend with a store is never used by the ledger)"
  },
  {
   "property": "C07",
   "status": "proved",
   "theorems": [
    "Verif.Props.C07_crash_recovery",
    "Verif.Props.C07_reset_crash_unrecoverable"
   ],
   "note": "crashes at any write of add; also crashes in recovery except between the two store resets, where the second theorem shows the ledger can no longer start"
  },
  {
   "property": "C08",
   "status": "proved",
   "theorems": [
    "Verif.Props.C08_staging",
    "Verif.Props.C08_answers",
    "Verif.Props.C08_empty_append_stale"
   ],
   "note": "allowed use: append stages at least one transaction, direct add only with nothing staged; third theorem shows the first restriction is needed"
  },
  {
   "property": "C09",
   "status": "proved",
   "theorems": [
    "Verif.Props.rlp_round_trip",
    "Verif.Props.rlp_injective",
    "Verif.Props.rlp_prefix_free"
   ],
   "note": "For every nested list of byte strings whose payloads are shorter than 2^64 bytes: decoding the encoding gives the value back, encodings are injective and prefix-free. rlp.decode (optimized decoder of the rlp package) is modelled from the optimised copy in state/util/fast_rlp.py."
  },
  {
   "property": "C10",
   "status": "proved",
   "theorems": [
    "Verif.Props.path_round_trip",
    "Verif.Props.path_injective",
    "Verif.Props.key_nibbles_injective"
   ],
   "note": "For every nibble path and both flags; the empty path without the flag cannot be packed (it raises)."
  },
  {
   "property": "C100",
   "status": "partial",
   "theorems": [
    "Verif.Props.C100_master_kept",
    "Verif.Props.C100_history_partial",
    "Verif.Props.C100_caught_up_partial",
    "Verif.Props.C100_first_batch_exact",
    "Verif.Props.C100_removal_crash",
    "Verif.Props.C100_lost_primary_crash",
    "Verif.Props.C100_replaced",
    "Verif.Props.C100_check_partial",
    "Verif.Props.C100_check_wrong",
    "Verif.Props.C100_stash_partial",
    "Verif.Props.C100_stash_unbounded",
    "Verif.Props.C100_removed_lost",
    "Verif.Props.C100_addressed"
   ],
   "note": "Proved: the master is never replaced and loses nothing; in histories where no first batch of a view follows a removal that was not made good, the node runs the instances of the pool with their primaries. False in general: C100_first_batch_exact says exactly when the node raises an exception, C100_removal_crash and C100_lost_primary_crash give histories. The check for lost primaries is right when no instance is missing (C100_check_partial) and looks at another instance otherwise (C100_check_wrong). Only three-phase messages are kept for later instances (C100_stash_partial), without bound (C100_stash_unbounded)."
  },
  {
   "property": "C101",
   "status": "partial",
   "theorems": [
    "Verif.Props.C101_same_checks",
    "Verif.Props.C101_exact",
    "Verif.Props.C101_any_sender",
    "Verif.Props.C101_evidence_partial",
    "Verif.Props.C101_backups",
    "Verif.Props.C101_no_vote",
    "Verif.Props.C101_stable_partial",
    "Verif.Props.C101_one_node_moves_all"
   ],
   "note": "Proved: exactly which PRE-PREPARE makes a node vote (C101_exact); with right digests only a faulty primary is accused (C101_evidence_partial), and a pool with at most f faulty nodes stays in its view in every schedule (C101_stable_partial). False in general: a wrong digest is held against the primary whoever sent it (C101_any_sender), and one faulty node moves a pool of any size through any number of views (C101_one_node_moves_all). Some wrong messages of a primary bring no votes (C101_no_vote)."
  },
  {
   "property": "C102",
   "status": "partial",
   "theorems": [
    "Verif.Props.C102_current",
    "Verif.Props.C102_serviced",
    "Verif.Props.C102_came",
    "Verif.Props.C102_consecutive",
    "Verif.Props.C102_kept_partial",
    "Verif.Props.C102_chain",
    "Verif.Props.C102_overwritten",
    "Verif.Props.C102_first_wins",
    "Verif.Props.C102_unbounded",
    "Verif.Props.C102_blocked",
    "Verif.Props.C102_waits_longer"
   ],
   "note": "Proved for every history: what waits is of the current view and came from the network from the named sender (C102_current, C102_came); accepted PRE-PREPAREs follow the last one (C102_consecutive); the loop leaves nothing it could take (C102_serviced); what waits stays until it is given, if no other with its key comes (C102_kept_partial); a run of PRE-PREPAREs whose requests are there is accepted at once (C102_chain). False: another PRE-PREPARE with the same key makes one lost (C102_overwritten, C102_first_wins), a stale one holds up those behind it (C102_blocked), the queue has no limit (C102_unbounded), and what waits for requests waits longer than needed (C102_waits_longer)."
  },
  {
   "property": "C103",
   "status": "partial",
   "theorems": [
    "Verif.Props.C103_finite",
    "Verif.Props.C103_as_dict",
    "Verif.Props.C103_len",
    "Verif.Props.C103_leaves_partial",
    "Verif.Props.C103_blank_leaves",
    "Verif.Props.C103_prefix"
   ],
   "note": "Proved for every history: the current state is listed exactly (C103_as_dict) and its length is the number of its keys (C103_len); the same for every noted root hash but that of the empty state (C103_leaves_partial); the keys with a prefix are listed exactly, with a proof that every verifier accepts for all present and absent keys with the prefix (C103_prefix). The depth of recursion needed is two for each byte of the longest key, and there is a longest key (C103_finite). False for the root hash of the empty state: it lists the current state (C103_blank_leaves)."
  },
  {
   "property": "C104",
   "status": "partial",
   "theorems": [
    "Verif.Props.C104_key_partial",
    "Verif.Props.C104_committed_partial",
    "Verif.Props.C104_blank",
    "Verif.Props.C104_unknown",
    "Verif.Props.C104_one_answer"
   ],
   "note": "Proved for every history and every noted root hash but that of the empty state (C104_key_partial), and for the committed pool state unless it is empty (C104_committed_partial); with distinct aliases there is one right answer (C104_one_answer). False otherwise: under the root hash of the empty state the keys are those of the current pool state and then stay as they are (C104_blank); a lookup by a root hash not in the store raises and leaves an empty register, from which later lookups answer that no node has a key (C104_unknown)."
  },
  {
   "property": "C105",
   "status": "partial",
   "theorems": [
    "Verif.Props.C105_same_partial",
    "Verif.Props.C105_majority_partial",
    "Verif.Props.C105_locked",
    "Verif.Props.C105_copies",
    "Verif.Props.C105_tie"
   ],
   "note": "Proved if all PREPAREs for the batch say the same, in any number of copies (C105_same_partial), and if each node sends one and less than half of n-f-1 are wrong (C105_majority_partial). False otherwise: n-f-1 copies of a PREPARE of one node (C105_copies), or f wrong PREPAREs that come before f right ones in a pool of 3f+1 (C105_tie), make the node ask for what the wrong ones say; it then refuses replies with the right PRE-PREPARE and does not ask again until the next view, a checkpoint or the PRE-PREPARE itself (C105_locked)."
  },
  {
   "property": "C106",
   "status": "partial",
   "theorems": [
    "Verif.Props.C106_decides",
    "Verif.Props.C106_asked_size",
    "Verif.Props.C106_honest_claim",
    "Verif.Props.C106_asks_partial",
    "Verif.Props.C106_status_last",
    "Verif.Props.C106_stuck",
    "Verif.Props.C106_silent",
    "Verif.Props.C106_goes_on_partial",
    "Verif.Props.C106_asked_again",
    "Verif.Props.C106_timeout_size_partial",
    "Verif.Props.C106_median"
   ],
   "note": "Proved: it decides as soon as f+1 nodes say the same last (C106_decides); what it asks for when a message comes is claimed by f+1 nodes, at most f claim more, and an honest node claims it (C106_asked_size, C106_honest_claim); it has asked if a proof is what came last (C106_asks_partial). Also: it sends nothing after it has decided (C106_silent), goes on asking for statuses unless f+1 nodes claimed more at some moment (C106_goes_on_partial), repeats a question to exactly the nodes that have not answered it (C106_asked_again), and asks at the timeout for a size some node claims (C106_timeout_size_partial). False: if the last of the n-f-1 sends a status, nothing is asked before the timeout (C106_status_last); and the question at the timeout can be for a size only a dishonest node claims, after which nothing is asked any more (C106_stuck)."
  },
  {
   "property": "C107",
   "status": "partial",
   "theorems": [
    "Verif.Props.C107_turn",
    "Verif.Props.C107_each_node",
    "Verif.Props.C107_in_order",
    "Verif.Props.C107_full_queue",
    "Verif.Props.C107_nodes_unaffected",
    "Verif.Props.C107_resumes",
    "Verif.Props.C107_goes_on_partial",
    "Verif.Props.C107_uncounted",
    "Verif.Props.C107_parts_stop",
    "Verif.Props.C107_nodes_complete_partial"
   ],
   "note": "Proved: the limits of one turn (C107_turn), each node gets its turn (C107_each_node), nothing from clients is lost or reordered over any history (C107_in_order), nothing from nodes is lost or taken twice (C107_nodes_complete_partial), nothing is taken from clients while the queue is full (C107_full_queue), nodes are not affected by it or by clients (C107_nodes_unaffected), all that waits is taken later (C107_resumes), the process goes on if other nodes send one part in each message (C107_goes_on_partial). False: empty messages and those of more than two parts are not counted, so there is no limit to what is taken in a turn (C107_uncounted); a message of several parts from one node this one connects to ends the process (C107_parts_stop)."
  },
  {
   "property": "C108",
   "status": "partial",
   "theorems": [
    "Verif.Props.C108_reads",
    "Verif.Props.C108_crash",
    "Verif.Props.C108_reset",
    "Verif.Props.C108_after_crash",
    "Verif.Props.C108_after_crash_wrong",
    "Verif.Props.C108_range",
    "Verif.Props.C108_range_one"
   ],
   "note": "Proved: reads and counts after any history without a crash (C108_reads), after a crash (C108_crash), and after a reset whatever was before (C108_reset; Ledger.recoverTree resets when the counts differ from the log's, Model/Ledger.lean). False: without a reset, what is written after a crash is not what is read (C108_after_crash, C108_after_crash_wrong); a range of more than one gives its first hash only (C108_range), a range of one gives all that follow and then an exception (C108_range_one)."
  },
  {
   "property": "C109",
   "status": "proved",
   "theorems": [
    "Verif.Props.C109_rate",
    "Verif.Props.C109_degraded",
    "Verif.Props.C109_master",
    "Verif.Props.C109_backups",
    "Verif.Props.C109_best",
    "Verif.Props.C109_reset",
    "Verif.Props.C109_no_error",
    "Verif.Props.C109_added_without_reset"
   ],
   "note": "The meaning is read off the history of calls alone (Spec/AccMonitor.lean). Floats are exact numbers; the weight -log(0.5)/10 is any number between 0 and 1. C109_added_without_reset: after a reset, an added instance makes each look raise KeyError until the next reset; a node resets at once when it adds one, and then C109_no_error holds."
  },
  {
   "property": "C11",
   "status": "proved",
   "theorems": [
    "Verif.Props.state_is_a_map",
    "Verif.Props.state_operation_succeeds"
   ],
   "note": "For every history of set, remove, commit, revert, restart and crash on an initially empty store, all byte-string keys and values; unless two of the strings hashed in the session collide. No operation raises except for payloads of 2^64 bytes or more."
  },
  {
   "property": "C110",
   "status": "partial",
   "theorems": [
    "Verif.Props.C110_history",
    "Verif.Props.C110_vote",
    "Verif.Props.C110_backups",
    "Verif.Props.C110_skipped",
    "Verif.Props.C110_made",
    "Verif.Props.C110_unnoticed",
    "Verif.Props.C110_same_count"
   ],
   "note": "Proved: exactly when a check votes and which backups it reports (C110_vote, C110_backups), when it is left out (C110_skipped), and that it is made when requests were ordered without a reset in between (C110_made). False: while nothing is ordered no check is made, so a master that stopped goes unnoticed here (C110_unnoticed); after a reset the sum can reach the noted number again, and then a check is left out although requests were ordered (C110_same_count); backups are judged by the last look before the check (C110_backups)."
  },
  {
   "property": "C111",
   "status": "partial",
   "theorems": [
    "Verif.Props.C111_signs",
    "Verif.Props.C111_request",
    "Verif.Props.C111_multi",
    "Verif.Props.C111_verkey",
    "Verif.Props.C111_alias",
    "Verif.Props.C111_update_refused",
    "Verif.Props.C111_update_keeps_alias",
    "Verif.Props.C111_getAlias",
    "Verif.Props.C111_listed",
    "Verif.Props.C111_listed_twice",
    "Verif.Props.C111_qualified",
    "Verif.Props.C111_saved_inside",
    "Verif.Props.C111_loaded_inside",
    "Verif.Props.C111_plain"
   ],
   "note": "Proved for identifiers without a colon: which key signs, requests, further signatures, aliases, updates, the list, and where files are. False: of an identifier with colons only the part after the first colon is used, so a fully qualified one (did:sov:xyz) cannot sign, or another key signs (C111_qualified); an identifier with two aliases is listed twice (C111_listed_twice)."
  },
  {
   "property": "C112",
   "status": "partial",
   "theorems": [
    "Verif.Props.C112_ready_partial",
    "Verif.Props.C112_quorum",
    "Verif.Props.C112_ready_half",
    "Verif.Props.C112_pool_changed",
    "Verif.Props.C112_alone",
    "Verif.Props.C112_warns",
    "Verif.Props.C112_replaced",
    "Verif.Props.C112_stop"
   ],
   "note": "Proved for pools of four or more nodes that do not change: ready just with 2f + 1 nodes (C112_ready_partial), which are n - f in a pool of 3f + 1 (C112_quorum); and when a node warns (C112_warns). False: with other sizes three of six are enough to be ready (C112_ready_half); a change of the pool is not noticed until connections change (C112_pool_changed); a node that is all of its pool is never ready (C112_alone); joined nodes are counted too late for the warning (C112_replaced); stopping is not told to the watcher (C112_stop)."
  },
  {
   "property": "C113",
   "status": "partial",
   "theorems": [
    "Verif.Props.C113_asks",
    "Verif.Props.C113_not_twice",
    "Verif.Props.C113_call",
    "Verif.Props.C113_once",
    "Verif.Props.C113_never_again",
    "Verif.Props.C113_asks_senders"
   ],
   "note": "Proved: a digest is asked for just if it is not among the last max + 1 (1001) asked for, and from whom (C113_asks, C113_not_twice, C113_call, C113_once). False: a digest is not asked for again as long as it is among the last 1001, however long the answer does not come (C113_never_again); and if all connected nodes sent the request already, all of them are asked again (C113_asks_senders)."
  },
  {
   "property": "C114",
   "status": "partial",
   "theorems": [
    "Verif.Props.C114_in_order",
    "Verif.Props.C114_kinds",
    "Verif.Props.C114_fair",
    "Verif.Props.C114_no_limit",
    "Verif.Props.C114_limit",
    "Verif.Props.C114_over_limit"
   ],
   "note": "Proved: order, and nothing lost or taken twice (C114_in_order, C114_kinds); every instance gets on at each turn (C114_fair); no limit empties the boxes (C114_no_limit); no more than the limit and one for each instance comes out (C114_limit). False: the limit itself is not kept, as shares are rounded up (C114_over_limit)."
  },
  {
   "property": "C115",
   "status": "partial",
   "theorems": [
    "Verif.Props.C115_add",
    "Verif.Props.C115_list",
    "Verif.Props.C115_value",
    "Verif.Props.C115_merge",
    "Verif.Props.C115_order",
    "Verif.Props.C115_bytes",
    "Verif.Props.C115_empty_raises",
    "Verif.Props.C115_avg",
    "Verif.Props.C115_no_avg",
    "Verif.Props.C115_variance",
    "Verif.Props.C115_no_variance",
    "Verif.Props.C115_range",
    "Verif.Props.C115_keys",
    "Verif.Props.C115_total_partial",
    "Verif.Props.C115_frame_partial",
    "Verif.Props.C115_lost_sample"
   ],
   "note": "Proved: the accumulator (C115_add to C115_no_variance), the range (C115_range), what is stored (C115_bytes), and totals and frames over every history in which no two records get the same key (C115_total_partial, C115_frame_partial, C115_keys). False without that: after a restart within one microsecond, or with 2048 records in one, a record is replaced (C115_lost_sample)."
  },
  {
   "property": "C116",
   "status": "partial",
   "theorems": [
    "Verif.Props.C116_keys",
    "Verif.Props.C116_hasRequest",
    "Verif.Props.C116_request_partial",
    "Verif.Props.C116_acks_partial",
    "Verif.Props.C116_nacks_partial",
    "Verif.Props.C116_rejects_partial",
    "Verif.Props.C116_replies_partial",
    "Verif.Props.C116_last_partial",
    "Verif.Props.C116_forged_reply",
    "Verif.Props.C116_last_wrong"
   ],
   "note": "Proved: requests never share a file (C116_keys), a request is found exactly if written down (C116_hasRequest), and what is found is what was written down if texts have no line breaks and names no ~ (C116_request_partial, C116_acks_partial, C116_nacks_partial, C116_rejects_partial, C116_replies_partial); the last number, if identifiers have no comma (C116_last_partial). False without that: one node can forge the reply of another in the reason of a negative acknowledgement (C116_forged_reply); C116_last_wrong."
  },
  {
   "property": "C117",
   "status": "partial",
   "theorems": [
    "Verif.Props.C117_wrong_iff",
    "Verif.Props.C117_counted",
    "Verif.Props.C117_none_before",
    "Verif.Props.C117_wrong_reported",
    "Verif.Props.C117_primary_reported",
    "Verif.Props.C117_reports_true",
    "Verif.Props.C117_honest_partial",
    "Verif.Props.C117_resent_reported",
    "Verif.Props.C117_waiting_unbounded"
   ],
   "note": "Proved: who is counted (C117_counted, for a replica that keeps early PREPAREs; C117_none_before), who is reported (C117_wrong_reported, C117_primary_reported), that reports are true (C117_reports_true), and that a node which sends one matching PREPARE is never reported (C117_honest_partial). False without 'one': a node that sends its PREPARE again, as when asked for it, is reported (C117_resent_reported). Early PREPAREs wait without bound (C117_waiting_unbounded)."
  },
  {
   "property": "C118",
   "status": "partial",
   "theorems": [
    "Verif.Props.C118_parse_iff",
    "Verif.Props.C118_written_once",
    "Verif.Props.C118_full_read",
    "Verif.Props.C118_full_injective",
    "Verif.Props.C118_plenum_iff",
    "Verif.Props.C118_release_partial",
    "Verif.Props.C118_release_dev0",
    "Verif.Props.C118_set_load"
   ],
   "note": "Proved for the parser in the code (used where the package packaging is missing): C118_parse_iff, C118_written_once, C118_full_read, C118_full_injective, C118_plenum_iff, C118_set_load. The last part is false: a release version is taken also from N.N.N.dev0, and from nothing else beyond releases (C118_release_partial, C118_release_dev0)."
  },
  {
   "property": "C119",
   "status": "partial",
   "theorems": [
    "Verif.Props.C119_kept_partial",
    "Verif.Props.C119_del_ok",
    "Verif.Props.C119_pruned",
    "Verif.Props.C119_pruned_later",
    "Verif.Props.C119_reverted",
    "Verif.Props.C119_reverted_run",
    "Verif.Props.C119_reverted_kept",
    "Verif.Props.C119_count_told",
    "Verif.Props.C119_del_marked",
    "Verif.Props.C119_del_leaks"
   ],
   "note": "Proved: C119_kept_partial and C119_del_ok for fewer than 2^62 uses where nobody deletes what is not referred to; C119_pruned, and C119_pruned_later with any uses of other keys in between; C119_reverted, C119_reverted_run and C119_reverted_kept for puts and deletes of one epoch. False: the count told is always 0 (C119_count_told); a delete without a reference is carried out on a marked key (C119_del_marked), which is then not removed (C119_del_leaks)."
  },
  {
   "property": "C12",
   "status": "proved",
   "theorems": [
    "Verif.Props.same_content_same_root",
    "Verif.Props.same_root_same_content",
    "Verif.Props.head_hash_noted"
   ],
   "note": "For every pair of histories; also the converse (equal root hash implies equal content), both unless hashed strings collide."
  },
  {
   "property": "C120",
   "status": "partial",
   "theorems": [
    "Verif.Props.C120_order",
    "Verif.Props.C120_exactly",
    "Verif.Props.C120_service",
    "Verif.Props.C120_first",
    "Verif.Props.C120_unhandled",
    "Verif.Props.C120_added_partial",
    "Verif.Props.C120_broad_first"
   ],
   "note": "Proved: C120_order, C120_exactly, C120_service for plain handlers; C120_first and C120_unhandled for all routes; C120_added_partial if a message has one of the types only. False otherwise: the type added first is taken, also if another one is narrower (C120_broad_first)."
  },
  {
   "property": "C13",
   "status": "proved",
   "theorems": [
    "Verif.Props.state_proof_sound",
    "Verif.Props.state_proof_complete",
    "Verif.Props.serialized_proof_sound",
    "Verif.Props.serialized_same",
    "Verif.Props.state_proof_multi_sound",
    "Verif.Props.malformed_proof_poisons",
    "Verif.Props.poisoned_reads_fail",
    "Verif.Props.state_proof_complete_past"
   ],
   "note": "Soundness for arbitrary proof nodes or bytes, presence and absence, every root the state ever had; completeness for proofs of the current root and of every root the state had before, in any order of nodes. The last two theorems show a defect beside the property: bytes that decode to a byte string leave the process-wide recorder in use, and later reads by hash raise."
  },
  {
   "property": "C14",
   "status": "proved",
   "theorems": [
    "Verif.Props.committed_reads",
    "Verif.Props.past_reads",
    "Verif.Props.state_is_a_map",
    "Verif.Props.crash_cuts_writes",
    "Verif.Props.hex_hash_commit_lost"
   ],
   "note": "For every history, with restarts and crashes between any two writes of a set or remove. Hypothesis NoHex: a root hash passed to commit explicitly is not made of ASCII hex digits only; hex_hash_commit_lost shows that the code loses such a commit."
  },
  {
   "property": "C15",
   "status": "proved",
   "theorems": [
    "Verif.Props.C15_quorum_sizes",
    "Verif.Props.C15_weak_quorum_honest"
   ],
   "note": "every n >= 1; float division modelled as integer division"
  },
  {
   "property": "C16",
   "status": "proved",
   "theorems": [
    "Verif.Props.C16_strong_quorums_intersect",
    "Verif.Props.C16_prepare_cert_intersects"
   ],
   "note": ""
  },
  {
   "property": "C17",
   "status": "partial",
   "theorems": [
    "Verif.Props.C17_prepared_agree",
    "Verif.Props.C17_commit_prepared",
    "Verif.Props.C17_no_equivocation",
    "Verif.Props.C17_agreement_partial",
    "Verif.Props.C17_honest_primary_partial",
    "Verif.Props.C17_bls_value_partial",
    "Verif.Props.C17_fork"
   ],
   "note": "The full claim is false of the code: C17_fork exhibits two honest nodes ordering different batches with one Byzantine primary of four, because a COMMIT names no digest and ordering asks only for COMMITs. Proved for every pool, history and schedule: prepare certificates agree; nodes that sent their own COMMIT agree; agreement under an honest primary; agreement on the BLS-signed fields otherwise. Batches at or below the NEW_VIEW certificate are out of scope here."
  },
  {
   "property": "C18",
   "status": "partial",
   "theorems": [
    "Verif.Props.C18_at_most_once",
    "Verif.Props.C18_contiguous_partial",
    "Verif.Props.C18_no_gaps",
    "Verif.Props.C18_gap_after_catchup"
   ],
   "note": "At most once: every history. Contiguity: every history, except for a replica that is now primary and started a catchup in the middle of an earlier view; C18_gap_after_catchup shows the exception is real in the model."
  },
  {
   "property": "C19",
   "status": "partial",
   "theorems": [
    "Verif.Props.C19_order_evidence_partial",
    "Verif.Props.C19_some_honest_prepared",
    "Verif.Props.C19_without_prepares"
   ],
   "note": "PRE-PREPARE of the primary and n-f distinct COMMITs are proved; the prepare certificate is proved when the node sent a COMMIT itself. C19_without_prepares: the code orders without a prepare certificate otherwise."
  },
  {
   "property": "C20",
   "status": "partial",
   "theorems": [
    "Verif.Props.C20_locked_batch_kept",
    "Verif.Props.C20_batches_justified",
    "Verif.Props.C20_ordered_batch_kept_partial",
    "Verif.Props.C20_later_view_conflict"
   ],
   "note": "Proved for batches ordered in the view being left, from the three-phase commit to the NEW_VIEW. The code does not have it over several view changes: C20_later_view_conflict."
  },
  {
   "property": "C21",
   "status": "partial",
   "theorems": [
    "Verif.Props.C21_new_view_justified_partial",
    "Verif.Props.C21_honest_new_view",
    "Verif.Props.C21_repeated_names"
   ],
   "note": "Proved for NEW_VIEWs that name no node twice. The code does not check this: C21_repeated_names."
  },
  {
   "property": "C22",
   "status": "partial",
   "theorems": [
    "Verif.Props.C22_stable_justified",
    "Verif.Props.C22_master_window",
    "Verif.Props.C22_low_watermark_partial",
    "Verif.Props.C22_low_watermark_moves_back"
   ],
   "note": "Justification of stable checkpoints, monotonicity and window length proved; the low watermark moves back after a catchup (counterexample), so its monotonicity is proved only without catchups. Backups reset their window by design."
  },
  {
   "property": "C23",
   "status": "proved",
   "theorems": [
    "Verif.Props.C23_rotation",
    "Verif.Props.C23_backups_distinct",
    "Verif.Props.C23_primaries_distinct",
    "Verif.Props.C23_agreement",
    "Verif.Props.C23_registry_used"
   ],
   "note": "Both selectors, any list of distinct validators, any view."
  },
  {
   "property": "C24",
   "status": "partial",
   "theorems": [
    "Verif.Props.C24_quorum",
    "Verif.Props.C24_window_partial",
    "Verif.Props.C24_old_votes_counted",
    "Verif.Props.C24_enough_partial",
    "Verif.Props.C24_renewal_ignored",
    "Verif.Props.C24_deaf"
   ],
   "note": "The quorum is proved without restriction. The window is proved if the clock does not go back at a restart; otherwise it fails (counterexample). That enough votes start the view change is proved for voters that have not voted for the view before and views that are not set back; otherwise it fails (counterexamples)."
  },
  {
   "property": "C25",
   "status": "proved",
   "theorems": [
    "Verif.Props.C25_restart_keeps_votes",
    "Verif.Props.C25_crash_inside"
   ],
   "note": "Any history; also a crash between the writes of an operation."
  },
  {
   "property": "C26",
   "status": "partial",
   "theorems": [
    "Verif.Props.C26_quorum",
    "Verif.Props.C26_finalised",
    "Verif.Props.C26_authentic_partial",
    "Verif.Props.C26_applied",
    "Verif.Props.C26_once",
    "Verif.Props.C26_not_again",
    "Verif.Props.C26_rejected_again",
    "Verif.Props.C26_reply_unsigned",
    "Verif.Props.C26_applied_unvouched"
   ],
   "note": "All histories of client requests, PROPAGATEs, replies to message requests, PRE-PREPAREs, executions, releases, catchups, timeouts: f+1 distinct nodes vouched for what is handed to the instances, and once. Authenticated only when no reply for the digest was received: the signatures of a PROPAGATE in a reply are not verified (C26_reply_unsigned), and a PRE-PREPARE may name a request with too few votes (C26_applied_unvouched). C26_not_again: an executed request is never forwarded again; C26_rejected_again shows that a rejected one may be, after its record is gone."
  },
  {
   "property": "C27",
   "status": "partial",
   "theorems": [
    "Verif.Props.C27_removed_when_done",
    "Verif.Props.C27_every_instance_partial",
    "Verif.Props.C27_released_twice"
   ],
   "note": "Proved: removal only after execution and as many releases as instances. The code counts releases without attributing them; that each instance released is proved only when none releases twice. C27_released_twice: catchup followed by a stable checkpoint counts the master twice."
  },
  {
   "property": "C28",
   "status": "partial",
   "theorems": [
    "Verif.Props.C28_conserved",
    "Verif.Props.C28_no_loss_partial",
    "Verif.Props.C28_lost_by_exception",
    "Verif.Props.C28_fifo",
    "Verif.Props.C28_sorted",
    "Verif.Props.C28_limit",
    "Verif.Props.C28_until_stops"
   ],
   "note": "Conservation (as multisets), order and limit are proved for all nested arrivals and replays. Exceptions: a handler that raises during a replay loses the messages not yet replayed (C28_lost_by_exception), so 'nothing lost' is proved without exceptions. C28_until_stops: with an unstash handler the replay until the first restash stops after one message."
  },
  {
   "property": "C29",
   "status": "proved",
   "theorems": [
    "Verif.Props.C29_decision_table",
    "Verif.Props.C29_processed",
    "Verif.Props.C29_old_view"
   ],
   "note": ""
  },
  {
   "property": "C30",
   "status": "partial",
   "theorems": [
    "Verif.Props.C30_target_partial",
    "Verif.Props.C30_honest_voucher",
    "Verif.Props.C30_fork_unnoticed"
   ],
   "note": "Target vouched for by f+1 distinct nodes, at most one decision per round, and no-catchup only after n-f-1 nodes reported no more transactions. The agreement of those nodes with the own ledger is not checked by the code: C30_fork_unnoticed proves the negation of that part."
  },
  {
   "property": "C31",
   "status": "partial",
   "theorems": [
    "Verif.Props.C31_append_only",
    "Verif.Props.C31_safe_partial",
    "Verif.Props.C31_complete_partial",
    "Verif.Props.C31_corrupted"
   ],
   "note": "Proved for replies whose keys are written as Python writes integers, with arbitrary contents, senders and order, up to a hash collision exhibited in the hashed strings. C31_corrupted proves that with keys such as \"02\" one dishonest node can put any transaction into the ledger."
  },
  {
   "property": "C32",
   "status": "partial",
   "theorems": [
    "Verif.Props.C32_honest_only_partial",
    "Verif.Props.C32_seeder",
    "Verif.Props.C32_seeder_split",
    "Verif.Props.C32_honest_blamed"
   ],
   "note": "With only honest seeders (any order, overlap, repetition, splitting) nobody is blamed, no exception is raised, and catchup completes with exactly the log. C32_honest_blamed proves that one dishonest node can get an honest one blacklisted."
  },
  {
   "property": "C33",
   "status": "proved",
   "theorems": [
    "Verif.Props.C33_partition",
    "Verif.Props.C33_send"
   ],
   "note": "For any shuffle, batch size and reported sizes."
  },
  {
   "property": "C34",
   "status": "proved",
   "theorems": [
    "Verif.Props.C34_primaries_nodereg",
    "Verif.Props.C34_ledgers",
    "Verif.Props.C34_no_exception",
    "Verif.Props.C34_last_primaries",
    "Verif.Props.C34_ordered",
    "Verif.Props.C34_catchup_till",
    "Verif.Props.C34_catchup_complete"
   ],
   "note": "Over every history of applied, committed and rejected batches and restarts. Assumes of the ledgers that they only grow, that a ledger which did not grow keeps its root, and that a frozen ledger stays frozen. Primaries of a batch are a list."
  },
  {
   "property": "C35",
   "status": "proved",
   "theorems": [
    "Verif.Props.C35_answers"
   ],
   "note": "All answers of the tracker equal those of a queue of batches, for every sequence of calls in which catchup ends with no batch applied."
  },
  {
   "property": "C36",
   "status": "partial",
   "theorems": [
    "Verif.Props.C36_revert_partial",
    "Verif.Props.C36_vote_partial",
    "Verif.Props.C36_previous_view_partial",
    "Verif.Props.C36_members",
    "Verif.Props.C36_shared_list"
   ],
   "note": "For every history of applied, committed and rejected batches in which no batch changes the registry after a rejection that left batches pending: uncommitted, committed and per-view registries are those of the live batches, the registry of the view before is kept, and commits vote for a view change exactly when the number of validators changed. Without that restriction the property is false of the code: post_batch_rejected makes the uncommitted registry the very list kept for a pending batch (C36_shared_list)."
  },
  {
   "property": "C37",
   "status": "proved",
   "theorems": [
    "Verif.Props.C37_set",
    "Verif.Props.C37_equal",
    "Verif.Props.C37_tracker",
    "Verif.Props.C37_tracker_equal",
    "Verif.Props.C37_lookup_breaks_equality"
   ],
   "note": "Interval lists: all three parts for every sequence of additions. The tracker built on them: lookups and length for every sequence of calls; its equality is exact as long as nothing was looked up, a lookup in a view without batches leaves an empty entry (C37_lookup_breaks_equality)."
  },
  {
   "property": "C38",
   "status": "partial",
   "theorems": [
    "Verif.Props.C38_not_early",
    "Verif.Props.C38_at_most_once",
    "Verif.Props.C38_cancel",
    "Verif.Props.C38_all_due_run",
    "Verif.Props.C38_in_order",
    "Verif.Props.C38_period_partial",
    "Verif.Props.C38_stopped_inside"
   ],
   "note": "Queue timer: proved in full, over integer times. Repeating timers: the period is proved for timers not stopped from inside their own callback; C38_stopped_inside: a timer stopped and started in its callback runs twice per interval from then on."
  },
  {
   "property": "C39",
   "status": "proved",
   "theorems": [
    "Verif.Props.ts_lookup",
    "Verif.Props.inForce_unique",
    "Verif.Props.ts_exact",
    "Verif.Props.ts_last_key",
    "Verif.Props.ts_unknown_ledger"
   ],
   "note": "Both database back ends (LevelDB scan, RocksDB seek), any history of committed batches, negative times included. The databases themselves are modelled as sorted maps."
  },
  {
   "property": "C40",
   "status": "partial",
   "theorems": [
    "Verif.Props.chunked_size_partial",
    "Verif.Props.chunked_get_partial",
    "Verif.Props.chunked_range_partial",
    "Verif.Props.chunked_open_range_partial",
    "Verif.Props.chunked_all_partial",
    "Verif.Props.chunked_read_past_end",
    "Verif.Props.chunked_range_from_zero"
   ],
   "note": "Every chunk size and history of appends, reopenings and reads at existing positions. Missing: histories with reads past the end, for which the property is false (chunked_read_past_end), and the file format of one chunk."
  },
  {
   "property": "C41",
   "status": "partial",
   "theorems": [
    "Verif.Props.optimistic_reads_partial",
    "Verif.Props.optimistic_commit_partial",
    "Verif.Props.optimistic_reject_partial",
    "Verif.Props.optimistic_remove_keeps_key"
   ],
   "note": "All interleavings without uncommitted removals, for which the property is false (optimistic_remove_keeps_key)."
  },
  {
   "property": "C42",
   "status": "partial",
   "theorems": [
    "Verif.Props.signing_same_shape_partial",
    "Verif.Props.payload_digest_partial",
    "Verif.Props.request_digest_partial",
    "Verif.Props.multisig_payload_partial",
    "Verif.Props.multisig_digest_partial",
    "Verif.Props.signing_bytes_ambiguous"
   ],
   "note": "The claim is false in general: signing_bytes_ambiguous gives requests with different content and the same digest. Proved: values of the same shape without delimiters in texts are told apart, and requests with a flat operation of any fields, without delimiters in texts, are told apart up to a hash collision of the two named byte strings; likewise multi-signature requests that differ in their signatures."
  },
  {
   "property": "C43",
   "status": "partial",
   "theorems": [
    "Verif.Props.txn_bytes_order_partial",
    "Verif.Props.txn_bytes_depend_on_order"
   ],
   "note": "Proved for values in which no dict is reached through two lists in a row. False otherwise: txn_bytes_depend_on_order."
  },
  {
   "property": "C44",
   "status": "proved",
   "theorems": [
    "Verif.Props.split_transmits",
    "Verif.Props.prepare_parts",
    "Verif.Props.batching_history",
    "Verif.Props.split_drops_all"
   ],
   "note": "Packing, and whole histories of send, flush and connection changes, for every limit, packing function and batch setting. The parts of a message cut by a splitter are sent last first. split_drops_all: one message over the limit makes the packing drop everything; send never enqueues such a message."
  },
  {
   "property": "C45",
   "status": "partial",
   "theorems": [
    "Verif.Props.observer_confirmed_partial",
    "Verif.Props.observer_confirmed_agreeing_partial",
    "Verif.Props.observer_in_sequence",
    "Verif.Props.observer_prompt",
    "Verif.Props.observer_applies_unconfirmed"
   ],
   "note": "False as stated: observer_applies_unconfirmed shows a batch applied that only one, faulty, validator sent. Proved: f+1 distinct validators reported the sequence number, and if all reports for it agree the batch is the confirmed one; batches are applied in sequence without gaps."
  },
  {
   "property": "C46",
   "status": "proved",
   "theorems": [
    "Verif.Props.taa_validation_sound",
    "Verif.Props.taa_validation_complete",
    "Verif.Props.taa_paths"
   ],
   "note": "The list in force is the committed one, see C71. The converse needs the times to be in years 1 to 9999; outside them the code refuses the request."
  },
  {
   "property": "C47",
   "status": "partial",
   "theorems": [
    "Verif.Props.taa_change_needs_trustee_partial",
    "Verif.Props.taa_disable_needs_no_trustee"
   ],
   "note": "False for disabling: taa_disable_needs_no_trustee. Proved for creating and updating agreements and mechanism lists."
  },
  {
   "property": "C48",
   "status": "proved",
   "theorems": [
    "Verif.Props.multi_auth_threshold",
    "Verif.Props.multi_auth_all",
    "Verif.Props.multi_auth_enough",
    "Verif.Props.core_auth",
    "Verif.Props.req_auth_history",
    "Verif.Props.node_auth_history",
    "Verif.Props.auth_unknown_signers_share_key"
   ],
   "note": "For every verification function and every history of authentications. The cache of ReqAuthenticator compares the key and the signature field only; keys are digests, so the history theorem is about one request per key. auth_unknown_signers_share_key records whose key counts for signers not in the state."
  },
  {
   "property": "C49",
   "status": "partial",
   "theorems": [
    "Verif.Props.bls_local_backed_partial",
    "Verif.Props.bls_shared_checked",
    "Verif.Props.bls_shared_needs_no_quorum",
    "Verif.Props.bls_multisig_made",
    "Verif.Props.bls_spelling_blocks"
   ],
   "note": "False for multi-signatures taken from PRE-PREPAREs: bls_shared_needs_no_quorum shows one with a single participant saved. Proved for the multi-signatures a node calculates itself, while the audit ledger has the batch's transaction; and that n-f honest COMMITs make one."
  },
  {
   "property": "C50",
   "status": "partial",
   "theorems": [
    "Verif.Props.node_unique",
    "Verif.Props.node_owner_partial",
    "Verif.Props.steward_several_nodes",
    "Verif.Props.steward_unnamed_free",
    "Verif.Props.steward_unnamed"
   ],
   "note": "Names and addresses: proved, for addresses as spelled. One node per steward is false: steward_several_nodes shows that the data of a request can name another owner, and steward_unnamed that a steward whose requests have signatures but no identifier adds any number of nodes; node_owner_partial proves it for requests with identifier and without such a field."
  },
  {
   "property": "C51",
   "status": "partial",
   "theorems": [
    "Verif.Props.steward_count_partial",
    "Verif.Props.steward_limit_partial",
    "Verif.Props.steward_limit_agree_partial",
    "Verif.Props.steward_limit_kept_partial",
    "Verif.Props.nym_by_stewards",
    "Verif.Props.steward_limit_after_restart",
    "Verif.Props.steward_limit_after_reject"
   ],
   "note": "False: the count of stewards is kept in memory and is wrong after a restart (steward_limit_after_restart) and after a batch is reverted (steward_limit_after_reject). Proved for histories without these two."
  },
  {
   "property": "C52",
   "status": "proved",
   "theorems": [
    "Verif.Props.vc_attribution",
    "Verif.Props.vc_delivered",
    "Verif.Props.vc_own_reply_no_shortcut"
   ],
   "note": "For every history. f+1 different repliers, or the replier is the named one; messages of the same digest count as the same, as in the code. vc_own_reply_no_shortcut records that the second case never arises."
  },
  {
   "property": "C53",
   "status": "partial",
   "theorems": [
    "Verif.Props.freeze_record_partial",
    "Verif.Props.freeze_root_known",
    "Verif.Props.freeze_loses_state_root",
    "Verif.Props.freeze_depends_on_commits",
    "Verif.Props.freeze_catchup_differs",
    "Verif.Props.audit_depends_on_commits",
    "Verif.Props.freeze_first_batch_raises",
    "Verif.Props.frozen_not_writable",
    "Verif.Props.freeze_refused"
   ],
   "note": "Size, ledger root and earlier entries: proved for every audit history. State root: recorded only if the ledger changed in the last committed batch; freeze_loses_state_root is the counterexample. The record and the next audit transaction depend on how much the node has committed (freeze_depends_on_commits, freeze_catchup_differs, audit_depends_on_commits)."
  },
  {
   "property": "C54",
   "status": "proved",
   "theorems": [
    "Verif.Props.freshness_check",
    "Verif.Props.freshness_times",
    "Verif.Props.freshness_once"
   ],
   "note": "For every history of updates and checks at any integer times."
  },
  {
   "property": "C55",
   "status": "proved",
   "theorems": [
    "Verif.Props.C55_lookup"
   ],
   "note": "For every history of recorded batches with hexadecimal digests, down to the text of the stored values."
  },
  {
   "property": "C56",
   "status": "proved",
   "theorems": [
    "Verif.Props.bif_removal",
    "Verif.Props.bif_quorum_suffices"
   ],
   "note": "For every history of votes, own reports, view changes and pool changes. bif_quorum_suffices is the converse: f+1 valid votes after a view began do drop the instance."
  },
  {
   "property": "C57",
   "status": "partial",
   "theorems": [
    "Verif.Props.leveldb_range",
    "Verif.Props.rocksdb_range_partial",
    "Verif.Props.rocksdb_range_overruns",
    "Verif.Props.memory_range_excludes_end"
   ],
   "note": "Proved for LevelDB. For RocksDB only when the upper bound is a stored key; otherwise false (rocksdb_range_overruns)."
  },
  {
   "property": "C58",
   "status": "partial",
   "theorems": [
    "Verif.Props.throttle_decision",
    "Verif.Props.throttle_separation",
    "Verif.Props.throttle_retry_partial",
    "Verif.Props.throttle_exact_wait_refused",
    "Verif.Props.throttle_retry_needs_monotone"
   ],
   "note": "Separation is proved in full. The second half is false: a retry exactly after the returned wait is refused, and with a delay function that is not monotone so may be a later one. Proved: strictly after the wait it is granted if the delay does not shrink when the log grows."
  },
  {
   "property": "C59",
   "status": "partial",
   "theorems": [
    "Verif.Props.commit_reply_partial",
    "Verif.Props.commit_reply_given",
    "Verif.Props.commit_reply_not_own"
   ],
   "note": "False: the answer is the first COMMIT taken in for the batch, from any node (commit_reply_not_own). Proved: it answers exactly if it sent one, and with its own if that was the first."
  },
  {
   "property": "C60",
   "status": "partial",
   "theorems": [
    "Verif.Props.C60_certificate_highest_partial",
    "Verif.Props.C60_certificate_below_batch"
   ],
   "note": "Holds if all batches are of one view; fails otherwise: C60_certificate_below_batch."
  },
  {
   "property": "C61",
   "status": "partial",
   "theorems": [
    "Verif.Props.C61_order_irrelevant_partial",
    "Verif.Props.C61_order_matters"
   ],
   "note": "Holds for exactly n-f VIEW_CHANGEs with one checkpoint candidate; fails with more: C61_order_matters."
  },
  {
   "property": "C62",
   "status": "partial",
   "theorems": [
    "Verif.Props.C62_finishes_partial",
    "Verif.Props.C62_copy_blocks",
    "Verif.Props.C62_copy_stops_primary"
   ],
   "note": "Holds if no other node sends the same NEW_VIEW; fails otherwise: C62_copy_blocks. C62_copy_stops_primary: sent to the primary itself, such a copy stops it with an exception."
  },
  {
   "property": "C63",
   "status": "proved",
   "theorems": [
    "Verif.Props.C63_checkpoint_chosen",
    "Verif.Props.C63_honest_holders"
   ],
   "note": "Candidates, maximality and existence of the checkpoint chosen from VIEW_CHANGEs."
  },
  {
   "property": "C64",
   "status": "partial",
   "theorems": [
    "Verif.Props.C64_once_partial",
    "Verif.Props.C64_zero_reqid",
    "Verif.Props.C64_crash"
   ],
   "note": "Proved when no reqId is zero and the node does not stop between ledger and store. Two counterexamples: one request with reqId 0 keeps its whole batch out of the records, so all of it can be executed again; so does a crash between both writes."
  },
  {
   "property": "C65",
   "status": "partial",
   "theorems": [
    "Verif.Props.C65_exactly_missing_partial",
    "Verif.Props.C65_stall",
    "Verif.Props.C65_crash"
   ],
   "note": "Proved when the received transactions are numbered within the target. Nothing enforces that: C65_stall proves that one reply with numbers beyond the target stops all further requests, C65_crash that it makes the timer callback raise."
  },
  {
   "property": "C66",
   "status": "partial",
   "theorems": [
    "Verif.Props.C66_reload_partial",
    "Verif.Props.C66_wrong_view",
    "Verif.Props.C66_first_batch"
   ],
   "note": "For every audit history in which primaries change with the view and whose first batch leaves the registry alone. Both restrictions are needed: the code follows the primaries distance past the beginning of the view (C66_wrong_view) and takes the pool ledger size after the first batch for the one before it (C66_first_batch)."
  },
  {
   "property": "C67",
   "status": "proved",
   "theorems": [
    "Verif.Props.ledger_range"
   ],
   "note": "Both back ends; values are left serialized."
  },
  {
   "property": "C68",
   "status": "proved",
   "theorems": [
    "Verif.Props.txn_roundtrip",
    "Verif.Props.txn_bytes_injective",
    "Verif.Props.txn_bytes_exact"
   ],
   "note": "For every value on which serialize does not fail (integers beyond 64 bits, sizes of 2^32 and more). The msgpack library is modelled from its format."
  },
  {
   "property": "C69",
   "status": "proved",
   "theorems": [
    "Verif.Props.pp_digest_binds"
   ],
   "note": "Up to a collision of the hash on the two named byte strings."
  },
  {
   "property": "C70",
   "status": "proved",
   "theorems": [
    "Verif.Props.taa_immutable",
    "Verif.Props.taa_aml_immutable",
    "Verif.Props.taa_latest_in_force",
    "Verif.Props.taa_disabled",
    "Verif.Props.taa_digest_ambiguous"
   ],
   "note": "Up to two agreements of different versions with the same digest. taa_digest_ambiguous shows that trustees can ask for such a pair without a collision of the hash: version and text are joined without a separator."
  },
  {
   "property": "C71",
   "status": "partial",
   "theorems": [
    "Verif.Props.taa_decision_deterministic_partial",
    "Verif.Props.taa_decision_depends_on_commits"
   ],
   "note": "False: the list of mechanisms is read from the committed state. Proved: it holds for nodes with the same committed list."
  },
  {
   "property": "C72",
   "status": "partial",
   "theorems": [
    "Verif.Props.node_name_kept",
    "Verif.Props.node_owner_kept_partial",
    "Verif.Props.node_update_by_anyone",
    "Verif.Props.node_taken_over"
   ],
   "note": "The name is kept. The steward is kept only if no request has a field identifier in its data, and anyone can change a node: node_update_by_anyone, node_taken_over."
  },
  {
   "property": "C73",
   "status": "proved",
   "theorems": [
    "Verif.Props.node_keys_proved",
    "Verif.Props.bls_key_shared"
   ],
   "note": "With a BLS verifier configured, from a genesis where it holds. bls_key_shared records that two nodes can have the same key."
  },
  {
   "property": "C74",
   "status": "partial",
   "theorems": [
    "Verif.Props.nym_update_partial",
    "Verif.Props.nym_update_clears_role",
    "Verif.Props.nym_created",
    "Verif.Props.steward_lost"
   ],
   "note": "False for roles: a transaction without a role clears it. Proved for the rest."
  },
  {
   "property": "C75",
   "status": "proved",
   "theorems": [
    "Verif.Props.reply_3pc_requested",
    "Verif.Props.reply_nv_requested",
    "Verif.Props.reply_3pc_taken"
   ],
   "note": "For every history of the message request service of a replica."
  },
  {
   "property": "C76",
   "status": "partial",
   "theorems": [
    "Verif.Props.new_view_completes_partial",
    "Verif.Props.vc_equivocation_blocks"
   ],
   "note": "False: only the first VIEW_CHANGE of a node is kept, so a faulty node that sends another one to this node keeps it from finishing (vc_equivocation_blocks). Proved if there is no other VIEW_CHANGE of the named nodes."
  },
  {
   "property": "C77",
   "status": "partial",
   "theorems": [
    "Verif.Props.batch_times_sorted_partial",
    "Verif.Props.accepted_time_near_partial",
    "Verif.Props.accepted_by_prepares",
    "Verif.Props.primary_batches_accepted",
    "Verif.Props.new_primary_time_back",
    "Verif.Props.caught_up_time_back",
    "Verif.Props.replayed_time_back",
    "Verif.Props.copies_of_one_prepare",
    "Verif.Props.prepare_time_not_compared",
    "Verif.Props.one_message_stops_batches",
    "Verif.Props.old_batch_refused",
    "Verif.Props.early_prepares_not_counted",
    "Verif.Props.asked_for_any_time",
    "Verif.Props.primary_chooses_time",
    "Verif.Props.copies_make_any_time",
    "Verif.Props.far_time_stops_batches"
   ],
   "note": "Proved: times sorted in every regular run; an accepted time is near the clock, or f+1 PREPARE messages have come, or there was a reason to ask for the PRE-PREPARE; an honest primary's batches are accepted. False in full: a PRE-PREPARE that was asked for is taken with any time, so that a primary which sends a later one first chooses the time (primary_chooses_time); a new primary that applied batches again may make a batch with an earlier time (new_primary_time_back); catchups, replays of ordered batches and copies of one PREPARE let times go back; the f+1 PREPAREs need not be of different nodes nor have the batch's time."
  },
  {
   "property": "C78",
   "status": "partial",
   "theorems": [
    "Verif.Props.pool_known_partial",
    "Verif.Props.pool_agree_partial",
    "Verif.Props.pool_key_partial",
    "Verif.Props.promoted_after_restart",
    "Verif.Props.key_lost_on_restart",
    "Verif.Props.key_lost_on_return"
   ],
   "note": "Proved for all histories of batches, catchups and restarts: no exception, and order, names, addresses and ranks are those of the pool state, provided that a transaction that makes a validator of a node whose services were never stated carries its addresses; keys of nodes that never changed them. False in full: without the proviso a restarted node raises an exception (promoted_after_restart), and a changed key is lost by a restart of the other node (key_lost_on_restart) or by leaving and returning (key_lost_on_return)."
  },
  {
   "property": "C79",
   "status": "partial",
   "theorems": [
    "Verif.Props.backup_numbers_partial",
    "Verif.Props.backup_numbers_once_partial",
    "Verif.Props.number_reused_after_catchup",
    "Verif.Props.number_reused_without_audit",
    "Verif.Props.number_reused_after_removal",
    "Verif.Props.numbers_of_other_view"
   ],
   "note": "Proved for all histories in which the audit ledger knows the view of the node, and in a view other than 0 there is no start after a catchup of the running node and no catchup with an instance removed. False in full: in these cases numbers are used twice, or the numbers of another view are continued (concrete runs)."
  },
  {
   "property": "C80",
   "status": "partial",
   "theorems": [
    "Verif.Props.crash_ledgers",
    "Verif.Props.crash_catchup",
    "Verif.Props.crash_states_partial",
    "Verif.Props.crash_consistent_partial",
    "Verif.Props.state_loss_permanent",
    "Verif.Props.crash_loses_state",
    "Verif.Props.crash_loses_state_catchup",
    "Verif.Props.crash_loses_state_start",
    "Verif.Props.crash_loses_request",
    "Verif.Props.crash_loses_time"
   ],
   "note": "Proved for all crashes: the ledgers recover. Proved if no crash falls between a ledger and its state: the states recover; and if no crash falls between the writes of one batch or one transaction: everything recovers. False in full: concrete runs where a state, a request or a time is lost, and a lost state is proved never to come back."
  },
  {
   "property": "C81",
   "status": "partial",
   "theorems": [
    "Verif.Props.pipeline_exact_partial",
    "Verif.Props.refused_no_trace_partial",
    "Verif.Props.catchup_clean_partial",
    "Verif.Props.view_change_partial",
    "Verif.Props.accepted_as_said",
    "Verif.Props.unfinished_leaves_trace",
    "Verif.Props.not_final_blocks",
    "Verif.Props.foreign_request_accepted",
    "Verif.Props.no_audit_applied_twice",
    "Verif.Props.discarded_twice_raises",
    "Verif.Props.discarded_unreadable_raises",
    "Verif.Props.catchup_refuses_honest",
    "Verif.Props.primary_reuses_key",
    "Verif.Props.accepted_none_ordered",
    "Verif.Props.primary_batch_accepted",
    "Verif.Props.view_change_next"
   ],
   "note": "Proved for every history in which the PRE-PREPAREs have the shape an honest primary gives them and no batch is ordered after it was reverted by a catchup. False in full: a faulty primary can leave changes behind or make the node raise in five ways, and a catchup makes a node refuse the next batch of an honest primary; all with concrete runs. Also: a batch with a request said to be ordered before is not accepted; the next batch of an honest primary is accepted by a node with the same databases, view and last batch."
  },
  {
   "property": "C82",
   "status": "partial",
   "theorems": [
    "Verif.Props.C82_fork",
    "Verif.Props.C82_agreement_partial",
    "Verif.Props.C82_requests_partial",
    "Verif.Props.C82_kept_partial",
    "Verif.Props.C82_contiguous"
   ],
   "note": "False of the code even with honest primaries: C82_fork. Proved, for every schedule with any number of view changes, if honest nodes are given no PRE-PREPARE for a place the NEW_VIEW of the view has settled (and honest primaries make none), accept no NEW_VIEW that names a node twice, and the batch was committed to by the node itself or its primary is honest: C82_agreement_partial, C82_kept_partial."
  },
  {
   "property": "C83",
   "status": "partial",
   "theorems": [
    "Verif.Props.C83_null_stops",
    "Verif.Props.C83_client_stops_iff",
    "Verif.Props.C83_peer_stops_iff",
    "Verif.Props.C83_rest_survived",
    "Verif.Props.C83_request_stops",
    "Verif.Props.C83_survives_partial",
    "Verif.Props.C83_answered_partial",
    "Verif.Props.C83_routed",
    "Verif.Props.C83_batch_apart",
    "Verif.Props.C83_bounded",
    "Verif.Props.C83_too_long",
    "Verif.Props.C83_proof_request_stops"
   ],
   "note": "False of the code: null sent to the client port stops any node (C83_null_stops). Proved: exactly which messages stop it on each port and which requests for messages stop it later; every other message is survived in every history, queued messages have handlers, batches of peers are taken apart independently, and clients are answered. Not covered: exceptions raised by handlers other than that of MESSAGE_REQUEST (some are in C81 and C26)."
  },
  {
   "property": "C84",
   "status": "partial",
   "theorems": [
    "Verif.Props.C84_visits_partial",
    "Verif.Props.C84_reaches_partial",
    "Verif.Props.C84_no_exception_partial",
    "Verif.Props.C84_one_at_a_time_partial",
    "Verif.Props.C84_refused",
    "Verif.Props.C84_restart_skips",
    "Verif.Props.C84_restart_raises"
   ],
   "note": "False of a node object that is stopped and started again while a catchup runs: the current ledger is not reset, so ledgers are skipped (C84_restart_skips) or an exception is raised (C84_restart_raises). Proved for all histories in which a node is started only when no catchup runs. Sizes nodes report for the audit ledger are assumed positive, as the consistency proofs they come from are, and a reply does not shorten a ledger (C06). The sizes are reached unless the last audit transaction has no root for some ledger; then there are no targets (C34)."
  },
  {
   "property": "C85",
   "status": "partial",
   "theorems": [
    "Verif.Props.aml_reply",
    "Verif.Props.frozen_reply",
    "Verif.Props.taa_digest_reply",
    "Verif.Props.taa_reply_partial",
    "Verif.Props.get_txn_reply",
    "Verif.Props.get_txn_missing",
    "Verif.Props.taa_data_unproved",
    "Verif.Props.other_ledger_signature",
    "Verif.Props.get_txn_signature_fixed",
    "Verif.Props.nack_then_reply"
   ],
   "note": "Proved for acceptance mechanisms, frozen ledgers and agreements asked for by digest. For an agreement asked for by version, by time or in force the data is right but the proof covers its digest only (taa_data_unproved). The multi-signature may be one over another ledger with the same state root (other_ledger_signature). The one beside a transaction does not depend on it (get_txn_signature_fixed). A request with too many parameters gets a NACK and a reply (nack_then_reply). Alternatives in the theorems: a hash collision, or a proof of 2^64 bytes. Replies are modelled with the encoded bytes of the value, sequence number and time."
  },
  {
   "property": "C86",
   "status": "partial",
   "theorems": [
    "Verif.Props.client_messages_accounted",
    "Verif.Props.client_messages_bounded",
    "Verif.Props.client_order_partial",
    "Verif.Props.client_result",
    "Verif.Props.client_flush",
    "Verif.Props.client_others",
    "Verif.Props.client_send_keeps",
    "Verif.Props.client_expiry",
    "Verif.Props.client_resend",
    "Verif.Props.client_order_lost",
    "Verif.Props.client_crowded_out"
   ],
   "note": "At most once, to the right client, bounded, reasons for loss: proved for whatever the socket does. Order: false if the socket puts off one message and takes the next (client_order_lost); proved if within one call it takes no more for a client after putting one off. Independence of clients: false beyond the limit of clients (client_crowded_out); client_others says exactly when. All readings of the clock in one call are modelled as one."
  },
  {
   "property": "C87",
   "status": "partial",
   "theorems": [
    "Verif.Props.C87_accepted",
    "Verif.Props.C87_contents",
    "Verif.Props.C87_refused_partial",
    "Verif.Props.C87_value_error",
    "Verif.Props.C87_unwritable",
    "Verif.Props.C87_sent_on_partial",
    "Verif.Props.C87_sent_on_same",
    "Verif.Props.C87_inboxes",
    "Verif.Props.C87_answer_stops",
    "Verif.Props.C87_answer_dropped",
    "Verif.Props.C87_vote_stops",
    "Verif.Props.C87_refused_otherwise",
    "Verif.Props.C87_not_sent_on",
    "Verif.Props.C87_dropped"
   ],
   "note": "Acceptance is characterised exactly for all 32 types, with the requests inside PROPAGATE and BATCH_COMMITTED. Two parts of the claim are false of the code: a multi-signature of a wrong length raises ValueError (C87_refused_otherwise; C87_value_error says exactly when), and a VIEW_CHANGE or NEW_VIEW whose checkpoints are no objects is accepted and raises AttributeError when it is written out (C87_not_sent_on; C87_unwritable says exactly when). Both stop the node that gets them: C87_answer_stops, C87_vote_stops. Python's int on texts and the recognition of IP addresses are parameters."
  },
  {
   "property": "C88",
   "status": "partial",
   "theorems": [
    "Verif.Props.C88_kept",
    "Verif.Props.C88_left",
    "Verif.Props.C88_batch",
    "Verif.Props.C88_numbers",
    "Verif.Props.C88_served",
    "Verif.Props.C88_in_turn_partial",
    "Verif.Props.C88_one_place_partial",
    "Verif.Props.C88_goes_on_partial",
    "Verif.Props.C88_stops",
    "Verif.Props.C88_backup_loses",
    "Verif.Props.C88_limit_exceeded",
    "Verif.Props.C88_out_of_turn",
    "Verif.Props.C88_in_two_batches",
    "Verif.Props.C88_stopped_by_dropped",
    "Verif.Props.C88_stopped_by_primary"
   ],
   "note": "Keeping (master), shape of batches, numbers and service of full or old queues are proved in full. False of the code, with witnesses: order of coming after a revert, the limit on open batches with several ledgers, one place after a batch from another primary, keeping on backups at a view change, and going on when a queued request is dropped and propagated again or comes from a batch with too few PROPAGATEs. The partial theorems cover the other histories."
  },
  {
   "property": "C89",
   "status": "partial",
   "theorems": [
    "Verif.Props.C89_measured",
    "Verif.Props.C89_measured_often",
    "Verif.Props.C89_bounds",
    "Verif.Props.C89_never_none",
    "Verif.Props.C89_counted",
    "Verif.Props.C89_counted_once",
    "Verif.Props.C89_starts",
    "Verif.Props.C89_ends",
    "Verif.Props.C89_slow_from_start",
    "Verif.Props.C89_slow_noticed",
    "Verif.Props.C89_latency_noticed",
    "Verif.Props.C89_good_master_partial",
    "Verif.Props.C89_good_again_partial",
    "Verif.Props.C89_slow_backup",
    "Verif.Props.C89_good_backup",
    "Verif.Props.C89_late_reported",
    "Verif.Props.C89_late_true",
    "Verif.Props.C89_late_once",
    "Verif.Props.C89_no_exception",
    "Verif.Props.C89_counterexample_false_alarm",
    "Verif.Props.C89_counterexample_two_slow",
    "Verif.Props.C89_counterexample_repeats",
    "Verif.Props.C89_counterexample_one_request"
   ],
   "note": "Noticing, with bounds on how long it takes, the reports and the absence of exceptions are proved. That a good master is not accused is proved when there are requests in every window; with silence it is false, as is noticing when half of the backups are slow, too: witnesses. Numbers are exact, not floats. When the node asks the monitor is not modelled."
  },
  {
   "property": "C90",
   "status": "partial",
   "theorems": [
    "Verif.Props.C90_answered",
    "Verif.Props.C90_silent_partial",
    "Verif.Props.C90_ack_means",
    "Verif.Props.C90_reply_true",
    "Verif.Props.C90_reply_stays",
    "Verif.Props.C90_sent_again",
    "Verif.Props.C90_other_signatures",
    "Verif.Props.C90_replied_partial",
    "Verif.Props.C90_rejected_partial",
    "Verif.Props.C90_verdicts",
    "Verif.Props.C90_reject_true",
    "Verif.Props.C90_ends",
    "Verif.Props.C90_end_once",
    "Verif.Props.C90_once",
    "Verif.Props.C90_view_change_silent",
    "Verif.Props.C90_second_client",
    "Verif.Props.C90_wrong_name",
    "Verif.Props.C90_no_name",
    "Verif.Props.C90_reject_not_final",
    "Verif.Props.C90_no_word",
    "Verif.Props.C90_rejected_again",
    "Verif.Props.C90_history"
   ],
   "note": "The answers at once, the meaning of a REQACK and of a REPLY, the answer to a request sent again and at most one REPLY are proved. That the client is told the end is proved for the first who brings the request, if it is ordered here and was not rejected, outdated or caught up; otherwise it is false, as is any answer at all to a write during a view change: witnesses."
  },
  {
   "property": "C91",
   "status": "partial",
   "theorems": [
    "Verif.Props.C91_gone",
    "Verif.Props.C91_connected",
    "Verif.Props.C91_patient_partial",
    "Verif.Props.C91_timeout",
    "Verif.Props.C91_timeout_patient_partial",
    "Verif.Props.C91_flapping",
    "Verif.Props.C91_leftover",
    "Verif.Props.C91_unknown",
    "Verif.Props.C91_early",
    "Verif.Props.C91_timeout_early",
    "Verif.Props.C91_twice",
    "Verif.Props.C91_first",
    "Verif.Props.C91_in_catchup",
    "Verif.Props.C91_no_primary"
   ],
   "note": "Votes in time against a primary which is gone, and on a view change which does not end, are proved for all histories; so is that a connected primary is not voted against, after a view change or catchup that ended with it. Patience is proved unless a view change ends, or a connection is made, inside the callback that sends the vote. Missing is false: a vote against the new, connected primary while the view change is not over; none against one which is not known as a validator, or is back for a moment each minute: witnesses."
  },
  {
   "property": "C92",
   "status": "partial",
   "theorems": [
    "Verif.Props.C92_attribution_partial",
    "Verif.Props.C92_spoof",
    "Verif.Props.C92_impersonated",
    "Verif.Props.C92_once",
    "Verif.Props.C92_order_partial",
    "Verif.Props.C92_order_lost",
    "Verif.Props.C92_handed",
    "Verif.Props.C92_waits_partial",
    "Verif.Props.C92_dropped",
    "Verif.Props.C92_flooded",
    "Verif.Props.C92_known_partial",
    "Verif.Props.C92_shared",
    "Verif.Props.C92_ping",
    "Verif.Props.C92_only",
    "Verif.Props.C92_connects",
    "Verif.Props.C92_current_partial",
    "Verif.Props.C92_stale",
    "Verif.Props.C92_new_key_partial",
    "Verif.Props.C92_old_key",
    "Verif.Props.C92_old_key_again",
    "Verif.Props.C92_heard",
    "Verif.Props.C92_noticed_partial",
    "Verif.Props.C92_unnoticed",
    "Verif.Props.C92_goes_partial",
    "Verif.Props.C92_told_partial",
    "Verif.Props.C92_stops",
    "Verif.Props.C92_pinged",
    "Verif.Props.C92_redialled",
    "Verif.Props.C92_left_alone",
    "Verif.Props.C92_pause",
    "Verif.Props.C92_joins",
    "Verif.Props.C92_moves",
    "Verif.Props.C92_rekeyed",
    "Verif.Props.C92_leaves",
    "Verif.Props.C92_strangers",
    "Verif.Props.C92_hears",
    "Verif.Props.C92_watched",
    "Verif.Props.C92_ping_later",
    "Verif.Props.C92_handed_back",
    "Verif.Props.C92_room"
   ],
   "note": "Proved for all histories: messages are attributed by announced identity to a node that was given this key; no message is handed on more often than it came; what comes from a known node is handed on; remotes are nodes of the registry, all of them after a forced look; who is connected was heard. Proved with conditions, with witnesses that it fails otherwise: order, waiting messages of unknown nodes, addresses and keys that are current, losses noticed, no stop. That the sender holds the key rests on ZeroMQ and fails in the model (witness)."
  },
  {
   "property": "C93",
   "status": "partial",
   "theorems": [
    "Verif.Props.C93_progress_partial",
    "Verif.Props.C93_someone_orders",
    "Verif.Props.C93_without_faults",
    "Verif.Props.C93_prepares_sent",
    "Verif.Props.C93_stall",
    "Verif.Props.C93_alone",
    "Verif.Props.C93_stuck_after_catchup"
   ],
   "note": "Proved for all pools and histories: under the delivery conditions of Spec/Progress.lean all n - f nodes order all batches within s - base rounds of the timer, if no COMMIT is lost on the others when one of them orders (Spread). Without Spread one of the nodes orders all, and all do when no node is faulty. False without the conditions (witnesses): a node may order without ever sending its COMMIT (C93_stall); after a catchup across a view change a batch with all its COMMITs waits for ever (C93_stuck_after_catchup); a pool of one node orders nothing (C93_alone). The repeated request of missing messages and the view change that would end a stall are not part of it."
  },
  {
   "property": "C94",
   "status": "partial",
   "theorems": [
    "Verif.Props.C94_quorum_partial",
    "Verif.Props.C94_when",
    "Verif.Props.C94_enough",
    "Verif.Props.C94_one_node_moves",
    "Verif.Props.C94_last_unused",
    "Verif.Props.C94_late_primary_stuck"
   ],
   "note": "Proved for all runs: who joins, when, and that n - f messages suffice; that n - f different nodes are needed is proved if no VIEW_CHANGE arrives twice. False otherwise: one node moves any node to any later view by repeating its VIEW_CHANGE (C94_one_node_moves, for all n, views and histories). False of the use of the messages: the last one is put back for the next view change (C94_last_unused, for all runs), which can keep a primary from sending its NEW_VIEW (C94_late_primary_stuck)."
  },
  {
   "property": "C95",
   "status": "partial",
   "theorems": [
    "Verif.Props.C95_sender_partial",
    "Verif.Props.C95_votes_partial",
    "Verif.Props.C95_counted_for_another",
    "Verif.Props.C95_same_in_all",
    "Verif.Props.C95_pool_takes_both"
   ],
   "note": "Proved for all aliases without ':'. False for the others: for every node there is an alias, taken by the pool, whose messages are counted as that node's."
  },
  {
   "property": "C96",
   "status": "partial",
   "theorems": [
    "Verif.Props.C96_primary_sends_partial",
    "Verif.Props.C96_ends_partial",
    "Verif.Props.C96_needs_common",
    "Verif.Props.C96_checkpoints_differ",
    "Verif.Props.C96_primary_behind"
   ],
   "note": "Proved for all pools, orders and histories, if the nodes have a checkpoint in common, what one has prepared f + 1 have pre-prepared, and the primary lists what the others choose. False without the first (C96_needs_common, for all pools; C96_checkpoints_differ) and without the last (C96_primary_behind: all four nodes honest and all messages arrive, and no NEW_VIEW is ever sent)."
  },
  {
   "property": "C97",
   "status": "partial",
   "theorems": [
    "Verif.Props.C97_runs",
    "Verif.Props.C97_due",
    "Verif.Props.C97_order",
    "Verif.Props.C97_later_first",
    "Verif.Props.C97_repeats",
    "Verif.Props.C97_rate_partial",
    "Verif.Props.C97_stopped",
    "Verif.Props.C97_restart_doubles"
   ],
   "note": "Proved for all runs: once, not early, not cancelled, nothing due is left, repeated ones go on, and stop. The rate is proved for actions not stopped before; one stopped and started again within its period is called twice in every period from then on, in all runs (C97_restart_doubles). The order is the reverse: of what is found due at one look the last scheduled runs first (C97_order, C97_later_first)."
  },
  {
   "property": "C98",
   "status": "partial",
   "theorems": [
    "Verif.Props.C98_base58",
    "Verif.Props.C98_key",
    "Verif.Props.C98_has_key",
    "Verif.Props.C98_no_key",
    "Verif.Props.C98_signer",
    "Verif.Props.C98_signed_partial",
    "Verif.Props.C98_suffix",
    "Verif.Props.C98_endorser_stripped",
    "Verif.Props.C98_other_payload"
   ],
   "note": "Proved: base58 is one to one, the key used is that of the record, signers and verifiers fit, and signatures of 64 bytes count only for what was signed. False for longer signatures: C98_suffix, C98_endorser_stripped. The check of Ed25519 is a parameter."
  },
  {
   "property": "C99",
   "status": "partial",
   "theorems": [
    "Verif.Props.C99_reads",
    "Verif.Props.C99_recover_partial",
    "Verif.Props.C99_signatures",
    "Verif.Props.C99_ver_ambiguous",
    "Verif.Props.C99_no_author",
    "Verif.Props.C99_replay_partial",
    "Verif.Props.C99_replay_differs"
   ],
   "note": "Proved: all fields are read back, all signatures are there, and the signed bytes are recovered if the request says the version of its payload or the version is the first. False otherwise: C99_ver_ambiguous. A request without identifier has no author in its transaction though it was checked as one by its signers: C99_no_author (see C50 for what follows). With handlers for versions, replay uses other handlers than the first execution: C99_replay_differs."
  }
 ]
}
