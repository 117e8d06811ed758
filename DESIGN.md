# Formal model of hyperledger/indy-plenum in Lean 4

This directory holds a Lean 4 model of the parts of indy-plenum a pool operator
or client relies on, and machine-checked theorems about it. `properties.jsonl`
lists the properties in English, `MANIFEST.json` maps each to its theorems.

## Layout

* `lean/Verif/Model/*.lean` – the model: total, computable functions written
  branch by branch after the Python. Every definition cites the file and lines
  it models and says where it simplifies.
* `lean/Verif/Spec/*.lean` – small independent specifications (RFC 6962 tree
  head, finite maps, sets of voters, …), written without reference to the model.
* `lean/Verif/Proofs/*.lean` – lemmas.
* `lean/Verif/Props/*.lean` – the property theorems, each with a concrete
  non-trivial instance (`example`) meeting its hypotheses.
* `seeded/LOG.jsonl` – log of wrong-program experiments.

## Trusted base

* Lean 4.33.0's kernel. No axioms are added; theorems may depend on `propext`,
  `Classical.choice`, `Quot.sound` only (checked with `#print axioms`). No
  `sorry`, `admit`, `native_decide`, `bv_decide`, `implemented_by`, `unsafe`.
* The reading of the Python: each model definition is a hand translation. The
  translation itself is not machine checked.
* Python integers are modelled as `Nat`/`Int`; floats (times) as `Int`/`Nat`
  or an ordered type; dicts as association lists or functions; exceptions as
  `Except`/`Option` values.
* Hash functions are never assumed injective on all inputs (that would be
  inconsistent with a fixed output length). Soundness theorems either conclude
  "… or here is an explicit collision between two of the strings actually
  hashed", or assume injectivity only on the finite set of strings hashed.
* Signature schemes (Ed25519, BLS), ZeroMQ transport, RocksDB/LevelDB
  internals, msgpack bytes, asyncio scheduling and logging/metrics are outside
  the model. Network authenticity (a message is attributed to its real sender)
  is assumed where stated.

## Plan per property

| id | modelled | proof method |
|----|----------|--------------|
| C01 | CompactMerkleTree append/extend/root as list-of-subtree machine over abstract hasher | invariant: stored hashes are MTHs of the binary decomposition; induction over appends |
| C02, C04 | `_path`, `_subproof` and the iterative verifiers | induction on size; show verifier loop computes the recursive spec |
| C03, C05 | iterative verifiers run on arbitrary lists | induction producing an explicit collision |
| C06 | getNodePosition, hash store writes, merkle_tree_hash from store | position formula closed form, injectivity, invariant |
| C07 | Ledger.add as a list of atomic writes, recovery functions | case analysis over crash points with C06 invariant |
| C08 | plenum Ledger staging | refinement to (committed list, staged list) |
| C09, C10 | fast_rlp encoder/decoder, hex-prefix | round-trip induction |
| C11–C14 | Trie node algebra: get/update/delete/normalise, PruningState | refinement to a finite map; canonical-form invariant for C12; collision extraction for C13 |
| C15, C16 | Quorums | arithmetic (`omega`), finite-set counting |
| C17–C19 | replica 3PC state machine; network with Byzantine senders | inductive invariant over all schedules |
| C20, C21, C60-C62 | NewViewBuilder, acceptance of NEW_VIEW | quorum intersection; counterexample for duplicated senders plus `_partial` |
| C22 | CheckpointService | invariant |
| C23 | primary selectors | modular arithmetic |
| C24, C25 | InstanceChangeProvider with cache + DB | invariant, refinement |
| C26, C27 | Propagator / Requests | invariant over event lists |
| C28 | StashingRouter | invariant: multiset accounting |
| C29 | OrderingServiceMsgValidator | decision logic |
| C30–C33 | ConsProofService, CatchupRepService, seeder | invariant, reuse of C05; counterexample for C32 |
| C34–C36 | AuditBatchHandler, LedgerUncommittedTracker, NodeRegHandler | invariant; counterexample for aliasing in C36 |
| C37 | IntervalList | refinement to finite set |
| C38 | QueueTimer | invariant |
| C39–C41, C57 | storage helpers | refinement; counterexamples where code deviates |
| C42, C43 | serializers | counterexamples and restricted positive theorems |
| C44 | batching | invariant |
| C45 | observer policy | counterexample and restricted positive theorem |
| C46, C47 | TAA validation/authorization | decision logic; counterexample for disable |
| C48, C49 | authentication thresholds, BLS aggregation bookkeeping | invariant; counterexample for PRE-PREPARE multi-sig |
| C50, C51 | NODE / NYM handlers | invariant; counterexamples |
| C52 | ViewChangeHandler | invariant |
| C53–C56, C58 | freeze, freshness, request map, backup faulty, throttler | invariants, decision logic |
| C63 | NewViewBuilder.calc_checkpoint | case analysis, counting |
| C64 | node with committed and uncommitted transactions and the digest store; invariant: payload digests occur once and all committed ones are recorded | partial, two counterexamples |
C65 (added): model of the re-requests after a timeout; induction over the received numbers.
C34, C35: proved in Props/Audit.lean by an invariant relating the audit ledger to the list of live batches.
C66 | NodeRegHandler reload | partial theorem over audit histories, two counterexamples
| C68 | msgpack encoder and decoder as functions on values; round trip by induction on the value |
| C69 | comma-joined texts without commas are determined by their join |
| C70, C71 | TAA handlers over histories; `do_taa_validation` | invariant over histories; counterexample and restricted theorem |
| C72, C73 | `NodeHandler` over histories | invariant; counterexamples |
| C74 | `NymHandler.update_state` | direct; counterexample |
| C59, C75 | `MessageReqService` over histories | invariant on stored requests; counterexample for C59 |
| C76 | `ViewChangeService` | induction over the VIEW_CHANGEs; invariant for the counterexample |
| C77 | `OrderingService`, times of PRE-PREPAREs | invariant over runs; concrete runs for the failures |
| C78 | `TxnPoolManager`, `TxnStackManager` | invariant relating the registries to the pool state in the middle and at the end of a batch; concrete runs for the failures |
| C79 | `LastSentPpStoreHelper` and its callers | invariant: last number, number stored and numbers used agree in the current view; concrete runs for the failures |
| C80 | the order of the writes of commit, catchup and start | invariants that hold between writes, between ledgers with states, and between batches; concrete runs for the losses |
| C81 | applying, refusing, keeping, ordering, executing and reverting batches on shared databases | an invariant that ties the databases to the batches seen in the outputs; concrete runs for the violations |
| C82 | ordering service and view change service composed; schedules over all nodes | counterexample; agreement by induction over views under the missing checks |
| C83 | From the sockets to the inboxes, with every `try` of the code | Exact sets of fatal values by cases; invariant over histories that the queues hold nothing fatal and everything routed |
| C84 | The state machine over the ledgers, with the services of a ledger as events | Invariant relating the phase, the current ledger, the targets and the log of finished ledgers |
| C85 | The read handlers over the model of the state; any history, any stored multi-signatures | From the invariant of the state (C11-C14): every root it holds gives the value and a proof the verifier accepts |
| C86 | The lists of messages kept per client; outcomes of attempts as inputs | Per-client accounting as a permutation, order as a sublist, over every history |
| C87 | All validators and schemas, constructors, `_asdict`; a separate table of the declared forms | Each validator exact for its form, tables matched line by line, then the constructors; round trip by idempotence of writing out; inboxes by an invariant over histories |
| C88 | Queues, batches and what moves requests between them, as a machine over events | Invariants over histories: held or let go; queue order as sublists; one place; every stop has a named cause |
| C89 | The monitor as a machine over events; verdicts as functions of it and the time | The state of an instance is the replay of its counts per window; closed bounds for the average in each mode; counting for medians |
| C90 | Client messages, PROPAGATEs, batches and `requestSender` as one machine with outputs | Invariants linking `seqNoDB` to the ledgers; counting of the answers against the entries of `requestSender` |
| C91 | The monitor of the connection to the primary, and the timers of votes, on the queue timer | An invariant with the latest time of the next vote; invariants over the history for what a scheduled check means |
| C92 | The stack of a node, its remotes, the index by keys, the queues, and the changes of the pool | Invariants of remotes over a relation of changes; counts and sublists for messages; backward reasoning for who is connected |
| C93 | Three-phase commit as in C17, timer of out-of-order COMMITs, arrivals | Invariants of votes, waiting messages and quorums within a view; induction over PRE-PREPAREs; counting votes; rounds of the timer |
| C94 | View change service with its queues | Invariant: counts are at most what is kept for later, what is kept at most what arrived; the last message stays in its queue |
| C95 | Names as lists of bytes | Injectivity of names without a colon; digits have none |
| C96 | Pool of view change services with the messages they send each other | Invariant of what each node keeps and acknowledges; at the last of the needed messages the NEW_VIEW can be built; a backup builds the same from the VIEW_CHANGEs named in it |
| C97 | Action queue as a machine of calls, looks and single runs | Invariant between the record and the queues; one wrapper per start; measure of the queue position until an action runs |
| C98 | Base58, DID keys, signature check | Digits of numbers for any base, there and back; cases of the key record; the authenticator of C48 with the real check |
| C99 | The transaction of a request | A reader of transactions as specification; the signing form of dicts does not depend on order; counterexamples |
| C100 | The instances of a node | Invariant over histories; the dict of replicas after each loop by induction; exact condition for the exception; counterexamples |
| C101 | Votes on PRE-PREPAREs | Case analysis in the order of the checks; for the pool an invariant over runs with the quorum of C24; for the attack the exact state after a round, by induction on the rounds |
| C102 | The queues of PRE-PREPAREs | Invariant of the queues over histories; induction on the rounds of the loop, with a proof that the rounds given suffice; for runs of PRE-PREPAREs the lowest key is the next one |
| C103 | Listing the state | The trees of C11; induction on the depth for the listing, with what the recorder gets; descent along a prefix; completeness of the proof for all keys below it |
| C104 | The register of BLS keys | Lookups interleaved with the histories of C11; invariant: the kept keys are those of the tree with the kept root hash, which the store keeps and the hash determines |
| C105 | PREPAREs without PRE-PREPARE and the request for it | Invariant over a wait: the waiting PREPAREs are those that came, a request is for the most frequent state of a long enough prefix of them; counting |
| C106 | Questions and timers of ConsProofService | Invariant: what is noted is what was said last, and at most f nodes hold the same proof while it works; sorting and counting; counterexample over all later timers |
| C107 | Receive loops and quotas | Induction over the socket with the taken prefix as witness; invariants over arrivals and turns; a measure for resuming |
| C108 | FileHashStore | The file is the entries one after another and a rest; invariant over histories |
| C109 | AccumulatingMonitorStrategy | Machine over calls; counts, windows and average by induction from the end of the history; alerts both ways |
| C110 | checkPerformance | The node's numbers and monitor are those of the calls its history means, by induction; then C109 |
| C111 | Client wallet | Keys, aliases and default are those read off the calls, by induction; paths by induction over their names |
| C112 | Readiness and the warning of a lost pool | Invariant over histories; the watcher's set is the node with its connections; its flag is the history condition, by induction |
| C113 | Asking for missing requests | What is remembered is the end of the list of digests asked for, by induction |
| C114 | Out boxes of the instances | Taken and left of a box are together what was put in, by induction |
| C115 | Metrics of a node | Accumulators under merge are a commutative monoid; the store is a permutation of the records, by induction over the history |
| C116 | Client's store of answers | The content of a file is the lines of its items; splitting gives the lines back |
| C117 | PREPAREs counted and reported | A history is split at the first PRE-PREPARE; what waits is what came before; induction over what is taken in |
| C118 | Versions | The parser takes numbers greedily, which is forced as no digit follows; parsing is shown equal to a grammar |
| C119 | Counting references | What is kept at a key is its count, or a mark if there are no references; taking back finds the first entry of each key in the journal |
| C120 | Channels and routers | What was put is what was handed on followed by the queue, kept by each step of a service; routes are a dictionary in the order of adding |

## What is modelled, and what is not

Each model file lists its own simplifications; the larger ones are:

* **Ledger** (`Model/Merkle`, `Model/Ledger`): compact Merkle tree, hash stores,
  proofs and verifiers, `Ledger` with its transaction log, recovery and staging.
  Not modelled: serialization of transactions (opaque byte strings), chunked
  transaction stores (see C40), flush policies of the key-value store. A crash
  is a cut between two atomic store writes.
* **Quorums** (`Model/Quorums`): all of `quorums.py` and `getMaxFailures`.
* **Three-phase commit** (`Model/ThreePC`, `Model/Network`): the master
  instance's `OrderingService` with its validator, one record per replica, one
  event per delivered message, timer, checkpoint, catchup or view change step;
  a pool is the event list of every honest node with authenticated messages.
  Not modelled: backup instances, restart of a node (the 3PC log is not
  persisted, so a node that restarts inside a view counts as Byzantine for that
  view), application of requests (its outcome is an arbitrary answer), suspicion
  reports, message requests. `maxInFlight` and the freshness batches only
  decide when a batch is made. The master primary never starts a catchup in the
  middle of its view (checkpoint_service.py:118-122).
* **View change** (`Model/ViewChange`): `ViewChangeService`, `NewViewBuilder`
  and the vote stores of the master instance. Digests of VIEW_CHANGEs are an
  arbitrary function. Not modelled: timers, requests for missing messages
  (a requested message is an ordinary delivery), votes for a further view
  change.
* **Checkpoints** (`Model/Checkpoint`): `CheckpointService` and its validator
  for one replica, master or backup, with the shared data other services write
  as events. Not modelled: the stash (a replay is one more delivery). A batch is
  ordered at most once (the ordering service refuses a sequence number it has
  ordered).
* **Primary selection** (`Model/Primary`): both selectors. The `while` loop gets
  as many rounds as there are validators; that these suffice is proved.
* **Votes for a view change** (`Model/InstanceChange`): `InstanceChangeProvider`
  with its database and `ViewChangeTriggerService`, with a clock and restarts.
  The JSON round trip of a stored value is not modelled; the clock stands still
  while one message is handled.
* `Model/Propagator.lean`: `plenum/server/propagator.py` (`ReqState`,
  `Requests`,
  `Propagator.propagate/canForward/forward/tryForwarding/recordAndPropagate`)
  and, from `plenum/server/node.py`, the write path of `processRequest`,
  `processPropagate`, `_clear_request_for_txn`, the marking of executed
  requests, `check_outdated_reqs` (which requests are outdated is an input). Not
  modelled: `request_propagates`, clocks, metrics, replies to clients.
* `Model/ReqIdrToTxn.lean`: `plenum/persistence/req_id_to_txn.py` (text of keys
  and values included), `Node.updateSeqNoMap`, the digest part of
  `OrderingService._do_dynamic_validation`. Not modelled: byte encoding, catchup
  of transactions.
* `Model/StashingRouter.lean`: `plenum/common/stashing_router.py`, with Python's
  call stack as part of the state so that handlers can be re-entered. Handlers'
  verdicts and exceptions are inputs. Not modelled: subscription and lookup of
  handlers by message type.
* `Model/Timer.lean`: `plenum/common/timer.py`, `QueueTimer` and
  `RepeatingTimer` (`update_interval` after construction and nested calls of
  `service` not modelled; integer times).
* `Model/Catchup.lean`, `Model/CatchupReqs.lean`, `Model/PyInt.lean`:
  `catchup_rep_service.py` (all of `start`, `process_catchup_rep`, the building
  of requests and the re-requests after a timeout) and the seeder
  (`seeder_service.py`: `process_catchup_req`, the splitter). The ledger is the
  list of its transactions and its root `Spec.mth` (justified by C01). Python's
  `int(str)` accepts more texts than `Py.int`; `C31_safe_partial` is for any
  `toInt` with `int(str(n)) == n`. Not modelled: the contents of `CATCHUP_REP`
  other than a dictionary of transactions and a list of hashes, base58 decoding
  of hashes, sending, metrics.
* `Model/ConsProof.lean`: `cons_proof_service.py` except the timers and
  questions. The service's own ledger does not change while it works.
* `Model/Audit.lean`: `LedgerUncommittedTracker`, `AuditBatchHandler` (creation
  of the audit transaction with its delta fields, apply, reject, commit,
  restart), and the readers `Node._get_last_audited_primaries`,
  `OrderingService._get_from_audit_for_ordered`,
  `NodeLeecherService._calc_catchup_till`. Not modelled: the storage of the
  audit ledger (see Model/Ledger.lean), the transformation of JSON keys to
  integers, batches whose primaries are not a list.
* `Model/NodeReg.lean`: NodeRegHandler, with the registries as references to
  list objects so that sharing is visible; the reload from the audit and pool
  ledgers after a restart. Not modelled: logging, and NODE requests other than
  by alias and services.
* `Model/Ordered.lean`: IntervalList and OrderedTracker of replica_helper.py,
  the tracker as a defaultdict whose lookups create entries.
* `state/util/fast_rlp.py`: the RLP encoder and decoder
  (`Verif/Model/Rlp.lean`). `state/trie/pruning_trie.py`: nibble paths, node
  types, `_get`, `_update`, `_delete`, `_normalize_branch_node` and their
  helpers, root hash, SPV recorder (`Verif/Model/Trie.lean`).
  `state/pruning_state.py`: opening, set, get, remove, commit, revert, proofs
  (`Verif/Model/PruningState.lean`). Not modelled: reference counts and pruning
  (the state uses `PersistentDB`, which never deletes), `to_dict`,
  `iter_branch`, `next`, prefix proofs, pickling.
* `Model/KvStore.lean`: the project's wrappers around LevelDB and RocksDB (put,
  get, remove, setBatch, iterator, WrappingIter, get_equal_or_prev,
  get_last_key), the integer comparator, StateTsDbStorage,
  TsStoreBatchHandler.commit_batch, the in-memory iterator and Ledger.getAllTxn.
  The engines are modelled by their interface: a list of entries sorted by the
  comparator. Not modelled: opening, closing, dropping, read-only mode, flush
  policy, `has_key`.
* `Model/OptimisticKv.lean`: OptimisticKVStore, all but `do_ops_in_batch`. One
  type of keys; the text/bytes mix of the code is not modelled.
* `Model/ChunkedStore.lean`: ChunkedFileStore over chunks that are lists of
  records, including that opening a chunk creates its file. Not modelled: the
  format of one file, prefixes, content hashes, `reset`.
* `PyVal`: the values of messages and transactions (`Val`). `MsgPack`:
  `MsgPackSerializer`, with `packb` and `unpackb` of the msgpack library written
  from the msgpack format. Not modelled: extension types, byte-string map keys,
  refusal of texts that are not UTF-8, the size limits of the unpacker.
* `Signing`: `SigningSerializer`, `Request.signingState`, `signingPayloadState`,
  the two digests, `generate_pp_digest`. `str` of a float is a parameter. Not
  modelled: plugin fields of requests, dict keys other than texts.
* `Batched`: `split_messages_on_batches`, `prepare_for_sending`, `send`,
  `flushOutBoxes`. Serialization and signing of a batch is any function of the
  list of messages. Not modelled: the transmission itself and the unpacking of a
  batch by the receiver.
* `Throttler`: `Throttler.acquire` with any delay function and window. Times are
  integers, not floats.
* `Freshness`: `FreshnessChecker`. Times are integers.
* `BackupFaulty`: `BackupInstanceFaultyProcessor` and what it uses of the node.
  Not modelled: sending the votes, the reasons a node has for reporting an
  instance.
* `ClientAuth`: `CoreAuthMixin`, `SimpleAuthNr`, `CoreAuthNr`,
  `ReqAuthenticator`, the node's use of it. Signatures are an arbitrary
  verification function.
* `Observer`: `ObserverSyncPolicyEachBatch`, with the applied batches as a log.
  Not modelled: parsing of the transactions of a batch.
* `Taa`: the three handlers of the author agreement and `do_taa_validation`. The
  config state is split by kind of path; `taa_paths` shows that the paths do not
  meet. Listing the digests by prefix, which disabling uses, is modelled as all
  entries.
* `Bls`: `BlsBftReplicaPlenum` and the parts of the BLS stores it uses.
  Verification of signatures and multi-signatures are arbitrary functions.
* `NodeTxn`: `NodeHandler` and the schema of NODE requests. Library checks of
  keys, IP addresses and proofs of possession are arbitrary predicates.
* `NymTxn`: `NymHandler` with its count of stewards, over batches, reverts,
  commits, catch-up and restarts.
* `MsgReq`: `MessageReqService` of a replica and its handlers for PRE-PREPARE,
  PREPARE, COMMIT, VIEW_CHANGE and NEW_VIEW; and the answers to requests for
  COMMITs.
* `Freeze`: `LedgersFreezeHandler` on committed audit ledgers of
  Model/Audit.lean. The encoding of the record in the state is not modelled.
* `PpTime`: the part of `OrderingService` that gives, checks and remembers the
  times of batches, with the numbers of the PRE-PREPAREs it asked for; the outcome
  of all other checks comes with the event. Backup
  instances are not modelled.
* `PoolMgr`: `TxnPoolManager` and `TxnStackManager`: names, services, registries
  and keys of nodes; start from the ledger, batches and catch-up. Connections,
  votes for view changes and BLS keys are not modelled; genesis transactions are
  taken to pass the checks of requests.
* `LastPp`: `LastSentPpStoreHelper` and the numbers of PRE-PREPAREs of backup
  instances through restarts, catchups, removal of instances and view changes.
  The number of instances is fixed; watermarks are not modelled.
* `Crash`: the database writes of a commit, of a catchup and of a start, in
  their order, each of which may be cut short after any write. The content of a
  state and the effect of a transaction on it are parameters, catchup replies
  are those of the pool, and each write is taken to be atomic and lasting.
* `Pipeline`: how the master instance applies, checks, keeps, reverts, orders
  and executes batches on the ledgers, the states and the audit ledger with its
  tracker, in one machine. Validation, the change of a state by a transaction,
  the content of audit transactions and the roots are parameters (roots need not
  be free of collisions). The registry of nodes, primaries, BLS and plugins are
  left out, and so is what a catchup fetches; only its start, which executes and
  reverts, is there. Exceptions other than the modelled ones in handlers are
  left out.
* Model/Views.lean: one node's ordering service and view change service
  together, with the PRE-PREPAREs kept from earlier views, the checkpoint of a
  NEW_VIEW, requests for missing PRE-PREPAREs and their replies; pools as
  schedules of events over all nodes. Left out: catchup and restarts, backup
  instances, changes of membership.
* Spec/Views.lean: the conditions under which C82 is proved, which the code does
  not enforce.
* Model/Entry.lean: from received bytes to the inboxes: `_verifyAndAppend`,
  `processReceived`, `handleOneNodeMsg`, `handleOneClientMsg` and what they
  call, the tables of routes. JSON parsing, schemas, static validation and
  signatures are parameters.
* Model/Asked.lean: what a MESSAGE_REQUEST can raise.
* Model/NodeLeecher.lean: the order of ledgers of a catchup, with the guard of
  `start_catchup`. The two services of each ledger are seen by what they put
  out.
* Model/ReadReply.lean: the read handlers of the config ledger and GET_TXN with
  their proofs, and the store of multi-signatures.
* Model/ClientSend.lean: the messages kept for clients, with the attempts of the
  socket as inputs.
* Model/Schema.lean: the validators of plenum/common/messages, the schemas of
  all types of messages, the constructors and `_asdict`. Model/Handled.lean:
  what VIEW_CHANGE, NEW_VIEW and MESSAGE_RESPONSE can raise in the handlers.
* Model/ReqQueue.lean: the queues of requests of an instance, how the primary
  makes batches of them, and how batches give requests back or let them go
  (ordering, checkpoint, catchup, view change). The validation of requests is a
  parameter; checks of PRE-PREPAREs and votes are in Model/ThreePC.lean.
* Model/Monitor.lean: the monitor with the strategies of plenum/config.py:
  throughput with its four modes, latency, the tracker of requests, both
  verdicts, the check for late requests. Floats are rational numbers and times
  are natural numbers. Not modelled: the accumulating strategy, which is
  switched off (`ACC_MONITOR_ENABLED`), and other strategies; when
  `checkPerformance` asks.
* Model/Answers.lean: the requests of clients in a node, from the message to
  REQACK, REQNACK, REPLY or REJECT, with the records of `Model/Propagator.lean`,
  `requestSender`, `seqNoDB`, the batches applied and not ordered, the ledgers.
  A transaction is the request it was made of; audit paths and multi-signatures
  are not modelled here; dynamic validation is a function of the requests
  before.
* Model/Watch.lean: PrimaryConnectionMonitorService of the master instance and
  the timer of ViewChangeService on one QueueTimer (`Model/Timer.lean`).
  Callbacks have a beginning and an end, and any event but time and other
  callbacks may happen in between. Not modelled: what becomes of the votes
  (`Model/InstanceChange.lean`), backup instances.
* Model/Stack.lean: the node stack over ZeroMQ (KITZStack, KITNetworkInterface,
  ZStack, Remote) with what TxnPoolManager and TxnStackManager do to it. Frames
  have the identity announced and the key of their connection. Not modelled:
  bytes and quotas (`Model/Entry.lean`), heartbeats (off), queues of sockets
  that are full, batches (`Model/Batched.lean`), the sockets left open when a
  remote is connected again, the authentication of the library.
* Spec/Progress.lean: what a pool needs to make progress: who is honest and in
  the view, and which messages arrive when. The model is Model/ThreePC.lean and
  Model/Network.lean.
* Model/Join.lean: the messages of a view change that come early, the queues of
  the stashing router, the inbox, and the count of VIEW_CHANGEs for later views.
  Left out: the limit of the queues.
* Model/Names.lean: names of replicas and nodes, aliases. The alias of a sender
  is what the connection gives (C92).
* Model/ViewEnd.lean, Spec/ViewEnd.lean: the acknowledgements a node sends, and
  a pool that changes its view. Nodes are those of Model/ViewChange.lean. Left
  out: the timeout that gives up and starts the next view change.
* Model/ActionQueue.lean: HasActionQueue, with a record of what was asked for
  and done. Time in ticks. Left out: exceptions of actions.
* Model/Did.lean: base58, DidIdentity, DidSigner, DidVerifier, the nacl
  Verifier, put into the authenticator of C48. Left out: white space at the end
  of base58 texts; Ed25519 itself is a relation given as a parameter.
* Model/TxnOf.lean: the conversion of requests to transactions, the functions
  that read transactions, the choice of handlers for replay. Left out: fields
  added by plugins; the version controller is that of plenum, without pool
  versions.
* Model/Insts.lean: setPoolParams, adjustReplicas, the routing and stashing of
  messages for replicas, restore_replicas, the check for lost primaries. Left
  out: what replicas do with messages; the vote for a view change when the
  primary of the master is not in the pool; which exceptions callers catch.
* Model/Suspect.lean: the reasons for refusing a PRE-PREPARE in the order of the
  code, the suspicions they become, which of them are votes, and a pool of nodes
  that vote. Left out: the exceptions of a `discarded` field that does not
  decode; how the pool gets from InstanceChange to NewViewAccepted (its end is
  an event here).
* Model/Waiting.lean: the two queues of PRE-PREPAREs of a replica that is not
  primary, what is put in them, and how they are emptied. Left out: the requests
  for missing messages, what backups do to the last ordered key, PRE-PREPAREs
  kept for a wrong time or by the router; the checks that do not look at the
  queues are arbitrary functions.
* Model/Listing.lean: `to_dict`, `_get_size`, the listing by root hash and the
  proof for the keys with a prefix, on the nodes of Model/Trie.lean. Simplified:
  paths are lists of numbers instead of byte strings joined with `+`; the depth
  of the recursion is an argument. Left out: `iter_branch`.
* Model/BlsRegister.lean: `BlsKeyRegisterPoolManager` and
  `get_all_node_data_for_root_hash`, on the state of Model/PruningState.lean and
  the listing of Model/Listing.lean. Reading the data of a node and reading a
  key are parameters that may fail. Left out: `BlsKeyRegisterPoolLedger`, which
  nothing uses.
* Model/AskPp.lean: PREPAREs that wait for their PRE-PREPARE and the request for
  it, on the requests of Model/MsgReq.lean. Whether the PRE-PREPARE waits
  elsewhere comes with each PREPARE. Sending is the list of numbers asked for.
* Model/ConsAsk.lean: what cons_proof_service.py sends and its three timers, on
  top of Model/ConsProof.lean (the rest of its state is proved to be the same,
  run_cp). A timer is whether it is set; intervals and the choice of eligible
  nodes are left out.
* Model/Intake.lean: the loops of zstack.py that take messages from the sockets,
  quota_control.py (without CompositeQuotaControl, which the node does not use)
  and their use in `Node.prod`. A socket is the list of what recv_multipart
  gives until it would block; what _verifyAndAppend accepts is a parameter
  (Model/Entry.lean has it); `limit` is None, as the looper gives it.
* Model/FileHash.lean: FileHashStore and the parts of BinaryFileStore and
  SingleFileStore it uses (no key, no hash, no separator). A crash leaves the
  first bytes of the entry being written. Text as data and negative positions
  are left out. The store is not the default one, which is DbHashStore
  (Model/Ledger.lean).
* Model/AccMonitor.lean: AccumulatingMonitorStrategy, the estimator of the rate
  and the answers of the monitor built on them (`ACC_MONITOR_ENABLED`, False by
  default; Model/Monitor.lean is the default one). Floats are exact, times are
  counted in ticks, logging is left out. Which requests are tracked
  (`requestTracker`) is Model/Monitor.lean.
* Model/PerfCheck.lean: Node.checkPerformance with the accumulating monitor, and
  the numbers of ordered requests on which it rests. The requests of a batch are
  taken to be different, and only the number of tracked ones counts.
* Model/Wallet.lean: the client's Wallet (signers, aliases, default identifier,
  signing) and the paths of WalletStorageHelper. Signatures are the key and what
  is signed; links in the file system, encoding and file errors are left out.
* Model/Ready.lean: the status of a node (Node.onConnsChanged, setPoolParams,
  Motor) and NetworkInconsistencyWatcher. The passing status `stopping` and what
  hears of a status are left out.
* Model/AskProp.lean: Propagator.request_propagates, with the nodes a message
  goes to; answers are left out.
* Model/OutBox.lean: Replicas.get_output, take_ordereds_out_of_turn and the out
  boxes. Instances added or removed, boxes emptied for a catchup, and messages
  sent while the boxes are emptied are left out.
* Model/Metrics.lean: ValueAccumulator, the metrics collector with its store,
  MetricsStats and load_metrics_from_kv_store. Floats are exact rationals, the
  root of the deviation is left out, times are from 2000 on, the bytes of an
  entry are kept as fields. __eq__ and to_str are left out.
* Model/ReqRep.lean: ClientReqRepStoreFile over DirectoryStore, by characters.
  The serializer, the return value of addReply and what a file system takes as a
  name are left out.
* Model/PrepSuspect.lean: _validate_prepare with its reports for one batch whose
  view has a known primary. What _validate stashes or discards, the requests for
  missing PRE-PREPAREs and BLS (validate_prepare does nothing) are left out.
* Model/Version.lean: PEP440VersionFallback, SemVerReleaseVersion,
  PlenumVersion, load_version and set_version, by characters. The parser of the
  package packaging and comparing versions (which PEP440VersionFallback answers
  with an exception) are left out.
* Model/Refcount.lean: RefcountDB, which only its tests use at this commit, over a storage that is a function. rlp, the
  messages to stderr and the exceptions for a key missing in commit and revert
  are left out.
* Model/Channel.lean: QueuedChannelService with a limit and RouterBase, with
  plain handlers that may put messages into the same channel. Coroutines,
  AsyncioChannelService, AsyncRouter, handlers that raise exceptions and
  metadata beside a message are left out.

## Findings: where the code does not have the property

Each is a theorem with a concrete witness in the model, next to the part of the
property that does hold.

* **C07** `C07_reset_crash_unrecoverable`: a crash between the two `reset` calls
  of a recovery leaves a hash store from which recovery fails.
* **C08** `C08_empty_append_stale`: staging an empty list of transactions and
  then adding one directly leaves a stale uncommitted tree.
* **C17, C19** `C17_fork`, `C19_without_prepares`: a COMMIT carries no digest
  and `_can_order` (ordering_service.py:1608-1640) asks for COMMITs only. With a
  Byzantine primary, an honest node that got a different PRE-PREPARE orders it
  on the COMMITs of others. The BLS signatures in COMMITs cover roots and time
  but neither the digest nor the audit root, so batches that differ only in
  rejected requests slip through.
* **C18** `C18_gap_after_catchup`: a mid-view catchup reverts applied batches
  but keeps their PRE-PREPAREs; `lastPrePrepareSeqNo` is then wrong if the
  replica becomes primary.
* **C20** `C20_later_view_conflict`: in a new view a PRE-PREPARE at or below the
  prepared certificate is not compared with the batches of the NEW_VIEW, so a
  lagging honest node pre-prepares another batch of a Byzantine primary; the
  next NEW_VIEW can then replace an ordered batch.
* **C21** `C21_repeated_names`: `NewView.viewChanges` may repeat one name `n - f`
  times.
* **C60** `C60_certificate_below_batch`: `sorted(batches)` compares views first,
  so `batches[-1]` is not always the highest sequence number. The batches are
  then also re-applied in the wrong order.
* **C61** `C61_order_matters`: the primary computes batches in order of arrival,
  the others in order of names, and the first matching batch wins.
* **C62** `C62_copy_blocks`: a NEW_VIEW of the primary that another node sent too
  is not used until `n - f` nodes sent it.
* **C22** `C22_low_watermark_moves_back`: when a catchup ends,
  `on_propagate_primary_done` moves the master's window to the last ordered
  batch; a checkpoint below it that becomes stable later moves the window back.
* **C24** `C24_old_votes_counted`: votes are persisted with the time of
  `time.perf_counter`, which starts again with the machine, so after a reboot
  votes of any age are inside the window.
* C27: `Requests.free` counts releases without knowing by whom. A caught-up
  transaction frees the request for the master (`node.py:1776`), and the
  master's next stable checkpoint frees it again: the record is removed while a
  backup instance has not released it (`C27_released_twice`).
* C64: `updateSeqNoMap` (`node.py:2748`) records a batch only if
  `all([get_req_id(txn) ...])`; `reqId` 0 passes `NonNegativeNumberField` and is
  falsy, so one such request leaves the whole batch unrecorded on every node,
  and every request in it can be replayed and executed again (`C64_zero_reqid`).
  A crash between the ledger commit and the store has the same effect on one
  node (`C64_crash`).
* C28: `process_all_stashed` empties the stash before replaying; if a handler
  raises (no `unstash_handler`), the rest of the stash is lost
  (`C28_lost_by_exception`). With an `unstash_handler`, `_unstash` returns
  `None`, so `process_stashed_until_first_restash` stops after one message
  (`C28_until_stops`); this function has no caller in the code base.
* C38: `RepeatingTimer` reschedules itself after its callback even if the
  callback stopped it; if it is started again meanwhile, two events wait and it
  runs twice per interval for ever (`C38_stopped_inside`).
* C31: `CATCHUP_REP.txns` has schema `AnyValueField`; keys are read with
  `int(key)` in one place and looked up as `str(n)` in others. A key such as
  `"02"` is counted as transaction 2 when transactions are merged but left out
  when the root is checked, so the ledger gets a transaction that was never
  verified (`C31_corrupted`). A key that is not a number raises `ValueError` out
  of `process_catchup_rep`.
* C31: `transform_txn_for_ledger` raises for an unknown transaction type outside
  the `try` of `_has_valid_catchup_replies`, so one reply can raise out of
  `process_catchup_rep` (`Err.unknownType`); the received transactions are then
  not updated. `start` finishes at once when the ledger has the target size,
  without comparing roots, and does not clear what an interrupted catchup has
  left.
* C32: transactions already received are kept when a later reply holds the same
  numbers, and the sender of the later reply is blamed if verification fails
  (`C32_honest_blamed`).
* C65: nothing checks that the numbers in a reply lie within the target. They
  are counted as received (`C65_stall`) and the gap up to them is requested,
  which raises `TypeError` when no node reported a ledger that long
  (`C65_crash`).
* C30: `process_ledger_status` compares only sizes, never roots
  (`C30_fork_unnoticed`).
* A frozen ledger whose root was written out in the audit transaction just
  before the freeze disappears from all later audit transactions:
  `_fill_frozen_ledgers` carries on only deltas.
* NodeRegHandler.post_batch_rejected assigns the list of the last pending batch
  itself, not a copy: a later promotion or demotion is written into it and
  survives the rejection of its batch, in the committed registry too
  (`C36_shared_list`).
* NodeRegHandler.__get_first_txn_in_view_from_audit follows the distance of the
  primaries past the beginning of the view if two views with batches have the
  same primaries: a restarted node takes an old view for the current one
  (`C66_wrong_view`).
* NodeRegHandler.__load_node_reg_for_first_audit_txn uses the pool ledger size
  after the first batch as the genesis size (`C66_first_batch`).
* OrderedTracker.__contains__ creates an empty entry in its defaultdict, so a
  lookup changes the result of a later comparison
  (`C37_lookup_breaks_equality`).
* `PruningState.commit(rootHash)`: a raw root hash that happens to consist of
  ASCII hexadecimal digits is un-hexlified; the committed state can then not be
  read or opened (`hex_hash_commit_lost`).
* `Trie.verify_spv_proof(serialized=True)`: bytes that decode to an RLP byte
  string raise inside `proof.push`, after the mode was pushed and outside the
  `try`. The process-wide recorder stays in verifying mode, and later reads by
  hash in that process raise `IndexError` (`malformed_proof_poisons`,
  `poisoned_reads_fail`).
* `PruningState.generate_state_proof`: the comment says that proofs are over
  committed state, but the default root is the uncommitted head. The theorem
  `state_proof_complete` is about the current root.
* `OptimisticKVStore.remove`, uncommitted: keeps the writes of the removed key
  and drops all the others (`optimistic_remove_keeps_key`).
* `ChunkedFileStore.get` past the end creates an empty chunk file; `size` is
  wrong from then on and after a restart appends go to that chunk
  (`chunked_read_past_end`). A range from 0 within one chunk gives wrong
  positions (`chunked_range_from_zero`).
* `KeyValueStorageRocksdb.iterator` with an upper bound that is not a stored key
  runs to the end of the store (`rocksdb_range_overruns`). `Ledger.getAllTxn`
  guards against it (`ledger_range`). `KeyValueStorageInMemory.iterator` leaves
  out the upper bound and does not sort (`memory_range_excludes_end`).
* `SigningSerializer` is not injective: delimiters in texts, nested dicts and
  types are ambiguous (`signing_bytes_ambiguous`).
* `MsgPackSerializer._sort_dict` does not reach dicts inside a list inside a
  list (`txn_bytes_depend_on_order`).
* `prepare_for_sending` pops the parts of a cut message from the end, so they
  are sent last first (`prepare_parts`). `split_messages_on_batches` gives up on
  all messages if one is too long, after the caller emptied the outbox
  (`split_drops_all`).
* `Throttler.acquire` grants strictly after the required delay but returns as
  the wait exactly the remaining delay, so a retry at that very moment is
  refused again (`throttle_exact_wait_refused`).
* A node's own repeated reports count as a quorum against a backup instance
  (`bif_removal`, second case), which is what the code documents.
* An observer applies the stashed batch of whoever reported the sequence number
  first, also when the quorum of others reported another one
  (`observer_applies_unconfirmed`); a sequence number 0 counts as none; a stale
  minimum in the heap stops later batches.
* `TXN_AUTHOR_AGREEMENT_DISABLE` is accepted from any sender, since
  `StaticTAAHelper.authorize` does not list it (`taa_disable_needs_no_trustee`).
* `do_taa_validation` reads the mechanism list from the committed state and
  everything else from the uncommitted one, so nodes that differ only in what
  they have committed decide differently (`taa_decision_depends_on_commits`).
* The digest of an agreement joins version and text without a separator, so that
  a second agreement can replace the first under its digest
  (`taa_digest_ambiguous`).
* In a NYM request that creates its own sender's identity, the key in the
  operation verifies signatures under every unknown identifier
  (`auth_unknown_signers_share_key`).
* `_validate_multi_sig` does not check how many nodes took part, and looks up
  their keys under whatever pool root the multi-signature names: a primary can
  have a multi-signature by one node saved in place of one by a quorum
  (`bls_shared_needs_no_quorum`).
* A COMMIT that spells a ledger id as "01" passes validation, is stored under
  its own key and never reaches a quorum there, so that no multi-signature is
  made for the batch (`bls_spelling_blocks`).
* Signatures of a COMMIT are accepted unchecked while the audit transaction of
  the batch is missing, and a node's own signature is never checked.
* The schema of NODE data allows unknown fields and `update_state` copies them
  over the record, so a request can set the recorded steward (`identifier`): one
  steward adds several nodes (`steward_several_nodes`).
* `NodeHandler` does not check that the sender is a steward or the steward of
  the node; `_is_steward` and `_is_steward_of_node` are not used
  (`node_update_by_anyone`, `node_taken_over`).
* Addresses of nodes are compared as text, so that two spellings of an IPv6
  address count as different; node addresses are not compared with client
  addresses of other nodes.
* A BLS key and its proof can be copied from another node (`bls_key_shared`).
* `NymHandler._steward_count` starts at 0 when a node restarts with its state
  and is not reduced when a batch is reverted, so nodes with the same state take
  different decisions (`steward_limit_after_restart`,
  `steward_limit_after_reject`).
* A NYM transaction without a role clears the role, so a steward that changes
  its key is a steward no more (`steward_lost`).
* `CommitHandler._get_reply` returns the first COMMIT stored for a batch, not
  the node's own, so that an honest node's answer can fail the BLS check at the
  receiver, which then suspects it (`commit_reply_not_own`).
* The rule that a node's own reply with its VIEW_CHANGE is enough never applies:
  the sender's name is a replica name (`Beta:0`), the requested name a node name
  (`Beta`) (`vc_own_reply_no_shortcut`).
* Freezing a ledger that did not change in the last committed batch records no
  state root (`freeze_loses_state_root`).
* The record of frozen ledgers is made from the last committed audit
  transaction, so that nodes which applied the same batches but committed
  differently far compute different config states (`freeze_depends_on_commits`);
  a node that catches up or rebuilds its state computes yet another one
  (`freeze_catchup_differs`).
* Audit transactions use the committed list of frozen ledgers, so the one after
  a freeze depends on whether the freeze is committed
  (`audit_depends_on_commits`).
* A request to freeze in the very first batch passes validation and raises a
  TypeError when applied (`freeze_first_batch_raises`).
* A node keeps only the first VIEW_CHANGE of each node; if a faulty node sent it
  another one than to the new primary it can never finish the view change
  (`vc_equivocation_blocks`).
* A new primary does not remember the times of the batches it applies again
  after a view change; if its clock is behind, its first batch has an earlier
  time and every other node refuses it (`new_primary_time_back`).
* A batch older than 600 seconds when the new view starts is refused by all
  nodes that have not ordered it, unless f+1 nodes ordered it or the node asks
  for it because a later PRE-PREPARE comes (`old_batch_refused`).
* The time of a PRE-PREPARE that was asked for is not checked. A primary sends
  batch 3 before batch 2: the nodes ask for batch 2 and take it with any time,
  before the last one or years ahead (`asked_for_any_time`,
  `primary_chooses_time`); one far ahead stops later batches
  (`far_time_stops_batches`). n-f-1 copies of a PREPARE of one node do the same
  (`copies_make_any_time`). An earlier version of the model left this case out,
  on the wrong belief that nothing is put in `requested_pre_prepares`: it is the
  same object as the requests of `PreprepareHandler`.
* A PRE-PREPARE for an ordered batch up to the last one of the NEW_VIEW is taken
  from any sender without checks and its time remembered: one message with a far
  time stops a node from accepting batches (`one_message_stops_batches`).
* The f+1 PREPAREs that let a PRE-PREPARE with a wrong time through are counted
  by message, not by sender, and their time is not compared with its time
  (`copies_of_one_prepare`, `prepare_time_not_compared`); those that came before
  it, if too few to ask for it, are not looked at (`early_prepares_not_counted`).
* After a catchup the time of the last batch is not known
  (`caught_up_time_back`).
* A node that joined without `services` is not in the services cache of a node
  that started later; the transaction that makes it a validator, if it has no
  addresses, raises KeyError there while it is executed, and works at nodes that
  were not restarted (`promoted_after_restart`).
* The ledger is read for keys without looking at `verkey`: after a restart, and
  after a validator leaves and returns, the first key (the nym) is used again
  for a node that changed it (`key_lost_on_restart`, `key_lost_on_return`).
* `select_primaries_on_catchup_complete` restores the stored batch numbers only
  if the view before the catchup was 0, and erases them otherwise; a node that
  catches up while running in another view and is then stopped and started gives
  numbers of backup instances again (`number_reused_after_catchup`), and so does
  a backup instance that was removed and restored
  (`number_reused_after_removal`).
* With an empty audit ledger the stored numbers are erased at the start
  (`number_reused_without_audit`).
* The view stored with the numbers is not compared with the current view: after
  a view change while the node was down it continues the numbers of the old view
  (`numbers_of_other_view`).
* A commit writes the transactions to the ledger, then the root of the state,
  the audit ledger, the times and the two indexes of requests, with no
  transaction over them and no recovery log. Catchup only applies transactions
  that are missing in the ledger, and a state is made from its ledger only if it
  is empty. After a crash between the ledger and the state the state stays wrong
  for good, and the node refuses all later batches of that ledger
  (`crash_loses_state`, `state_loss_permanent`); the same for a crash in a
  catchup (`crash_loses_state_catchup`) or while a state is made at the start
  (`crash_loses_state_start`).
* After a crash before the index of requests is written an executed request is
  not known to the node, and after one between its two writes it is known by one
  digest only (`crash_loses_request`); after a crash before the time is written
  reads at that time fail (`crash_loses_time`). The primary rejects a duplicate
  only if it finds it there.
* A PRE-PREPARE with `sub_seq_no` other than zero, or with `final` false, is
  applied, then refused without a revert, and nothing remembers it. All later
  PRE-PREPAREs are refused, and neither view change nor catchup removes the
  changes (`unfinished_leaves_trace`, `not_final_blocks`). The comment in the
  code says of one that is not final: this is fine, just wait for another.
* A PRE-PREPARE of one ledger may hold requests of another. All nodes accept it;
  executing it commits nothing (or a part of another batch) and reverting it
  raises (`foreign_request_accepted`).
* A PRE-PREPARE without an audit root is accepted. When it is executed and no
  audit transaction is uncommitted, the node takes it for a batch which is not
  applied and applies it a second time (`no_audit_applied_twice`).
* Only the number of the discarded indices is compared. With an index given
  twice, the number of transactions to commit is too large and the commit raises
  after it has written to the ledger (`discarded_twice_raises`). If the field
  cannot be decoded the exception comes after the requests were applied
  (`discarded_unreadable_raises`).
* A catchup reverts the batches that are not ordered but keeps their
  PRE-PREPAREs. The next batch of an honest primary is then refused, with a
  suspicion (`catchup_refuses_honest`); and a primary that starts a catchup
  gives the sequence number of a batch it has sent to another batch
  (`primary_reuses_key`).
* C26: a PROPAGATE inside a MESSAGE_RESPONSE is processed without verifying the
  signatures of its request (and without having been asked for). In a pool of
  four one faulty node's reply and this node's own vote are enough to hand an
  unsigned request to ordering (`C26_reply_unsigned`).
* C26: a request which a PRE-PREPARE names is applied as soon as there is a
  record of it, however few nodes vouched for it; the check for f+1 PROPAGATEs
  is commented out in `_non_finalised_reqs` (`C26_applied_unvouched`).
* C82: `_can_process_pre_prepare` skips every check, also that of the sender,
  for a PRE-PREPARE at or below the last ordered sequence number; up to the
  certificate of the NEW_VIEW the validator lets such a message through. So any
  one faulty node, never the primary, can replace the PRE-PREPARE stored at a
  node that has ordered that place; the node's earlier PREPARE and a forged one
  then count for the forged batch, which is reported as prepared in the next
  view change, named by its NEW_VIEW and ordered by a node that had not ordered
  the original: a fork with one faulty node of four and honest primaries in
  every view (`C82_fork`).
* C62: a copy of the NEW_VIEW that the next primary is about to send, sent to it
  by a faulty node before, makes `_finish_view_change` raise an `AttributeError`
  at the primary, which stops (`C62_copy_stops_primary`).
* C83: `OP_FIELD_NAME not in msg or msg[OP_FIELD_NAME] != BATCH`
  (stp_zmq/zstack.py:641) is outside every `try`: a JSON number, `null`, `true`,
  a text containing "op" or an array with the element "op", from any peer or any
  client, ends the process. On the client port every JSON text or array that is
  not empty does, because `handleInvalidClientMsg` calls `msg.get` while it
  handles the first exception; so does `{"signatures": 5}`, and an unsigned
  write with `"op": "LEDGER_STATUS"`, because `MissingSignature` has no
  arguments and `ex.args[0]` is logged. Proved: C83_null_stops,
  C83_client_stops_iff, C83_peer_stops_iff.
* C83: a MESSAGE_REQUEST for a PROPAGATE with a list as digest, for a
  VIEW_CHANGE with a list as name, or for a LEDGER_STATUS of ledger 1.0 ends the
  process of the node that gets it. Proved: C83_request_stops.
* C83, not modelled: `z85_to_friendly` catches only `ValueError`, and is given
  the identity the client chose.
* C84: `NodeLeecherService.start` does not reset `_current_ledger`, and
  `LedgerLeecherService.reset` does not stop the services of a ledger. If a node
  object is stopped and started again during the last phase of a catchup, the
  next catchup ends without the ledger that was being caught up and those before
  it, although `is_synced` becomes true; if that ledger has been frozen since,
  `index` raises a `ValueError`. Proved: C84_restart_skips, C84_restart_raises.
* C85: in the reply for the author agreement in force, of a version or of a
  time, the state proof covers the path that holds the digest, not the path that
  holds the agreement. A client can check the text and version against the
  digest, but the times of ratification and retirement, the sequence number and
  the time of the reply are not covered by anything: one node can send others.
  Proved: taa_data_unproved.
* C85: multi-signatures of all ledgers are stored under the state root alone. If
  two states have the same content (both empty, for example) a reply carries the
  multi-signature of whichever ledger was signed last. Proved:
  other_ledger_signature.
* C85: `GetTxnHandler` puts beside a transaction the multi-signature of the last
  state root of the ledger, or none if that batch got none, whatever the
  transaction. Proved: get_txn_signature_fixed.
* C85: `process_query` sends a reply also after a NACK. Proved: nack_then_reply.
* C86: if the socket puts off a message (busy, client unreachable), those behind
  it are tried all the same: a client can get a reply before an earlier message.
  Proved: client_order_lost.
* C86: messages are kept for at most 100 clients; the client that has waited
  longest loses all of them when another comes. A client can so drop the replies
  of others by opening a hundred connections, asking and leaving: messages to
  peers that are gone (errno 113) are kept too. Proved: client_crowded_out.
* C87: `BlsMultiSignatureField` unpacks its value before it looks at its length.
  For a list that is not of three items it raises ValueError, and not TypeError
  as every other refusal. When such a PREPREPARE is sent as the answer to a
  question (MESSAGE_RESPONSE), `extract_message` catches TypeError only, and
  nothing above it catches anything: one such message from any peer, asked for
  or not, stops the node. Proved: C87_refused_otherwise, C87_answer_stops.
* C87: a VIEW_CHANGE may have anything in its list of checkpoints, and a
  NEW_VIEW anything as its checkpoint. Where an object is expected and is not
  there, `_asdict`, which the digests are made of, raises AttributeError: a
  VIEW_CHANGE with `checkpoints: [5]` or a NEW_VIEW with `checkpoint: null`,
  from any peer, stops every node that is changing to its view; as an answer,
  such a VIEW_CHANGE stops a node at any time. Proved: C87_not_sent_on,
  C87_vote_stops, C87_answer_stops.
* C87: if there is one object among the checkpoints of a VIEW_CHANGE, what is no
  object there is dropped silently, so different messages have the same digest.
  The same goes for batch ids when the first is an object. Proved for
  checkpoints: C87_dropped.
* C87: the pattern of Sha256HexField ends in `$` and so accepts a newline at the
  end; booleans are accepted as numbers everywhere (`ledgerId: true` is 1); the transactions of a CATCHUP_REP and the PREPREPAREs
  of an OLD_VIEW_PREPREPARE_REP are not looked at by the schemas. These are in
  the specification as they are: Spec/Schema.lean.
* C88: a primary is stopped when a request in its queue is dropped by the node
  (`check_outdated_reqs` drops requests by age, also those which are waiting in
  a queue) and a late PROPAGATE for it comes: the request is known again but has
  no `finalised`, and `_consume_req_queue_for_pre_prepare` asks for
  `None.payload_digest`. Nothing catches the AttributeError. Proved:
  C88_stopped_by_dropped.
* C88: a batch with a request for which a node has too few PROPAGATEs is
  accepted (see C26). If it is not ordered before a view change,
  `revert_unordered_batches` puts the request into the queue, and the node stops
  at the first batch it makes as the new primary. Proved:
  C88_stopped_by_primary.
* C88: `revert_unordered_batches` goes from the last batch to the first and puts
  the requests of each behind the queue, so that requests which came first are
  sent last. Proved: C88_out_of_turn.
* C88: `can_send_3pc_batch` is asked once per call, which then sends one batch
  for each ledger: `Max3PCBatchesInFlight` is exceeded by up to the number of
  ledgers less one. Proved: C88_limit_exceeded, with the exact bound in
  C88_numbers.
* C88: a new primary that takes over a batch of the old view still has its
  requests in the queue. Valid ones are found to be ordered already when the
  next batch is made; rejected ones are put into a second batch. Proved:
  C88_in_two_batches.
* C88: a backup instance clears its batches at a view change without reverting
  them; its primary no longer has their requests (the other nodes still have
  them in their queues). Proved: C88_backup_loses.
* C89: after a long silence the first `min_cnt` windows with requests are spread
  over the silence. If the master orders a request one window after the backup,
  its first `min_cnt` windows end one later, and a burst in the last of them
  counts fully for the backup and is spread for the master. With the settings of
  the code, 25 minutes of silence, a request in each of 16 windows and a hundred
  in the next, the master is found to be degraded though it has ordered the same
  requests, each within six seconds. Proved: C89_counterexample_false_alarm.
* C89: the throughput of the master is compared with `median_low` of those of
  the backups. With seven nodes there are two backups, and it is the lower of
  the two: when the master and one backup have faulty primaries, which seven
  nodes stand, the master can be as slow as the faulty backup and is never found
  to be degraded. The same for half of the backups with any number of nodes.
  Proved: C89_counterexample_two_slow; in general, C89_good_master_partial.
* C89: a backup does not check for repetitions in its batches
  (`_apply_pre_prepare` asks the dynamic validation only on the master), and
  `requestOrdered` counts a request each time while the master has not ordered
  it. One faulty backup primary of four nodes can make a good master degraded.
  Proved: C89_counterexample_repeats.
* C89: a request which the master never orders counts for nothing: latencies are
  only of ordered requests, and the throughput of the others hides it. A single
  one is never held against the master, however long it waits; the report after
  `UnorderedCheckFreq` is only logged. Proved: C89_counterexample_one_request.
* C90: during a view change a correct write request gets no answer
  (`unpackClientMsg` discards it; its comment says that a REQNACK is sent).
  Proved: C90_silent_partial, C90_view_change_silent.
* C90: `requestSender` has one client for a request, the first one. Another
  client that sends the same request, or the same client with a new connection,
  gets a REQACK and nothing more. One node that sends a PROPAGATE before the
  client's own message is there can name another client, which then gets the
  REPLY, or none, and nobody does. Proved: C90_second_client, C90_wrong_name,
  C90_no_name. Sending the request again after it was ordered helps:
  C90_sent_again.
* C90: a REJECT is sent when a PRE-PREPARE is applied, before there is any
  agreement about it. After a view change the same request can be valid and be
  ordered; then it is in the ledger and the client has been told only that it
  was rejected. Proved: C90_reject_not_final.
* C90: an acknowledged request which is dropped after the timeout, or whose
  transaction comes with a catchup, ends without a word; a rejected one which is
  sent again, while the record is there, is acknowledged and nothing more
  happens. Proved: C90_no_word, C90_rejected_again.
* C91: the timer of the votes against a lost primary is not stopped when a view
  change begins. If it is not over when this timer is due, the node votes
  against the new primary, though it is and was connected, and before
  NEW_VIEW_TIMEOUT. Proved: C91_leftover.
* C91: a primary that is not in the node's list of validators is taken for
  connected, however long it is gone (`_is_primary_connected`). Proved:
  C91_unknown. One that comes back for a moment each minute is never voted
  against. Proved: C91_flapping.
* C91: a vote is handled in the callback that sends it, and can start and end a
  view change there. Then the check starts the timer of the votes though the
  primary is connected, and a repeating timer stopped or restarted in its own
  callback is scheduled again: the next vote is early, or there are two at a
  time. Proved: C91_early, C91_timeout_early, C91_twice.
* C24: a vote of a node whose earlier vote for the view is still there is
  ignored, and does not renew it. So votes of n - f nodes within seconds may not
  start a view change, as one of them had voted two hours before. Proved:
  C24_renewal_ignored.
* C24: a catchup that ends sets the view to that of the last audit transaction,
  which may be before the view change that was started. The votes for it are
  still known, so votes for it, again from the same nodes, do nothing until the
  first are two hours old. Proved: C24_deaf.
* C92: a new key of a node (a NODE transaction with `verkey`) is used at once,
  but the ledger is read without it: `_parse_pool_transaction_file` and
  `connectNewRemote` take the key from `dest`. After a restart, or after the
  other node was demoted and promoted, a node uses the old key again: it does
  not hear the other one, and takes messages announced with the old key for its
  messages. Proved: C92_old_key, C92_old_key_again.
* C92: the identity a frame announces is looked up, and is not compared with the
  key of its connection. That a node, or anyone whose key is let in, cannot send
  in the name of another one rests on ZeroMQ. Proved: C92_spoof,
  C92_impersonated.
* C92: messages of unknown nodes wait in a queue that is limited for all of them
  together, so that one sender pushes out those of others; they are handed on
  after later ones; and in a node that takes part they are lost. Proved:
  C92_flooded, C92_order_lost, C92_dropped.
* C92: a remote is connected again at its old address and with its old key, if
  the node is put into the registry again with others (`connect` of a remote
  that is there). Proved: C92_stale.
* C92: the monitor of a socket is made at the first check after the node is
  connected. A connection that is lost before counts as one until the node is
  restarted or the other one changes. Proved: C92_unnoticed.
* C92: two nodes of one address which are connected between two checks:
  `_connsChanged` removes both, and `getRemote` raises, out of the loop of the
  node. The ledger does not let two nodes have one address; the checks of
  addresses compare texts. Proved: C92_stops.
* C92: two nodes with one key: when one leaves, the other one is not heard any
  more. Proved: C92_shared.
* C91: the votes after the first one are sent also while the node catches up or
  is not ready; only the check that starts them looks at this. Proved:
  C91_in_catchup.
* C93: a batch is ordered on n - f COMMITs, whether or not the node has sent its
  own. A node which orders before it has its PREPAREs throws these away as
  already ordered and never sends its COMMIT. When COMMITs of f Byzantine nodes
  reach this node only, the other honest nodes get no n - f COMMITs although
  every message between honest nodes arrives; the batch waits for a view change.
  With FIFO links this takes seven nodes. Proved: C93_stall.
* C93: `_process_stashed_out_of_order_commits` orders a COMMIT when the last
  ordered batch is the one before in the same view, or when it is the first
  batch ever. After a catchup that ends with a batch ordered in an earlier view,
  the next batch waits for ever with all its COMMITs, and with it all later
  ones, unless one more COMMIT for it comes. Proved: C93_stuck_after_catchup.
* C93: in a pool of one node no PREPARE is sent and no COMMIT: nothing is
  ordered. Proved: C93_alone.
* C94: `process_view_change_message` counts the VIEW_CHANGE messages for a later
  view, not their senders. One Byzantine node that sends the same VIEW_CHANGE n
  - f times moves every honest node, whatever it does, to any later view it
  likes, however far. Proved: C94_one_node_moves.
* C94: the VIEW_CHANGE that completes the count starts the view change while it
  is handled, and is stashed afterwards, with the code found before. What is
  stashed as STASH_WAITING_VIEW_CHANGE is looked at when a view change starts.
  So the node never has this VIEW_CHANGE during the view change unless it is
  sent again or asked for, and a primary does not ask. With one Byzantine node
  of four that sends different VIEW_CHANGEs, the primary cannot send a NEW_VIEW
  although all messages of honest nodes arrived. Proved: C94_last_unused,
  C94_late_primary_stuck.
* C95: `generateName` does not change a name that has a colon. The pool ledger
  takes an alias such as Alpha:0 beside Alpha. Messages of the node Alpha:0 are
  counted as those of Alpha, in the master instance and, since the name stays
  the same, in all instances. Proved: C95_counted_for_another,
  C95_pool_takes_both.
* C96: NewViewBuilder wants a checkpoint that n - f of the VIEW_CHANGEs list,
  and a node lists the stable one and later ones only. If one node of four is
  down and another has not yet stabilised a checkpoint the rest have, no
  checkpoint is listed by three nodes and no NEW_VIEW is sent, in this view or
  the next ones, until the slow node catches up. Proved: C96_needs_common,
  C96_checkpoints_differ.
* C96: a primary that is behind by a checkpoint chooses the later checkpoint of
  the others and then waits because it does not have it, although an earlier one
  is in the lists of all. With four honest nodes and every message delivered it
  sends no NEW_VIEW. Proved: C96_primary_behind.
* C96: in a pool of one node a view change does not end: nothing makes the
  primary look at its own VIEW_CHANGE. The theorems ask for two nodes.
* C97: `_serviceActions` puts each due action at the front of the queue, so what
  was scheduled last runs first, and overdue actions run latest first. Proved:
  C97_order, C97_later_first.
* C97: `stopRepeating` leaves the wrapper scheduled and `startRepeating` makes
  another, so an action stopped and started within its period runs at twice the
  rate until it is stopped for a whole period; every further restart adds one.
  The repository itself stops no repeating action. Proved: C97_restart_doubles.
  `_cancel` of a repeating action does nothing, since what is scheduled is the
  wrapper.
* C98: `Verifier.verify` joins the signature and the message and opens the
  result, without a look at the length of the signature, so a signature of a
  message counts for every end of that message; the schema allows signatures of
  512 characters. Keys are signed in order of their names and `endorser` is
  first: from the signature of an author on a request with an endorser, anyone
  makes an accepted request without the endorser, and it has another payload
  digest, so both can be executed. Proved: C98_suffix, C98_endorser_stripped,
  C98_other_payload.
* C98: the schema accepts a NYM transaction that gives half a key to a DID of 32
  bytes; nothing signed by it is ever accepted. Proved: C98_no_key.
* C99: the conversion takes `ver` out of the operation and puts the current
  version in if it was not there, so for a transaction author agreement the
  ledger does not say whether the version was signed. Proved: C99_ver_ambiguous.
* C99, C50: `request.identifier` falls back to the names of the signers, but the
  transaction only has the field. NodeHandler looks for a node of the first and
  records the second, so a steward that sends `signatures` without `identifier`
  adds any number of nodes, all recorded without a steward. Proved:
  C99_no_author, steward_unnamed, steward_unnamed_free.
* C99: `restore_state` chooses handlers by the version in the transaction, which
  the sender sets, while `apply_request` does not; if handlers are registered
  for versions (plenum itself registers none), a node that catches up applies
  such a transaction by other handlers. Proved: C99_replay_differs.
* C100: `setPoolParams` calls `adjustReplicas(len(self.replicas), …)`, as if the
  instances were numbered without gaps. If a backup other than the last has been
  removed since the view change began, a running replica is replaced (its
  messages are lost), the gap stays, and LogicError or IndexError is raised in
  the middle of ordering the first batch of the view. No fault of the node is
  needed: a backup primary that is lost less than 180 s before a view change
  begins suffices, and it does so on all nodes that saw the loss at the same
  time. Proved: C100_first_batch_exact, C100_removal_crash,
  C100_lost_primary_crash, C100_replaced.
* C100: `primaries_disconnection_times` is a list in the order of the instances
  that run, but is indexed by instance. After a removal the check looks at
  another instance: it removes backups whose primary is connected, and keeps
  those whose primary is lost. Proved: C100_check_wrong.
* C100: messages for instances that the pool does not have are kept without
  bound, for any number and from any node, and those that are not three-phase
  messages are thrown away when the instance comes. Messages for a removed
  instance are lost. Proved: C100_stash_unbounded, C100_stash_partial,
  C100_removed_lost.
* C101: `_can_process_pre_prepare` compares the digest of a PRE-PREPARE before
  it looks at the sender, and PPR_DIGEST_WRONG is one of the suspicions on which
  `reportSuspiciousNode` votes for a view change. So any one node of the pool
  that sends a PRE-PREPARE with a wrong digest to all makes all others vote
  against an honest primary, and can do so in each view: the pool orders
  nothing. PRE-PREPAREs for later views are stashed, so the messages can be sent
  in advance. Proved for every pool of at least four nodes and any number of
  views: C101_one_node_moves_all.
* C101: a primary that sends PRE-PREPAREs with a wrong root of the pool state,
  or not final ones, is never voted against because of them:
  PPR_POOL_STATE_ROOT_HASH_WRONG is not in the list of `reportSuspiciousNode`,
  and PP_NOT_FINAL is ignored. Proved: C101_no_vote.
* C102: of two PRE-PREPAREs with the same key the queue for missing predecessors
  keeps the later (a comment in `_enqueue_pre_prepare` asks about this), while
  of those that wait for requests the first to come is kept, as they are put in
  the other queue from the last to the first. Proved: C102_overwritten,
  C102_first_wins.
* C102: `dequeue_pre_prepares` looks only at the lowest key of the queue. A
  second PRE-PREPARE of the primary with a number that has been accepted and not
  ordered yet (it waited for a request) is neither next nor ordered, and holds
  up all behind it until the batch with its number is ordered. Proved:
  C102_blocked, with a reachable example.
* C102: `prePreparesPendingFinReqs` is a list without a limit and without a
  check for duplicates: a primary can make it as long as it likes with one
  PRE-PREPARE that names an unknown request. Proved: C102_unbounded.
* C102: a PRE-PREPARE is accepted when all its requests are known; one that had
  to wait is given again only when they are finalised, as `dequeue_pre_prepares`
  asks `is_finalised`. Proved: C102_waits_longer.
* C103: `to_dict(node)` starts with `node or self.root_node`, and the root node
  of the empty state is `b''`. So `get_all_leaves_for_root_hash` with the root
  hash of the empty state lists the current state, with what is not committed.
  The node data and BLS keys "for" that root hash, which a PRE-PREPARE may name,
  are those of the current pool. Proved: C103_blank_leaves.
* C104: `get_key_by_name` notes the root hash before it loads the keys. A root
  hash that the store does not have raises KeyError, and afterwards the register
  counts as loaded, with no keys. `_validate_multi_sig` passes the pool root
  hash of a multi-signature in a PRE-PREPARE unchecked, and nothing up to the
  looper catches the KeyError: one PRE-PREPARE of the primary ends the process
  of each node that validates it. Where the exception is caught, as in the
  validator info tool, all nodes count as having no BLS key under that root hash
  until another one is asked for. Proved: C104_unknown.
* C104: under the root hash of the empty pool state the register gives the keys
  of the current pool state, uncommitted changes included, and keeps them when
  the state changes. Proved: C104_blank.
* C105: `_request_pre_prepare_for_prepare` compares the number of waiting
  PREPAREs, copies included, with the quorum, and takes the most frequent state
  without the check of more than f that its comment promises. One node with
  n-f-1 copies of a PREPARE, or f nodes whose PREPAREs come first, make a node
  that missed the PRE-PREPARE refuse it in the reply and never ask again in that
  view. Proved: C105_copies, C105_tie, C105_locked.
* C106: a node that looks for a target stops both repeated timers when f+1 nodes
  have sent proofs, and then asks at most once at once and once at the timeout.
  If a dishonest node claims too much and an honest one is slow, neither
  question can be answered by f+1 nodes, and the node waits for ever, unless
  another node sends it something of its own accord or catchup is started anew.
  The median in `_get_consistency_proof_request_params` is by the number of
  nodes and not by size, so it does not keep out a size that only one node
  claims, although its comment says so. Proved: C106_stuck, C106_status_last.
* C107: `_receiveFromRemotes` unpacks `msg, = sock.recv_multipart(...)` and
  catches only ZMQError. A message of two parts, which any node of the pool can
  send from its listener, raises ValueError; nothing between there and the
  looper catches it, so the process ends. Proved: C107_parts_stop.
  (`_receiveFromListener` looks at the number of parts first.)
* C107: empty messages and messages of more than two parts are passed over
  without being counted against either quota, so a client that sends nothing but
  those faster than they are read keeps the node in one turn. Proved:
  C107_uncounted.
* C108: `FileHashStore.dataGen` has its test the wrong way round (`if i <=
  endpos: break`): `readLeafs(1, 3)` gives one hash, `readLeafs(2, 2)` all from
  the second on and then IndexError. Nothing in the code calls it. Proved:
  C108_range, C108_range_one.
* C108: FileHashStore does not remove the bytes of an entry that was not written
  to its end; entries written after it are read shifted. The ledger is not
  affected, since its log is written first and the counts then differ, so that
  it resets the store. Proved: C108_after_crash, C108_crash, C108_reset.
* C109: `AccumulatingMonitorStrategy.reset` replaces the defaultdict of alerts
  by a plain dict of the instances watched at that moment; an instance added
  later without a reset makes update_time raise KeyError. Replicas.add_replica
  resets right after adding, so a node does not meet it. Proved:
  C109_added_without_reset, C109_no_error.
* C110: `_update_new_ordered_reqs_count` compares a sum that is reset with the
  monitor to the one noted before; when the sum reaches that number again, a
  check is left out although requests were ordered. Proved: C110_same_count.
* C110: checkPerformance does nothing while no instance orders anything, so an
  alert that began goes unnoticed however old it gets, until a request is
  ordered. Proved: C110_unnoticed.
* C110: checkPerformance asks for slow backups before it asks for the master;
  only the latter moves the time of the accumulating monitor on, so backups are
  judged by the time of the look before. Proved: C110_backups, and the example
  beside it.
* C111: `Wallet.requiredIdr` cuts an identifier with colons to `split(':')[1]`,
  so for did:sov:xyz the signer of `sov` is looked for, also when did:sov:xyz
  itself is in the wallet. Proved: C111_qualified.
* C111: an identifier that is added again under a second alias is listed under
  both, and the first alias goes on leading to it. Proved: C111_listed_twice.
* C112: `minimumNodes` is 2f + 1 and not n - f, so in a pool whose size is not
  3f + 1 a node counts as ready with fewer nodes than it takes to order: with
  three of six. Proved: C112_ready_half.
* C112: setPoolParams changes the size of the pool but not the status: a node
  that counted as started stays so with too few connections for the new pool, or
  stays not ready with enough, until its connections change. Proved:
  C112_pool_changed.
* C112: a node that is the only one of its pool never leaves the status
  `starting`, since the status is judged only when connections change. Proved:
  C112_alone.
* C112: the watcher hears first of all the nodes that left and then of those
  that joined, so it warns of a lost pool also when as many others joined at the
  same look. Proved: C112_replaced.
* C113: `requested_propagates_for` has no time: a request whose PROPAGATEs were
  asked for once, and whose answers were lost, is not asked for again until 1001
  others were asked for. Proved: C113_never_again.
* C113: an empty list of nodes to ask is taken by `sendToNodes` for all nodes,
  so when every connected node sent its PROPAGATE already, all of them are asked
  again. Proved: C113_asks_senders.
* C114: get_output rounds limit / instances, also up and to one at least, so
  more messages than the limit can come out: four with a limit of three, and
  some with a limit of 0. Proved: C114_over_limit.
* C115: the number in the key of a metric starts at 0 with each start of the
  node and is taken modulo 2048, so that a record stored in the same microsecond
  with the same number replaces the earlier one. Proved: C115_lost_sample.
* C115: an accumulator without samples cannot be stored: packing raises. It does
  not come to that from flush_accumulated. Proved: C115_empty_raises.
* C116: the reason of a negative acknowledgement or rejection is written down as
  it is, also with line breaks, and read back line by line: a single node can
  make the store report replies of other nodes. Proved: C116_forged_reply.
* C116: lastReqId takes what follows the first comma of a file name for the
  number, which is wrong for an identifier with a comma. Proved:
  C116_last_wrong.
* C117: a PREPARE that comes twice from the same node is reported as suspicious
  even if it is the same; so a node which answers a request for its PREPARE
  after the original came through is reported. Proved: C117_resent_reported.
* C117: PREPAREs without a PRE-PREPARE wait in a queue that takes any number
  from one sender. Proved: C117_waiting_unbounded.
* C118: DigitDotVersion asks `if self._version.dev`, which is not met by
  development version 0, so '1.2.3.dev0' is taken for a release version although
  only dots and digits are expected. Proved: C118_release_dev0.
* C119: RefcountDB.get_refcount takes the first item of a decoded number, which
  raises an exception that is caught, so it always gives 0. Proved:
  C119_count_told.
* C119: RefcountDB.dec_refcount takes the mark of a key waiting to be removed
  for its count, so a delete without a reference is carried out, and the key is
  then never removed. Proved: C119_del_marked, C119_del_leaks.
* C120: a router takes the first added type that a message is an instance of; a
  handler for a subclass added after one for its base class is never called.
  Proved: C120_broad_first.
