import Verif.Spec.Merkle
import Verif.Model.Merkle
import Verif.Proofs.Bits
import Verif.Proofs.MerkleLevels
import Verif.Proofs.MerkleVerifier
import Verif.Proofs.MerkleSound
import Verif.Proofs.MerkleTree
import Verif.Proofs.MerkleStore
import Verif.Model.Ledger
import Verif.Spec.Ledger
import Verif.Proofs.Ledger
import Verif.Proofs.LedgerStaging
import Verif.Props.Merkle
import Verif.Props.Ledger
import Verif.Model.Quorums
import Verif.Proofs.Count
import Verif.Props.Quorums
import Verif.Model.Dict
import Verif.Model.BatchId
import Verif.Model.ThreePC
import Verif.Model.ViewChange
import Verif.Model.Network
import Verif.Proofs.ThreePC
import Verif.Proofs.ThreePCOrder
import Verif.Proofs.ViewChange
import Verif.Proofs.ViewChangeService
import Verif.Props.ThreePC
import Verif.Props.ViewChange
import Verif.Props.NewView
import Verif.Model.Checkpoint
import Verif.Proofs.Checkpoint
import Verif.Props.Checkpoint
import Verif.Model.Primary
import Verif.Props.Primary
import Verif.Model.InstanceChange
import Verif.Proofs.InstanceChange
import Verif.Props.InstanceChange
import Verif.Spec.Propagator
import Verif.Model.Propagator
import Verif.Proofs.Propagator
import Verif.Props.Propagator
import Verif.Model.ReqIdrToTxn
import Verif.Props.ReqIdrToTxn
import Verif.Model.StashingRouter
import Verif.Props.StashingRouter
import Verif.Model.Timer
import Verif.Props.Timer
import Verif.Model.Catchup
import Verif.Spec.Catchup
import Verif.Proofs.Catchup
import Verif.Proofs.CatchupHonest
import Verif.Model.CatchupReqs
import Verif.Props.Catchup
import Verif.Props.CatchupHonest
import Verif.Props.CatchupReqs
import Verif.Model.PyInt
import Verif.Props.PyInt
import Verif.Model.ConsProof
import Verif.Props.ConsProof
import Verif.Spec.Audit
import Verif.Model.Audit
import Verif.Proofs.Audit
import Verif.Props.Audit
import Verif.Spec.NodeReg
import Verif.Model.NodeReg
import Verif.Props.NodeReg
import Verif.Spec.Ordered
import Verif.Model.Ordered
import Verif.Props.Ordered
import Verif.Model.Rlp
import Verif.Proofs.Rlp
import Verif.Model.Trie
import Verif.Proofs.HexPrefix
import Verif.Proofs.TrieTree
import Verif.Proofs.TrieM
import Verif.Proofs.Trie
import Verif.Model.PruningState
import Verif.Spec.State
import Verif.Props.Rlp
import Verif.Proofs.State
import Verif.Proofs.StateLog
import Verif.Proofs.StateProof
import Verif.Props.State
import Verif.Props.StateProof
import Verif.Spec.KvStore
import Verif.Model.KvStore
import Verif.Proofs.KvStore
import Verif.Props.KvStore
import Verif.Spec.OptimisticKv
import Verif.Model.OptimisticKv
import Verif.Props.OptimisticKv
import Verif.Model.ChunkedStore
import Verif.Proofs.ChunkedStore
import Verif.Props.ChunkedStore
import Verif.Model.PyVal
import Verif.Spec.PyVal
import Verif.Model.MsgPack
import Verif.Proofs.MsgPack
import Verif.Props.MsgPack
import Verif.Spec.Signing
import Verif.Model.Signing
import Verif.Proofs.Signing
import Verif.Props.Signing
import Verif.Spec.Batched
import Verif.Model.Batched
import Verif.Props.Batched
import Verif.Model.Throttler
import Verif.Props.Throttler
import Verif.Model.Freshness
import Verif.Spec.Freshness
import Verif.Props.Freshness
import Verif.Model.BackupFaulty
import Verif.Spec.BackupFaulty
import Verif.Props.BackupFaulty
import Verif.Model.ClientAuth
import Verif.Spec.ClientAuth
import Verif.Props.ClientAuth
import Verif.Model.Bls
import Verif.Spec.Bls
import Verif.Props.Bls
import Verif.Model.Observer
import Verif.Spec.Observer
import Verif.Props.Observer
import Verif.Model.Taa
import Verif.Spec.Taa
import Verif.Props.Taa
import Verif.Model.NodeTxn
import Verif.Spec.NodeTxn
import Verif.Props.NodeTxn
import Verif.Model.PoolMgr
import Verif.Model.LastPp
import Verif.Spec.PoolMgr
import Verif.Spec.LastPp
import Verif.Props.PoolMgr
import Verif.Props.LastPp
import Verif.Model.NymTxn
import Verif.Spec.NymTxn
import Verif.Props.NymTxn
import Verif.Model.MsgReq
import Verif.Spec.MsgReq
import Verif.Props.MsgReq
import Verif.Model.Freeze
import Verif.Props.Freeze
import Verif.Props.VcEquiv
import Verif.Model.PpTime
import Verif.Model.AskPp
import Verif.Spec.AskPp
import Verif.Proofs.AskPp
import Verif.Props.AskPp
import Verif.Props.PpTime
import Verif.Model.Crash
import Verif.Spec.Crash
import Verif.Proofs.Crash
import Verif.Props.Crash
import Verif.Model.Pipeline
import Verif.Spec.Pipeline
import Verif.Proofs.Pipeline
import Verif.Props.Pipeline
import Verif.Model.Views
import Verif.Props.Views
import Verif.Spec.Views
import Verif.Proofs.ViewsTPC
import Verif.Proofs.ViewsVC
import Verif.Proofs.Views
import Verif.Proofs.ViewsSync
import Verif.Proofs.ViewsNV
import Verif.Proofs.ViewsNode
import Verif.Proofs.ViewsPool
import Verif.Proofs.ViewsDigest
import Verif.Props.ViewsAgree
import Verif.Spec.Entry
import Verif.Model.Entry
import Verif.Model.Asked
import Verif.Proofs.Entry
import Verif.Props.Entry
import Verif.Props.EntryMore
import Verif.Spec.Leecher
import Verif.Model.NodeLeecher
import Verif.Proofs.Leecher
import Verif.Props.Leecher
import Verif.Model.ReadReply
import Verif.Spec.ReadReply
import Verif.Proofs.ReadReply
import Verif.Props.ReadReply
import Verif.Model.ClientSend
import Verif.Spec.ClientSend
import Verif.Proofs.ClientSend
import Verif.Props.ClientSend
import Verif.Spec.Schema
import Verif.Model.Schema
import Verif.Model.Handled
import Verif.Proofs.SchemaFields
import Verif.Proofs.SchemaObjects
import Verif.Proofs.SchemaTables
import Verif.Proofs.SchemaBuild
import Verif.Proofs.SchemaRaise
import Verif.Proofs.SchemaAgain
import Verif.Props.Schema
import Verif.Model.ReqQueue
import Verif.Proofs.ReqQueue
import Verif.Proofs.ReqQueueKept
import Verif.Proofs.ReqQueueSend
import Verif.Proofs.ReqQueueOrder
import Verif.Proofs.ReqQueueOnce
import Verif.Props.ReqQueue
import Verif.Model.Monitor
import Verif.Model.AccMonitor
import Verif.Model.PerfCheck
import Verif.Spec.AccMonitor
import Verif.Spec.PerfCheck
import Verif.Proofs.AccMonitor
import Verif.Props.AccMonitor
import Verif.Props.PerfCheck
import Verif.Spec.Monitor
import Verif.Proofs.MonitorMeas
import Verif.Proofs.MonitorBound
import Verif.Proofs.MonitorBack
import Verif.Proofs.MonitorMedian
import Verif.Proofs.MonitorRun
import Verif.Proofs.MonitorVerdict
import Verif.Proofs.MonitorBackup
import Verif.Proofs.MonitorLat
import Verif.Proofs.MonitorLate
import Verif.Props.Monitor
import Verif.Model.Answers
import Verif.Spec.Answers
import Verif.Proofs.Answers
import Verif.Proofs.AnswersSent
import Verif.Proofs.AnswersCount
import Verif.Proofs.AnswersAck
import Verif.Proofs.AnswersReject
import Verif.Proofs.AnswersHistory
import Verif.Props.Answers
import Verif.Model.Watch
import Verif.Spec.Watch
import Verif.Proofs.Watch
import Verif.Proofs.WatchVotes
import Verif.Proofs.WatchEarly
import Verif.Proofs.WatchHistory
import Verif.Proofs.WatchFirst
import Verif.Props.Watch
import Verif.Proofs.InstanceChangeEnough
import Verif.Model.Stack
import Verif.Spec.Stack
import Verif.Proofs.Stack
import Verif.Proofs.StackWho
import Verif.Proofs.StackMsgs
import Verif.Proofs.StackConn
import Verif.Props.Stack
import Verif.Props.StackRetry
import Verif.Spec.Progress
import Verif.Proofs.ThreePCLive
import Verif.Proofs.ThreePCCount
import Verif.Proofs.ThreePCKeep
import Verif.Proofs.ThreePCProgress
import Verif.Proofs.ThreePCPool
import Verif.Props.Progress
import Verif.Props.Join
import Verif.Props.Names
import Verif.Model.ViewEnd
import Verif.Spec.ViewEnd
import Verif.Proofs.ViewEndCalc
import Verif.Proofs.ViewEnd
import Verif.Proofs.ViewEndPrim
import Verif.Proofs.ViewEndBack
import Verif.Proofs.ViewEndPool
import Verif.Props.ViewEnd
import Verif.Props.ViewEndStuck
import Verif.Model.ActionQueue
import Verif.Spec.ActionQueue
import Verif.Proofs.ActionQueue
import Verif.Proofs.ActionQueueRepeat
import Verif.Props.ActionQueue
import Verif.Model.Did
import Verif.Spec.Did
import Verif.Proofs.Did
import Verif.Proofs.DidKey
import Verif.Props.Did
import Verif.Model.TxnOf
import Verif.Spec.TxnOf
import Verif.Props.TxnOf
import Verif.Model.Insts
import Verif.Spec.Insts
import Verif.Proofs.Insts
import Verif.Props.Insts
import Verif.Model.Suspect
import Verif.Spec.Suspect
import Verif.Proofs.Suspect
import Verif.Proofs.SuspectPool
import Verif.Props.Suspect
import Verif.Model.Waiting
import Verif.Spec.Waiting
import Verif.Proofs.Waiting
import Verif.Props.Waiting
import Verif.Model.Listing
import Verif.Spec.Listing
import Verif.Proofs.Listing
import Verif.Props.Listing
import Verif.Spec.BlsRegister
import Verif.Model.BlsRegister
import Verif.Proofs.BlsRegister
import Verif.Props.BlsRegister
import Verif.Model.ConsAsk
import Verif.Spec.ConsAsk
import Verif.Proofs.ConsAsk
import Verif.Props.ConsAsk
import Verif.Props.ConsTimers
import Verif.Model.Intake
import Verif.Spec.Intake
import Verif.Proofs.Intake
import Verif.Props.Intake
import Verif.Props.IntakeNodes
import Verif.Props.ConsMedian
import Verif.Model.FileHash
import Verif.Spec.FileHash
import Verif.Props.FileHash
import Verif.Model.Wallet
import Verif.Spec.Wallet
import Verif.Props.Wallet
import Verif.Model.Ready
import Verif.Spec.Ready
import Verif.Props.Ready
import Verif.Model.AskProp
import Verif.Spec.AskProp
import Verif.Props.AskProp
import Verif.Model.OutBox
import Verif.Spec.OutBox
import Verif.Props.OutBox
import Verif.Model.Metrics
import Verif.Spec.Metrics
import Verif.Proofs.Metrics
import Verif.Props.Metrics
import Verif.Model.ReqRep
import Verif.Spec.ReqRep
import Verif.Props.ReqRep
import Verif.Model.PrepSuspect
import Verif.Spec.PrepSuspect
import Verif.Props.PrepSuspect
import Verif.Model.Version
import Verif.Spec.Version
import Verif.Props.Version
import Verif.Model.Refcount
import Verif.Spec.Refcount
import Verif.Props.Refcount
import Verif.Model.Channel
import Verif.Spec.Channel
import Verif.Props.Channel
