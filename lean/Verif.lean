import Verif.Basic
import Verif.Model.Streams
import Verif.Model.Data
import Verif.Spec.Data
import Verif.Spec.Streams
import Verif.Proofs.DataStream
import Verif.Proofs.DataPoll
import Verif.Proofs.DataLines
import Verif.Props.Data
import Verif.Proofs.DataSink
import Verif.Props.Sink
import Verif.Proofs.Lines
import Verif.Props.Lines
import Verif.Props.Oracle
import Verif.Model.Nom
import Verif.Model.Reply
import Verif.Spec.Reply
import Verif.Proofs.Nom
import Verif.Props.Reply
import Verif.Props.Commands
import Verif.Props.ByteSlice
import Verif.Model.Server
import Verif.Spec.Server
import Verif.Proofs.Server
import Verif.Proofs.Handler
import Verif.Proofs.HandlerRuns
import Verif.Proofs.History
import Verif.Proofs.Determinism
import Verif.Proofs.Termination
import Verif.Props.Sequence
import Verif.Props.Session
import Verif.Proofs.AnyHandler
import Verif.Props.SessionEnd
import Verif.Props.Queue
import Verif.Props.Ip
import Verif.Props.Neighbours
import Verif.Props.SessionExamples
import Verif.Props.SliceParse
import Verif.Model.TestConfig
import Verif.Props.Addresses
import Verif.Props.TestSuite
import Verif.Props.Quickcheck
import Verif.Props.Conformance
import Verif.Spec.QueueFair
import Verif.Proofs.QueueLive
import Verif.Props.QueueLive
import Verif.Spec.EndToEnd
import Verif.Props.EndToEnd
import Verif.Spec.Client
import Verif.Props.Client
import Verif.Spec.Lockstep
import Verif.Proofs.Lockstep
import Verif.Props.Lockstep
import Verif.Props.Prompt
import Verif.Model.Write
import Verif.Props.Write
import Verif.Props.QueueOnce
import Verif.Props.Compose
import Verif.Props.ParseErrors
import Verif.Props.Usize
import Verif.Props.Abandon
import Verif.Props.Utf8
import Verif.Props.QueueStorm
import Verif.Props.QueueDeath
import Verif.Props.PollEnd
import Verif.Props.Hooks
import Verif.Props.Rfc5321
import Verif.Props.Rfc5321Replies
import Verif.Props.IpCanon
import Verif.Props.Memory
import Verif.Props.Work
import Verif.Props.Relay
import Verif.Props.Smuggle
import Verif.Props.Limits
import Verif.Props.Task
import Verif.Props.Await
import Verif.Props.Dropped
import Verif.Props.System
import Verif.Props.FuzzInteract
import Verif.Props.AddressErrors
import Verif.Props.Honest
import Verif.Props.ParseWork
import Verif.Props.Waiting
import Verif.Props.WriteFail
import Verif.Props.Readings
import Verif.Props.SinkPoll
import Verif.Props.DataSinkPoll
import Verif.Props.Polls
import Verif.Props.Checked
import Verif.Props.TaskWork
import Verif.Props.ErrorText
import Verif.Props.Greedy
import Verif.Props.Sizes
import Verif.Props.Callbacks
import Verif.Props.AnySource
import Verif.Props.QueueFutures
import Verif.Props.Wording
import Verif.Props.Env
import Verif.Props.Around
import Verif.Props.FreeQueue
