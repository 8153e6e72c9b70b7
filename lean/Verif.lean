import Verif.Model.Decoder
import Verif.Model.Encoder
import Verif.Model.System
import Verif.Model.Auth
import Verif.Model.Passwd
import Verif.Props.Codec
import Verif.Props.Streams
import Verif.Props.Subscriptions
import Verif.Props.Handler
import Verif.Props.Auth
import Verif.Props.KeepAlive
import Verif.Props.System
import Verif.Props.Protocol
import Verif.Props.Liveness
import Verif.Model.Process
import Verif.Model.Fine
import Verif.Model.Boot
import Verif.Props.Process
import Verif.Props.Fine
import Verif.Props.Boundary
import Verif.Props.Window
import Verif.Props.Isolation
import Verif.Props.Memory
import Verif.Props.Language
import Verif.Props.Conformance
import Verif.Tests.Repo
import Verif.Props.Order
import Verif.Props.View
import Verif.Props.Close
import Verif.Props.Rules
import Verif.Props.Boot
import Verif.Props.Load
import Verif.Props.Sizes
import Verif.Props.Patience
import Verif.Props.Clauses
import Verif.Props.Tool
import Verif.Props.Settings
import Verif.Props.Exact
import Verif.Props.Rounds
import Verif.Props.Waiting
import Verif.Props.Orders
import Verif.Props.Slow
import Verif.Props.Alike
import Verif.Props.LogSize
import Verif.Props.Users
import Verif.Props.Build
import Verif.Props.Open
import Verif.Props.Library
import Verif.Props.CleanSession
import Verif.Model.Live
import Verif.Spec.Endless
import Verif.Proofs.Live
import Verif.Proofs.Endless
import Verif.Proofs.EndlessReads
import Verif.Proofs.EndlessWrites
import Verif.Proofs.FullWrites
import Verif.Proofs.EndlessFull
import Verif.Props.Live
import Verif.Spec.Settled
import Verif.Spec.Answers
import Verif.Props.Settled
import Verif.Props.Answers
import Verif.Props.Mqtt
import Verif.Spec.Reconnect
import Verif.Proofs.Reconnect
import Verif.Props.Reconnect
import Verif.Spec.Sockets
import Verif.Props.Sockets
import Verif.Spec.Intruder
import Verif.Props.Intruder
import Verif.Props.Threshold
import Verif.Model.Files
import Verif.Spec.Files
import Verif.Proofs.Files
import Verif.Props.Files
import Verif.Model.Desk
import Verif.Spec.Desk
import Verif.Proofs.Desk
import Verif.Props.Desk
import Verif.Proofs.Traffic
import Verif.Props.Traffic
import Verif.Spec.Dialogue
import Verif.Proofs.Dialogue
import Verif.Props.Dialogue
import Verif.Model.Host
import Verif.Props.Host
import Verif.Props.Behaved
import Verif.Props.Reached
import Verif.Spec.Lasting
import Verif.Proofs.SysTook
import Verif.Props.Lasting
import Verif.Model.Start
import Verif.Spec.Start
import Verif.Props.Start
import Verif.Model.Logging
import Verif.Model.Journal
import Verif.Spec.Logging
import Verif.Spec.Journal
import Verif.Spec.Versions
import Verif.Spec.Mute
import Verif.Proofs.Logging
import Verif.Proofs.Journal
import Verif.Proofs.Ports
import Verif.Proofs.LogAlike
import Verif.Proofs.LogText
import Verif.Props.Logging
import Verif.Props.Journal
import Verif.Props.Ports
import Verif.Props.Versions
import Verif.Proofs.Told
import Verif.Proofs.Mute
import Verif.Props.Mute
import Verif.Spec.LogWhole
import Verif.Proofs.LogWhole
import Verif.Props.LogWhole
import Verif.Spec.Names
import Verif.Proofs.Names
import Verif.Props.Names
import Verif.Spec.Clock
import Verif.Proofs.Clock
import Verif.Props.Clock
import Verif.Spec.Races
import Verif.Proofs.Races
import Verif.Props.Races
import Verif.Props.Precise
import Verif.Proofs.Communities
import Verif.Props.Communities
import Verif.Spec.Asking
import Verif.Proofs.Asking
import Verif.Props.Asking
import Verif.Proofs.Twins
import Verif.Props.Twins
import Verif.Proofs.Past
import Verif.Props.Past
import Verif.Spec.Opaque
import Verif.Proofs.Opaque
import Verif.Props.Opaque
import Verif.Model.RustLog
import Verif.Spec.RustLog
import Verif.Proofs.RustLog
import Verif.Props.RustLog
import Verif.Spec.Reasons
import Verif.Proofs.Reasons
import Verif.Props.Reasons
import Verif.Props.Never
import Verif.Props.Codes
import Verif.Model.Tracing
import Verif.Spec.Tracing
import Verif.Proofs.Tracing
import Verif.Props.Tracing
import Verif.Props.Ignored
import Verif.Props.Unjudged
