import Verif.Model.Base
import Verif.Model.ReceiveBuffer
import Verif.Model.Protocol
import Verif.Model.Transmit
import Verif.Model.Receive
import Verif.Proofs.RB
import Verif.Spec.Stream
import Verif.Proofs.Stream
import Verif.Proofs.Protocol
import Verif.Proofs.Check
import Verif.Proofs.CheckSpec
import Verif.Spec.Machine
import Verif.Proofs.Process
import Verif.Proofs.Machine
import Verif.Proofs.History
import Verif.Spec.Send
import Verif.Proofs.Send
import Verif.Properties.Samples
import Verif.Properties.Send
import Verif.Spec.Endian
import Verif.Properties.Codec
import Verif.Spec.Buffer
import Verif.Properties.Buffer
import Verif.Proofs.Search
import Verif.Spec.History
import Verif.Proofs.Deliver
import Verif.Spec.Arith
import Verif.Properties.Sessions
import Verif.Properties.Stream
import Verif.Properties.EndToEnd
import Verif.Properties.Receiver
import Verif.Properties.Reactions
import Verif.Properties.Reentrancy
import Verif.Model.Adapters
import Verif.Spec.Port
import Verif.Properties.Ports
import Verif.Proofs.Overrun
import Verif.Properties.LineErrors
import Verif.Properties.Peers
import Verif.Model.Copies
import Verif.Properties.Copies
import Verif.Properties.PortErrors
import Verif.Properties.Recovery
import Verif.Tests
import Verif.Properties.Depth
import Verif.Properties.Odds
import Verif.Properties.Flush
import Verif.Properties.Joining
import Verif.Model.Throwing
import Verif.Properties.Aborted
import Verif.Properties.Network
import Verif.Model.Cost
import Verif.Proofs.Cost
import Verif.Properties.Work
import Verif.Model.Moves
import Verif.Proofs.Moves
import Verif.Properties.Moves
import Verif.Model.Policy
import Verif.Spec.Policy
import Verif.Proofs.Policy
import Verif.Properties.Policy
import Verif.Model.Overloads
import Verif.Spec.Overloads
import Verif.Proofs.Overloads
import Verif.Properties.Overloads
import Verif.Model.Integers
import Verif.Spec.Integers
import Verif.Properties.Integers
import Verif.Model.AssertHandler
import Verif.Spec.AssertHandler
import Verif.Proofs.AssertHandler
import Verif.Properties.AssertHandler
import Verif.Properties.Noise
import Verif.Model.Lifetime
import Verif.Spec.Lifetime
import Verif.Proofs.Lifetime
import Verif.Properties.Lifetime
import Verif.Model.CustomEnvelope
import Verif.Spec.CustomEnvelope
import Verif.Proofs.CustomEnvelope
import Verif.Proofs.ShippedEnvelope
import Verif.Proofs.DemoEnvelope
import Verif.Properties.CustomEnvelope
import Verif.Model.BufferMore
import Verif.Spec.Place
import Verif.Proofs.Place
import Verif.Properties.Iterators
import Verif.Model.Generator
import Verif.Model.CppText
import Verif.Model.SendCalls
import Verif.Proofs.Generator
import Verif.Proofs.GeneratedSend
import Verif.Proofs.SendCalls
import Verif.Proofs.GeneratedConfig
import Verif.Properties.SendCalls
import Verif.TestsGenerated
import Verif.Model.HandlerCalls
import Verif.Proofs.GeneratedHandler
import Verif.Properties.HandlerCalls
import Verif.Model.Inside
import Verif.Spec.Inside
import Verif.Proofs.Inside
import Verif.Properties.Inside
import Verif.Model.Includes
import Verif.Spec.Includes
import Verif.Proofs.Includes
import Verif.Properties.Includes
import Verif.Properties.Shipped
import Verif.Properties.Gateway
import Verif.Properties.Interrupts
import Verif.Properties.Disturbances
import Verif.Properties.Completion
import Verif.Properties.Several
import Verif.Properties.Asserts
import Verif.Properties.Bursts
import Verif.Properties.CustomMoves
import Verif.Properties.AnyBuffer
import Verif.Properties.Understanding
import Verif.Properties.Idle
import Verif.Model.Destroyed
import Verif.Proofs.Destroyed
import Verif.Properties.Destroyed
import Verif.Model.Direct
import Verif.Properties.Direct
import Verif.Model.CustomSend
import Verif.Properties.CustomSend
import Verif.Spec.Rewriting
import Verif.Proofs.Rewriting
import Verif.Proofs.RewriteEnvelope
import Verif.Properties.Rewriting
import Verif.Properties.RewritingMoves
import Verif.Model.Representations
import Verif.Properties.Representations
import Verif.Model.MutableWrites
import Verif.Properties.MutableWrites
import Verif.Model.Ranges
import Verif.Properties.Ranges
import Verif.Model.Restart
import Verif.Properties.Restart
import Verif.Model.Regenerate
import Verif.Properties.Regenerate
import Verif.Model.Padding
import Verif.Properties.Padding
import Verif.Properties.Exact
import Verif.Model.References
import Verif.Properties.References
import Verif.Properties.Guarded
import Verif.Model.Storage
import Verif.Properties.Storage
import Verif.Model.Loopback
import Verif.Properties.Loopback
import Verif.Model.ApplyAt
import Verif.Properties.ApplyAt
import Verif.Proofs.InterruptsSame
import Verif.Properties.Routes
import Verif.Properties.Allowed
import Verif.Properties.LostRuns
import Verif.Properties.Forever
import Verif.Properties.Memory
import Verif.Properties.Repetition
import Verif.Properties.ByteMap
import Verif.Properties.TextMode
import Verif.Properties.Swallowed
import Verif.Properties.ManySenders
import Verif.Properties.Trees
import Verif.Properties.TreesAny
import Verif.Model.LimitedBus
import Verif.Properties.LimitedBus
import Verif.Properties.TreesForever
import Verif.Properties.Retries
import Verif.Properties.ThrowingGateway
import Verif.Properties.ThrowingAnyTime
import Verif.Properties.Interludes
import Verif.Properties.Casualties
import Verif.Properties.HurtRoutes
import Verif.Properties.Numbered
import Verif.Properties.ThrowForever
import Verif.Properties.Spread
import Verif.Properties.Window
import Verif.Properties.NumberedRoutes
import Verif.Properties.NumberedRetries
import Verif.Properties.NumberedGateways
import Verif.Properties.NumberedForever
