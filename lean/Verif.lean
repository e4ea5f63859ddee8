import Verif.Model.Machine
import Verif.Model.Protocol
import Verif.Model.Ratio
import Verif.Model.Support
import Verif.Model.Strategy
import Verif.Model.Homographic
import Verif.Model.Combine
import Verif.Model.Number
import Verif.Model.Compare
import Verif.Model.Main
import Verif.Spec
import Verif.Proofs.Logic
import Verif.Proofs.Clog
import Verif.Proofs.Ratio
import Verif.Proofs.Coef4
import Verif.Proofs.Egest4
import Verif.Proofs.Homographic
import Verif.Proofs.HomographicNew
import Verif.Proofs.Observe
import Verif.Properties.Ratio
import Verif.Properties.Homographic
import Verif.Proofs.Fuel
import Verif.Proofs.Compare
import Verif.Proofs.Consume
import Verif.Properties.Compare
import Verif.Properties.Consume
import Verif.Properties.Text
import Verif.Proofs.Coef8
import Verif.Proofs.Combine
import Verif.Proofs.CombineNew
import Verif.Properties.Combine
import Verif.Properties.History
import Verif.Properties.Limits
import Verif.SpecReal
import Verif.Proofs.Reals
import Verif.Properties.Reals
import Verif.Proofs.Release
import Verif.Properties.Release
import Verif.Proofs.Wider
import Verif.Proofs.Unity
import Verif.Proofs.Reciprocal
import Verif.Proofs.AddOne
import Verif.Proofs.NearOne
import Verif.Properties.Unity
import Verif.Properties.Wider
import Verif.Properties.Program
import Verif.Proofs.Length
import Verif.Properties.Length
import Verif.Properties.Unchecked
import Verif.Properties.Small
import Verif.Proofs.Depth
import Verif.Properties.Depth
import Verif.Model.Steps
import Verif.Model.Plain
import Verif.Proofs.Steps
import Verif.Proofs.StepsHeap
import Verif.Proofs.StepsSim
import Verif.Proofs.StepsCaller
import Verif.Proofs.StepsPrinted
import Verif.Properties.Steps
import Verif.SpecSession
import Verif.Proofs.Session
import Verif.Properties.Session
import Verif.Proofs.StepsAgree
import Verif.Properties.SessionBuilds
import Verif.SpecField
import Verif.Proofs.Field
import Verif.Proofs.FieldHomographic
import Verif.Proofs.FieldCombine
import Verif.Proofs.FieldCompare
import Verif.Proofs.FieldPole
import Verif.Properties.Beyond
import Verif.Proofs.Total
import Verif.Proofs.TotalHomographic
import Verif.Proofs.TotalConsume
import Verif.Proofs.TotalCombine
import Verif.Proofs.Hang
import Verif.Properties.Total
import Verif.Properties.ConsumeExact
import Verif.Properties.CompareReads
import Verif.Properties.SessionField
import Verif.Proofs.Reads4
import Verif.Properties.Reads
import Verif.Proofs.Reads8
import Verif.Properties.ReadsCombine
import Verif.Proofs.Powers
import Verif.Properties.Powers
import Verif.Properties.SpecialOperands
import Verif.Properties.Same
import Verif.Properties.Mirror
import Verif.Properties.Budget
import Verif.Properties.Front
import Verif.Properties.Rebuild
import Verif.Properties.Lines
import Verif.Properties.Order
import Verif.Properties.FailStop
import Verif.Properties.Stdout
import Verif.Properties.Screen
import Verif.Properties.Minus
import Verif.Properties.Quotient
import Verif.Properties.Swap
import Verif.Properties.First
import Verif.Properties.Room
import Verif.Properties.Pieces
import Verif.Properties.Ideal
import Verif.Properties.CompareReach
import Verif.Properties.StaticSize
import Verif.Model.Timed
import Verif.Proofs.Timed
import Verif.Proofs.TimedFuel
import Verif.Properties.Time
import Verif.Properties.Space
import Verif.Proofs.Rate
import Verif.Properties.Precision
import Verif.Model.Memory
import Verif.Proofs.Memory
import Verif.Proofs.MemorySafe
import Verif.Proofs.MemoryTwin
import Verif.Properties.Memory
import Verif.SpecLines
import Verif.Proofs.StepsLines
import Verif.Proofs.StepsLinesCaller
import Verif.Proofs.StepsAccount
import Verif.Properties.Account
import Verif.Proofs.Large
import Verif.Properties.Large
import Verif.Proofs.Lookahead
import Verif.Properties.Lookahead
import Verif.Properties.LookaheadCombine
import Verif.Properties.LookaheadAtLeast
import Verif.Proofs.ReadsEnd
import Verif.Properties.ReadsEnd
import Verif.Proofs.Nearby
import Verif.Properties.Streams
import Verif.Properties.Neutral
import Verif.Properties.NeutralExact
import Verif.Properties.ZeroOver
import Verif.Properties.ZeroOverMersenne
import Verif.Properties.Broken
import Verif.Properties.Counter
import Verif.Properties.PowerLoop
import Verif.Properties.ContFrac
import Verif.Properties.QuotientLoop
import Verif.Properties.Buildable
import Verif.Properties.CompareBuilt
import Verif.Properties.ConsumeBuilt
import Verif.Tests.Support
import Verif.Tests.Compare
import Verif.Properties.ReleaseWrong
import Verif.Tests.Homographic
import Verif.Tests.Combine
import Verif.Tests.Ratio
import Verif.Tests.Integration
import Verif.Tests.SmallFractions
import Verif.Tests.Documentation
