import Verif.Props.Simplify
import Verif.Props.Narrow
import Verif.Props.RingBuffer
import Verif.Props.RingCopies
import Verif.Props.PidCopies
import Verif.Props.Autotune
import Verif.Props.LineLoops
import Verif.Props.RingInterrupt
import Verif.Props.LineBuffer
import Verif.Props.Stream
import Verif.Props.OpenTransaction
import Verif.Props.Vector
import Verif.Props.Array
import Verif.Props.Pool
import Verif.Props.Units
import Verif.Props.Timers
import Verif.Props.EventSystem
import Verif.Props.EventDestroy
import Verif.Props.PipelineText
import Verif.Props.MixedTimes
import Verif.Props.Scaling
import Verif.Props.BufferExact
import Verif.Props.PoolCopies
import Verif.Props.Cyclic
import Verif.Props.Micros
import Verif.Props.Latch
import Verif.Props.FilteredLatch
import Verif.Props.Pid
import Verif.Props.Tuner
import Verif.Props.Filter
import Verif.Props.Schedule
import Verif.Props.DateTime
import Verif.Props.Text
import Verif.Props.Result
import Verif.Props.ResultObjects
import Verif.Props.Meta
import Verif.Props.Logging
import Verif.Props.CommandServer
import Verif.Props.Exchange
import Verif.Props.RingOwn
import Verif.Props.Compound
import Verif.Props.RealUnits
import Verif.Props.Gpio
import Verif.Props.FadeAccuracy
import Verif.Props.Platform
import Verif.Props.Sleep
import Verif.Props.StaticString
import Verif.Props.Magnitudes
import Verif.Props.Exception
import Verif.Props.Interrupt
import Verif.Props.EventData
import Verif.Props.EwmaLimit
import Verif.Props.PidSteady
import Verif.Props.PidUnwind
import Verif.Props.PidUnits
import Verif.Props.PidStandby
import Verif.Props.PidDirection
import Verif.Props.InvalidReading
import Verif.Props.Uptime
import Verif.Props.LatchOrder
import Verif.Props.Builds
import Verif.Props.BuildsRest
import Verif.Props.RingSizes
import Verif.Props.PushOrder
import Verif.Props.Capacities
import Verif.Props.IdleCalls
import Verif.Props.Delay
import Verif.Props.Superposition
import Verif.Props.Repeated
import Verif.Props.Undo
import Verif.Props.AnyOrder
import Verif.Props.Pieces
import Verif.Props.Retuning
import Verif.Props.Mirror
import Verif.Props.Jitter
import Verif.Props.SignOfZero
import Verif.Props.EndlessAverage
import Verif.Props.SetpointKick
import Verif.Props.RelayLife
import Verif.Props.FreshValue
import Verif.Props.OrderOfReadings
import Verif.Props.LeakyBucket
import Verif.Props.RingChain
import Verif.Props.OfferAgain
import Verif.Props.PidRampFloat
import Verif.Props.FilterUnits
import Verif.Props.FilterFades
import Verif.Props.PidAccuracy
import Verif.Model.Point
import Verif.Model.VectorObjects
import Verif.Props.Serial
import Verif.Props.Point
import Verif.Props.VectorMisuse
import Verif.Props.VectorObjects
import Verif.Props.VectorShares
import Verif.Props.RealArith
import Verif.Props.FilterAccuracy
import Verif.Model.DateTimeObjects
import Verif.Props.DateTimeObjects
import Verif.Model.VectorOwn
import Verif.Props.VectorOwn
import Verif.Spec.SscanfText
import Verif.Props.DateTimeText
import Verif.Model.VectorInherited
import Verif.Props.VectorInherited
import Verif.Props.ClosedTransaction
import Verif.Props.ExactDomains
import Verif.Spec.Process
import Verif.Props.ClosedLoop
import Verif.Props.RunningTotal
import Verif.Props.Detach
import Verif.Props.ClosedLoopFloat
import Verif.Props.TwoPoint
import Verif.Props.Strftime
import Verif.Props.PeriodicControl
import Verif.Props.ScheduleLoop
import Verif.Props.FilterReset
import Verif.Props.PipelineTicks
import Verif.Props.Reschedule
import Verif.Props.UnreliablePort
import Verif.Props.BandWidth
import Verif.Props.StaleLength
import Verif.Props.AnalogueChain
import Verif.Props.FilterThrows
import Verif.Props.LinearLoop
import Verif.Props.FilterSlots
import Verif.Props.HandlerLink
import Verif.Props.RingPointers
import Verif.Props.FilterOrder
import Verif.Props.FadeTime
import Verif.Props.ExactDomains2
import Verif.Props.VectorRefs
import Verif.Model.EventThrow
import Verif.Proofs.EventSteps
import Verif.Proofs.EventThrow
import Verif.Props.EventThrow
import Verif.Model.DelimiterView
import Verif.Props.DelimiterView
import Verif.Model.Fused
import Verif.Proofs.Fused
import Verif.Props.Fused
import Verif.Props.ExactArrays
import Verif.Props.ExactText
import Verif.Props.TunerExact
import Verif.Proofs.RelativeError
import Verif.Props.TunerFloat
import Verif.Props.FilteredLatchFloat
import Verif.Model.UnitProduct
import Verif.Props.UnitProduct
import Verif.Model.OutputPin
import Verif.Props.OutputPin
import Verif.Props.OverrunDrops
import Verif.Props.CyclicLate
import Verif.Props.PeriodicControlLate
import Verif.Props.NarrowText
import Verif.Props.CyclicBusy
