import Verif.Model.File
import Verif.Model.BufW
import Verif.Props.Codec
import Verif.Props.Paths
import Verif.Props.Index
import Verif.Props.Listing
import Verif.Props.Open
import Verif.Props.Read
import Verif.Props.ReadSafety
import Verif.Props.Write
import Verif.Proofs.Mono
import Verif.Proofs.Totals
import Verif.Props.Append
import Verif.Props.Reopen
import Verif.Props.Order
import Verif.Proofs.Utf8Order
import Verif.Props.Layout
import Verif.Model.Stream
import Verif.Props.Faults
import Verif.Proofs.Single
import Verif.Proofs.SingleFile
import Verif.Spec.Reads
import Verif.Props.Buffers
import Verif.Props.Crash
import Verif.Model.Act
import Verif.Model.Device
import Verif.Model.Handle
import Verif.Proofs.Act
import Verif.Proofs.Device
import Verif.Proofs.Handle
import Verif.Spec.Handle
import Verif.Props.Handle
import Verif.Proofs.Relate
import Verif.Proofs.Alloc
import Verif.Props.Joint
import Verif.Props.OutOfMemory
import Verif.Proofs.Persist
import Verif.Spec.Extends
import Verif.Props.Growing
import Verif.Spec.Verdict
import Verif.Props.Verdict
import Verif.Spec.Grammar
import Verif.Props.Grammar
import Verif.Props.Naming
import Verif.Model.Disk
import Verif.Props.Disk
import Verif.Model.Chrono
import Verif.Props.Values
import Verif.Spec.Work
import Verif.Proofs.Work
import Verif.Props.Work
import Verif.Model.Stores
import Verif.Proofs.Stores
import Verif.Proofs.StoresPut
import Verif.Proofs.StoresRead
import Verif.Proofs.StoresOne
import Verif.Proofs.StoresFile
import Verif.Props.FailedReads
import Verif.Spec.Rearrange
import Verif.Props.ReadBack
import Verif.Props.Rearrange
import Verif.Spec.Changing
import Verif.Proofs.Ones
import Verif.Props.ReopenExact
import Verif.Spec.Appending
import Verif.Props.AppendExact
import Verif.Model.Build
import Verif.Spec.Builds
import Verif.Proofs.Build
import Verif.Proofs.BuildReads
import Verif.Proofs.BuildWrap
import Verif.Proofs.BuildSession
import Verif.Proofs.BuildHalts
import Verif.Proofs.BuildDivides
import Verif.Props.Build
import Verif.Spec.Delivered
import Verif.Proofs.Delivered
import Verif.Proofs.DeliveredFile
import Verif.Proofs.Cells
import Verif.Props.Delivered
import Verif.Spec.Outcome
import Verif.Proofs.Outcome
import Verif.Proofs.OutcomeBlock
import Verif.Proofs.OutcomeFile
import Verif.Props.Outcome
import Verif.Tests.Repo
import Verif.Spec.Jointly
import Verif.Proofs.Lanes
import Verif.Proofs.Jointly
import Verif.Proofs.JointlyFile
import Verif.Proofs.JointlyCells
import Verif.Props.Jointly
import Verif.Proofs.JointlyGrows
import Verif.Props.JointlyAgree
import Verif.Props.IndexEnd
import Verif.Proofs.FirstWrite
import Verif.Props.StorageTypes
import Verif.Spec.JointOutcome
import Verif.Proofs.LanesCut
import Verif.Proofs.JointOutcome
import Verif.Proofs.JointOutcomeFile
import Verif.Props.JointOutcome
import Verif.Props.ExactWrites
import Verif.Props.LayoutExact
import Verif.Props.JointlyKept
import Verif.Props.OrderReads
import Verif.Props.Compose
import Verif.Spec.Device
import Verif.Proofs.Enough
import Verif.Props.Bounded
import Verif.Model.Medium
import Verif.Spec.Power
import Verif.Props.Power
import Verif.Props.BlockFrom
import Verif.Spec.Kept
import Verif.Proofs.Kept
import Verif.Props.Kept
import Verif.Props.OrderJoint
import Verif.Props.Pairing
import Verif.Props.RearrangeExact
import Verif.Proofs.OwnCells
import Verif.Props.JointlyOwn
import Verif.Model.Growing
import Verif.Spec.Meanwhile
import Verif.Proofs.Growing
import Verif.Proofs.Meanwhile
import Verif.Props.Meanwhile
import Verif.Spec.Recording
import Verif.Props.Watch
import Verif.Props.Accessors
import Verif.Props.Properties
import Verif.Model.Source
import Verif.Proofs.Source
import Verif.Proofs.SourceDevice
import Verif.Proofs.SourceOpen
import Verif.Props.Source
import Verif.Spec.OwnType
import Verif.Proofs.OwnType
import Verif.Props.OwnType
import Verif.Model.Duplex
import Verif.Spec.Life
import Verif.Proofs.Duplex
import Verif.Props.Duplex
import Verif.Model.Memory
import Verif.Spec.Memory
import Verif.Proofs.Memory
import Verif.Proofs.MemoryServes
import Verif.Props.Memory
import Verif.Model.Messages
import Verif.Spec.Messages
import Verif.Proofs.Messages
import Verif.Props.Messages
import Verif.Spec.Library
import Verif.Proofs.Library
import Verif.Props.Library
import Verif.Spec.Streamed
import Verif.Proofs.Streamed
import Verif.Props.Streamed
import Verif.Spec.Existing
import Verif.Proofs.Existing
import Verif.Props.Existing
import Verif.Proofs.EmptyRead
import Verif.Proofs.Mixed
import Verif.Proofs.Image
import Verif.Spec.Refused
import Verif.Props.WrongTypes
import Verif.Spec.Crashes
import Verif.Proofs.Crashes
import Verif.Props.Crashes
import Verif.Proofs.Steady
import Verif.Spec.Watcher
import Verif.Proofs.Watcher
import Verif.Props.Watcher
import Verif.Spec.Several
import Verif.Proofs.Several
import Verif.Props.Several
import Verif.Spec.Copy
import Verif.Proofs.Copy
import Verif.Props.Copy
import Verif.Spec.Merge
import Verif.Proofs.Merge
import Verif.Props.Merge
import Verif.Spec.Resumed
import Verif.Proofs.Resumed
import Verif.Props.Resumed
import Verif.Spec.Concat
import Verif.Proofs.Concat
import Verif.Proofs.SameIndex
import Verif.Props.Concat
import Verif.Spec.Plays
import Verif.Props.LibraryExact
import Verif.Props.ConcatExact
import Verif.Proofs.Torn
import Verif.Props.CrashExact
import Verif.Props.WatcherExact
import Verif.Props.HistoriesExact
import Verif.Props.ExistingExact
import Verif.Props.ResumedExact
import Verif.Spec.WatcherOn
import Verif.Proofs.WatcherOn
import Verif.Props.WatcherOn
import Verif.Props.WatcherOnExact
import Verif.Props.StreamedExact
import Verif.Props.CopyExact
import Verif.Props.MergeExact
import Verif.Props.MergeRule
import Verif.Props.SeveralOn
import Verif.Props.SeveralExact
import Verif.Props.PublishedExact
import Verif.Props.UnitTypes
import Verif.Spec.Unsupported
import Verif.Props.Unsupported
import Verif.Spec.SampleData
import Verif.Props.SampleData
import Verif.Props.Depends
import Verif.Spec.Errors
import Verif.Proofs.Errors
import Verif.Props.Errors
