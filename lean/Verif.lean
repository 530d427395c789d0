import Verif.Lemmas.Assemble
import Verif.Lemmas.Block
import Verif.Lemmas.BlockNumbers
import Verif.Lemmas.BlockRing
import Verif.Lemmas.BlockRingAll
import Verif.Lemmas.Buffer
import Verif.Lemmas.BufferEncode
import Verif.Lemmas.BufferRotate
import Verif.Lemmas.Cli
import Verif.Lemmas.CliRescue
import Verif.Lemmas.Compose
import Verif.Lemmas.Container
import Verif.Lemmas.ContainerRef
import Verif.Lemmas.ContentHash
import Verif.Lemmas.Crc
import Verif.Lemmas.CrcDistance
import Verif.Lemmas.Date
import Verif.Lemmas.Decode
import Verif.Lemmas.DecodeStats
import Verif.Lemmas.DecodeWhole
import Verif.Lemmas.Demo
import Verif.Lemmas.Device
import Verif.Lemmas.DeviceOut
import Verif.Lemmas.DeviceRepair
import Verif.Lemmas.DeviceRescue
import Verif.Lemmas.DeviceRun
import Verif.Lemmas.DeviceSim
import Verif.Lemmas.DeviceUpdate
import Verif.Lemmas.EncodeCrash
import Verif.Lemmas.EncodeDone
import Verif.Lemmas.EncodeFile
import Verif.Lemmas.EncodeRead
import Verif.Lemmas.EncodeRun
import Verif.Lemmas.Expect
import Verif.Lemmas.FileBlocks
import Verif.Lemmas.Guess
import Verif.Lemmas.Json
import Verif.Lemmas.JsonParse
import Verif.Lemmas.Layout
import Verif.Lemmas.LineWriter
import Verif.Lemmas.Metadata
import Verif.Lemmas.MetadataParse
import Verif.Lemmas.NoPanic
import Verif.Lemmas.Paths
import Verif.Lemmas.Pipeline
import Verif.Lemmas.PipelineMono
import Verif.Lemmas.PipelineSeq
import Verif.Lemmas.PipelineSim
import Verif.Lemmas.Progress
import Verif.Lemmas.ProgressEnd
import Verif.Lemmas.ProgressFair
import Verif.Lemmas.ProgressLive
import Verif.Lemmas.ProgressOut
import Verif.Lemmas.ProgressPause
import Verif.Lemmas.Range
import Verif.Lemmas.Reader
import Verif.Lemmas.Repair
import Verif.Lemmas.RepairAgain
import Verif.Lemmas.RepairFile
import Verif.Lemmas.RepairScan
import Verif.Lemmas.RepairStats
import Verif.Lemmas.RepairWhole
import Verif.Lemmas.Report
import Verif.Lemmas.ReportRepair
import Verif.Lemmas.ReportStats
import Verif.Lemmas.ReportUpdate
import Verif.Lemmas.Reproduce
import Verif.Lemmas.RescueBuffer
import Verif.Lemmas.RescueFill
import Verif.Lemmas.RescueLog
import Verif.Lemmas.RescueRun
import Verif.Lemmas.Rs
import Verif.Lemmas.Scan
import Verif.Lemmas.Show
import Verif.Lemmas.ShowContainer
import Verif.Lemmas.Sizes
import Verif.Lemmas.Sort
import Verif.Lemmas.SortImage
import Verif.Lemmas.Sorted
import Verif.Lemmas.Stdout
import Verif.Lemmas.Update
import Verif.Lemmas.UpdateFields
import Verif.Lemmas.UpdateLoop
import Verif.Lemmas.UpdateResume
import Verif.Lemmas.Utils
import Verif.Model.Block
import Verif.Model.BlockRing
import Verif.Model.Bytes
import Verif.Model.Calc
import Verif.Model.Check
import Verif.Model.Cli
import Verif.Model.CliRescue
import Verif.Model.ContentHash
import Verif.Model.Crc
import Verif.Model.DataBlockBuffer
import Verif.Model.Date
import Verif.Model.Decode
import Verif.Model.Device
import Verif.Model.DeviceRepair
import Verif.Model.DeviceRescue
import Verif.Model.Encode
import Verif.Model.Errors
import Verif.Model.File
import Verif.Model.FileUtils
import Verif.Model.Header
import Verif.Model.Json
import Verif.Model.Layout
import Verif.Model.LineWriter
import Verif.Model.Machine
import Verif.Model.Metadata
import Verif.Model.MiscUtils
import Verif.Model.Multihash
import Verif.Model.Paths
import Verif.Model.Pipeline
import Verif.Model.Progress
import Verif.Model.ProgressText
import Verif.Model.Reader
import Verif.Model.Repair
import Verif.Model.Report
import Verif.Model.Rescue
import Verif.Model.Scan
import Verif.Model.Show
import Verif.Model.Sort
import Verif.Model.Specs
import Verif.Model.Update
import Verif.Model.Verdict
import Verif.Props.Again
import Verif.Props.Approved
import Verif.Props.Archive
import Verif.Props.ArchiveRescue
import Verif.Props.BitErrors
import Verif.Props.Block
import Verif.Props.BlockSync
import Verif.Props.Buffer
import Verif.Props.Calc
import Verif.Props.Check
import Verif.Props.Checksum
import Verif.Props.Cli
import Verif.Props.CliRescue
import Verif.Props.Compose
import Verif.Props.ContentHash
import Verif.Props.Copies
import Verif.Props.CopiesCut
import Verif.Props.Crash
import Verif.Props.CutOff
import Verif.Props.Dates
import Verif.Props.Decode
import Verif.Props.DecodeStats
import Verif.Props.Device
import Verif.Props.DeviceRepair
import Verif.Props.DeviceRescue
import Verif.Props.Encode
import Verif.Props.Errors
import Verif.Props.Followed
import Verif.Props.FollowedCheck
import Verif.Props.FollowedRepair
import Verif.Props.FollowedStdout
import Verif.Props.GuessDamaged
import Verif.Props.Header
import Verif.Props.History
import Verif.Props.Json
import Verif.Props.Layout
import Verif.Props.Limits
import Verif.Props.Machine
import Verif.Props.Metadata
import Verif.Props.MultiPass
import Verif.Props.NoPanic
import Verif.Props.NoPanicEncode
import Verif.Props.Paths
import Verif.Props.Pipeline
import Verif.Props.Progress
import Verif.Props.ProgressText
import Verif.Props.Ranges
import Verif.Props.Reader
import Verif.Props.Recorded
import Verif.Props.Recover
import Verif.Props.Renamed
import Verif.Props.Repair
import Verif.Props.Report
import Verif.Props.ReportMore
import Verif.Props.ReportRepair
import Verif.Props.ReportUpdate
import Verif.Props.Reproduce
import Verif.Props.Rescue
import Verif.Props.Resume
import Verif.Props.Scan
import Verif.Props.Session
import Verif.Props.Sizes
import Verif.Props.Sort
import Verif.Props.Sorted
import Verif.Props.Stdout
import Verif.Props.StdoutLines
import Verif.Props.Trace
import Verif.Props.Update
import Verif.Props.UpdateAsked
import Verif.Props.UpdateResume
import Verif.Props.Utils
import Verif.Props.Verdict
import Verif.Spec.BitErrors
import Verif.Spec.Calc
import Verif.Spec.Check
import Verif.Spec.Cli
import Verif.Spec.CliRescue
import Verif.Spec.Compose
import Verif.Spec.Container
import Verif.Spec.Copies
import Verif.Spec.Crc
import Verif.Spec.Date
import Verif.Spec.Decode
import Verif.Spec.Device
import Verif.Spec.Format
import Verif.Spec.Json
import Verif.Spec.Layout
import Verif.Spec.Limits
import Verif.Spec.Metadata
import Verif.Spec.MultiPass
import Verif.Spec.Paths
import Verif.Spec.Progress
import Verif.Spec.Range
import Verif.Spec.Reader
import Verif.Spec.Recorded
import Verif.Spec.Recover
import Verif.Spec.Repair
import Verif.Spec.Report
import Verif.Spec.Reproduce
import Verif.Spec.Rescue
import Verif.Spec.Scan
import Verif.Spec.Session
import Verif.Spec.Show
import Verif.Spec.Sorted
import Verif.Spec.Stdout
import Verif.Spec.Stored
import Verif.Spec.Terminal
import Verif.Spec.Update
import Verif.Spec.Utils
