import Verif.Props.Pb
import Verif.Props.Messages
import Verif.Props.Hl
import Verif.Props.Morton
import Verif.Props.NodeIndex
import Verif.Props.NodeIndexer
import Verif.Props.LowIds
import Verif.Props.WayIndex
import Verif.Props.RelIndex
import Verif.Props.Pbf
import Verif.Props.Raw
import Verif.Props.Rewrite
import Verif.Props.TagFilter
import Verif.Props.Count
import Verif.Props.Pool
import Verif.Props.Tracker
import Verif.Props.Iio
import Verif.Props.Iunsafe
import Verif.Props.Find
import Verif.Props.Dump
import Verif.Props.Ui
import Verif.Props.Spare
import Verif.Props.Programs
import Verif.Props.Interrupt
import Verif.Props.Cancel
import Verif.Props.Timing
import Verif.Props.Shared
import Verif.Props.Repeat
import Verif.Props.Args
import Verif.Props.Display
import Verif.Props.Screen
import Verif.Props.Idempotent
import Verif.Props.InFlight
import Verif.Props.Alongside
import Verif.Props.Whole
import Verif.Props.Stats
import Verif.Props.Progress
import Verif.Props.Format
import Verif.Props.Cost
import Verif.Props.Size
import Verif.Props.Race
import Verif.Props.RaceTracker
import Verif.Props.RelFile
import Verif.Props.Damaged
import Verif.Props.FormatCount
import Verif.Props.RelPass
import Verif.Props.Text
import Verif.Props.RelStats
import Verif.Props.TextFind
import Verif.Props.TextLines
import Verif.Props.Utf8Bar
import Verif.Props.PowerLoss
import Verif.Props.Restart
import Verif.Props.Unsorted
import Verif.Props.AnyWayIndex
import Verif.Props.UnsortedChain
import Verif.Props.PowerLossBlocks
import Verif.Props.Faults
import Verif.Props.Commute
import Verif.Props.Content
import Verif.Props.DiskFiles
import Verif.Props.Filtered
import Verif.Props.Rewritten
import Verif.Props.Processed
