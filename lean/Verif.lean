import Verif.TokenFormatter
import Verif.Props.Parser
import Verif.Props.Lines
import Verif.Props.Cells
import Verif.Props.Tags
import Verif.Props.Document
import Verif.Props.Pickles
import Verif.Props.Print
import Verif.Props.Stream
import Verif.Props.Files
import Verif.Props.Hooks
import Verif.Props.Escape
import Verif.Props.Find
import Verif.Props.Robot
import Verif.Props.Blocks
import Verif.Props.Errors
import Verif.Props.Listing
import Verif.Props.LineEnds
import Verif.Props.Noise
import Verif.Props.Markdown
import Verif.Props.Suite
import Verif.Props.Layout
import Verif.Props.Main
import Verif.Props.MdErrors
import Verif.Props.Runs
import Verif.Props.Independent
import Verif.Props.Denotes
import Verif.Props.Mirror
import Verif.Props.Rx
import Verif.Props.FileText
import Verif.Props.Collect
import Verif.Props.FirstError
import Verif.Props.Indent
import Verif.Props.RobotVar
import Verif.Props.Args
import Verif.Props.Switches
import Verif.Props.MdNoise
import Verif.Props.Quiet
import Verif.Props.Translate
import Verif.Props.Pattern
import Verif.Props.Parts
import Verif.Props.Rows
import Verif.Props.Flat
import Verif.Props.Header
import Verif.Props.MdListing
import Verif.Props.MdLineEnds
import Verif.Props.MdPrint
import Verif.Props.Rewrite
import Verif.Props.Swap
import Verif.Props.Convert
import Verif.Props.Reformat
import Verif.Props.Calls
import Verif.Props.Columns
import Verif.Props.WrittenOut
import Verif.Props.Messages
import Verif.Props.Complete
import Verif.Props.Labels
import Verif.Props.TagsDown
import Verif.Props.ReformatMd
