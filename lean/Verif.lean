import Verif.Props.Rich
import Verif.Props.RichTree
import Verif.Props.RichVars
import Verif.Props.RichIgn
import Verif.Props.Placed
import Verif.Props.RichFns
import Verif.Props.Checks
import Verif.Props.GroupDefault
import Verif.Props.Dns
import Verif.Props.Geo
import Verif.Props.GetTemplate
import Verif.Props.Cli
import Verif.Props.Excel
import Verif.Props.Save
import Verif.Props.Machine
import Verif.Props.Line
import Verif.Props.Parser
import Verif.Props.Strings
import Verif.Props.Object
import Verif.Props.Multi
import Verif.Props.Load
import Verif.Props.Match
import Verif.Props.Group
import Verif.Props.Itemize
import Verif.Props.Format
import Verif.Props.Template
import Verif.Props.Whole
import Verif.Props.Nest
import Verif.Props.Tree
import Verif.Props.Tags
import Verif.Props.EndToEnd
import Verif.Props.Dyn
import Verif.Props.Plain
import Verif.Props.Extend
import Verif.Props.Own
import Verif.Props.Headers
import Verif.Props.MatchStr
import Verif.Props.Resub
import Verif.Props.ReChecks
import Verif.Props.Uptime
import Verif.Props.Files
import Verif.Props.Inputs
import Verif.Props.Equal
import Verif.Props.Fmt
import Verif.Props.Outputs
import Verif.Props.Ip
import Verif.Props.Lookup
import Verif.Props.LineText
import Verif.Props.HeaderText
import Verif.Props.Patterns
import Verif.Props.Json
import Verif.Props.CsvText
import Verif.Props.Loaders
import Verif.Props.OutFns
import Verif.Props.XmlText
import Verif.Props.Inner
import Verif.Props.Args
import Verif.Props.InTags
import Verif.Props.GroupMore
import Verif.Props.Reports
import Verif.Props.Lazy
import Verif.Props.Result
import Verif.Props.ArgVars
import Verif.Props.Exprs
import Verif.Props.Yangson
import Verif.Props.N2g
