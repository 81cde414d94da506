import Verif.Model.Basic
import Verif.Model.Utf8
import Verif.Model.Strconv
import Verif.Model.UrlDecode
import Verif.Model.Transforms
import Verif.Model.Compare
import Verif.Model.GoMap
import Verif.Model.Buffer
import Verif.Model.Tx
import Verif.Model.Filter
import Verif.Model.Variables
import Verif.Model.Rule
import Verif.Model.Transaction
import Verif.Model.Engine
import Verif.Model.Scanner
import Verif.Model.Parser
import Verif.Model.Literal
import Verif.Model.Registry
import Verif.Model.Seclang
import Verif.Model.StringSlice
import Verif.Props.UrlDecode
import Verif.Props.Transforms
import Verif.Props.Compare
import Verif.Props.Buffer
import Verif.Props.StringSlice
import Verif.Props.Phase
import Verif.Props.Jumps
import Verif.Props.Actions
import Verif.Props.Verdict
import Verif.Props.Match
import Verif.Props.Engine
import Verif.Props.Collections
import Verif.Props.Body
import Verif.Props.BodyTx
import Verif.Props.Syntax
import Verif.Props.Source
import Verif.Props.Loader
import Verif.Props.EndToEnd
import Verif.Props.Loaded
import Verif.Props.RuleText
import Verif.Props.Variables
import Verif.Props.Query
import Verif.Props.Log
import Verif.Props.BodyPrefix
import Verif.Props.HeaderCase
import Verif.Props.Locality
import Verif.Props.RequestUri
import Verif.Model.Host
import Verif.Props.Host
import Verif.Props.HostBody
import Verif.Props.Defaults
import Verif.Props.Told
import Verif.Props.View
import Verif.Props.Machine
import Verif.Props.Policy
import Verif.Props.PolicyBody
import Verif.Model.Memory
import Verif.Props.Memory
import Verif.Props.Seek
import Verif.Props.Loop
import Verif.Props.Walk
import Verif.Props.Reader
import Verif.Props.LoopBody
import Verif.Model.Site
import Verif.Props.Site
import Verif.Model.Names
import Verif.Props.Names
import Verif.Conform.Units
import Verif.Conform.Parser
import Verif.Conform.Behaviour
import Verif.Model.Build
import Verif.Props.Built
import Verif.Props.Stock
import Verif.Model.Plant
import Verif.Props.Plant
import Verif.Props.LineNumber
import Verif.Spec.Stream
import Verif.Proofs.Flow
import Verif.Props.Multipart
import Verif.Props.HostRules
import Verif.Props.Objects
import Verif.Props.Registry
import Verif.Model.During
import Verif.Model.Media
import Verif.Spec.During
import Verif.Spec.Media
import Verif.Proofs.During
import Verif.Proofs.OneMoment
import Verif.Proofs.Media
import Verif.Props.During
import Verif.Props.Serial
import Verif.Props.Media
import Verif.Model.Form
import Verif.Spec.Form
import Verif.Proofs.Form
import Verif.Props.Form
import Verif.Props.OpenForm
import Verif.Props.Boundary
import Verif.Model.Alias
import Verif.Props.Alias
import Verif.Props.More
import Verif.Props.Chunks
import Verif.Proofs.Guise
import Verif.Props.Unread
import Verif.Props.Disguise
import Verif.Props.Laws
import Verif.Props.Concat
import Verif.Model.Disk
import Verif.Spec.Disk
import Verif.Proofs.Disk
import Verif.Props.Disk
import Verif.Props.MoreBody
import Verif.Props.Retold
import Verif.Props.Ranges
import Verif.Props.ChainOrder
import Verif.Props.TransRun
import Verif.Spec.Logs
import Verif.Proofs.Logs
import Verif.Props.Logs
import Verif.Spec.Growth
import Verif.Proofs.Growth
import Verif.Proofs.Amount
import Verif.Proofs.Sized
import Verif.Proofs.SizedRun
import Verif.Props.Growth
import Verif.Model.Machine
import Verif.Spec.Machine
import Verif.Proofs.Machine
import Verif.Props.Numbers
import Verif.Props.Files
import Verif.Props.PolicyForm
import Verif.Props.FormLaws
import Verif.Props.SplitNames
import Verif.Props.Exempt
import Verif.Props.Negated
import Verif.Props.Narrow
import Verif.Props.Allowed
import Verif.Props.Refused
import Verif.Props.Padded
import Verif.Props.Whole
import Verif.Props.Alternatives
import Verif.Props.Rephased
import Verif.Props.Reorder
import Verif.Props.Missing
import Verif.Props.Parts
import Verif.Props.Present
import Verif.Props.Superfluous
import Verif.Props.Encoding
import Verif.Model.Shared
import Verif.Proofs.Shared
import Verif.Props.Shared
