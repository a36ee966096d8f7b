import Verif.Props.Normalize
import Verif.Props.Text
import Verif.Props.Names
import Verif.Props.Reader
import Verif.Props.Derive
import Verif.Props.Writer
import Verif.Props.DeriveSer
import Verif.Props.RoundTrip
import Verif.Props.Macro
import Verif.Props.MacroErrors
import Verif.Props.StdText
import Verif.Props.Display
import Verif.Props.Expanded
import Verif.Props.DeriveFirst
import Verif.Props.RepoTests
import Verif.Props.Reread
import Verif.Props.Reorder
import Verif.Props.Source
import Verif.Props.Prefixes
import Verif.Props.Open
import Verif.Props.OpenSer
import Verif.Props.SerError
import Verif.Props.Gen
import Verif.Props.Given
import Verif.Props.Schema
import Verif.Props.SchemaText
import Verif.Props.Entry
import Verif.Props.Typed
import Verif.Props.Whole
import Verif.Props.Stack
import Verif.Props.Scoped
import Verif.Props.Cut
import Verif.Props.Prefix
import Verif.Props.OrderExact
import Verif.Props.Origin
import Verif.Props.WholeText
import Verif.Props.Clash
import Verif.Props.Readable
import Verif.Props.Unwind
import Verif.Props.UnwindDe
import Verif.Props.SourceOk
import Verif.Props.OpenRead
import Verif.Props.OpenRound
import Verif.Props.OpenDeclared
import Verif.Props.OpenFails
import Verif.Props.OpenUnwind
import Verif.Props.Failures
import Verif.Props.Evolve
import Verif.Props.PanicAs
import Verif.Props.Cost
import Verif.Props.OpenWrap
import Verif.Props.Kept
import Verif.Props.Documented
import Verif.Props.DocumentedSer
import Verif.Props.Grow
import Verif.Props.Faithful
import Verif.Props.Singly
import Verif.Props.Context
import Verif.Props.KeptExact
import Verif.Props.DisplayTells
import Verif.Props.CostWrite
import Verif.Props.AnyElement
import Verif.Props.StackWrite
import Verif.Props.DeclOrder
import Verif.Props.Rewrite
import Verif.Props.Space
import Verif.Props.TextVisitor
import Verif.Props.Copy
import Verif.Props.Local
import Verif.Props.Markup
import Verif.Props.LocalRead
import Verif.Props.LocalCopy
import Verif.Props.LocalErr
import Verif.Props.WholeLocal
import Verif.Props.Reproduce
import Verif.Props.Repair
import Verif.Props.Serializer
import Verif.Props.Onward
import Verif.Props.Prompt
import Verif.Props.Mend
import Verif.Props.Leaf
import Verif.Props.Conserve
import Verif.Props.Marks
