import Verif.Model.Message
import Verif.Model.Cow
import Verif.Model.Concrete
import Verif.Props.Chars
import Verif.Props.Base64
import Verif.Props.QuotedPrintable
import Verif.Props.Total
import Verif.Props.Email
import Verif.Props.Strings
import Verif.Props.Body
import Verif.Props.Dates
import Verif.Props.Mime
import Verif.Props.Entity
import Verif.Props.Words
import Verif.Props.Text
import Verif.Props.Addresses
import Verif.Props.Headers
import Verif.Props.Lines
import Verif.Props.Cow
import Verif.Props.Trace
import Verif.Props.PrintMime
import Verif.Props.PrintMessage
import Verif.Props.Unicode
import Verif.Props.Part
import Verif.Props.Nesting
import Verif.Props.Borrow
import Verif.Props.BorrowMessage
import Verif.Props.Size
import Verif.Props.Normal
import Verif.Props.NormalMime
import Verif.Props.NormalPart
import Verif.Tests.Conformance
import Verif.Props.Timed
import Verif.Props.TimedCodecs
import Verif.Props.TimedEntity
import Verif.Props.Work
import Verif.Props.Features
import Verif.Props.Exact
import Verif.Props.ExactMime
import Verif.Props.ExactTrace
import Verif.Props.ExactPart
import Verif.Props.ExactWords
import Verif.Props.ExactCut
import Verif.Props.ExactMessage
import Verif.Props.ExactParts
import Verif.Props.ExactAll
import Verif.Props.ExactAnyPart
import Verif.Props.Guarded
import Verif.Props.WhiteLines
import Verif.Props.Build
import Verif.Props.Truncated
import Verif.Spec.Bytes
import Verif.Props.Bytes
import Verif.Spec.Relay
import Verif.Props.Relay
import Verif.Spec.Inert
import Verif.Props.Inert
import Verif.Spec.Separate
import Verif.Props.Separate
import Verif.Props.Case
import Verif.Props.Compatible
import Verif.Props.Dots
import Verif.Props.Join
import Verif.Props.Edit
