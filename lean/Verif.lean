import Verif.Model.DeEnum
import Verif.Model.Ser
import Verif.Model.XmlText
import Verif.Tests.Repo
import Verif.Tests.Examples
import Verif.Props.Runtime
import Verif.Props.Decode
import Verif.Props.Total
import Verif.Props.Scalars
import Verif.Props.Encode
import Verif.Proofs.XmlLaw
import Verif.Proofs.RoundTrip
import Verif.Proofs.Simple
import Verif.Model.Primitives
import Verif.Tests.RtCheck
import Verif.Tests.SimpleCheck
import Verif.Proofs.Leaf
import Verif.Tests.Trip
import Verif.Props.RoundTrip
import Verif.Props.Flatten
import Verif.Props.WellFormed
import Verif.Props.Layout
import Verif.Props.Macro
import Verif.Props.Sound
import Verif.Props.AttrUser
import Verif.Props.AnyDoc
import Verif.Props.Sources
import Verif.Props.Tagged
import Verif.Props.Cut
import Verif.Props.Rename
import Verif.Props.Twin
import Verif.Props.Evolve
import Verif.Props.Room
import Verif.Props.Bound
import Verif.Props.Spell
import Verif.Props.Panic
import Verif.Props.Visitor
import Verif.Props.Generated
import Verif.Props.Bare
import Verif.Props.GeneratedSer
import Verif.Props.GeneratedTrip
import Verif.Props.User
import Verif.Props.Counter
import Verif.Props.Frames
import Verif.Props.UserSer
import Verif.Props.SerFrames
import Verif.Props.RuntimeGen
import Verif.Props.Size
import Verif.Props.OutSize
import Verif.Props.Mixed
import Verif.Props.SizeAttr
import Verif.Props.SizeScalar
import Verif.Props.Entry
import Verif.Props.Generic
import Verif.Props.Local
import Verif.Props.Call
import Verif.Props.Expose
import Verif.Props.Open
import Verif.Props.Namesake
import Verif.Props.RecursiveDoc
import Verif.Props.Options
import Verif.Props.Unwritten
import Verif.Props.NewField
import Verif.Props.NewVariant
import Verif.Axioms
