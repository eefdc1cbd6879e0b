import Verif.Props.BitIO
import Verif.Props.Json
import Verif.Props.Table
import Verif.Props.Manager
import Verif.Props.Template
import Verif.Props.Bufr
import Verif.Props.Unpack
import Verif.Props.Parser
import Verif.Props.Ast
import Verif.Props.PayloadShape
import Verif.Props.PayloadOps
import Verif.Props.PayloadBitmap
import Verif.Props.BitmapBits
import Verif.Props.PayloadTree
import Verif.Props.PayloadInput
import Verif.Props.Factory
import Verif.Props.Message
import Verif.Props.Stream
import Verif.Props.Header
import Verif.Props.Encode
import Verif.Props.Accept
import Verif.Props.Marshal
import Verif.Props.Stringer
import Verif.Props.Safe
import Verif.Props.Api
import Verif.Props.EncodeJson
import Verif.Props.Only
import Verif.Props.Follow
import Verif.Proofs.OnlyCompressed
import Verif.Spec.Decoded
import Verif.Proofs.Decompose
import Verif.Props.Decoded
import Verif.Model.Path
import Verif.Model.Runtime
import Verif.Model.Objects
import Verif.Spec.Runtime
import Verif.Spec.Objects
import Verif.Proofs.Path
import Verif.Props.Runtime
import Verif.Props.Paths
import Verif.Props.Objects
import Verif.Spec.ComposeJson
import Verif.Proofs.Medium
import Verif.Proofs.ComposeJson
import Verif.Proofs.OnlyJson
import Verif.Props.AcceptJson
import Verif.Spec.Overrun
import Verif.Proofs.Overrun
import Verif.Props.AssessmentCount
import Verif.Props.TestData
import Verif.Props.Inspect
import Verif.Props.SharedBitmap
import Verif.Props.UnitTests
import Verif.Props.Float32
import Verif.Proofs.Clear
import Verif.Spec.Crash
import Verif.Proofs.Crash
import Verif.Proofs.CrashRun
import Verif.Props.Crash
import Verif.Spec.Path
import Verif.Props.Place
import Verif.Spec.Root
import Verif.Proofs.Root
import Verif.Props.Root
import Verif.Proofs.Follow
import Verif.Spec.Follow
import Verif.Spec.Transcode
import Verif.Proofs.Transcode
import Verif.Props.Transcode
import Verif.Spec.Extend
import Verif.Proofs.Extend
import Verif.Props.Extend
import Verif.Spec.Ends
import Verif.Proofs.Ends
import Verif.Props.Ends
import Verif.Spec.Recast
import Verif.Proofs.Recast
import Verif.Props.Recast
import Verif.Spec.Size
import Verif.Proofs.Size
import Verif.Props.Size
import Verif.Model.Double
import Verif.Proofs.Double
import Verif.Spec.Accuracy
import Verif.Proofs.Accuracy
import Verif.Props.Accuracy
import Verif.Spec.Lossless
import Verif.Props.Lossless
import Verif.Spec.Finite
import Verif.Proofs.Finite
import Verif.Props.Finite
import Verif.Spec.Fixed
import Verif.Props.Fixed
import Verif.Proofs.Nearest
import Verif.Props.Nearest
import Verif.Spec.Steered
import Verif.Props.Steered
import Verif.Spec.Resync
import Verif.Props.Resync
import Verif.Proofs.Order
import Verif.Props.Order
import Verif.Proofs.Relative
