import Verif.Gmw.Props2
import Verif.Arith.Props
import Verif.Arith.Exec
import Verif.Arith.ExecProps
import Verif.Circuit.Props
import Verif.Circuit.BuildProps
import Verif.Proc.Lemmas
import Verif.Exec.Witness
import Verif.Exec.Static
import Verif.Exec.StaticProps
import Verif.Secret.Reduce
import Verif.Circuit.InlineProps
import Verif.Circuit.ConnectProps
import Verif.Circuit.Dedup
import Verif.Exec.Calls
import Verif.Parse.Convert
import Verif.Parse.Compile
import Verif.Mt.Server
import Verif.Mt.Conn
import Verif.Mt.Storage
import Verif.Mt.ArithOt
import Verif.Silent.ExConv
import Verif.Util.Convert
import Verif.Aby2.Multi
import Verif.Aby2.Store
import Verif.Aby2.Precomputed
import Verif.Aby2.PrecomputedTwo
import Verif.Aby2.Witness
import Verif.Aby2.Private
import Verif.Aby2.Active
import Verif.Aby2.ActiveHelper
import Verif.Aby2.TwoPartyProps
import Verif.Tensor.Setup
import Verif.Tensor.Exec
import Verif.Tensor.Circuit
import Verif.Tensor.Masks
import Verif.Tensor.Hidden
import Verif.Tensor.Active
import Verif.Tensor.ActiveInputs
import Verif.Tensor.ActiveParty
import Verif.Tensor.SetupCirc
import Verif.Tensor.TwoParty
import Verif.Tensor.Witness
import Verif.Tensor.Precomputed
import Verif.Mixed.Props
import Verif.Chan.Stats
import Verif.Chan.Multi
import Verif.Circuit.StaticWitness
import Verif.Macro.Witness
import Verif.AVec.Props
import Verif.Util.Rng
import Verif.Exec.Joint
import Verif.Exec.Single
import Verif.Exec.Depth
import Verif.Exec.DepthProps
import Verif.Exec.CallDepth
import Verif.Mixed.Exec
import Verif.Mixed.A2b
import Verif.Mixed.A2bProps
import Verif.Exec.ActiveScalar
import Verif.Exec.ActiveMask
import Verif.Mixed.Private
import Verif.Arith.ExecLeak
import Verif.Mixed.MulLeak
import Verif.Mixed.InputsHidden
import Verif.Mixed.Sharing
import Verif.Fuse.Model
import Verif.Fuse.Spec
import Verif.Fuse.Alone
import Verif.Fuse.Inline
import Verif.Fuse.Nodes
import Verif.Fuse.Step
import Verif.Fuse.Props
import Verif.Fuse.Witness
import Verif.Fuse.Connected
import Verif.Mail.Props
import Verif.Cbc.Encoding
import Verif.Chan.Sub
import Verif.Chan.Sync
import Verif.Cbc.CallProps
import Verif.Mail.CallWitness
import Verif.Exec.StoredWitness
import Verif.Ot.Private
import Verif.Exec.Preproc
import Verif.Exec.Private
import Verif.Exec.Lost
import Verif.Exec.InputsHidden
import Verif.Exec.SilentExec
import Verif.Exec.PreprocProps
import Verif.Parse.Bench
import Verif.Exec.Reuse
import Verif.Exec.Server
import Verif.Aby2.Reuse
import Verif.Macro.Bench
import Verif.Global.Props
import Verif.Global.Witness
import Verif.Global.Locks
import Verif.Util.Spawn
import Verif.Chan.Connect
import Verif.Silent.Fft
import Verif.Gmw.Words
import Verif.Gmw.WordsProps
import Verif.Exec.Words
import Verif.Exec.WordsProps
import Verif.Exec.WordsCirc
import Verif.Exec.WordsPrivate
import Verif.Exec.WordsProvider
import Verif.Exec.WordsProviderProps
import Verif.Ot.Slice
import Verif.Silent.QcEncode
import Verif.Silent.Sample
import Verif.Silent.Codes
