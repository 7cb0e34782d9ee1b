import Verif.HashTableProps
import Verif.PoolProps
import Verif.GcProps
import Verif.FstProps
import Verif.LmProps
import Verif.DecoderProps
import Verif.DecoderLmProps
import Verif.TextProps
import Verif.ConfigProps
import Verif.PcmProps
import Verif.FbankProps
import Verif.NnetProps
import Verif.AmProps
import Verif.SerProps
import Verif.SttProps
import Verif.CmvnProps
import Verif.QuantProps
import Verif.SoftmaxProps
import Verif.MatrixProps
import Verif.SrfftProps
import Verif.SrfftSafeProps
import Verif.FbankFullProps
import Verif.InitProps
import Verif.MainProps
import Verif.MdecProps
import Verif.WordsProps
import Verif.ToolProps
import Verif.AmConvProps
import Verif.AmContextProps
import Verif.KitExample
import Verif.VecMemProps
import Verif.CmvnConvProps
import Verif.QmulProps
import Verif.ApiProps
import Verif.ApiTextProps
import Verif.LoudProps
import Verif.NanProps
import Verif.OverflowProps
import Verif.SubVecProps
import Verif.SttMemProps
import Verif.MsgProps
import Verif.SayProps
import Verif.TellProps
import Verif.HclgProps
import Verif.LookProps
import Verif.ChartokProps
import Verif.BeamProps
import Verif.BeamMainProps
import Verif.BeamAliveProps
import Verif.ShownProps
import Verif.DiskProps
import Verif.DiskExample
import Verif.IeeeProps
import Verif.IeeeMainProps
import Verif.IeeeMainExample
import Verif.IeeeFbankProps
import Verif.IeeeNnetProps
import Verif.EndProps
import Verif.IeeeEndExample
import Verif.IeeeEndFilesProps
import Verif.IeeeTotalExample
import Verif.IeeeFftProps
import Verif.IeeeFeatProps
import Verif.IeeeCmvnProps
import Verif.IeeeScoreExample
import Verif.IdealExample
import Verif.NetMemProps
import Verif.AmMemProps
import Verif.FbankMemProps
import Verif.HearProps
import Verif.WholeProps
import Verif.SrfftMemProps
import Verif.WholeIeeeProps
import Verif.WholeIeeeExample
import Verif.HeaderProps
import Verif.WordsTextProps
import Verif.MatrixRandProps
import Verif.WordsInitProps
import Verif.ExtractProps
import Verif.MixedProps
import Verif.MkgraphProps
import Verif.AmConvMissing
import Verif.FstTextProps
import Verif.CerProps
