import Verif.Tlv.Props
import Verif.Encoder.Props
import Verif.Block.Props
import Verif.Hex.Props
import Verif.Name.Props
import Verif.Name.UriProps
import Verif.Name.EditProps
import Verif.Name.TextProps
import Verif.Packet.Props
import Verif.Packet.GetProps
import Verif.Interest.Props
import Verif.Interest.SignProps
import Verif.Interest.SetProps
import Verif.Lp.Props
import Verif.Sched.Props
import Verif.Signal.Props
import Verif.Rtt.Props
import Verif.Segmenter.Props
import Verif.Ims.Props
import Verif.Fetch.Props
import Verif.Regex.Props
import Verif.Face.Props
import Verif.Replay.Props
import Verif.Cert.Props
import Verif.Cert.CacheProps
import Verif.Validator.Props
import Verif.Config.Props
import Verif.Anchors.Props
import Verif.Pib.Props
import Verif.Pib.FrontProps
import Verif.Mgmt.ParamsProps
import Verif.Mgmt.CommandProps
import Verif.Mgmt.DatasetProps
import Verif.Mgmt.DispatcherProps
import Verif.Transport.Props
import Verif.Notify.Props
import Verif.Object.LinkProps
import Verif.Object.AnnounceProps
import Verif.Nfd.ItemsProps2
import Verif.Nfd.DatasetsProps
import Verif.Nfd.ControllerProps
import Verif.KeyChain.Props
import Verif.KeyChain.TextProps
import Verif.Net.Props
import Verif.Net.CanonProps
import Verif.KeyChain.ExportProps
import Verif.Bag.Props
import Verif.Logging.Props
import Verif.Fetcher.Props
import Verif.Pipe.Props
import Verif.Pipe.Base64Props
import Verif.Verify.Props
import Verif.Verify.InterestProps
import Verif.Verify.SignProps
import Verif.Verify.NewSignProps
import Verif.Netlink.Props
import Verif.KeyFile.Props
import Verif.Locator.Props
import Verif.Bundle.Props
import Verif.Dial.Props
import Verif.Scoped.Props
import Verif.Ndnsec.Props
import Verif.Flow.Props
import Verif.Flow.DatasetProps
import Verif.Flow.CommandProps
import Verif.Flow.StreamProps
import Verif.Secure.Props
import Verif.Secure.CertProps
import Verif.Dummy.Props
import Verif.Dummy.RegProps
import Verif.Text.Props
import Verif.Text.IndentProps
import Verif.Link.Props
import Verif.Stub.Props
import Verif.Replay.SignerProps
import Verif.Flow.AnnounceProps
import Verif.KeyParams.Props
