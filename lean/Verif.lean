import Verif.Sdnv.Props
import Verif.FragmentSet.Props
import Verif.Cbor.Props
import Verif.LtpReport.Props
import Verif.LtpRng.Props
import Verif.LtpMisc.Props
import Verif.TokenBucket.Props
import Verif.ForwardListQueue.Props
import Verif.CircularIndex.Props
import Verif.HashMap16.Props
import Verif.Catalog.Props
import Verif.Expiration.Props
import Verif.MemoryManager.Props
import Verif.CustodyId.Props
import Verif.CustodyTimers.Props
import Verif.Cbhe.Props
import Verif.Bpv7Crc.Props
import Verif.Bpv7Primary.Props
import Verif.Bpv7Canonical.Props
import Verif.Uri.Props
import Verif.Bpv6Primary.Props
import Verif.Bpv6Canonical.Props
import Verif.AdminRecord6.Props
import Verif.BundleView6.Props
import Verif.Bpv6Fragment.Again
import Verif.LtpWire.Props
import Verif.LtpReceiver.Props
import Verif.LtpSender.Props
import Verif.LtpLink.Props
import Verif.LtpCancel.Props
import Verif.LtpTimers.Props
import Verif.Storage.Props
import Verif.CustodyManager.Props
import Verif.TcpclV3.Props
import Verif.TcpclV4.Props
import Verif.TcpclV4Link.Props
import Verif.AdminRecord7.Props
import Verif.BpSec7.Props
import Verif.BundleView7.Props
import Verif.Cgr.Props
import Verif.CgrMulti.Props
import Verif.Slip.Props
import Verif.Stcp.Props
import Verif.Udp.Props
import Verif.Iv.Props
import Verif.BpSecPolicy.Props
import Verif.BpSecBundle.Props
import Verif.BpSecProcess.Props
import Verif.BpSecProcess.SendProps
import Verif.Ingress7.Props
import Verif.Node.Props
import Verif.Router.Props
import Verif.FileTransfer.Props
import Verif.Encap.Props
import Verif.Source.Props
import Verif.Sink.Props
import Verif.Sink.Echo
import Verif.Sink.Sending
import Verif.FileMem.Props
import Verif.Stream.Props
import Verif.DelaySim.Props
import Verif.LtpSessions.Props
import Verif.TcpclV3Link.Props
import Verif.LtpUdpManager.Props
import Verif.LtpSource.Props
import Verif.EncapDuct.Props
import Verif.LtpIpc.Props
import Verif.EncapRepeater.Props
import Verif.OutMgr.Props
import Verif.LtpEncap.Props
import Verif.UdpBatch.Props
import Verif.DirScan.Props
import Verif.TlsSender.Props
import Verif.HexKey.Props
import Verif.FreeList.Props
import Verif.Recycler.Props
import Verif.DtnTime.Props
