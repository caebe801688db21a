import Verif.CodecProps
import Verif.HelloProps
import Verif.HashRingProps
import Verif.MailboxProps
import Verif.MonitorProps
import Verif.NodeProps
import Verif.NodeDownProps
import Verif.SupervisorRunProps
import Verif.SupervisorRetryProps
import Verif.ClientProps
import Verif.CallProps
import Verif.ServerProps
import Verif.IdentProps
import Verif.MiscProps
import Verif.AppProps
import Verif.AppReturnProps
import Verif.RegistryOpsProps
import Verif.RaceProps
import Verif.ConnRaceProps
import Verif.AliasRaceProps
import Verif.WaitProps
import Verif.WaitRemoteProps
import Verif.TimerProps
import Verif.HeartbeatProps
import Verif.WebsocketProps
import Verif.NodeStopProps
import Verif.RestartProps
import Verif.TwoNodeProps
import Verif.TwoNodeLinkProps
import Verif.TwoNodeDemonProps
import Verif.NodeDemonProps
import Verif.TwoNodeSendProps
import Verif.TwoNodeExitProps
import Verif.TwoNodeLossProps
import Verif.AliasProps
import Verif.TightProps
import Verif.NodeLifeProps
import Verif.HandshakeProps
import Verif.LocksProps
import Verif.InfoProps
import Verif.NodeTextProps
import Verif.LocalSendProps
import Verif.NormalExitProps
import Verif.WsServerProps
import Verif.WsAcceptProps
import Verif.SupProcProps
import Verif.SupChildProps
import Verif.OnceProps
import Verif.CallOrderProps
import Verif.ReceiveOrder
import Verif.ReceiveOrderProps
import Verif.TwoNodeHistory
import Verif.TwoNodeCallProps
import Verif.TwoNodeCastProps
import Verif.TwoNodeMixProps
import Verif.SupClient
import Verif.SupClientProps
import Verif.SilentLemmas
import Verif.HandlerProps
import Verif.RegistryClientProps
import Verif.HonestProps
import Verif.Bypass
import Verif.BypassProps
import Verif.BusyProps
import Verif.SupHonestProps
import Verif.HonestAcrossProps
import Verif.Console
import Verif.ConsoleProps
import Verif.Reconnect
import Verif.ReconnectProps
import Verif.HandledProps
import Verif.HandledAcrossProps
import Verif.TwoNodeCausalProps
import Verif.TwoNodeLastProps
import Verif.NoticeProps
import Verif.SupNoticeProps
import Verif.AppConsoleProps
import Verif.AuthProps
import Verif.OrphanProps
import Verif.SupOrphanProps
import Verif.TreeProps
import Verif.FreeNameProps
import Verif.ListedProps
import Verif.AccurateProps
