import Verif.Props.Wire
import Verif.Props.BitMask
import Verif.Props.TypeCode
import Verif.Props.TypeDesc
import Verif.Props.Value
import Verif.Props.ValueOps
import Verif.Props.Conn
import Verif.Props.ServerConn
import Verif.Props.ServerMon
import Verif.Props.SharedPV
import Verif.Props.PVRequest
import Verif.Props.ReqParse
import Verif.Props.ClientOp
import Verif.Props.ClientMon
import Verif.Props.Text
import Verif.Props.Fifo
import Verif.Props.Scalar
import Verif.Props.SharedArray
import Verif.Props.Config
import Verif.Props.Log
import Verif.Props.Ids
import Verif.Props.Udp
import Verif.Props.Source
import Verif.Props.SearchReply
import Verif.Props.Search
import Verif.Props.Beacon
import Verif.Props.Cache
import Verif.Props.EvLoop
import Verif.Props.Life
import Verif.Props.FieldName
import Verif.Props.GroupConf
import Verif.Props.GroupPut
import Verif.Props.GroupMon
import Verif.Props.Lookup
import Verif.Props.SameType
import Verif.Spec.ClientChan
import Verif.Lemmas.ClientChan
import Verif.Lemmas.ClientChan2
import Verif.Lemmas.ClientChan3
import Verif.Model.ClientChan
import Verif.Props.ClientChan
import Verif.Model.Handshake
import Verif.Spec.Handshake
import Verif.Props.Handshake
import Verif.Model.IocCred
import Verif.Spec.IocCred
import Verif.Props.IocCred
import Verif.Model.RecordPut
import Verif.Spec.RecordPut
import Verif.Props.RecordPut
import Verif.Model.RecordGet
import Verif.Spec.RecordGet
import Verif.Props.RecordGet
import Verif.Model.Wait
import Verif.Spec.Wait
import Verif.Props.Wait
import Verif.Model.PutBuild
import Verif.Spec.PutBuild
import Verif.Props.PutBuild
import Verif.Model.TypeDef
import Verif.Spec.TypeDef
import Verif.Props.TypeDef
import Verif.Model.ArrayConv
import Verif.Spec.ArrayConv
import Verif.Lemmas.Real
import Verif.Props.ArrayConv
import Verif.Model.ServerPV
import Verif.Spec.ServerPV
import Verif.Props.ServerPV
import Verif.Model.RealScalar
import Verif.Spec.RealScalar
import Verif.Lemmas.RealText
import Verif.Props.RealScalar
import Verif.Model.ClientInfo
import Verif.Spec.ClientInfo
import Verif.Props.ClientInfo
import Verif.Model.ClientConnect
import Verif.Spec.ClientConnect
import Verif.Props.ClientConnect
import Verif.Model.LinkPut
import Verif.Spec.LinkPut
import Verif.Props.LinkPut
import Verif.Model.LinkScan
import Verif.Spec.LinkScan
import Verif.Props.LinkScan
import Verif.Model.LinkRead
import Verif.Spec.LinkRead
import Verif.Props.LinkRead
import Verif.Model.LinkConf
import Verif.Spec.LinkConf
import Verif.Props.LinkConf
import Verif.Model.RealParse
import Verif.Spec.RealParse
import Verif.Lemmas.RealRatio
import Verif.Lemmas.RealParse
import Verif.Lemmas.RealBack
import Verif.Props.RealParse
import Verif.Model.ConfigTime
import Verif.Lemmas.ConfigTime
import Verif.Props.ConfigTime
import Verif.Model.GroupGet
import Verif.Spec.GroupGet
import Verif.Props.GroupGet
import Verif.Model.Discover
import Verif.Spec.Discover
import Verif.Props.Discover
import Verif.Model.FlowCtl
import Verif.Spec.FlowCtl
import Verif.Props.FlowCtl
import Verif.Model.GroupJson
import Verif.Spec.GroupJson
import Verif.Props.GroupJson
import Verif.Model.GroupLoad
import Verif.Spec.GroupLoad
import Verif.Props.GroupLoad
import Verif.Model.RecordVal
import Verif.Spec.RecordVal
import Verif.Props.RecordVal
import Verif.Model.NT
import Verif.Spec.NT
import Verif.Props.NT
import Verif.Model.GroupType
import Verif.Spec.GroupType
import Verif.Props.GroupType
import Verif.Model.Print
import Verif.Spec.Print
import Verif.Props.Print
import Verif.Model.RpcArgs
import Verif.Spec.RpcArgs
import Verif.Props.RpcArgs
import Verif.Model.ServAddr
import Verif.Spec.ServAddr
import Verif.Props.ServAddr
import Verif.Model.LinkMeta
import Verif.Spec.LinkMeta
import Verif.Props.LinkMeta
import Verif.Model.Mshim
import Verif.Spec.Mshim
import Verif.Props.Mshim
import Verif.Model.ClientAddr
import Verif.Spec.ClientAddr
import Verif.Props.ClientAddr
import Verif.Model.MonStat
import Verif.Spec.MonStat
import Verif.Props.MonStat
import Verif.Model.Tools
import Verif.Spec.Tools
import Verif.Props.Tools
import Verif.Model.IfaceMap
import Verif.Spec.IfaceMap
import Verif.Props.IfaceMap
import Verif.Model.TypeText
import Verif.Spec.TypeText
import Verif.Props.TypeText
import Verif.Model.Alive
import Verif.Spec.Alive
import Verif.Props.Alive
import Verif.Model.WorkQueue
import Verif.Spec.WorkQueue
import Verif.Lemmas.WorkQueue
import Verif.Lemmas.WorkQueue2
import Verif.Props.WorkQueue
import Verif.Model.Fetch
import Verif.Spec.Fetch
import Verif.Lemmas.Fetch
import Verif.Props.Fetch
import Verif.Model.Memory
import Verif.Spec.Memory
import Verif.Lemmas.Memory
import Verif.Props.Memory
import Verif.Model.TestCase
import Verif.Spec.TestCase
import Verif.Props.TestCase
import Verif.Model.Shell
import Verif.Spec.Shell
import Verif.Props.Shell
import Verif.Model.IocLife
import Verif.Spec.IocLife
import Verif.Props.IocLife
import Verif.Model.Vct
import Verif.Spec.Vct
import Verif.Props.Vct
import Verif.Model.CliStat
import Verif.Spec.CliStat
import Verif.Props.CliStat
import Verif.Model.Once
import Verif.Spec.Once
import Verif.Props.Once
import Verif.Model.Report
import Verif.Spec.Report
import Verif.Props.Report
import Verif.Model.Timer
import Verif.Spec.Timer
import Verif.Props.Timer
import Verif.Model.OutBuf
import Verif.Spec.OutBuf
import Verif.Props.OutBuf
import Verif.Model.LogMsg
import Verif.Spec.LogMsg
import Verif.Props.LogMsg
import Verif.Model.SigInt
import Verif.Spec.SigInt
import Verif.Props.SigInt
import Verif.Model.InstCount
import Verif.Spec.InstCount
import Verif.Props.InstCount
import Verif.Model.Indent
import Verif.Spec.Indent
import Verif.Props.Indent
import Verif.Model.Sock
import Verif.Spec.Sock
import Verif.Props.Sock
import Verif.Model.ReplyRx
import Verif.Spec.ReplyRx
import Verif.Props.ReplyRx
import Verif.Model.ForcedServer
import Verif.Spec.ForcedServer
import Verif.Props.ForcedServer
import Verif.Model.LinkWait
import Verif.Spec.LinkWait
import Verif.Props.LinkWait
