import Verif.Model.Unpacker
import Verif.Spec.Frames
import Verif.Lemmas.Stream
import Verif.Lemmas.Frames
import Verif.Lemmas.Unpacker
import Verif.Model.Packer
import Verif.Spec.Packing
import Verif.Lemmas.Packer
import Verif.Spec.Sending
import Verif.Lemmas.Sending
import Verif.Props.C01_C03_Unpacker
import Verif.Props.C10_C12_Packer
import Verif.Model.Flexible
import Verif.Lemmas.Flexible
import Verif.Model.Simple
import Verif.Spec.Chunks
import Verif.Lemmas.Simple
import Verif.Props.C04_C06_C09_Unpackers
import Verif.Spec.PrefixSuffix
import Verif.Model.PrefixSuffix
import Verif.Lemmas.PrefixSuffix
import Verif.Props.C07_C08_PrefixSuffix
import Verif.Model.BasicBuffer
import Verif.Spec.ByteString
import Verif.Lemmas.BasicBuffer
import Verif.Props.C13_C15_BasicBuffer
import Verif.Model.Queue
import Verif.Spec.IdealQueue
import Verif.Lemmas.Queue
import Verif.Props.C16_C17_Queue
import Verif.Model.TcpSend
import Verif.Spec.SendOrder
import Verif.Lemmas.TcpSend
import Verif.Lemmas.TcpSend2
import Verif.Lemmas.TcpSend3
import Verif.Props.C20_C23_TcpSend
import Verif.Spec.Fair
import Verif.Props.C22_Fair
import Verif.Lemmas.Fair
import Verif.Props.C26_Fair
import Verif.Props.C24_Fair
import Verif.Model.SendBuffer
import Verif.Spec.SendBuffer
import Verif.Lemmas.SendBuffer
import Verif.Props.C18_C19_SendBuffer
import Verif.Model.UdpSend
import Verif.Spec.UdpOrder
import Verif.Lemmas.UdpSend
import Verif.Lemmas.UdpSend2
import Verif.Props.C24_UdpSend
import Verif.Model.RecvDispatch
import Verif.Spec.Dispatch
import Verif.Lemmas.RecvDispatch
import Verif.Lemmas.RecvDispatch2
import Verif.Props.C25_C27_RecvDispatch
import Verif.Model.SyncRecv
import Verif.Spec.SyncRecv
import Verif.Lemmas.SyncRecv
import Verif.Props.C28_SyncRecv
import Verif.Model.Timer
import Verif.Model.TimerRace
import Verif.Spec.Timers
import Verif.Lemmas.Timer
import Verif.Props.C32_C33_Timer
import Verif.Model.Lifecycle
import Verif.Spec.Lifecycle
import Verif.Lemmas.Lifecycle
import Verif.Props.C29_Lifecycle
import Verif.Props.C29_Fair
import Verif.Model.Shutdown
import Verif.Spec.Shutdown
import Verif.Lemmas.Shutdown
import Verif.Props.C30_Shutdown
import Verif.Props.C30_Fair
import Verif.Model.Heartbeat
import Verif.Spec.Heartbeat
import Verif.Lemmas.Heartbeat
import Verif.Props.C31_Heartbeat
import Verif.Model.ObjectPool
import Verif.Spec.ObjectPool
import Verif.Lemmas.ObjectPool
import Verif.Lemmas.ObjectPool2
import Verif.Lemmas.ObjectPool3
import Verif.Props.C34_C36_ObjectPool
import Verif.Props.C35_Held
import Verif.Model.IoContext
import Verif.Spec.IoContext
import Verif.Props.C37_C54_IoContext
import Verif.Spec.ThreadNum
import Verif.Model.ThreadNum
import Verif.Props.C38_C55_ThreadNum
import Verif.Spec.Services
import Verif.Model.Services
import Verif.Props.C39_Services
import Verif.Spec.Reconnect
import Verif.Model.Reconnect
import Verif.Props.C40_Reconnect
import Verif.Props.C40_Fair
import Verif.Spec.Socks
import Verif.Model.Socks
import Verif.Lemmas.Socks
import Verif.Lemmas.Socks5
import Verif.Props.C41_Socks4
import Verif.Props.C42_C43_Socks5
import Verif.Props.C44_C46_FileTransfer
import Verif.Props.C47_Accept
import Verif.Spec.Statistic
import Verif.Model.Statistic
import Verif.Props.C48_Statistic
import Verif.Model.ReliableUdp
import Verif.Props.C49_ReliableUdp
import Verif.Model.Handshake
import Verif.Spec.Handshake
import Verif.Lemmas.Handshake
import Verif.Props.C50_Handshake
import Verif.Model.Callbacks
import Verif.Spec.Callbacks
import Verif.Props.C51_Callbacks
import Verif.Props.C56_EndToEnd
import Verif.Props.C56_Fair
import Verif.Props.C57_C59_RecvModes
import Verif.Spec.UdpAddr
import Verif.Model.UdpAddr
import Verif.Lemmas.UdpAddr
import Verif.Props.C60_C61_UdpAddr
import Verif.Spec.MultiService
import Verif.Model.MultiService
import Verif.Lemmas.MultiService
import Verif.Props.C62_C63_MultiService
import Verif.Spec.SendApi
import Verif.Model.SendApi
import Verif.Props.C64_SendApi
import Verif.Spec.Broadcast
import Verif.Model.Broadcast
import Verif.Lemmas.Broadcast
import Verif.Lemmas.Broadcast2
import Verif.Lemmas.Broadcast3
import Verif.Props.C65_C66_Broadcast
import Verif.Spec.Wrapped
import Verif.Model.Wrapped
import Verif.Lemmas.Wrapped
import Verif.Lemmas.Wrapped2
import Verif.Lemmas.Wrapped3
import Verif.Props.C67_Wrapped
import Verif.Spec.RawData
import Verif.Model.RawData
import Verif.Props.C68_RawData
import Verif.Props.C69_Websocket
import Verif.Props.C69_Fair
import Verif.Spec.Echo
import Verif.Model.Echo
import Verif.Props.C70_Echo
import Verif.Spec.TimedTimer
import Verif.Model.TimedTimer
import Verif.Props.C71_C72_TimedTimer
import Verif.Spec.Links
import Verif.Model.Links
import Verif.Lemmas.Links
import Verif.Lemmas.Links2
import Verif.Lemmas.Links3
import Verif.Lemmas.Links4
import Verif.Props.C73_C74_Links
import Verif.Model.KcpPipe
import Verif.Spec.KcpPipe
import Verif.Lemmas.KcpPipe
import Verif.Props.C75_KcpPipe
import Verif.Props.C75_Fair
import Verif.Model.Notify
import Verif.Spec.Notify
import Verif.Lemmas.Notify
import Verif.Lemmas.NotifyUdp
import Verif.Props.C76_Notify
import Verif.Props.C77_UdpAlive
import Verif.Model.UdpLife
import Verif.Props.C78_UdpLife
import Verif.Spec.Memory
import Verif.Model.Memory
import Verif.Props.C79_Memory
import Verif.Spec.TimerFunctor
import Verif.Model.TimerFunctor
import Verif.Props.C80_TimerFunctor
import Verif.Spec.Pingpong
import Verif.Model.Pingpong
import Verif.Props.C81_Pingpong
import Verif.Spec.Log
import Verif.Model.Log
import Verif.Props.C82_Log
import Verif.Spec.Names
import Verif.Model.Names
import Verif.Props.C83_Names
import Verif.Model.PreAccept
import Verif.Props.C84_PreAccept
import Verif.Model.GroupLinks
import Verif.Props.C85_GroupLinks
import Verif.Spec.FileClient
import Verif.Model.FileClient
import Verif.Lemmas.FileClient
import Verif.Props.C86_FileClient
import Verif.Spec.EchoTest
import Verif.Model.EchoTest
import Verif.Lemmas.EchoTest
import Verif.Props.C87_EchoTest
import Verif.Spec.LinkEnd
import Verif.Model.LinkEnd
import Verif.Lemmas.LinkEnd
import Verif.Props.C88_LinkEnd
import Verif.Spec.QueueRace
import Verif.Model.QueueRace
import Verif.Lemmas.QueueRace
import Verif.Props.C89_QueueRace
import Verif.Props.C90_RetryRace
import Verif.Props.C91_StatRace
import Verif.Props.C92_Settings
import Verif.Props.C93_Protocols
import Verif.Props.C93_Fair
import Verif.Model.LinkCut
import Verif.Spec.LinkCut
import Verif.Lemmas.Cut
import Verif.Lemmas.LinkCut
import Verif.Lemmas.LinkCut2
import Verif.Props.C94_LastMessages
import Verif.Spec.ModePipe
import Verif.Model.ModePipe
import Verif.Lemmas.ModePipe
import Verif.Lemmas.ModePipe2
import Verif.Props.C95_Modes
import Verif.Lemmas.ModeFair
import Verif.Props.C95_Fair
import Verif.Spec.UdpPipe
import Verif.Model.UdpPipe
import Verif.Lemmas.UdpPipe
import Verif.Lemmas.UdpPipe2
import Verif.Lemmas.UdpPipe3
import Verif.Props.C96_UdpPipe
import Verif.Props.C96_Fair
import Verif.Model.BufferNew
import Verif.Spec.BufferNew
import Verif.Props.C97_BufferNew
import Verif.Spec.Binding
import Verif.Model.Binding
import Verif.Props.C98_Binding
import Verif.Model.Window
import Verif.Spec.Window
import Verif.Lemmas.Window
import Verif.Lemmas.Window2
import Verif.Props.C99_Window
import Verif.Props.C70_Fair
import Verif.Props.C99_Fair
import Verif.Model.HeartbeatPair
import Verif.Spec.HeartbeatPair
import Verif.Lemmas.HeartbeatPair
import Verif.Lemmas.HeartbeatPair2
import Verif.Props.C100_HeartbeatPair
import Verif.Props.C101_Dump
import Verif.Props.C101_PrefixSuffix
import Verif.Spec.ScopeLock
import Verif.Model.ScopeLock
import Verif.Lemmas.ScopeLock
import Verif.Props.C102_ScopeLock
import Verif.Props.C102_Fair
import Verif.Props.C103_OneClient
import Verif.Props.C104_Delay
import Verif.Props.C105_ShortClient
import Verif.Props.C106_KcpClock
import Verif.Props.C107_UdpHeartbeat
import Verif.Props.C108_ClientAddr
import Verif.Props.C109_DelayWatch
import Verif.Props.C110_PassiveSync
import Verif.Props.C111_TimerIds
import Verif.Props.C112_FileProgress
import Verif.Props.C113_SyncTime
import Verif.Props.C114_SyncSendTime
