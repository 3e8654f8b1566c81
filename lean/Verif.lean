import Verif.Replay.Props
import Verif.Replay.Usage
import Verif.Toolset.Props
import Verif.Ordered.Props
import Verif.Toggle.Props
import Verif.Packet.Props
import Verif.Types.Props
import Verif.Disconnect.Props
import Verif.Queue.Props
import Verif.Multiplex.Props
import Verif.Mutuals.Props
import Verif.PeerSignals.Props
import Verif.Roster.Props
import Verif.NetSelect.Props
import Verif.NetTryJoin.Props
import Verif.NetMutex.Props
import Verif.NetRwLock.Props
import Verif.SecPacket.Props
import Verif.Layered.Props
import Verif.Hybrid.Props
import Verif.KeyStore.Props
import Verif.TreeMath.Word
import Verif.Hierarchy.Props
import Verif.Splitter.Props
import Verif.Splitter.Reports
import Verif.Splitter.Integrity
import Verif.TreeKem.Props
import Verif.TreeKem.Messages
import Verif.TreeKem.Secret
import Verif.TreeKem.Forward
import Verif.GroupCgka.Props
import Verif.GroupChan.Props
import Verif.GroupCgka.Attacks
import Verif.GroupCgka.RelayProps
import Verif.GroupCgka.RelayLeaves
import Verif.Rekey.Props
import Verif.Rekey.Live
import Verif.Rekey.Data
import Verif.Rekey.Perfect
import Verif.Rekey.File
import Verif.GroupIds.Props
import Verif.Messenger.Props
import Verif.Transfer.Model
import Verif.Transfer.Lemmas
import Verif.Transfer.Props
import Verif.Transfer.Revfs
import Verif.Transfer.Delete
import Verif.FileStore.Model
import Verif.FileStore.Paths
import Verif.FileStore.Lemmas
import Verif.FileStore.Props
import Verif.FileStore.Map
import Verif.FileStore.NetModel
import Verif.FileStore.Net
import Verif.FileStore.NetProps
import Verif.FileStore.Upload
import Verif.Login.Model
import Verif.Login.Cases
import Verif.Login.Lemmas
import Verif.Login.Local
import Verif.Login.Auth
import Verif.Login.Origin
import Verif.Login.Spec
import Verif.Login.Client
import Verif.Login.Panic
import Verif.Login.Props
import Verif.Login.Runs
import Verif.Login.Examples
import Verif.Sessions.Model
import Verif.Sessions.Spec
import Verif.Sessions.Lemmas
import Verif.Sessions.Calm
import Verif.Sessions.Clean
import Verif.Sessions.Orderly
import Verif.Sessions.Runs
import Verif.Sessions.Props
import Verif.HolePunch.Model
import Verif.HolePunch.Spec
import Verif.HolePunch.Lemmas
import Verif.HolePunch.Inv
import Verif.HolePunch.Step
import Verif.HolePunch.Told
import Verif.HolePunch.Alive
import Verif.HolePunch.Recover
import Verif.HolePunch.Mail
import Verif.HolePunch.Props
import Verif.HolePunch.Runs
import Verif.Backends.Model
import Verif.Backends.Spec
import Verif.Backends.Keys
import Verif.Backends.RedisLemmas
import Verif.Backends.RedisPeers
import Verif.Backends.SqlLemmas
import Verif.Backends.SqlPeers
import Verif.Backends.MemLemmas
import Verif.Backends.MemPeers
import Verif.Backends.Queries
import Verif.Backends.Props
import Verif.Backends.Answers
import Verif.Backends.RedisList
import Verif.NatPred.Model
import Verif.NatPred.Spec
import Verif.NatPred.Lemmas
import Verif.NatPred.Props
import Verif.Callbacks.Model
import Verif.Callbacks.Spec
import Verif.Callbacks.Lemmas
import Verif.Callbacks.Props
import Verif.CallChan.Model
import Verif.CallChan.Lemmas
import Verif.CallChan.Props
import Verif.SyncStart.Model
import Verif.SyncStart.Lemmas
import Verif.SyncStart.Timing
import Verif.SyncStart.Props
import Verif.Timers.Model
import Verif.Timers.Lemmas
import Verif.Timers.Props
import Verif.KeepAlive.Model
import Verif.KeepAlive.Props
import Verif.Wire.Model
import Verif.Wire.Lemmas
import Verif.Wire.Props
import Verif.BiChan.Model
import Verif.BiChan.Props
import Verif.Broadcast.Model
import Verif.Broadcast.Props
import Verif.PeerKernel.Props
import Verif.OneConn.Props
import Verif.Ranks.Props
import Verif.Ranks.Secrecy
import Verif.Ranks.Limits
import Verif.Puncher.Props
import Verif.Errors.Props
import Verif.ByteStream.Props
import Verif.Bincode.Props
import Verif.PeerDrop.Props
import Verif.PeerKex.Props
import Verif.PunchPipe.Props
import Verif.Serverless.Props
import Verif.Serverless.Limits
import Verif.ChanEnd.Props
import Verif.Service.Props
import Verif.Udp.Props
import Verif.UdpLife.Props
import Verif.SendFile.Props
import Verif.Listen.Props
import Verif.Inbound.Props
import Verif.Rtc.Props
import Verif.Argon.Props
import Verif.InPlace.Props
import Verif.Uring.Props
import Verif.Meters.Props
