import Verif.Props.Rooms
import Verif.Props.Targeting
import Verif.Props.Session
import Verif.Props.Operator
import Verif.Props.Writer
import Verif.Props.Acks
import Verif.Props.Collector
import Verif.Props.Cluster
import Verif.Props.ClusterAck
import Verif.Props.Heartbeat
import Verif.Props.Lifecycle
import Verif.Props.Connecting
import Verif.Props.Isolation
import Verif.Props.Registry
import Verif.Props.OfRace
import Verif.Props.Parent
import Verif.Props.EventGate
import Verif.Props.EventGateLive
import Verif.Props.Listeners
import Verif.Props.Alias
import Verif.Props.Static
import Verif.Props.Options
import Verif.Props.RoomRace
import Verif.Props.CloseRace
import Verif.Props.RecoverRace
import Verif.Props.JoinRace
import Verif.Props.Inbound
import Verif.Props.Remote
import Verif.Props.Farewell
import Verif.Props.OneServer
import Verif.Props.Beat
import Verif.Props.CastRace
import Verif.Props.Fetch
import Verif.Props.ConnRace
import Verif.Props.Acting
import Verif.Props.RegistryFns
import Verif.Props.InboundRoute
import Verif.Props.FlagRace
import Verif.Props.JoinHandlers
import Verif.Props.RoomSeq
import Verif.Props.Events
import Verif.Props.Wire
import Verif.Props.WorldRooms
import Verif.Props.Swap
import Verif.Props.Family
import Verif.Props.Order
import Verif.Props.Shutdown
import Verif.Props.Turns
import Verif.Props.Slices
import Verif.Props.RoomSet
import Verif.Props.AskRace
import Verif.Props.BeatRace
import Verif.Props.Secret
import Verif.Props.TimerRace
import Verif.Props.Agree
import Verif.Props.Answer
import Verif.Props.CastSeq
import Verif.Props.Data
import Verif.Props.ConnSeq
import Verif.Props.JoinSeq
import Verif.Props.Idle
import Verif.Props.SharedPkt
import Verif.Props.Handshake
import Verif.Props.Encoding
import Verif.Props.Honest
import Verif.Props.AskSeq
import Verif.Props.TimerSeq
import Verif.Props.BeatSeq
import Verif.Props.Buffers
import Verif.Props.RoomJoins
import Verif.Props.Locks
import Verif.Props.RoomCalls
import Verif.Props.BulkRace
import Verif.Props.BulkSeq
import Verif.Props.CloseSeq
import Verif.Props.CloseLoop
import Verif.Props.DynRace
import Verif.Props.NodeRace
import Verif.Props.SessRace
import Verif.Props.Lifetimes
import Verif.Props.NodeSeq
import Verif.Props.SessSeq
import Verif.Props.DataRace
import Verif.Props.Early
import Verif.Props.Returns
import Verif.Props.FamilyRace
import Verif.Props.DynSeq
import Verif.Props.KickRace
import Verif.Props.KickSeq
import Verif.Props.FetchRace
import Verif.Props.PollRace
import Verif.Props.PollSeq
import Verif.Props.RoomNews
import Verif.Props.RoomNewsSeq
import Verif.Props.AcksLive
import Verif.Props.ListenRace
import Verif.Props.PackRace
import Verif.Props.Settle
import Verif.Props.AckTable
import Verif.Props.AcksEnd
import Verif.Props.CollectorEnd
import Verif.Props.ConnEnd
import Verif.Props.RequestsEnd
import Verif.Props.CloseEnd
import Verif.Props.RecoverEnd
import Verif.Props.AskEnd
import Verif.Props.TimerEnd
import Verif.Props.BeatEnd
import Verif.Props.PackEnd
import Verif.Props.TableEnd
import Verif.Props.CastEnd
import Verif.Props.LoopEnd
import Verif.Props.KickEnd
import Verif.Props.DynEnd
import Verif.Props.FetchEnd
import Verif.Props.JoinEnd
import Verif.Props.MidRace
import Verif.Props.MidOnce
