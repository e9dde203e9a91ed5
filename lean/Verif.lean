import Verif.Codec.Model
import Verif.Codec.Lemmas
import Verif.Codec.Props
import Verif.Lib.Basic
import Verif.Lib.Err
import Verif.Lib.SMap
import Verif.RecvStream.RxModel
import Verif.RecvStream.RxLemmas
import Verif.RecvStream.RxInv
import Verif.RecvStream.RxSpec
import Verif.RecvStream.Discard
import Verif.RecvStream.RxProps
import Verif.Flow.Model
import Verif.Flow.Lemmas
import Verif.Flow.Spec
import Verif.Flow.Props
import Verif.RecvStream.Model
import Verif.RecvStream.Spec
import Verif.RecvStream.Inv
import Verif.RecvStream.ConnInv
import Verif.RecvStream.Props
import Verif.SendStream.TrackerModel
import Verif.SendStream.TrackerSpec
import Verif.SendStream.TrackerLemmas
import Verif.SendStream.TrackerUnmark
import Verif.SendStream.TrackerProps
import Verif.SendStream.TxModel
import Verif.SendStream.TxLemmas
import Verif.SendStream.Model
import Verif.SendStream.Spec
import Verif.SendStream.Inv
import Verif.SendStream.Step
import Verif.SendStream.FrameLemmas
import Verif.SendStream.FramesSpec
import Verif.SendStream.Keeps
import Verif.SendStream.Props
import Verif.SendStream.StatsProps
import Verif.SendStream.ConnLemmas
import Verif.SendStream.ConnProps
import Verif.SendStream.Examples
import Verif.Acks.Model
import Verif.Acks.Spec
import Verif.Acks.Lemmas
import Verif.Acks.Inv
import Verif.Acks.Props
import Verif.Recovery.PropsCc
import Verif.Keys.Pn
import Verif.Keys.Spec
import Verif.Keys.WriteInv
import Verif.Keys.ReadInv
import Verif.Keys.Inv
import Verif.Keys.Forge
import Verif.Keys.Stuck
import Verif.Keys.Props
import Verif.Idle.Model
import Verif.Idle.Props
import Verif.Path.Model
import Verif.Path.Spec
import Verif.Path.Lemmas
import Verif.Path.Inv
import Verif.Path.Step
import Verif.Path.Hist
import Verif.Path.Props
import Verif.Path.Amp
import Verif.Sched.Model
import Verif.Sched.Lemmas
import Verif.Sched.Inv
import Verif.Sched.Iter
import Verif.Sched.Write
import Verif.Sched.Pass
import Verif.Sched.Spec
import Verif.Sched.Whole
import Verif.Sched.Runs
import Verif.Sched.Props
import Verif.Streams.Model
import Verif.Streams.Spec
import Verif.Streams.Ids
import Verif.Streams.Sim
import Verif.Streams.Inv
import Verif.Streams.Open
import Verif.Streams.Whole
import Verif.Streams.Steps
import Verif.Streams.Seen
import Verif.Streams.Fresh
import Verif.Streams.Real
import Verif.Streams.NoLimit
import Verif.Streams.Props
import Verif.Cid.Model
import Verif.Cid.Spec
import Verif.Cid.Inv
import Verif.Cid.Props
import Verif.Frames.Model
import Verif.Frames.Spec
import Verif.Frames.Lemmas
import Verif.Frames.Body
import Verif.Frames.Write
import Verif.Frames.Decode
import Verif.Frames.Props
import Verif.Tparams.Model
import Verif.Tparams.Spec
import Verif.Tparams.Lemmas
import Verif.Tparams.Decode
import Verif.Tparams.Props
import Verif.Qpack.Model
import Verif.Qpack.Huffman
import Verif.Qpack.Literal
import Verif.Qpack.Spec
import Verif.Qpack.Int
import Verif.Qpack.Bits
import Verif.Qpack.Decode
import Verif.Qpack.Lit
import Verif.Qpack.Unique
import Verif.Qpack.Props
import Verif.Qpack.Static
import Verif.Qpack.Table
import Verif.Qpack.TableL
import Verif.Qpack.Lookup
import Verif.Qpack.TableHist
import Verif.Qpack.TableProps
import Verif.Qpack.Instr
import Verif.Qpack.Frame
import Verif.Qpack.InstrL
import Verif.Qpack.Header
import Verif.Qpack.Coder
import Verif.Qpack.Sync
import Verif.Qpack.HeaderL
import Verif.Qpack.EncL
import Verif.Qpack.EncodeL
import Verif.Qpack.System
import Verif.Qpack.SysInv
import Verif.Qpack.SysStep
import Verif.Qpack.SysTable
import Verif.Qpack.SysProps
import Verif.Qpack.Robust
import Verif.Qpack.RobustProps
import Verif.H3.ReaderProps
import Verif.H3.Settings
import Verif.H3.SettingsProps
import Verif.H3.SendProps
import Verif.H3.MessageProps
import Verif.H3.HeadProps
import Verif.H3.RecvMessageProps
import Verif.H3.HeadersProps
import Verif.H3.PushProps
import Verif.Packet.Model
import Verif.Packet.Spec
import Verif.Packet.WriteL
import Verif.Packet.HeaderL
import Verif.Packet.ReadL
import Verif.Packet.FirstL
import Verif.Packet.SoundL
import Verif.Packet.Props
import Verif.Packet.Auth
import Verif.Hs.Model
import Verif.Hs.Spec
import Verif.Hs.Lemmas
import Verif.Hs.ClientL
import Verif.Hs.ServerL
import Verif.Hs.SafeL
import Verif.Hs.Props
import Verif.Packet.Special
import Verif.Token.Senders
import Verif.Server.Findings
import Verif.Sender.Dgram
import Verif.Sender.Pmtud
import Verif.Sender.Ecn
import Verif.Sender.Pacer
import Verif.Sender.AckRate
import Verif.Sender.Events
import Verif.Crypto.Sni
import Verif.Crypto.Model
import Verif.Crypto.Chunks
import Verif.Crypto.Loop
import Verif.Crypto.Held
import Verif.Crypto.Inv
import Verif.Crypto.Props
import Verif.Assemble.Props
import Verif.Assemble.Examples
import Verif.Assemble.Batch
import Verif.Life.Model
import Verif.Life.Lemmas
import Verif.Life.Props
import Verif.Life.Total
import Verif.Life.Opening
import Verif.Life.Examples
import Verif.H3Conn.Model
import Verif.H3Conn.Lemmas
import Verif.H3Conn.Steps
import Verif.H3Conn.Steps2
import Verif.H3Conn.Track
import Verif.H3Conn.Track2
import Verif.H3Conn.Order
import Verif.H3Conn.Whole
import Verif.H3Conn.Reached
import Verif.H3Conn.Try
import Verif.H3Conn.Props
import Verif.H3Conn.Props2
import Verif.H3Conn.Props3
import Verif.E2E.Model
import Verif.E2E.SndLemmas
import Verif.E2E.RcvLemmas
import Verif.E2E.Inv
import Verif.E2E.SysInv
import Verif.E2E.Props
import Verif.E2E.Open
import Verif.E2E.Credit
import Verif.Recovery.Timer
import Verif.Recovery.PropsTimer
import Verif.Timer.Model
import Verif.Timer.Props
import Verif.SlowStart.Model
import Verif.SlowStart.PropsHy
import Verif.SlowStart.Compose
import Verif.SlowStart.Search
import Verif.SlowStart.PropsSearch
import Verif.Session.Model
import Verif.Session.Dgram
import Verif.Session.PropsDgram
import Verif.Session.PropsLife
import Verif.Saved.Model
import Verif.Saved.Lemmas
import Verif.Saved.Props
import Verif.H3.EndToEnd
import Verif.H3.ServerData
import Verif.H3.ServerDataProps
import Verif.H3.WtStream
import Verif.H3.WtStreamProps
import Verif.H3.Priority
import Verif.H3.PriorityProps
import Verif.H3.Request
import Verif.H3.RequestProps
import Verif.Assemble.DatagramSize
import Verif.H3Server.Props
import Verif.H3Server.States
import Verif.Assemble.BatchSplit
import Verif.Tparams.Create
import Verif.H3.Configured
import Verif.Recovery.AckDelay
import Verif.Path.Scone
import Verif.Path.Preferred
import Verif.H3.SendGroups
import Verif.Assemble.Order
import Verif.Common.HrTime
import Verif.Common.Udp
import Verif.Frames.Closing
import Verif.Common.Hex
import Verif.SendStream.Atomic
import Verif.Common.Mtu
import Verif.Common.SendData
import Verif.Common.Http09
import Verif.Common.WwwPath
