import Verif.Vint.Props
import Verif.Buffer.Props
import Verif.Buffer.MergeProps
import Verif.Buffer.Mode
import Verif.Buffer.ModeProps
import Verif.Subnet.Props
import Verif.Subnet.Order
import Verif.Mem.Props
import Verif.Mem.Count
import Verif.Mem.CountProps
import Verif.Mem.DamageProps
import Verif.Mem.ConcCount
import Verif.Mem.ConcProps
import Verif.Mem.ConcWrap
import Verif.Mem.Progress
import Verif.Mem.Tso
import Verif.Mem.TsoSim
import Verif.Mem.TsoRun
import Verif.Mem.TsoStep
import Verif.Mem.TsoMain
import Verif.Mem.TsoProps
import Verif.Mem.Reorder
import Verif.Mem.ReorderSim
import Verif.Mem.ReorderProps
import Verif.IoStream.RecvExact
import Verif.IoStream.Props
import Verif.IoStream.Goodbye
import Verif.IoStream.PoolProps
import Verif.Address.Props
import Verif.Endpoint.Props
import Verif.Endpoint.StatProps
import Verif.Endpoint.LifeProps
import Verif.Node.ForwardProps
import Verif.Node.SelfProps
import Verif.Node.HandshakeProps
import Verif.Node.LifeProps
import Verif.Node.PeerProps
import Verif.Node.TimerProps
import Verif.Node.RegistryProps
import Verif.Node.PushStatProps
import Verif.Node.SizesProps
import Verif.Node.ConnectProps
import Verif.Shm.Props
import Verif.Node.Command
import Verif.Node.CommandLemmas
import Verif.Node.CommandProps
import Verif.Node.Mesh
import Verif.Node.MeshProps
import Verif.Node.Waiting
import Verif.Node.WaitingProps
import Verif.Node.Poll
import Verif.Node.PollProps
import Verif.Node.Work
import Verif.Node.WorkProps
import Verif.Node.Link
import Verif.Node.LinkProps
import Verif.Node.Collect
import Verif.Node.CollectProps
import Verif.Node.Tree
import Verif.Node.TreeProps
import Verif.Node.NetProps
import Verif.Shm.Share
import Verif.Shm.ShareProps
import Verif.Node.Pipe
import Verif.Node.PipeProps
import Verif.Node.Handler
import Verif.Node.HandlerProps
import Verif.Node.Heart
import Verif.Node.HeartProps
import Verif.Node.Avail
import Verif.Node.Reset
import Verif.Node.ResetProps
import Verif.Node.Stream
import Verif.Node.StreamProps
import Verif.Node.Lanes
import Verif.Node.LanesProps
import Verif.Node.LifeState
import Verif.Node.Listen
import Verif.Node.ListenProps
import Verif.Node.Relay
import Verif.Node.RelayProps
import Verif.Node.RelayPath
import Verif.Node.RelayTree
import Verif.Node.RelayExamples
import Verif.Node.RemoveProps
import Verif.Node.RelayEnds
import Verif.Node.RelayRefused
import Verif.Node.PeerAddr
import Verif.Node.PeerAddrProps
import Verif.Node.HostName
import Verif.Node.HostNameProps
import Verif.Node.RelayAnswers
import Verif.Node.RelayReport
import Verif.IoStream.HandlesProps
import Verif.Node.RelayLive
import Verif.Mem.Show
import Verif.Mem.ShowProps
import Verif.Node.Reenter
import Verif.Node.ReenterProps
import Verif.Node.IpAddr
import Verif.Node.IpAddrProps
import Verif.Node.Delay
import Verif.Node.DelayProps
import Verif.Node.Loop
import Verif.Node.LoopProps
import Verif.IoStream.HandlesDns
import Verif.IoStream.HandlesDnsProps
import Verif.Node.Owner
import Verif.Node.OwnerProps
import Verif.Node.PingIter
import Verif.Node.PingIterProps
import Verif.Node.Created
import Verif.Node.CreatedProps
