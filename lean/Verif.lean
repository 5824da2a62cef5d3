import Verif.Props.Shuffle
import Verif.Props.ShuffleCount
import Verif.Props.Topology
import Verif.Props.Mixer
import Verif.Props.Server
import Verif.Props.Poly
import Verif.Props.Ibe
import Verif.Props.Config
import Verif.Props.Onion
import Verif.Props.Generate
import Verif.Props.Sender
import Verif.Props.Ecc
import Verif.Props.Network
import Verif.Props.Merkle
import Verif.Props.Base32
import Verif.Props.Sign
import Verif.Props.Verifier
import Verif.Props.Robust
import Verif.Props.Tamper
import Verif.Props.Collector
import Verif.Props.CollectorSafe
import Verif.Props.Pool
import Verif.Props.Streams
import Verif.Props.Services
import Verif.Props.Request
import Verif.Props.Direct
import Verif.Props.Gc
import Verif.Props.DirectClient
import Verif.Props.Relay
import Verif.Props.Coordinator
import Verif.Props.Incoming
import Verif.Props.RelayConn
import Verif.Props.CancelRequest
import Verif.Props.Chains
import Verif.Props.Project
import Verif.Props.System
import Verif.Props.SystemLive
import Verif.Props.Lost
import Verif.Props.Stranger
import Verif.Props.OpenFirst
import Verif.Props.Missing
import Verif.Props.Canonical
import Verif.Props.EndedEarly
import Verif.Props.Generator
import Verif.Props.SendConn
import Verif.Props.Slice
import Verif.Props.EccPool
import Verif.Props.EccOwn
import Verif.Props.Storage
import Verif.Props.Bypass
import Verif.Props.Dial
import Verif.Props.CloseClient
import Verif.Props.Publish
import Verif.Props.Seed
import Verif.Props.VerifierPool
import Verif.Props.ServerRounds
import Verif.Props.BadOnion
import Verif.Props.Reveal
import Verif.Props.Stop
import Verif.Props.Peer
import Verif.Props.SystemCreated
import Verif.Props.CallSystem
import Verif.Props.DirectSystem
import Verif.Props.Silent
import Verif.Props.CallSafety
import Verif.Props.CollectorOnce
import Verif.Props.Stack
import Verif.Props.Hide
import Verif.Props.HideSystem
import Verif.Props.HideLimits
import Verif.Props.Reuse
import Verif.Props.Replay
import Verif.Props.Inject
import Verif.Props.Takeover
import Verif.Props.MixerFine
import Verif.Props.MixerWatch
import Verif.Props.DialRace
import Verif.Props.DirectRace
import Verif.Props.VerifierRace
import Verif.Props.ServerRace
import Verif.Props.RobustRace
import Verif.Props.RelayRace
import Verif.Props.EccFill
import Verif.Props.VotePool
import Verif.Props.Sizes
import Verif.Props.Abandoned
import Verif.Props.SystemConfig
