import Verif.Model.GoBase
import Verif.Model.SampleQueue
import Verif.Lemmas.SampleQueue
import Verif.Props.SampleQueue
import Verif.Model.PlaylistEdit
import Verif.Props.PlaylistEdit
import Verif.Model.StreamLoop
import Verif.Spec.Stream
import Verif.Lemmas.StreamLoop
import Verif.Lemmas.StreamLoop2
import Verif.Props.StreamLoop
import Verif.Props.StreamOrder
import Verif.Model.Fill
import Verif.Props.Fill
import Verif.Model.Streamer
import Verif.Lemmas.Streamer
import Verif.Props.Streamer
import Verif.Model.ReadChunks
import Verif.Props.ReadChunks
import Verif.Model.Pcm
import Verif.Props.Pcm
import Verif.Model.Timing
import Verif.Props.Timing
import Verif.Model.StreamMusic
import Verif.Props.StreamMusic
import Verif.Model.Proto
import Verif.Props.Proto
import Verif.Model.Wire
import Verif.Props.Wire
import Verif.Model.Sender
import Verif.Props.Sender
import Verif.Model.Infoer
import Verif.Props.Infoer
import Verif.Model.Fmt
import Verif.Lemmas.Fmt
import Verif.Model.ServerState
import Verif.Props.ServerState
import Verif.Model.Commands
import Verif.Props.Commands
import Verif.Props.Jump
import Verif.Model.Parser
import Verif.Spec.Shell
import Verif.Props.Parser
import Verif.Props.Unparse
import Verif.Model.Session
import Verif.Props.Session
import Verif.Model.Display
import Verif.Props.Display
import Verif.Props.Drawing
import Verif.Model.Logging
import Verif.Props.Logging
import Verif.Model.Files
import Verif.Props.Files
import Verif.Model.Auth
import Verif.Props.Auth
import Verif.Model.SongInfo
import Verif.Props.SongInfo
import Verif.Props.EndToEnd
import Verif.Props.InSync
import Verif.Props.Progress
import Verif.Props.Pipeline
import Verif.Model.ServerConn
import Verif.Props.ServerConn
import Verif.Model.Concurrent
import Verif.Props.Concurrent
import Verif.Spec.Glob
import Verif.Model.Glob
import Verif.Lemmas.Glob
import Verif.Props.Glob
import Verif.Props.EditWhilePlaying
import Verif.Props.TimingRobust
import Verif.Props.CatchUp
import Verif.Model.Ticker
import Verif.Props.Ticker
import Verif.Model.PlayerStart
import Verif.Props.PlayerStart
import Verif.Model.Startup
import Verif.Props.Startup
import Verif.Props.LateJoin
import Verif.Model.Console
import Verif.Props.Console
import Verif.Model.Decode
import Verif.Props.Speed
import Verif.Model.Machine
import Verif.Props.Machine
import Verif.Props.PauseRace
import Verif.Model.Grammar
import Verif.Props.Grammar
import Verif.Model.Flags
import Verif.Model.InfoRace
import Verif.Props.Flags
import Verif.Props.InfoRace
import Verif.Props.Bounded
import Verif.Props.Replies
import Verif.Model.VolumeRace
import Verif.Props.VolumeRace
import Verif.Model.Registry
import Verif.Props.Registry
import Verif.Props.Utf8
import Verif.Props.Position
import Verif.Model.ClientEnd
import Verif.Props.ClientEnd
import Verif.Model.Acceptor
import Verif.Props.Acceptor
import Verif.Model.Float64
import Verif.Props.Float64
import Verif.Props.Volume
import Verif.Model.ProgressBar
import Verif.Props.ProgressBar
import Verif.Model.VolumeLine
import Verif.Props.VolumeLine
import Verif.Props.SoundPath
import Verif.Props.Screen
import Verif.Props.SshSession
import Verif.Model.Json
import Verif.Props.JsonText
import Verif.Props.Json
import Verif.Props.JsonFiles
import Verif.Model.Numbers
import Verif.Props.Numbers
import Verif.Props.NumberText
import Verif.Props.VolumeTyped
import Verif.Model.CommandLine
import Verif.Spec.CommandLine
import Verif.Props.CommandNumbers
import Verif.Props.CommandLine
import Verif.Props.Durations
import Verif.Model.Launch
import Verif.Spec.Launch
import Verif.Props.Launch
import Verif.Model.Slices
import Verif.Spec.Slices
import Verif.Props.Slices
import Verif.Model.ServerStart
import Verif.Props.ServerStart
import Verif.Model.PlaylistRun
import Verif.Props.PlaylistRun
import Verif.Model.StreamLoop64
import Verif.Props.StreamLoop64
import Verif.Props.PauseHeard
import Verif.Props.OnTime
import Verif.Props.Lost
import Verif.Props.Queued
import Verif.Props.ShownInTime
import Verif.Props.InfoRate
import Verif.Props.WrongRate
import Verif.Props.Kept
import Verif.Props.Gapless
import Verif.Model.VolumeTurn
import Verif.Props.VolumeTurn
import Verif.Props.ShownState
import Verif.Props.ListedNumbers
