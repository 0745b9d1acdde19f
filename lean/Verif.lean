import Verif.Spec.Arrived
import Verif.Spec.Capture
import Verif.Spec.CaptureStart
import Verif.Spec.CommandLine
import Verif.Spec.Descr
import Verif.Spec.Disk
import Verif.Spec.Dump
import Verif.Spec.Fifo
import Verif.Spec.Fleet
import Verif.Spec.FleetPipe
import Verif.Spec.FreeWrapper
import Verif.Spec.HeapHistory
import Verif.Spec.HeapLife
import Verif.Spec.History
import Verif.Spec.IoNet
import Verif.Spec.IoPipe
import Verif.Spec.IothrFair
import Verif.Spec.IothrFile
import Verif.Spec.IothrFreed
import Verif.Spec.IothrLog
import Verif.Spec.IothrProgress
import Verif.Spec.IothrQueuesFreed
import Verif.Spec.IothrQueuesProgress
import Verif.Spec.Layout
import Verif.Spec.Link
import Verif.Spec.Net
import Verif.Spec.Numeral
import Verif.Spec.OptionRange
import Verif.Spec.Payload
import Verif.Spec.PeerMemory
import Verif.Spec.Pipe
import Verif.Spec.Pipeline
import Verif.Spec.QLib
import Verif.Spec.QNet
import Verif.Spec.QPipe
import Verif.Spec.QueueLog
import Verif.Spec.QueueMt
import Verif.Spec.Race
import Verif.Spec.Replay
import Verif.Spec.Rotation
import Verif.Spec.Stream
import Verif.Spec.Trace
import Verif.Spec.Transport
import Verif.Spec.Vector
import Verif.Spec.Wire
import Verif.Model.Addr
import Verif.Model.Argv
import Verif.Model.Basic
import Verif.Model.Capture
import Verif.Model.CaptureMain
import Verif.Model.CaptureSignal
import Verif.Model.Clock
import Verif.Model.ClockBuild
import Verif.Model.Control
import Verif.Model.ControlNames
import Verif.Model.Dump
import Verif.Model.DumpInPlace
import Verif.Model.FdSock
import Verif.Model.File
import Verif.Model.FreeWrapper
import Verif.Model.Heap
import Verif.Model.HeapInit
import Verif.Model.Iothr
import Verif.Model.IothrAccess
import Verif.Model.IothrOptions
import Verif.Model.IothrQueues
import Verif.Model.IothrSignal
import Verif.Model.IothrStart
import Verif.Model.Layout
import Verif.Model.PrintString
import Verif.Model.Queue
import Verif.Model.QueueIa64
import Verif.Model.QueueMt
import Verif.Model.QueuePayload
import Verif.Model.QueueTso
import Verif.Model.Rdwr
import Verif.Model.Reader
import Verif.Model.Replay
import Verif.Model.ReplayMain
import Verif.Model.Sock
import Verif.Model.Vector
import Verif.Model.Writer
import Verif.Lemmas.Addr
import Verif.Lemmas.Argv
import Verif.Lemmas.ArgvFile
import Verif.Lemmas.ArgvGrids
import Verif.Lemmas.ArgvInv
import Verif.Lemmas.ArgvRefuse
import Verif.Lemmas.ArgvSafe
import Verif.Lemmas.Arrive
import Verif.Lemmas.CaptureConn
import Verif.Lemmas.CaptureIo
import Verif.Lemmas.CaptureItems
import Verif.Lemmas.CaptureListen
import Verif.Lemmas.CaptureLoop
import Verif.Lemmas.CaptureMain
import Verif.Lemmas.CaptureMemory
import Verif.Lemmas.CaptureOut
import Verif.Lemmas.CaptureRun
import Verif.Lemmas.CaptureSpec
import Verif.Lemmas.Chan
import Verif.Lemmas.Conns
import Verif.Lemmas.Control
import Verif.Lemmas.Disk
import Verif.Lemmas.Dump
import Verif.Lemmas.DumpDash
import Verif.Lemmas.DumpInPlace
import Verif.Lemmas.DumpMain
import Verif.Lemmas.Durable
import Verif.Lemmas.Exec
import Verif.Lemmas.FdCloexec
import Verif.Lemmas.FdSignal
import Verif.Lemmas.FdSock
import Verif.Lemmas.File
import Verif.Lemmas.FileNoFail
import Verif.Lemmas.FileRead
import Verif.Lemmas.Fleet
import Verif.Lemmas.FleetInv
import Verif.Lemmas.FleetPipe
import Verif.Lemmas.FreeWrapper
import Verif.Lemmas.GetControl
import Verif.Lemmas.Heap
import Verif.Lemmas.HeapControl
import Verif.Lemmas.HeapInit
import Verif.Lemmas.HeapKeep
import Verif.Lemmas.HeapLost
import Verif.Lemmas.HeapPointers
import Verif.Lemmas.HeapProg
import Verif.Lemmas.HeapReader
import Verif.Lemmas.HeapWriter
import Verif.Lemmas.IoFleet
import Verif.Lemmas.IoNet
import Verif.Lemmas.IoPipe
import Verif.Lemmas.Iothr
import Verif.Lemmas.IothrFair
import Verif.Lemmas.IothrFile
import Verif.Lemmas.IothrFreed
import Verif.Lemmas.IothrInv
import Verif.Lemmas.IothrInv2
import Verif.Lemmas.IothrLive
import Verif.Lemmas.IothrProgress
import Verif.Lemmas.IothrQueues
import Verif.Lemmas.IothrQueuesFair
import Verif.Lemmas.IothrQueuesFreed
import Verif.Lemmas.IothrQueuesLive
import Verif.Lemmas.IothrQueuesProgress
import Verif.Lemmas.IothrQueuesRoom
import Verif.Lemmas.IothrQueuesWait
import Verif.Lemmas.IothrRace
import Verif.Lemmas.IothrRaceOwn
import Verif.Lemmas.IothrRaceRun
import Verif.Lemmas.IothrStdout
import Verif.Lemmas.IothrSwap
import Verif.Lemmas.Layout
import Verif.Lemmas.Net
import Verif.Lemmas.PeerMemory
import Verif.Lemmas.Pipe
import Verif.Lemmas.QFleet
import Verif.Lemmas.QNet
import Verif.Lemmas.QPipe
import Verif.Lemmas.QSwap
import Verif.Lemmas.Queue
import Verif.Lemmas.QueueBounded
import Verif.Lemmas.QueueIa64
import Verif.Lemmas.QueueIa64Impl
import Verif.Lemmas.QueueImpl
import Verif.Lemmas.QueueLive
import Verif.Lemmas.QueueMt
import Verif.Lemmas.QueuePayload
import Verif.Lemmas.QueueTso
import Verif.Lemmas.Race
import Verif.Lemmas.Rdwr
import Verif.Lemmas.Reader
import Verif.Lemmas.ReaderSound
import Verif.Lemmas.Reconnect
import Verif.Lemmas.Replay
import Verif.Lemmas.ReplayFleet
import Verif.Lemmas.ReplayPipe
import Verif.Lemmas.Rotation
import Verif.Lemmas.Safe
import Verif.Lemmas.SafeZero
import Verif.Lemmas.Sent
import Verif.Lemmas.Sock
import Verif.Lemmas.SockChan
import Verif.Lemmas.SockConns
import Verif.Lemmas.SockIothr
import Verif.Lemmas.SockQueues
import Verif.Lemmas.Source
import Verif.Lemmas.Stdout
import Verif.Lemmas.Vector
import Verif.Lemmas.Writer
import Verif.Lemmas.WriterStream
import Verif.Lemmas.WriterTrace
import Verif.Props.Addr
import Verif.Props.Capture
import Verif.Props.CaptureMain
import Verif.Props.CaptureMemory
import Verif.Props.CaptureSignal
import Verif.Props.Clock
import Verif.Props.ClockBuild
import Verif.Props.CommandLine
import Verif.Props.CommandLineAny
import Verif.Props.CommandLineEnv
import Verif.Props.CommandLineFile
import Verif.Props.CommandLineRefuse
import Verif.Props.CommandLineSafe
import Verif.Props.Commands
import Verif.Props.Conns
import Verif.Props.Control
import Verif.Props.ControlNames
import Verif.Props.Descr
import Verif.Props.Dump
import Verif.Props.DumpInPlace
import Verif.Props.DumpTwice
import Verif.Props.Durable
import Verif.Props.File
import Verif.Props.FileRead
import Verif.Props.Fleet
import Verif.Props.FleetPipe
import Verif.Props.FreeWrapper
import Verif.Props.GetControl
import Verif.Props.Handshake
import Verif.Props.Heap
import Verif.Props.HeapInit
import Verif.Props.HeapScarce
import Verif.Props.IoFleet
import Verif.Props.IoHang
import Verif.Props.IoNet
import Verif.Props.IoPipe
import Verif.Props.Iothr
import Verif.Props.IothrConns
import Verif.Props.IothrFair
import Verif.Props.IothrFile
import Verif.Props.IothrFreeThread
import Verif.Props.IothrFreed
import Verif.Props.IothrProgress
import Verif.Props.IothrQueues
import Verif.Props.IothrQueuesFair
import Verif.Props.IothrQueuesFreed
import Verif.Props.IothrQueuesLive
import Verif.Props.IothrQueuesProgress
import Verif.Props.IothrQueuesRoom
import Verif.Props.IothrQueuesWait
import Verif.Props.IothrSignal
import Verif.Props.IothrStart
import Verif.Props.IothrStdout
import Verif.Props.IothrThread
import Verif.Props.Layout
import Verif.Props.Net
import Verif.Props.Notify
import Verif.Props.Options
import Verif.Props.PeerMemory
import Verif.Props.Pipe
import Verif.Props.Pipeline
import Verif.Props.PrintString
import Verif.Props.Prompt
import Verif.Props.QFleet
import Verif.Props.QFleetPipe
import Verif.Props.QLib
import Verif.Props.Queue
import Verif.Props.QueueIa64
import Verif.Props.QueueMt
import Verif.Props.QueuePayload
import Verif.Props.QueueSlots
import Verif.Props.QueueTso
import Verif.Props.Race
import Verif.Props.Reader
import Verif.Props.ReaderFinal
import Verif.Props.ReaderOpen
import Verif.Props.Reconnect
import Verif.Props.Replay
import Verif.Props.ReplayMain
import Verif.Props.Rotation
import Verif.Props.Signal
import Verif.Props.Sock
import Verif.Props.SockChan
import Verif.Props.SockQueues
import Verif.Props.Stdout
import Verif.Props.Vector
import Verif.Props.Writer
import Verif.Props.WriterPrompt
import Verif.Props.ZeroLength
