import Verif.Runtime.Machine
import Verif.Runtime.MachineLemmas
import Verif.Runtime.Safe
import Verif.Runtime.Launch
import Verif.Props.Runtime
import Verif.Compiler.Graph
import Verif.Compiler.Compile
import Verif.Compiler.Sound
import Verif.Compiler.SoundStep
import Verif.Compiler.Correct
import Verif.Compiler.Finish
import Verif.Compiler.Terminate
import Verif.Compiler.Once
import Verif.Compiler.Schedule
import Verif.Compiler.ScheduleLemmas
import Verif.Compiler.Heap
import Verif.Compiler.HeapLemmas
import Verif.Compiler.HeapPasses
import Verif.Compiler.Pipeline
import Verif.Props.Compiler
import Verif.Module.Load
import Verif.Module.LoadLemmas
import Verif.Props.Module
import Verif.Core.Tensor
import Verif.Module.Serial
import Verif.Module.SerialLemmas
import Verif.Module.Bubble
import Verif.Props.Serial
import Verif.Props.Tensor
import Verif.Core.ShapeLemmas
import Verif.Core.ReshapeLemmas
import Verif.Props.Shape
import Verif.Kernels.Transpose
import Verif.Kernels.TransposeLemmas
import Verif.Props.Transpose
import Verif.Props.Concat
import Verif.Props.Slice
import Verif.Props.ElementWise
import Verif.Props.Promote
import Verif.Props.Geometry
import Verif.Props.Pooling
import Verif.Props.Conv
import Verif.Props.Vat
import Verif.Props.Smart
import Verif.Props.Fill
import Verif.Props.Sync
import Verif.Props.SplitBins
import Verif.Props.RwMutex
import Verif.Props.Pool
import Verif.Props.Parallel
import Verif.Props.Ctx
import Verif.Props.OtlVector
import Verif.Props.HalfFloat
import Verif.Props.Sink
import Verif.Props.OpParams
import Verif.Props.ArgParse
import Verif.Runtime.Bench
import Verif.Runtime.Clone
import Verif.Props.Bench
import Verif.Props.Clone
import Verif.Module.Links
import Verif.Props.Links
import Verif.Module.Fusion
import Verif.Module.FusionLemmas
import Verif.Props.Fusion
import Verif.Core.ShapeOps
import Verif.Core.ShapeOpsLemmas
import Verif.Props.ShapeOps
import Verif.Props.SliceAxes
import Verif.Runtime.Inferer
import Verif.Kernels.OpShapes
import Verif.Runtime.InferRules
import Verif.Runtime.InferLemmas
import Verif.Runtime.InferAgree
import Verif.Runtime.InferAgree2
import Verif.Props.Inferer
import Verif.Props.InferRules
import Verif.Kernels.MatMul
import Verif.Kernels.MatMulLemmas
import Verif.Props.MatMul
import Verif.Compiler.Translate
import Verif.Compiler.TranslateLemmas
import Verif.Compiler.TranslatePost
import Verif.Compiler.TranslateGemm
import Verif.Compiler.TranslateMain
import Verif.Compiler.TranslateInit
import Verif.Compiler.TranslateClosed
import Verif.Compiler.PackKern
import Verif.Props.PackKern
import Verif.Props.Translate
import Verif.Kernels.DataMove
import Verif.Kernels.DataMoveLemmas
import Verif.Props.DataMove
import Verif.Kernels.TileLemmas
import Verif.Kernels.SplitLemmas
import Verif.Props.TileSplit
import Verif.Core.Holds
import Verif.Kernels.Buf
import Verif.Kernels.Reduce
import Verif.Kernels.ReduceLemmas
import Verif.Props.Reduce
import Verif.Kernels.Channel
import Verif.Kernels.ChannelLemmas
import Verif.Props.Channel
import Verif.Encryption.Aes
import Verif.Encryption.AesSpec
import Verif.Encryption.AesLemmas
import Verif.Encryption.AesFips
import Verif.Encryption.AesUnique
import Verif.Encryption.Modes
import Verif.Encryption.Stream
import Verif.Encryption.StreamLemmas
import Verif.Encryption.StreamSafe
import Verif.Props.Encryption
import Verif.Kernels.Eff
import Verif.Kernels.Pad
import Verif.Kernels.PadSpec
import Verif.Kernels.PadLemmas
import Verif.Kernels.BatchLemmas
import Verif.Props.Pad
import Verif.Kernels.TopK
import Verif.Kernels.TopKLemmas
import Verif.Props.Select
import Verif.Kernels.Broadcast
import Verif.Kernels.BroadcastLemmas
import Verif.Props.Broadcast
import Verif.Kernels.Winograd
import Verif.Kernels.WinogradAlgebra
import Verif.Kernels.WinogradLemmas
import Verif.Props.Winograd
import Verif.Kernels.Depthwise
import Verif.Props.Depthwise
import Verif.Kernels.Generate
import Verif.Kernels.Cast
import Verif.Props.Generate
import Verif.Props.Cast
import Verif.Kernels.ConvTranspose
import Verif.Props.ConvTranspose
import Verif.Kernels.Resample
import Verif.Kernels.ResampleLemmas
import Verif.Props.Resize
import Verif.Props.Affine
import Verif.Runtime.Filter
import Verif.Runtime.FilterLemmas
import Verif.Props.Filter
import Verif.Kernels.Crop
import Verif.Core.Float32
import Verif.Props.Crop
import Verif.Kernels.ScaleImage
import Verif.Props.ScaleImage
import Verif.Kernels.ImageNorm
import Verif.Props.ImageNorm
import Verif.Props.Whiten
import Verif.Api.Tensor
import Verif.Props.ApiTensor
import Verif.Api.Plugin
import Verif.Props.Plugin
import Verif.Kernels.Activation
import Verif.Props.Activation
import Verif.Kernels.Quantize
import Verif.Props.Quantize
import Verif.Kernels.AutoPad
import Verif.Props.AutoPad
import Verif.Runtime.Lstm
import Verif.Runtime.LstmLemmas
import Verif.Props.Lstm
import Verif.Kernels.CropTo
import Verif.Props.CropTo
import Verif.Kernels.ShapeIndex
import Verif.Props.ShapeIndex
import Verif.Kernels.Yolo
import Verif.Kernels.YoloLemmas
import Verif.Core.Float32Mono
import Verif.Props.Yolo
import Verif.Kernels.PriorBox
import Verif.Kernels.PriorBoxLemmas
import Verif.Props.PriorBox
import Verif.Api.Log
import Verif.Props.Log
import Verif.Props.DetectionSpec
import Verif.Kernels.DetectionOutput
import Verif.Kernels.DetectionLemmas
import Verif.Kernels.DetectionKeep
import Verif.Props.DetectionOutput
import Verif.Kernels.RoiAlign
import Verif.Props.RoiAlign
import Verif.Kernels.Proposal
import Verif.Kernels.ProposalLemmas
import Verif.Props.Proposal
import Verif.Kernels.Dcn
import Verif.Props.Dcn
import Verif.Compiler.Split
import Verif.Compiler.SplitLemmas
import Verif.Compiler.SplitExplore
import Verif.Compiler.SplitRun
import Verif.Compiler.SplitLoop
import Verif.Compiler.SplitBuild
import Verif.Props.Split
import Verif.Runtime.Delegate
import Verif.Props.Delegate
import Verif.Kernels.PoolFast
import Verif.Kernels.PoolFastLemmas
import Verif.Props.PoolFast
import Verif.Runtime.Context
import Verif.Props.Context
import Verif.Api.Graphics2d
import Verif.Props.Graphics2d
import Verif.Core.Scan
import Verif.Props.Scan
import Verif.Runtime.Intime
import Verif.Props.Intime
import Verif.Props.ElementWiseEmpty
import Verif.Api.Switch
import Verif.Props.Switch
import Verif.Runtime.Profiler
import Verif.Props.Profiler
import Verif.Module.Io
import Verif.Props.Io
import Verif.Memory.Hard
import Verif.Memory.HardLemmas
import Verif.Props.Hard
import Verif.Utils.Random
import Verif.Props.Random
import Verif.Compiler.WinogradZip
import Verif.Props.WinogradZip
import Verif.Compiler.Half
import Verif.Props.Half
import Verif.Utils.Fuzzy
import Verif.Props.Fuzzy
import Verif.Kernels.OpShapes2
import Verif.Runtime.InferRules2
import Verif.Runtime.InferAgree3
import Verif.Props.InferRules2
import Verif.Kernels.SliceV3
import Verif.Props.SliceV3
import Verif.Utils.Text
import Verif.Props.Text
import Verif.Runtime.Track
import Verif.Runtime.TrackLemmas
import Verif.Runtime.TrackSound
import Verif.Props.Track
import Verif.Runtime.Power
import Verif.Props.Power
import Verif.Memory.Devices
import Verif.Props.Devices
import Verif.Runtime.Benches
import Verif.Props.Benches
import Verif.Module.Plot
import Verif.Props.Plot
import Verif.Runtime.InferRules3
import Verif.Runtime.InferAgree4
import Verif.Props.InferRules3
import Verif.Runtime.InferAnswer3
import Verif.Props.InferAnswer3
import Verif.Memory.Controller
import Verif.Props.Controller
import Verif.Kernels.VecBinary
import Verif.Props.VecBinary
import Verif.Runtime.InferAnswer
import Verif.Runtime.InferAnswer2
import Verif.Props.InferAnswer
import Verif.Runtime.InferAnswer4
import Verif.Props.InferAnswer2
import Verif.Kernels.Pow
import Verif.Props.Pow
