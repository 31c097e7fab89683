import Verif.Common
import Verif.TileArray.Props
import Verif.Mvm.Props
import Verif.Periphery.Props6
import Verif.Periphery.Alias
import Verif.PostUpdate.Props
import Verif.PostUpdate.Clip
import Verif.PostUpdate.ModifierProps
import Verif.PostUpdate.ModifierProps2
import Verif.PostUpdate.ModifierExamples
import Verif.PostUpdate.Custom
import Verif.Inference.ConverterProps
import Verif.Inference.ConverterCustom
import Verif.Inference.NoiseProps
import Verif.Inference.TileProps
import Verif.Inference.TileComp
import Verif.Inference.TileExamples
import Verif.Optim.Props
import Verif.Optim.StepProps
import Verif.Optim.ContextProps2
import Verif.Pulsed.Props2
import Verif.Pulsed.BitLineProps
import Verif.Pulsed.UpdateMean
import Verif.Pulsed.TransferProps2
import Verif.Pulsed.Drift
import Verif.Pulsed.Examples
import Verif.Pulsed.TransferProps3
import Verif.State.Props2
import Verif.State.Props3
import Verif.State.Context
import Verif.State.Device
import Verif.State.Examples
import Verif.State.Props4
import Verif.Convert.Shared
import Verif.Fusion.Props2
import Verif.Quant.Props
import Verif.Quant.EstProps2
import Verif.Quant.MgrProps
import Verif.Quant.LayerProps
import Verif.Quant.CalibrateProps
import Verif.Calib.Props3
import Verif.QConvert.Examples
import Verif.Pulsed.BufferedExamples
import Verif.Pulsed.DynamicExamples
import Verif.PyTransfer.Examples
import Verif.Conv.Examples
import Verif.Conv.MappedExamples
import Verif.Rnn.Examples
import Verif.Pulsed.MixedPrecExamples
import Verif.Container.Examples
import Verif.Mvm.Chain
import Verif.CppFwd.Examples
import Verif.CppFwd.TorchExamples
import Verif.Pulsed.VectorExamples
import Verif.Wpo.Examples
import Verif.IrDrop.Props
import Verif.IrDrop.Props2
import Verif.IrDrop.Props69
import Verif.IrDrop.Examples
import Verif.FloatPrec.Props
import Verif.FloatPrec.Examples
import Verif.Linalg.Props2
import Verif.Linalg.Examples
import Verif.Extra.Props
import Verif.Extra.Examples
import Verif.Extra.Every
import Verif.Extra.EveryExamples
import Verif.Bind.Props3
import Verif.Bind.Examples
import Verif.Pulsed.PmaxProps
import Verif.Pulsed.PmaxExamples
import Verif.State.CompoundProps
import Verif.State.CompoundExamples
import Verif.Info.Props
import Verif.Info.Examples
import Verif.Legacy.Props
import Verif.Legacy.Examples
import Verif.Cloud.Props
import Verif.Cloud.Examples
import Verif.Cloud.Props3
import Verif.Cloud.Props2
import Verif.Cloud.Props4
import Verif.Cloud.Props5
import Verif.Exper.Props
import Verif.Exper.Examples
import Verif.Exper.InferProps
import Verif.Exper.InferExamples
import Verif.Exper.TemplateProps
import Verif.Exper.TemplateExamples
import Verif.QStates.Props
import Verif.QStates.Examples
import Verif.RpuSimple.Props
import Verif.RpuSimple.Bind
import Verif.RpuSimple.Grad
import Verif.RpuSimple.Samples
import Verif.RpuSimple.Examples
import Verif.Decay.Props2
import Verif.Decay.Examples
import Verif.Shared.Props2
import Verif.Shared.Rows
import Verif.Shared.Examples
import Verif.BuildCfg.Props3
import Verif.BuildCfg.Examples
import Verif.Settings.Props3
import Verif.Settings.Examples
import Verif.Gpu.Noise
import Verif.Gpu.Examples
import Verif.Client.Works
import Verif.Client.Examples
import Verif.GpuNm.Props
import Verif.GpuNm.Examples
import Verif.GpuIo.Scales
import Verif.GpuIo.Examples
import Verif.GpuMod.Tiles
import Verif.GpuMod.Examples
import Verif.GpuPost.Clip
import Verif.GpuPost.Logical
import Verif.GpuPost.Checkpoint
import Verif.GpuPost.Examples
import Verif.GpuPulse.Props
import Verif.GpuPulse.Props2
import Verif.GpuPulse.Implicit
import Verif.GpuPulse.Examples
import Verif.GpuDecay.Props
import Verif.GpuDecay.Reset
import Verif.GpuDecay.Examples
