import Verif.Params.Props
import Verif.Memory.Props
import Verif.Collector.Props
import Verif.Serial.Props
import Verif.Wire.Props
import Verif.Stream.Props
import Verif.FileSeq.Props
import Verif.Grid.Props
import Verif.Linalg.Props
import Verif.Stencil.Props
import Verif.Stencil.TableProps
import Verif.Ops.ListProps
import Verif.Ops.Props
import Verif.Ops.GridSumProps
import Verif.Multi.Props
import Verif.Ops.ProjProps
import Verif.Ops.PropagatorProps
import Verif.Ops.ValidProps
import Verif.Propa.ChebyProps
import Verif.Propa.RK4Props
import Verif.Propa.SplitProps
import Verif.Propa.NormModel
import Verif.Propa.NormProps
import Verif.Propa.JumpProps
import Verif.Buffer.Props
import Verif.Cmdline.Props
import Verif.Clock.Props
import Verif.Cplx.Props
import Verif.SimpleXml.NestProps
import Verif.SimpleXml.Props
import Verif.Laser.Props
import Verif.Registry.InitProps
import Verif.Registry.WFProps
import Verif.Chain.KeyProps
import Verif.Report.Props
import Verif.Prog.Props
import Verif.Prog.FilterProps
import Verif.Cfun.Props
import Verif.Filters.Props
import Verif.Cmd.Props
import Verif.Cmd.Client
import Verif.RunXml.Props
import Verif.Fs.Props
import Verif.Peak.Props
import Verif.Eigen.ImagProps
import Verif.Eigen.CorrProps
import Verif.Eigen.DiagProps
import Verif.GridPm.Props
import Verif.Krylov.Model
import Verif.Krylov.Spec
import Verif.Krylov.Lemmas
import Verif.Krylov.SilLemmas
import Verif.Krylov.SpanLemmas
import Verif.Krylov.SilProps
import Verif.Krylov.ArLemmas
import Verif.Krylov.ArProps
import Verif.Oct.Model
import Verif.Oct.Spec
import Verif.Oct.Lemmas
import Verif.Oct.LoopLemmas
import Verif.Oct.ChainLemmas
import Verif.Oct.MonoLemmas
import Verif.Oct.GainLemmas
import Verif.Oct.Sample
import Verif.Oct.Props
import Verif.Oct.PropsMore
import Verif.Oct.PropsStop
import Verif.Deriv.Model
import Verif.Deriv.Spec
import Verif.Deriv.Lemmas
import Verif.Deriv.KinLemmas
import Verif.Deriv.KinProps
import Verif.Deriv.NablaLemmas
import Verif.Deriv.NablaProps
import Verif.Deriv.GLemmas
import Verif.Deriv.GProps
import Verif.Deriv.NacProps
import Verif.GridFn.Model
import Verif.GridFn.Spec
import Verif.GridFn.Lemmas
import Verif.GridFn.GobblerProps
import Verif.GridFn.KickProps
import Verif.GridFn.PosProps
import Verif.GridFn.FluxProps
import Verif.Spo.Model
import Verif.Spo.Spec
import Verif.Spo.DiagProps
import Verif.Spo.Lemmas
import Verif.Spo.Reach
import Verif.Spo.Props
import Verif.Simd.Model
import Verif.Simd.Spec
import Verif.Simd.Lemmas
import Verif.Simd.Props
import Verif.HMat.Model
import Verif.HMat.Lemmas
import Verif.HMat.Props
import Verif.Dms.Model
import Verif.Dms.Lemmas
import Verif.Dms.Props
import Verif.Fric.Model
import Verif.Fric.Props
import Verif.Fd.Model
import Verif.Fd.Props
import Verif.Logs.Model
import Verif.Logs.Props
import Verif.Absorb.Model
import Verif.Absorb.Props
import Verif.Zcopy.Model
import Verif.Zcopy.Props
import Verif.Mods.Model
import Verif.Mods.Props
import Verif.Qdz.Model
import Verif.Qdz.Props
import Verif.Tmp.Model
import Verif.Tmp.Props
import Verif.Raw.Model
import Verif.Raw.Lemmas
import Verif.Raw.Props
import Verif.Store.Model
import Verif.Store.Lemmas
import Verif.Store.States
import Verif.Store.Loops
import Verif.Store.Spec
import Verif.Store.Build
import Verif.Store.Session
import Verif.Store.Props
import Verif.Store.Viol
import Verif.Main.Model
import Verif.Main.Lemmas
import Verif.Main.Props
import Verif.EigRun.Model
import Verif.EigRun.Props
import Verif.OctFreq.Model
import Verif.OctFreq.Dft
import Verif.OctFreq.Lemmas
import Verif.OctFreq.Spec
import Verif.OctFreq.RunLemmas
import Verif.OctFreq.Props
import Verif.OctFreq.MaskProps
import Verif.OctRun.Model
import Verif.OctRun.Props
import Verif.Coupling.Model
import Verif.Coupling.Spec
import Verif.Coupling.Lemmas
import Verif.Coupling.Props
import Verif.LaserGen.Model
import Verif.LaserGen.Spec
import Verif.LaserGen.Props
import Verif.OpChain.Examples
import Verif.Gmc.Examples
import Verif.Chexp.Examples
import Verif.Accur.Examples
import Verif.Accur.KryExamples
import Verif.PLife.Examples
import Verif.RitzEf.Examples
import Verif.PNum.Props
import Verif.CfIn.Props
import Verif.Lossy.Props
import Verif.FftN.Props
import Verif.Scal.Props
import Verif.MixDiff.Props
import Verif.DiffSet.Props
import Verif.Lap.Props
import Verif.GSum.Props
import Verif.PotIn.Props
import Verif.Gspo.Props
import Verif.OpMem.Props
import Verif.MsWf.Props
import Verif.BufName.Props
import Verif.NacIn.Props
import Verif.SumBnd.Props
import Verif.MsTime.Props
import Verif.OpSer.Props
import Verif.RamSeed.Props
