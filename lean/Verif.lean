import Verif.SimTime.Model
import Verif.SimTime.Lemmas
import Verif.SimTime.Props
import Verif.SimTime.OutputProps
import Verif.PostProc.Props
import Verif.Field.Props
import Verif.Field.Mapping
import Verif.Interp.Props
import Verif.Vs.Props
import Verif.Tag.Props
import Verif.Averaging.Props
import Verif.IO.Model
import Verif.IO.Props
import Verif.IO.Restart
import Verif.IO.RestartProps
import Verif.Vof.CutProps
import Verif.Vof.InterceptProps
import Verif.Vof.AdvectProps
import Verif.Vof.OrderProps
import Verif.Vof.LayerProps
import Verif.Plane.Props
import Verif.Plane.FineProps
import Verif.Waves.Model
import Verif.Waves.Props
import Verif.Waves.LinearModel
import Verif.Waves.WaveProps
import Verif.ChanMap.Props
import Verif.Mix.Props
import Verif.Amr.PlaneTiles
import Verif.Amr.VelMax
import Verif.Config.Parse
import Verif.Config.BCProps
import Verif.Udf.Props
import Verif.Sampling.Output
import Verif.Sampling.Interp
import Verif.Sampling.FlatWater
import Verif.Abl.Model
import Verif.Abl.Props
import Verif.Abl.Wall
import Verif.Actuator.FllcModel
import Verif.Actuator.Fllc
import Verif.Actuator.FllcOp
import Verif.Actuator.DiskModel
import Verif.Actuator.Disk
import Verif.Actuator.DiskJk
import Verif.Actuator.SpreadModel
import Verif.Actuator.Spread
import Verif.Actuator.WingModel
import Verif.Actuator.Wing
import Verif.Actuator.ProcModel
import Verif.Actuator.Proc
import Verif.Fvm.Model
import Verif.Fvm.Props
import Verif.Src.MesoModel
import Verif.Src.MesoProps
import Verif.Src.ForceModel
import Verif.Src.ForceProps
import Verif.Src.BuoyModel
import Verif.Src.BuoyProps
import Verif.Src.DragModel
import Verif.Src.DragProps
import Verif.Src.ForestModel
import Verif.Src.ForestProps
import Verif.Turb.LesModel
import Verif.Turb.LesProps
import Verif.Turb.AxellModel
import Verif.Turb.AxellProps
import Verif.Turb.SstModel
import Verif.Turb.SstProps
import Verif.Phys.RefModel
import Verif.Phys.RefProps
import Verif.Pde.StepModel
import Verif.Pde.StepProps
import Verif.Phys.WallModel
import Verif.Phys.WallProps
import Verif.Abl.InitModel
import Verif.Abl.InitProps
import Verif.Abl.MplModel
import Verif.Abl.MplProps
import Verif.Abl.StatsModel
import Verif.Abl.StatsProps
import Verif.Abl.BndryModel
import Verif.Abl.BndryProps
import Verif.Overset.Model
import Verif.Overset.MaskProps
import Verif.Overset.SharpenProps
import Verif.Overset.CoupleProps
import Verif.Pde.AdvModel
import Verif.Pde.AdvConserve
import Verif.Pde.AdvProps
import Verif.Phys.ExactModel
import Verif.Phys.ExactProps
import Verif.Phys.ExactErr
import Verif.Phys.CaseModel
import Verif.Phys.CaseVel
import Verif.Phys.CaseFlow
import Verif.Phys.CaseRing
import Verif.Phys.CaseShape
import Verif.Phys.CaseState
import Verif.Phys.SynModel
import Verif.Phys.SynProps
import Verif.Pde.NodalModel
import Verif.Pde.NodalProps
import Verif.Phys.IbModel
import Verif.Phys.IbProps
import Verif.Tag.FieldModel
import Verif.Tag.FieldProps
import Verif.Sampling.BeamModel
import Verif.Sampling.BeamProps
import Verif.Sampling.SpinProps
import Verif.Sampling.RadarProps
import Verif.Actuator.ExtModel
import Verif.Actuator.ExtProps
import Verif.Actuator.ExtClock
import Verif.Waves.BdyModel
import Verif.Waves.BdyProps
import Verif.Waves.W2aModel
import Verif.Waves.W2aProps
import Verif.Start.Model
import Verif.Start.Props
import Verif.Sampling.SubvolModel
import Verif.Sampling.SubvolProps
import Verif.Config.InflowModel
import Verif.Config.InflowProps
import Verif.Cosim.Model
import Verif.Cosim.Props
import Verif.Actuator.KynemaModel
import Verif.Actuator.KynemaProps
import Verif.Pde.IterModel
import Verif.Pde.IterProps
import Verif.Phys.ScalVelModel
import Verif.Phys.ScalVelProps
import Verif.Phys.SmallModel
import Verif.Phys.SmallProps
import Verif.Config.SolverModel
import Verif.Config.SolverProps
import Verif.Actuator.AirfoilModel
import Verif.Actuator.AirfoilProps
import Verif.Phys.TwoPhaseModel
import Verif.Phys.TwoPhaseProps
import Verif.Phys.MmsModel
import Verif.Phys.MmsProps
import Verif.IO.NcModel
import Verif.IO.NcProps
import Verif.SimTime.CflModel
import Verif.SimTime.CflProps
import Verif.Fvm.Table
import Verif.Abl.PlaneModel
import Verif.Abl.PlaneProps
import Verif.Waves.Jet
import Verif.Waves.StokesAlgebra
import Verif.Waves.StokesClosed
import Verif.Waves.StokesProps
import Verif.Regrid.Model
import Verif.Regrid.Spec
import Verif.Regrid.Props
import Verif.Regrid.Flux
import Verif.Regrid.HistModel
import Verif.Regrid.HistSpec
import Verif.Regrid.HistProps
import Verif.Regrid.HistTable
import Verif.Pde.ExplModel
import Verif.Pde.ExplProps
import Verif.Pde.StepExist
import Verif.Pde.SteadyModel
import Verif.Pde.SteadyProps
import Verif.Field.OpsModel
import Verif.Field.OpsProps
import Verif.Field.FillModel
import Verif.Field.FillProps
import Verif.Field.FaceProps
import Verif.Actuator.HistoryModel
import Verif.Actuator.HistoryProps
import Verif.Field.ProgModel
import Verif.Field.ProgProps
import Verif.Turb.EffModel
import Verif.Turb.EffProps
import Verif.Actuator.WindIOModel
import Verif.Actuator.WindIOProps
import Verif.Tools.Model
import Verif.Tools.ChkProps
import Verif.Tools.FileProps
import Verif.Tools.ScriptModel
import Verif.Tools.ScriptProps
import Verif.Tools.ScriptRefine
import Verif.Tools.SampleModel
import Verif.Tools.SampleProps
import Verif.Tools.ConvModel
import Verif.Tools.ConvProps
import Verif.Tools.InflowModel
import Verif.Tools.InflowProps
import Verif.IO.AscentModel
import Verif.IO.AscentProps
import Verif.Tools.HeaderModel
import Verif.Tools.HeaderProps
import Verif.Field.SliceModel
import Verif.Field.SliceProps
import Verif.Turb.SelectModel
import Verif.Turb.SelectProps
