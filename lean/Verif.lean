import Verif.BC.InitProps
import Verif.BC.Props
import Verif.BC.UpdateProps
import Verif.Cmdo.CorrProps
import Verif.Cmdo.CouplingProps
import Verif.Cmdo.DataProps
import Verif.Cmdo.InnerProps
import Verif.Cmdo.ReproProps
import Verif.Cmdo.SweepProps
import Verif.Cmdo.VolumeProps
import Verif.Cmfd.DiffusionProps
import Verif.Cmfd.FloatProps
import Verif.Cmfd.LoopProps
import Verif.Cmfd.Props
import Verif.Cmfd.StrictProps
import Verif.Cmfd.SubProps
import Verif.Cmfd.SystemProps
import Verif.Cmfd.UniqueProps
import Verif.Core.BuildProps
import Verif.Core.ExpMaxProps
import Verif.Core.ExpProps
import Verif.Core.LatticeProps
import Verif.Core.PinsProps
import Verif.Core.PlanesProps
import Verif.Core.UniqueProps
import Verif.Core.VolumesProps
import Verif.Core.WhereFloatProps
import Verif.Core.WhereProps
import Verif.Dir.Props
import Verif.Draw.Props
import Verif.Driver.Props
import Verif.Errors.Props
import Verif.Fp.Props
import Verif.Geom.BoxProps
import Verif.Geom.CircleDistProps
import Verif.Geom.CircleProps
import Verif.Geom.DistProps
import Verif.Geom.MeetProps
import Verif.H5.OutputProps
import Verif.H5.Props
import Verif.Incoming.Props
import Verif.Input.AmendProps
import Verif.Input.ArgsProps
import Verif.Input.FactoryProps
import Verif.Log.Props
import Verif.Mat.LibProps
import Verif.Mat.ScrubProps
import Verif.Mc.BankProps
import Verif.Mc.CollideProps
import Verif.Mc.CycleProps
import Verif.Mc.EntropyProps
import Verif.Mc.ExpectProps
import Verif.Mc.FloatProps
import Verif.Mc.HistoryProps
import Verif.Mc.OrderProps
import Verif.Mc.PushProps
import Verif.Mc.ResizeProps
import Verif.Mc.SourceProps
import Verif.Mc.StatsFloatProps
import Verif.Mc.TallyProps
import Verif.Mc.WholeProps
import Verif.Medium.AccelFixProps
import Verif.Medium.AccelMocProps
import Verif.Medium.AccelProps
import Verif.Medium.BalanceProps
import Verif.Medium.BalanceSnProps
import Verif.Medium.BoundaryProps
import Verif.Medium.CellsProps
import Verif.Medium.CheckProps
import Verif.Medium.ContractProps
import Verif.Medium.ConvergeProps
import Verif.Medium.CoupledProps
import Verif.Medium.DoubleSnProps
import Verif.Medium.DownProps
import Verif.Medium.DownSnProps
import Verif.Medium.DrainProps
import Verif.Medium.EigenProps
import Verif.Medium.HalfSnProps
import Verif.Medium.LinearProps
import Verif.Medium.LinearSnProps
import Verif.Medium.MirrorMocProps
import Verif.Medium.MirrorSnProps
import Verif.Medium.MonotoneProps
import Verif.Medium.OneRegionProps
import Verif.Medium.PositiveProps
import Verif.Medium.Props
import Verif.Medium.ReciprocalProps
import Verif.Medium.ReciprocalSnProps
import Verif.Medium.ReflectProps
import Verif.Medium.StackProps
import Verif.Medium.SterileProps
import Verif.Medium.StrictPosProps
import Verif.Medium.UnitProps
import Verif.Medium.YieldProps
import Verif.Mesh.CrossProps
import Verif.Mesh.IntProps
import Verif.Mesh.PointProps
import Verif.Mesh.Props
import Verif.Mesh.TraceProps
import Verif.Mesh.WidthProps
import Verif.Moc.BeamProps
import Verif.Moc.CoarseProps
import Verif.Moc.DumpProps
import Verif.Moc.ExpandProps
import Verif.Moc.FloatProps
import Verif.Moc.KernelProps
import Verif.Moc.ParProps
import Verif.Moc.SweepCurProps
import Verif.Moc.TablesProps
import Verif.Moc.VolumeProps
import Verif.Normalize.Props
import Verif.Par.RaceProps
import Verif.PinFlux.GetProps
import Verif.PinFlux.Props
import Verif.PinMesh.CylDirProps
import Verif.PinMesh.CylFindProps
import Verif.PinMesh.CylProps
import Verif.PinMesh.CylTraceProps
import Verif.PinMesh.DistProps
import Verif.PinMesh.RectDirProps
import Verif.PinMesh.RectProps
import Verif.PinMesh.TraceProps
import Verif.Quad.GaussProps
import Verif.Quad.GaussRuleProps
import Verif.Quad.LevelSymProps
import Verif.Quad.MomentProps
import Verif.Quad.ProductProps
import Verif.Quad.Props
import Verif.Quad.ReweightProps
import Verif.Quad.SaveProps
import Verif.Quad.UserProps
import Verif.Rational.ChoiceProps
import Verif.Rational.Props
import Verif.Rays.OptionsProps
import Verif.Rays.Props
import Verif.Rays.SpacingProps
import Verif.Rng.Props
import Verif.Scatter.Props
import Verif.Sn.AngleProps
import Verif.Sn.CellProps
import Verif.Sn.ClosureProps
import Verif.Sn.CurrentProps
import Verif.Sn.FloatProps
import Verif.Sn.SweepProps
import Verif.Solver.FixedProps
import Verif.Solver.Props
import Verif.Source.FloatProps
import Verif.Source.PairProps
import Verif.Source.Props
import Verif.Source.SolveProps
import Verif.Strings.Props
import Verif.Strings.RangeProps
import Verif.SurfFlux.Props
import Verif.Sweep.CoarseProps
import Verif.Sweep.PowerProps
import Verif.Timers.Props
import Verif.Tl.EntryProps
import Verif.Tl.Props
import Verif.XS.CdfProps
import Verif.XS.ExpandProps
import Verif.XS.HomogFloatProps
import Verif.XS.HomogMeanProps
import Verif.XS.HomogProps
import Verif.XS.MapProps
import Verif.XS.PinMapProps
import Verif.XS.RegionProps
import Verif.XS.SaveProps
import Verif.XS.ShareProps
import Verif.Axioms
