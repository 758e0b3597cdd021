import Verif.Basic
import Verif.SweepModel
import Verif.SweepSpec
import Verif.SweepLemmas
import Verif.InternalsLemmas
import Verif.SweepAlgebra
import Verif.SweepProps
import Verif.LinkModel
import Verif.LinkProps
import Verif.SuperlinkModel
import Verif.SuperlinkProps
import Verif.ControlModel
import Verif.ControlProps
import Verif.NetworkModel
import Verif.NetworkLemmas
import Verif.MMatrix
import Verif.NetworkProps
import Verif.StepModel
import Verif.StepProps
import Verif.OrderProps
import Verif.BandedModel
import Verif.BandedProps
import Verif.GeometryModel
import Verif.GeometryLemmas
import Verif.GeometryProps
import Verif.TransectProps
import Verif.EndBcModel
import Verif.EndBcProps
import Verif.InterpModel
import Verif.InterpProps
import Verif.StorageModel
import Verif.StorageProps
import Verif.TransectTable
import Verif.RootModel
import Verif.RootProps
import Verif.InfiltrationModel
import Verif.InfiltrationProps
import Verif.DriverModel
import Verif.DriverProps
import Verif.ScratchProps
import Verif.HeapModel
import Verif.HeapProps
import Verif.TopologyModel
import Verif.TopologyProps
import Verif.ConstructProps
import Verif.LsqModel
import Verif.LsqProps
import Verif.KalmanModel
import Verif.KalmanProps
import Verif.QualityModel
import Verif.QualityLemmas
import Verif.QualityAlgebra
import Verif.QualitySpec
import Verif.QualityNet
import Verif.QualitySigns
import Verif.QualityMax
import Verif.QualityProps
import Verif.QualityExact
import Verif.QualityMass
import Verif.PhysicsProps
import Verif.RepositionModel
import Verif.RepositionProps
import Verif.QualityImportModel
import Verif.QualityImportProps
import Verif.QualityKalmanModel
import Verif.QualityKalmanProps
import Verif.RecordModel
import Verif.RecordProps
import Verif.ForcingProps
import Verif.ExitModel
import Verif.ExitProps
import Verif.NnlsModel
import Verif.NnlsProps
import Verif.DiagnosticsModel
import Verif.DiagnosticsProps
import Verif.SteadyProps
import Verif.VolumeRunProps
import Verif.InfiltrationBaseModel
import Verif.RecoveryProps
import Verif.InfiltrationTwinProps
import Verif.BindingModel
import Verif.BindingProps
import Verif.StepReportProps
import Verif.WholeModel
import Verif.WholeGeometry
import Verif.WholeProps
import Verif.RetryProps
import Verif.DatumProps
import Verif.DriverDatumProps
import Verif.PartModel
import Verif.PartProps
import Verif.MirrorModel
import Verif.MirrorProps
import Verif.MirrorWitness
import Verif.GeometryBaseModel
import Verif.GeometryBaseProps
import Verif.ConfigModel
import Verif.ConfigProps
import Verif.QualityUnits
import Verif.QualityLinear
import Verif.QualityRecast
import Verif.TimeProps
import Verif.ScaleModel
import Verif.ScaleLemmas
import Verif.ScaleControls
import Verif.ScaleStep
import Verif.ScaleProps
import Verif.StorageBaseModel
import Verif.StorageBaseProps
import Verif.StorageNameProps
import Verif.RecoverModel
import Verif.RecoverProps
import Verif.BaseSweepModel
import Verif.BaseSweepProps
import Verif.BaseCoefModel
import Verif.BaseCoefProps
import Verif.BaseEndModel
import Verif.BaseEndProps
import Verif.BaseInternalsModel
import Verif.BaseInternalsLemmas
import Verif.BaseInternalsProps
import Verif.IrregularModel
import Verif.IrregularProps
import Verif.ViewModel
import Verif.ViewProps
import Verif.SoilModel
import Verif.SoilProps
import Verif.BaseNetModel
import Verif.BaseNetProps
import Verif.BaseControlModel
import Verif.BaseControlProps
import Verif.BaseRepositionModel
import Verif.BaseRepositionProps
import Verif.VisualModel
import Verif.VisualProps
import Verif.StabilityProps
import Verif.RootReturnsProps
import Verif.InfiltrationReturnsProps
import Verif.TransectDatumProps
import Verif.FilterStepModel
import Verif.FilterStepProps
import Verif.QualityInitModel
import Verif.QualityInitProps
import Verif.QualityDecayProps
import Verif.InfiltrationLawProps
import Verif.InfiltrationRainProps
import Verif.FlowBoundProps
import Verif.InitialModel
import Verif.InitialProps
import Verif.FloorProps
import Verif.SymmetryProps
import Verif.OptionModel
import Verif.OptionProps
import Verif.LevelProps
import Verif.ShortStepProps
import Verif.EnergyProps
import Verif.LoopModel
import Verif.LoopProps
import Verif.LateralProps
import Verif.LimitModel
import Verif.LimitProps
import Verif.NormalDepthModel
import Verif.NormalDepthProps
import Verif.BoundaryVolumeProps
import Verif.IterateModel
import Verif.ImplicitProps
import Verif.GateProps
import Verif.OrificeMonoProps
import Verif.KalmanFitProps
import Verif.TimeConsistencyProps
import Verif.EndLossProps
import Verif.ControlContinuityProps
import Verif.ShutProps
import Verif.KalmanJointProps
import Verif.SplitProps
import Verif.QualityStableProps
import Verif.QualityConvergeProps
import Verif.IterateProps
import Verif.EnergyLineProps
import Verif.DischargeProps
import Verif.QualityForgetProps
import Verif.QualitySteadyProps
import Verif.FrictionProps
import Verif.QualityEndAreaProps
import Verif.StepContinuityLemmas
import Verif.StepContinuityProps
import Verif.PerpetualProps
import Verif.UniqueFlowProps
import Verif.SteadyMonotoneProps
import Verif.SectionContinuityProps
import Verif.ConveyanceProps
import Verif.InfiltrationDeclineProps
import Verif.GraphFlowLemmas
import Verif.SteadyExistsProps
import Verif.ControlGapProps
import Verif.InitialControlProps
import Verif.ControlOrderLemmas
import Verif.SteadyControlProps
import Verif.ElevationProps
import Verif.PumpRangeProps
import Verif.SettleLemmas
import Verif.SettleProps
import Verif.IterateSettleProps
import Verif.SumpProps
import Verif.PositionProps
import Verif.OutletLemmas
import Verif.OutletProps
import Verif.VesselProps
import Verif.IterateVesselProps
import Verif.KalmanOrderProps
import Verif.OpeningProps
import Verif.TableContinuityProps
import Verif.RunContinuityProps
import Verif.QualityDrawProps
import Verif.ReciprocityProps
import Verif.LargeBasinProps
import Verif.FilterShapeModel
import Verif.FilterShapeProps
import Verif.StepControlProps
import Verif.QuietRunProps
import Verif.SuperposeProps
import Verif.QualityConserveProps
import Verif.KeptProps
import Verif.PositionModel
import Verif.SettleMapLemmas
import Verif.RecordKeysProps
import Verif.PeakProps
import Verif.LaneProps
import Verif.TransectEntryModel
import Verif.TransectEntryProps
import Verif.InfiltrationArrayModel
import Verif.InfiltrationArrayLemmas
import Verif.InfiltrationArrayProps
import Verif.BaseDispatchModel
import Verif.BaseDispatchProps
import Verif.JointProps
import Verif.InfiltrationAccountProps
import Verif.SectionIntegralProps
import Verif.ShapeIntegralProps
import Verif.PipeVolumeProps
import Verif.RegimeModel
import Verif.RegimeProps
import Verif.RetryToleranceProps
