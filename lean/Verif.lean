import Verif.Analysis.ArcAbstractLemmas
import Verif.Analysis.ArcExampleProps
import Verif.Analysis.ArcLemmas
import Verif.Analysis.ArcProps
import Verif.Analysis.ArcRunLemmas
import Verif.Analysis.ArcSolveLemmas
import Verif.Analysis.ConvergenceLemmas
import Verif.Analysis.ConvergenceProps
import Verif.Analysis.LinearLemmas
import Verif.Analysis.LinearProps
import Verif.Analysis.LocalPathLemmas
import Verif.Analysis.LocalPathProps
import Verif.Analysis.MaterialSolidProps
import Verif.Analysis.Model
import Verif.Analysis.NonlinearLemmas
import Verif.Analysis.NonlinearProps
import Verif.Analysis.PatchMeshProps
import Verif.Analysis.PathExampleProps
import Verif.Analysis.PathLemmas
import Verif.Analysis.PathLinearProps
import Verif.Analysis.PathModel
import Verif.Analysis.PathProps
import Verif.Analysis.PathRunLemmas
import Verif.Analysis.PathTotalLemmas
import Verif.Analysis.PathTurnLemmas
import Verif.Analysis.PathTurnProps
import Verif.Analysis.ProportionalProps
import Verif.Analysis.ReactionProps
import Verif.Analysis.RenumberPathProps
import Verif.Analysis.RenumberProps
import Verif.Analysis.ReorderLemmas
import Verif.Analysis.ReorderProps
import Verif.Analysis.SmallLoadProps
import Verif.Analysis.SmallSolidProps
import Verif.Analysis.SmallTrussProps
import Verif.Analysis.SmoothLemmas
import Verif.Analysis.SmoothProps
import Verif.Analysis.SmoothSkillProps
import Verif.Analysis.SuperpositionProps
import Verif.Analysis.SuperpositionRunProps
import Verif.Analysis.SymmetryProps
import Verif.Analysis.TrussPathProps
import Verif.Analysis.TrussSupportProps
import Verif.Analysis.TrustConvergenceExampleProps
import Verif.Analysis.TrustConvergenceProps
import Verif.Analysis.TrustExampleLemmas
import Verif.Analysis.TrustExampleProps
import Verif.Analysis.TrustLemmas
import Verif.Analysis.TrustLinearLemmas
import Verif.Analysis.TrustModel
import Verif.Analysis.TrustProps
import Verif.Analysis.TurnLinearProps
import Verif.Analysis.TurnPathProps
import Verif.Analysis.TurnSolidProps
import Verif.Analysis.TurnSystemProps
import Verif.Analysis.UnitsArcProps
import Verif.Analysis.UnitsPathProps
import Verif.Analysis.UnitsProps
import Verif.Analysis.UnloadingProps
import Verif.Assembler.BindingModel
import Verif.Assembler.BindingProps
import Verif.Assembler.FunctionModel
import Verif.Assembler.FunctionProps
import Verif.Assembler.Lemmas
import Verif.Assembler.ManipulatorModel
import Verif.Assembler.ManipulatorProps
import Verif.Assembler.MatrixLemmas
import Verif.Assembler.MatrixProps
import Verif.Assembler.Model
import Verif.Assembler.SeesModel
import Verif.Assembler.SeesProps
import Verif.Assembler.SparseLemmas
import Verif.Assembler.SparseModel
import Verif.Assembler.SparseProps
import Verif.Assembler.Spec
import Verif.Assembler.VectorProps
import Verif.Base
import Verif.Broadcast.LifetimeModel
import Verif.Broadcast.LifetimeProps
import Verif.Broadcast.Model
import Verif.Broadcast.Props
import Verif.Control.LoadModel
import Verif.Control.LoadProps
import Verif.Control.LoggerModel
import Verif.Control.LoggerProps
import Verif.Control.PathModel
import Verif.Control.PathProps
import Verif.Control.ReuseProps
import Verif.Control.StrategyModel
import Verif.Control.StrategyProps
import Verif.Dirichlet.BoundaryModel
import Verif.Dirichlet.BoundaryProps
import Verif.Dirichlet.IDBCModel
import Verif.Dirichlet.IDBCProps
import Verif.Dirichlet.Model
import Verif.Dirichlet.Props
import Verif.FE.AffordanceModel
import Verif.FE.AffordanceProps
import Verif.FE.AssumedStressLinearProps
import Verif.FE.AssumedStressModel
import Verif.FE.AssumedStressModesProps
import Verif.FE.AssumedStressProps
import Verif.FE.AssumedStressStabilityProps
import Verif.FE.AutoDiffModel
import Verif.FE.AutoDiffProps
import Verif.FE.BalanceLemmas
import Verif.FE.BalanceProps
import Verif.FE.DisplacementPressureModel
import Verif.FE.DisplacementPressureProps
import Verif.FE.EASDecisionProps
import Verif.FE.EASFunctionProps
import Verif.FE.EASGaussProps
import Verif.FE.EASModel
import Verif.FE.EASModesProps
import Verif.FE.EASProps
import Verif.FE.EASStabilityProps
import Verif.FE.ElementLemmas
import Verif.FE.ElementModel
import Verif.FE.ElementProps
import Verif.FE.EnergyProps
import Verif.FE.GatherLemmas
import Verif.FE.GatherModel
import Verif.FE.GatherProps
import Verif.FE.HyperelasticLawModel
import Verif.FE.HyperelasticLawProps
import Verif.FE.LifecycleModel
import Verif.FE.LifecycleProps
import Verif.FE.LoadProps
import Verif.FE.MaterialLawLemmas
import Verif.FE.MaterialLawModel
import Verif.FE.MaterialLawProps
import Verif.FE.MembraneProps
import Verif.FE.MixinModel
import Verif.FE.MixinProps
import Verif.FE.PatchExamples
import Verif.FE.PatchProps
import Verif.FE.RelabelEASProps
import Verif.FE.RelabelGradientProps
import Verif.FE.RelabelPressureProps
import Verif.FE.RelabelProps
import Verif.FE.RelabelShellProps
import Verif.FE.RelabelStressProps
import Verif.FE.RequirementsLemmas
import Verif.FE.RequirementsModel
import Verif.FE.RequirementsProps
import Verif.FE.ResultLemmas
import Verif.FE.ResultModel
import Verif.FE.ResultProps
import Verif.FE.ShellLemmas
import Verif.FE.ShellModel
import Verif.FE.ShellProps
import Verif.FE.TrussModel
import Verif.FE.TrussProps
import Verif.FE.TurnEASProps
import Verif.FE.TurnLemmas
import Verif.FE.TurnMaterialProps
import Verif.FE.TurnMixedProps
import Verif.FE.TurnProps
import Verif.FE.TurnQuadProps
import Verif.FE.TurnShellProps
import Verif.FE.UnitsMaterialProps
import Verif.FE.UnitsProps
import Verif.IO.ContainerModel
import Verif.IO.ContainerProps
import Verif.IO.EvaluatorModel
import Verif.IO.EvaluatorProps
import Verif.IO.OutputModel
import Verif.IO.OutputProps
import Verif.LinAlg.BlockModel
import Verif.LinAlg.BlockProps
import Verif.LinAlg.IndexLemmas
import Verif.LinAlg.Model
import Verif.LinAlg.Props
import Verif.LinearSolver.Model
import Verif.LinearSolver.Props
import Verif.Material.AnyPathLemmas
import Verif.Material.AutoDiffMatModel
import Verif.Material.AutoDiffMatProps
import Verif.Material.ConversionModel
import Verif.Material.ConversionProps
import Verif.Material.DecomposeModel
import Verif.Material.DecomposeProps
import Verif.Material.DeviatoricLemmas
import Verif.Material.DeviatoricModel
import Verif.Material.DeviatoricProps
import Verif.Material.EightChainProps
import Verif.Material.FactoryModel
import Verif.Material.HyperelasticDerivProps
import Verif.Material.HyperelasticModel
import Verif.Material.HyperelasticPathLemmas
import Verif.Material.HyperelasticPathProps
import Verif.Material.HyperelasticProps
import Verif.Material.InversionModel
import Verif.Material.InversionProps
import Verif.Material.LameModel
import Verif.Material.LameProps
import Verif.Material.MatrixCalculus
import Verif.Material.MuesliModel
import Verif.Material.MuesliProps
import Verif.Material.NeoHookeModel
import Verif.Material.NeoHookeProps
import Verif.Material.SVKModel
import Verif.Material.SVKProps
import Verif.Material.SmoothInvariantLemmas
import Verif.Material.SpecialCasesProps
import Verif.Material.SpectralLemmas
import Verif.Material.UndeformedProps
import Verif.Material.VanishingLemmas
import Verif.Material.VanishingModel
import Verif.Material.VanishingModuliProps
import Verif.Material.VanishingProps
import Verif.Material.VolumetricModel
import Verif.Material.VolumetricProps
import Verif.Python.AliveModel
import Verif.Python.AliveProps
import Verif.Python.AssemblerModel
import Verif.Python.AssemblerProps
import Verif.Python.MaterialModel
import Verif.Python.MaterialProps
import Verif.Python.ScalarModel
import Verif.Python.ScalarProps
import Verif.Python.SparseModel
import Verif.Python.SparseProps
import Verif.Solver.EigenModel
import Verif.Solver.EigenProps
import Verif.Solver.FactoryModel
import Verif.Solver.FactoryProps
import Verif.Solver.ListeningIDBCProps
import Verif.Solver.ListeningModel
import Verif.Solver.ListeningProps
import Verif.Solver.NewtonModel
import Verif.Solver.NewtonProps
import Verif.Solver.PathListeningEASProps
import Verif.Solver.PathListeningModel
import Verif.Solver.PathListeningProps
import Verif.Solver.SubsidiaryModel
import Verif.Solver.SubsidiaryProps
import Verif.SpecList
import Verif.Tensor.Model
import Verif.Tensor.VoigtProps
import Verif.TrustRegion.ConvergenceLemmas
import Verif.TrustRegion.ConvergenceProps
import Verif.TrustRegion.Model
import Verif.TrustRegion.Props
import Verif.TrustRegion.RestrictLemmas
import Verif.TrustRegion.StepProps
import Verif.TrustRegion.TCGModel
import Verif.TrustRegion.TCGProps
import Verif.Utils.AlgorithmsModel
import Verif.Utils.AlgorithmsProps
import Verif.Utils.FlatBasisModel
import Verif.Utils.FlatBasisProps
import Verif.Utils.LambertLemmas
import Verif.Utils.LambertModel
import Verif.Utils.LambertProps
import Verif.Utils.NodeSearchModel
import Verif.Utils.NodeSearchProps
import Verif.Utils.NumericModel
import Verif.Utils.NumericProps
import Verif.Utils.SanityLemmas
import Verif.Utils.SanityModel
import Verif.Utils.SanityProps
