import Verif.Base.ModModel
import Verif.Base.ModProps
import Verif.Base.BitsModel
import Verif.Base.BitsLemmas
import Verif.Base.BitsProps
import Verif.Base.Fingerprint
import Verif.Base.HexModel
import Verif.Base.HexProps
import Verif.Base.Base32768Model
import Verif.Base.Base32768Lemmas
import Verif.Base.Base32768Props
import Verif.Base.DisjointSetsModel
import Verif.Base.DisjointSetsLemmas
import Verif.Base.DisjointSetsProps
import Verif.Ksp.PileUpsModel
import Verif.Ksp.PileUpsLemmas
import Verif.Ksp.PileUpsCollect
import Verif.Ksp.PileUpsProps
import Verif.Base.Lts
import Verif.Base.BundleModel
import Verif.Base.BundleProps
import Verif.Base.ThreadPoolModel
import Verif.Base.ThreadPoolProps
import Verif.Base.PullSerializerModel
import Verif.Base.PullSerializerProps
import Verif.Base.PushDeserializerModel
import Verif.Base.PushDeserializerProps
import Verif.Base.SerializationRoundTrip
import Verif.Base.PushPullModel
import Verif.Base.PushPullProps
import Verif.Base.RecurringThreadModel
import Verif.Base.RecurringThreadProps
import Verif.Base.SortedMap
import Verif.Physics.CheckpointerModel
import Verif.Physics.CheckpointerProps
import Verif.Base.SortedMultiset
import Verif.Physics.ClienteleModel
import Verif.Physics.ClienteleProps
import Verif.Physics.ProtectorModel
import Verif.Physics.ProtectorProps
import Verif.Physics.DiscreteTrajectorySegmentModel
import Verif.Physics.DiscreteTrajectoryModel
import Verif.Physics.DiscreteTrajectorySpec
import Verif.Physics.DiscreteTrajectoryConsistency
import Verif.Physics.DiscreteTrajectorySegmentLemmas
import Verif.Physics.DiscreteTrajectoryPreservation
import Verif.Physics.DiscreteTrajectoryForget
import Verif.Physics.DiscreteTrajectorySplice
import Verif.Physics.DiscreteTrajectoryMerge
import Verif.Physics.DiscreteTrajectoryAttach
import Verif.Physics.DiscreteTrajectoryIteratorModel
import Verif.Physics.DiscreteTrajectoryIteratorLemmas
import Verif.Physics.DiscreteTrajectoryProps
import Verif.Physics.DiscreteTrajectorySerializationModel
import Verif.Physics.DiscreteTrajectorySerialization
import Verif.Physics.DiscreteTrajectorySerializationProps
import Verif.Numerics.PolynomialModel
import Verif.Numerics.PolynomialProps
import Verif.Numerics.RootFindersModel
import Verif.Numerics.RootFindersProps
import Verif.Numerics.Hermite3Model
import Verif.Numerics.Hermite3Props
import Verif.Physics.DownsamplingModel
import Verif.Physics.DownsamplingLemmas
import Verif.Physics.DownsamplingProps
import Verif.Astronomy.CalendarModel
import Verif.Astronomy.CalendarSpec
import Verif.Astronomy.CalendarLemmas
import Verif.Astronomy.CalendarProps
import Verif.Astronomy.LiteralsModel
import Verif.Astronomy.LiteralsSpec
import Verif.Astronomy.LiteralsLemmas
import Verif.Astronomy.LiteralsProps
import Verif.Astronomy.RecurrenceModel
import Verif.Astronomy.RecurrenceProps
import Verif.Ksp.ManoeuvreModel
import Verif.Ksp.ManoeuvreProps
import Verif.Ksp.FlightPlanModel
import Verif.Ksp.FlightPlanSpec
import Verif.Ksp.FlightPlanLemmas
import Verif.Ksp.FlightPlanProps
import Verif.Ksp.FlightPlanExamples
import Verif.Ksp.FlightPlanAnalysis
import Verif.Ksp.FlightPlanProgress
import Verif.Ksp.FlightPlanRocket
import Verif.Geometry.R3Model
import Verif.Geometry.RotationModel
import Verif.Geometry.RotationSpec
import Verif.Geometry.RotationProps
import Verif.Geometry.RotationAngles
import Verif.Geometry.MapsModel
import Verif.Geometry.MapsSpec
import Verif.Geometry.MapsProps
import Verif.Geometry.MapsAffine
import Verif.Ksp.FlightPlanHistory
import Verif.Geometry.FormsModel
import Verif.Geometry.SolveProps
import Verif.Geometry.SolveInertia
import Verif.Geometry.FormsProps
import Verif.Geometry.FormsDiagonalize
import Verif.Geometry.FormsConvergence
import Verif.Quantities.DimensionsModel
import Verif.Quantities.DimensionsProps
import Verif.Quantities.ParserModel
import Verif.Quantities.ParserSpec
import Verif.Quantities.ParserProps
import Verif.Quantities.ParserFormat
import Verif.Quantities.ParserSoundness
import Verif.Geometry.BarycentreModel
import Verif.Geometry.BarycentreProps
import Verif.Physics.HierarchicalModel
import Verif.Physics.HierarchicalSpec
import Verif.Physics.JacobiProps
import Verif.Physics.HierarchicalProps
import Verif.Physics.HierarchicalOrder
import Verif.Physics.KeplerModel
import Verif.Physics.KeplerSpec
import Verif.Physics.KeplerCategories
import Verif.Physics.KeplerCombine
import Verif.Physics.KeplerProps
import Verif.Physics.KeplerFailure
import Verif.Physics.KeplerMotionModel
import Verif.Physics.KeplerMotionSpec
import Verif.Physics.KeplerMotionFrame
import Verif.Physics.KeplerMotionEllipse
import Verif.Physics.KeplerMotionHyperbola
import Verif.Physics.KeplerMotionProps
import Verif.Physics.KeplerMotionStates
import Verif.Physics.KeplerMotionExamples
import Verif.Numerics.NearestNeighbourModel
import Verif.Numerics.NearestNeighbourProps
import Verif.Geometry.Calculus
import Verif.Physics.RigidMotionModel
import Verif.Physics.RigidMotionSpec
import Verif.Physics.RigidMotionProps
import Verif.Physics.SimilarMotionModel
import Verif.Physics.SimilarMotionProps
import Verif.Physics.MechanicalSystemModel
import Verif.Physics.MechanicalSystemSpec
import Verif.Physics.MechanicalSystemProps
import Verif.Physics.FrameModel
import Verif.Physics.FramesModel
import Verif.Physics.FrameSpec
import Verif.Physics.FrameProps
import Verif.Physics.FrameTrihedron
import Verif.Physics.FramesProps
import Verif.Physics.PulsatingProps
import Verif.Physics.FrameExamples
import Verif.Geometry.ComplexificationModel
import Verif.Geometry.ComplexificationProps
import Verif.Numerics.FourierModel
import Verif.Numerics.FourierProps
import Verif.Numerics.ChebyshevModel
import Verif.Numerics.ChebyshevProps
import Verif.Numerics.ApproximationModel
import Verif.Numerics.ApproximationProps
import Verif.Physics.FirstCollisionModel
import Verif.Physics.FirstCollisionProps
import Verif.Integrators.FixedStepModel
import Verif.Integrators.FixedStepProps
import Verif.Integrators.MultistepModel
import Verif.Integrators.MultistepProps
import Verif.Integrators.MethodsModel
import Verif.Integrators.Expansion
import Verif.Integrators.Trees
import Verif.Integrators.OrderTheory
import Verif.Integrators.OrderSteps
import Verif.Integrators.OrderCheck
import Verif.Integrators.MultistepOrder
import Verif.Integrators.OrderProps
import Verif.Integrators.AdaptiveModel
import Verif.Integrators.AdaptiveDriver
import Verif.Integrators.AdaptiveSteps
import Verif.Integrators.AdaptiveOrder
import Verif.Integrators.AdaptiveProps
import Verif.Journal.JournalModel
import Verif.Journal.JournalSpec
import Verif.Journal.JournalText
import Verif.Journal.RecorderProps
import Verif.Journal.Wire
import Verif.Journal.PlayerProps
import Verif.Journal.PointerProps
import Verif.Numerics.BrentModel
import Verif.Numerics.BrentProps
import Verif.Numerics.BrentMinimumProps
import Verif.Physics.ApsidesModel
import Verif.Physics.ApsidesSpec
import Verif.Physics.ApsidesLemmas
import Verif.Physics.ApsidesProps
import Verif.Physics.NodesProps
import Verif.Physics.CollisionIntervalsModel
import Verif.Physics.CollisionIntervalsProps
import Verif.Integrators.SymplecticProps
import Verif.Physics.ContinuousTrajectoryModel
import Verif.Physics.ContinuousTrajectorySlices
import Verif.Physics.ContinuousTrajectoryProps
import Verif.Physics.EphemerisModel
import Verif.Physics.EphemerisLemmas
import Verif.Physics.EphemerisSafety
import Verif.Physics.EphemerisProgress
import Verif.Physics.EphemerisHistory
import Verif.Physics.EphemerisProps
import Verif.Physics.GravityModel
import Verif.Physics.GravityLemmas
import Verif.Physics.GravityProps
import Verif.Physics.LegendreLemmas
import Verif.Physics.GeopotentialModel
import Verif.Physics.GeopotentialDamping
import Verif.Physics.GeopotentialThresholds
import Verif.Physics.GeopotentialPrecomputations
import Verif.Physics.GeopotentialEvaluation
import Verif.Physics.GeopotentialGradient
import Verif.Physics.GeopotentialProps
import Verif.Numerics.EllipticModel
import Verif.Numerics.EllipticProps
import Verif.Physics.EulerSolverModel
import Verif.Physics.EulerSolverSpec
import Verif.Physics.EulerSolverAttitude
import Verif.Physics.EulerSolverFormulas
import Verif.Physics.EulerSolverMotion
import Verif.Physics.EulerSolverProps
import Verif.Physics.ContinuousTrajectorySaves
import Verif.Geometry.FormsPositive
import Verif.Ksp.PileUpModel
import Verif.Ksp.PileUpSpec
import Verif.Ksp.PileUpRotation
import Verif.Ksp.PileUpSystem
import Verif.Ksp.PileUpDeform
import Verif.Ksp.PileUpConstruct
import Verif.Ksp.PileUpAdvance
import Verif.Ksp.PileUpReach
import Verif.Ksp.PileUpProps
import Verif.Numerics.MatrixModel
import Verif.Numerics.MatrixLemmas
import Verif.Numerics.MatrixSpec
import Verif.Numerics.MatrixSymmetric
import Verif.Numerics.MatrixSolve
import Verif.Numerics.MatrixGramSchmidt
import Verif.Numerics.MatrixProps
import Verif.Numerics.LatticeModel
import Verif.Numerics.LatticeSpec
import Verif.Numerics.LatticeGramSchmidt
import Verif.Numerics.LatticeLemmas
import Verif.Numerics.LatticeProps
import Verif.Numerics.NguyenStehleModel
import Verif.Numerics.NguyenStehleLattice
import Verif.Numerics.NguyenStehleExact
import Verif.Numerics.NguyenStehleReduced
import Verif.Numerics.NguyenStehleProps
import Verif.Numerics.EigenModel
import Verif.Numerics.EigenSpec
import Verif.Numerics.EigenJacobi
import Verif.Numerics.EigenHouseholder
import Verif.Numerics.EigenSchur
import Verif.Numerics.EigenConcrete
import Verif.Numerics.EigenProps
import Verif.Numerics.DavenportModel
import Verif.Numerics.DavenportSpec
import Verif.Numerics.DavenportProps
import Verif.Ksp.LifecycleModel
import Verif.Ksp.LifecycleSpec
import Verif.Ksp.LifecycleRefine
import Verif.Ksp.LifecycleCalls
import Verif.Ksp.LifecycleFree
import Verif.Ksp.LifecycleCleanup
import Verif.Ksp.LifecycleProps
import Verif.Geometry.PerspectiveModel
import Verif.Geometry.PerspectiveSpec
import Verif.Geometry.PerspectiveShadow
import Verif.Geometry.PerspectiveLine
import Verif.Geometry.PerspectivePlane
import Verif.Geometry.PerspectiveVisible
import Verif.Geometry.PerspectiveOne
import Verif.Geometry.PerspectiveMany
import Verif.Geometry.PerspectiveProps
import Verif.Numerics.DoublePrecisionModel
import Verif.Numerics.DoublePrecisionSpec
import Verif.Numerics.DoublePrecisionLemmas
import Verif.Numerics.DoublePrecisionExact
import Verif.Numerics.DoublePrecisionAccuracy
import Verif.Numerics.DoublePrecisionProps
import Verif.Numerics.DoublePrecisionDivision
import Verif.Numerics.NextModel
import Verif.Numerics.NextSpec
import Verif.Numerics.NextProps
import Verif.Numerics.UlpDistanceProps
import Verif.Numerics.ClenshawCurtisModel
import Verif.Numerics.ClenshawCurtisSpec
import Verif.Numerics.ClenshawCurtisLemmas
import Verif.Numerics.ClenshawCurtisProps
import Verif.Numerics.FiniteDifferenceModel
import Verif.Numerics.FiniteDifferenceProps
import Verif.Numerics.Hermite2Model
import Verif.Numerics.Hermite2Props
import Verif.Numerics.GradientDescentModel
import Verif.Numerics.GradientDescentLineSearch
import Verif.Numerics.GradientDescentProps
import Verif.Numerics.PoissonSeriesModel
import Verif.Numerics.PoissonSeriesProps
import Verif.Numerics.AngleReductionModel
import Verif.Numerics.AngleReductionProps
import Verif.Numerics.CombinatoricsModel
import Verif.Numerics.CombinatoricsProps
import Verif.Astronomy.TimeScalesModel
import Verif.Astronomy.TimeScalesSpec
import Verif.Astronomy.TimeScalesProps
import Verif.Astronomy.GroundTrackModel
import Verif.Astronomy.GroundTrackProps
import Verif.Numerics.ApodizationModel
import Verif.Numerics.ApodizationProps
import Verif.Numerics.TriangularModel
import Verif.Numerics.TriangularProps
import Verif.Numerics.PiecewisePoissonModel
import Verif.Numerics.PiecewisePoissonProps
