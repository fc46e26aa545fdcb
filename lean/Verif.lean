import Verif.Props.Lattice
import Verif.Props.Basic
import Verif.Props.BasisBeyond
import Verif.Props.Tables
import Verif.Props.Select
import Verif.Props.Environment
import Verif.Props.Multiplicity
import Verif.Props.Matching
import Verif.Props.Run
import Verif.Props.Event
import Verif.Props.Weights
import Verif.Props.Calculator
import Verif.Model.PyRate
import Verif.Model.Random
import Verif.Props.UserRates
import Verif.Props.Random
import Verif.Props.TypeInput
import Verif.Props.ProcessInput
import Verif.Props.FrontEnd
import Verif.Model.PyBucket
import Verif.Props.BucketProcess
import Verif.Props.RunLoop
import Verif.Props.Schedule
import Verif.Props.Equidistant
import Verif.Spec.Placed
import Verif.Lemmas.OneEach
import Verif.Lemmas.Prepare
import Verif.Props.EndToEnd
import Verif.Props.TrajectoryFile
import Verif.Props.Analysis
import Verif.Props.AnalysisRun
import Verif.Props.CompositionRun
import Verif.Props.MsdFront
import Verif.Props.AnalysisReal
import Verif.Props.Blocks
import Verif.Props.Msd
import Verif.Props.MsdRun
import Verif.Props.MsdResults
import Verif.Props.UnitCell
import Verif.Model.Sharing
import Verif.Lemmas.Worn
import Verif.Lemmas.Reuse
import Verif.Lemmas.Scratch
import Verif.Lemmas.Again
import Verif.Props.Sharing
import Verif.Model.Double
import Verif.Model.Rounded
import Verif.Lemmas.Double
import Verif.Lemmas.Numbering
import Verif.Lemmas.Faded
import Verif.Lemmas.Untouched
import Verif.Lemmas.OnGrid
import Verif.Lemmas.RoundedSelect
import Verif.Props.Numbering
import Verif.Props.Rounded
import Verif.Props.SameEvents
import Verif.Spec.Literal
import Verif.Model.Script
import Verif.Lemmas.Script
import Verif.Lemmas.Reread
import Verif.Props.Script
import Verif.Lemmas.OpenEnds
import Verif.Props.OpenEnds
import Verif.Props.OpenRuns
import Verif.Lemmas.Uncached
import Verif.Props.Caching
import Verif.Samples.OneSite
import Verif.Props.PathLaw
import Verif.Spec.Bounded
import Verif.Lemmas.Bounded
import Verif.Props.Mixed
import Verif.Spec.Reverse
import Verif.Lemmas.Reverse
import Verif.Props.Reverse
import Verif.Spec.Elsewhere
import Verif.Spec.Shift
import Verif.Lemmas.Elsewhere
import Verif.Lemmas.Shift
import Verif.Props.Elsewhere
import Verif.Props.Shift
import Verif.Model.Md5
import Verif.Spec.Md5
import Verif.Lemmas.Md5
import Verif.Props.Hash
import Verif.Props.Stoichiometry
import Verif.Model.RoundedGeometry
import Verif.Spec.Robust
import Verif.Lemmas.Bare
import Verif.Lemmas.Alike
import Verif.Lemmas.AlikeRun
import Verif.Lemmas.AlikeInit
import Verif.Lemmas.Approx
import Verif.Lemmas.ApproxProcess
import Verif.Lemmas.Euclid
import Verif.Props.Coordinates
import Verif.Props.Details
import Verif.Props.Stored
import Verif.Props.StoredMoves
import Verif.Spec.Rearranged
import Verif.Lemmas.Rearranged
import Verif.Lemmas.RearrangedMoves
import Verif.Model.PyEqual
import Verif.Props.Rearranged
import Verif.Lemmas.Chain
import Verif.Lemmas.Jumps
import Verif.Props.Master
import Verif.Lemmas.Ergodic
import Verif.Samples.RealRing
import Verif.Props.Equilibrium
import Verif.Props.Drift
import Verif.Props.NearTies
import Verif.Props.NearTiesComputed
import Verif.Props.RareTies
import Verif.Props.RareTiesComputed
import Verif.Props.TimeReversal
import Verif.Lemmas.Joint
import Verif.Lemmas.WeakLaw
import Verif.Props.SeveralTimes
import Verif.Props.SampledAverage
import Verif.Props.Mixing
import Verif.Props.SymmetricTimes
import Verif.Props.Patterns
import Verif.Spec.Recoded
import Verif.Lemmas.Recoded
import Verif.Props.Recoded
import Verif.Spec.Symmetric
import Verif.Lemmas.Symmetric
import Verif.Props.Symmetric
import Verif.Props.Local
import Verif.Props.SymmetricLaw
import Verif.Props.MirrorRing
import Verif.Props.Average
import Verif.Props.Computed
