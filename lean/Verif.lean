import Verif.Props.Network
import Verif.Props.Connectivity
import Verif.Props.Sampling
import Verif.Props.NetworkGen
import Verif.Props.IO
import Verif.Props.Simulation
import Verif.Props.DeGroot
import Verif.Lemmas.Safety
import Verif.Props.Deffuant
import Verif.Props.Activity
import Verif.Props.ActivityDynamics
import Verif.Props.MeanField
import Verif.Props.Mirror
import Verif.Props.Erfinv
import Verif.Props.PowerLaw
import Verif.Props.TruncatedNormal
import Verif.Props.Bivariate
import Verif.Props.InitialAgents
import Verif.Props.Rerun
import Verif.Props.Config
import Verif.Props.Program
import Verif.Props.RunDeffuant
import Verif.Props.RunDeGroot
import Verif.Props.RunActivity
import Verif.Props.Accepted
import Verif.Props.Uniform
import Verif.Props.Consensus
import Verif.Props.DeffuantLimit
import Verif.Lemmas.NoUB
import Verif.Props.Files
import Verif.Spec.Random
import Verif.Lemmas.Tape
import Verif.Lemmas.Keys
import Verif.Lemmas.ExpJ
import Verif.Lemmas.ExpJProgram
import Verif.Props.Weighted
import Verif.Lemmas.IntPoly
import Verif.Lemmas.Transport
import Verif.Lemmas.ErfinvBranches
import Verif.Lemmas.ErfinvAccuracy
import Verif.Lemmas.Mills
import Verif.Lemmas.Draws
import Verif.Props.ErfinvAccuracy
import Verif.Props.InitialLaw
import Verif.Props.Readers
import Verif.Lemmas.Squeeze
import Verif.Spec.ContactLaw
import Verif.Lemmas.ContactLaw
import Verif.Lemmas.ContactPhase
import Verif.Props.ContactLaw
import Verif.Spec.Double
import Verif.Lemmas.Double
import Verif.Lemmas.DeffuantDouble
import Verif.Props.DeffuantDouble
import Verif.Lemmas.DeGrootDouble
import Verif.Props.DeGrootDouble
import Verif.Lemmas.FairDraws
import Verif.Props.DeffuantLaw
import Verif.Spec.Accuracy
import Verif.Lemmas.Expansion
import Verif.Props.Neutral
import Verif.Props.Accuracy
import Verif.Model.Console
import Verif.Model.Effects
import Verif.Spec.Effects
import Verif.Spec.Console
import Verif.Lemmas.Effects
import Verif.Lemmas.History
import Verif.Props.Effects
import Verif.Props.Crash
import Verif.Props.Console
import Verif.Props.Restart
import Verif.Lemmas.Unused
import Verif.Props.Unused
import Verif.Spec.Ieee
import Verif.Lemmas.Ieee
import Verif.Lemmas.ActivityIeee
import Verif.Props.Overflow
import Verif.Lemmas.Stability
import Verif.Props.Stability
import Verif.Lemmas.Chance
import Verif.Lemmas.Copying
import Verif.Lemmas.VectorChain
import Verif.Props.VectorLimit
import Verif.Spec.Relabel
import Verif.Lemmas.Relabel
import Verif.Lemmas.VectorEntry
import Verif.Props.Relabel
import Verif.Props.VectorRelabel
import Verif.Spec.RelabelActivity
import Verif.Lemmas.ActivityRelabel
import Verif.Lemmas.ActivityHistory
import Verif.Lemmas.ActivityStepper
import Verif.Lemmas.ActivityFinal
import Verif.Props.ActivityRelabel
import Verif.Props.DeGrootRate
import Verif.Props.DeffuantClusters
import Verif.Lemmas.Lazy
import Verif.Props.DeGrootSlow
import Verif.Lemmas.Expect
import Verif.Props.DeffuantRate
import Verif.Lemmas.NetworkLaw
import Verif.Props.NetworkLaw
import Verif.Lemmas.Fixation
import Verif.Props.Fixation
import Verif.Lemmas.InitialVectors
import Verif.Props.InitialVectors
import Verif.Props.DeGrootProgram
import Verif.Props.VectorSurvivors
import Verif.Props.DeffuantPolarisation
import Verif.Lemmas.Blind
import Verif.Props.Indifference
import Verif.Props.MeanDynamics
import Verif.Lemmas.Coupled
import Verif.Props.InertialConsensus
import Verif.Lemmas.Lyapunov
import Verif.Lemmas.InertialIeee
import Verif.Props.InertialOverflow
import Verif.Lemmas.Rescale
import Verif.Props.Units
import Verif.Props.Radicalisation
import Verif.Props.RadicalisationGeneral
import Verif.Props.EntryLaw
import Verif.Lemmas.MeanOrder
import Verif.Lemmas.MeanIeee
import Verif.Props.MeanOverflow
import Verif.Spec.Table
import Verif.Props.Tables
import Verif.Props.InertialMeanOverflow
import Verif.Props.ProgramTables
import Verif.Props.Convergence
import Verif.Props.ConvergenceInertial
import Verif.Props.Influence
