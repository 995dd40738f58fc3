import Verif.Props.Disassemble
import Verif.Model.Disassemble
import Verif.Props.Labels
import Verif.Model.Labels
import Verif.Props.Goals
import Verif.Spec.Goals
import Verif.Model.Goals
import Verif.Props.Exact
import Verif.Props.Limit
import Verif.Props.Locality
import Verif.Props.LoadPath
import Verif.Props.Uniqueness
import Verif.Props.ComponentResults
import Verif.Props.Components
import Verif.Lemmas.Components
import Verif.Spec.Components
import Verif.Model.Components
import Verif.Props.Selections
import Verif.Props.Colours
import Verif.Props.Arrows
import Verif.Props.Widths
import Verif.Lemmas.Drawing
import Verif.Model.Drawing
import Verif.Props.Queries
import Verif.Lemmas.Queries
import Verif.Model.Queries
import Verif.Props.Constraints
import Verif.Props.Grad
import Verif.Props.Solve
import Verif.Props.Serialization
import Verif.Props.Mesh
import Verif.Props.Optimizer
import Verif.Props.Numpy
import Verif.Props.Transform
import Verif.Props.Returned
import Verif.Lemmas.History
import Verif.Lemmas.Unique
import Verif.Props.Sequences
import Verif.Lemmas.Auxiliary3
import Verif.Props.Trails
import Verif.Lemmas.Check
import Verif.Lemmas.Sequences
import Verif.Lemmas.Auxiliary2
import Verif.Lemmas.Auxiliary
import Verif.Lemmas.Paths
import Verif.Lemmas.Trails2
import Verif.Lemmas.Trails
import Verif.Lemmas.Walk
import Verif.Props.Construction
import Verif.Props.Staged
import Verif.Props.NumpyStaged
import Verif.Lemmas.Staged
import Verif.Spec.Staged
import Verif.Lemmas.Placement
import Verif.Lemmas.Construction
import Verif.Model.Equilibrium
import Verif.Model.Json
import Verif.Spec.Json
import Verif.Lemmas.Json
import Verif.Props.Json
import Verif.Spec.Idle
import Verif.Lemmas.Idle
import Verif.Lemmas.IdleParams
import Verif.Props.Idle
import Verif.Props.Realized
import Verif.Model.Artists
import Verif.Props.Artists
import Verif.Spec.Small
import Verif.Lemmas.Small
import Verif.Lemmas.SmallRounds
import Verif.Props.Small
import Verif.Props.Walks
import Verif.Props.PlacementAux
import Verif.Props.Stray
import Verif.Spec.Smooth
import Verif.Lemmas.Smooth
import Verif.Props.Smooth
import Verif.Spec.Gradient
import Verif.Lemmas.Gradient
import Verif.Props.Gradient
import Verif.Model.Rounded
import Verif.Spec.Rounded
import Verif.Lemmas.Rounded
import Verif.Lemmas.RoundedError
import Verif.Lemmas.RoundedForm
import Verif.Lemmas.RoundedNodal
import Verif.Lemmas.RoundedReturn
import Verif.Props.Rounded
import Verif.Lemmas.RoundedStaged
import Verif.Lemmas.RoundedLimit
import Verif.Props.RoundedLimit
import Verif.Spec.Backward
import Verif.Lemmas.Backward
import Verif.Props.Backward
import Verif.Spec.Rate
import Verif.Lemmas.RoundedRate
import Verif.Props.RoundedRate
import Verif.Model.RoundedNumpy
import Verif.Spec.RoundedNumpy
import Verif.Lemmas.RoundedNumpy
import Verif.Lemmas.RoundedNumpySweep
import Verif.Lemmas.RoundedNumpyStaged
import Verif.Props.RoundedNumpy
import Verif.Props.NumpyUnconverged
import Verif.Lemmas.Close
import Verif.Props.Threshold
import Verif.Props.Stale
import Verif.Model.Autodiff
import Verif.Lemmas.Autodiff
import Verif.Lemmas.AutodiffRules
import Verif.Lemmas.AutodiffForm
import Verif.Lemmas.AutodiffPenalty
import Verif.Props.Autodiff
import Verif.Spec.Autodiff
import Verif.Lemmas.AutodiffRun
import Verif.Props.Computed
import Verif.Spec.Play
import Verif.Props.Play
import Verif.Spec.Meets
import Verif.Props.EndToEnd
import Verif.Lemmas.SimulationNumpy
import Verif.Spec.Coordinates
import Verif.Lemmas.Coordinates
import Verif.Lemmas.CoordinatesPenalty
import Verif.Props.Coordinates
import Verif.Spec.Names
import Verif.Lemmas.Names
import Verif.Lemmas.NamesNumpy
import Verif.Lemmas.NamesSolve
import Verif.Lemmas.NamesAutodiff
import Verif.Lemmas.NamesTrails
import Verif.Props.Names
import Verif.Props.NamesOrder
import Verif.Lemmas.CoordinatesAutodiff
import Verif.Lemmas.CoordinatesGradient
import Verif.Props.CoordinatesAutodiff
import Verif.Model.GradientNorm
import Verif.Spec.Slope
import Verif.Props.GradientNorm
import Verif.Model.Callback
import Verif.Spec.Callback
import Verif.Lemmas.Callback
import Verif.Lemmas.CallbackLive
import Verif.Props.Callback
import Verif.Spec.Symmetry
import Verif.Lemmas.Symmetry
import Verif.Props.Symmetry
import Verif.Spec.Flat
import Verif.Lemmas.Flat
import Verif.Props.Flat
import Verif.Lemmas.FlatRounded
import Verif.Props.FlatRounded
import Verif.Spec.Reach
import Verif.Lemmas.Reach
import Verif.Props.Reach
import Verif.Spec.Apart
import Verif.Props.NumpyForms
import Verif.Props.NumpyApart
import Verif.Props.NumpyDirect
import Verif.Spec.Numbers
import Verif.Props.NumbersSeen
