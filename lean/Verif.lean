import Verif.Model.Basic
import Verif.Model.Parser
import Verif.Model.Traveler
import Verif.Model.Junction
import Verif.Model.Planner
import Verif.Model.Sim
import Verif.Model.Setup
import Verif.Model.Output
import Verif.Model.Cli
import Verif.Exec
import Verif.Spec.Lines
import Verif.Spec.Commands
import Verif.Spec.Text
import Verif.Proofs.TravelerLemmas
import Verif.Proofs.TravelerSteps
import Verif.Proofs.ParserLemmas
import Verif.Props.States
import Verif.Props.States2
import Verif.Props.Accepted
import Verif.Props.Parse
import Verif.Spec.Motion
import Verif.Spec.Programs
import Verif.Proofs.RealLemmas
import Verif.Proofs.RampLemmas
import Verif.Proofs.DirectionLemmas
import Verif.Proofs.BlockLemmas
import Verif.Proofs.CorrectLemmas
import Verif.Proofs.PlanLemmas
import Verif.Props.Junctions
import Verif.Props.PlanMove
import Verif.Props.Plannable
import Verif.Props.Plan
import Verif.Spec.Timeline
import Verif.Proofs.QueryLemmas
import Verif.Props.Query
import Verif.Props.Extent
import Verif.Props.Output
import Verif.Props.InverseTime
import Verif.Props.Submodel
import Verif.Spec.Setups
import Verif.Props.Setup
import Verif.Props.Cli
import Verif.Props.Vectors
import Verif.Model.Session
import Verif.Spec.Sessions
import Verif.Props.Session
import Verif.Spec.Optimal
import Verif.Proofs.OptimalLemmas
import Verif.Props.Optimal
import Verif.Spec.Corners
import Verif.Props.Corners
import Verif.Spec.Times
import Verif.Props.Stops
import Verif.Props.Resolved
import Verif.Props.Summary
import Verif.Spec.Faster
import Verif.Props.Faster
import Verif.Spec.Itinerary
import Verif.Props.Itinerary
import Verif.Spec.Files
import Verif.Props.Files
import Verif.Spec.Placement
import Verif.Proofs.PlacementLemmas
import Verif.Props.Placement
import Verif.Spec.Cuts
import Verif.Props.Cuts
import Verif.Spec.Scaling
import Verif.Props.Scaling
import Verif.Model.Plot
import Verif.Spec.Plots
import Verif.Props.Plot
import Verif.Spec.Sequels
import Verif.Props.Sequels
import Verif.Model.Plot2d
import Verif.Spec.Drawings
import Verif.Props.Plot2d
import Verif.Model.PlotVel
import Verif.Spec.Curves
import Verif.Props.PlotVel
import Verif.Model.Objects
import Verif.Spec.Objects
import Verif.Props.Objects
import Verif.Model.Warnings
import Verif.Props.Warnings
import Verif.Props.Crossings
import Verif.Props.SessionQueries
import Verif.Model.Double
import Verif.Spec.Doubles
import Verif.Proofs.Rounding
import Verif.Proofs.RelError
import Verif.Proofs.DoubleMove
import Verif.Proofs.DoubleSegment
import Verif.Proofs.DoublePlan
import Verif.Proofs.DoubleRun
import Verif.Props.Doubles
import Verif.Spec.Executed
import Verif.Proofs.Anchored
import Verif.Props.Executed
import Verif.Spec.Runnable
import Verif.Props.Runnable
import Verif.Spec.Backwards
import Verif.Props.Backwards
import Verif.Model.Console
import Verif.Spec.Console
import Verif.Props.Console
import Verif.Spec.Irregular
import Verif.Props.Irregular
import Verif.Spec.Rounded
import Verif.Proofs.Perturb
import Verif.Proofs.ReadRounded
import Verif.Props.Rounded
import Verif.Model.Written
import Verif.Spec.Tables
import Verif.Props.Written
import Verif.Spec.Rest
import Verif.Proofs.Cover
import Verif.Proofs.DoubleEval
import Verif.Proofs.DoubleProfile
import Verif.Proofs.RestMotion
import Verif.Proofs.RestLipschitz
import Verif.Proofs.DoubleQuery
import Verif.Props.Closed
import Verif.Props.DoubleQueries
import Verif.Spec.Speeds
import Verif.Proofs.SpeedLemmas
import Verif.Props.Speeds
import Verif.Model.Presets
import Verif.Spec.Shipped
import Verif.Props.Shipped
import Verif.Model.Texts
import Verif.Spec.Printed
import Verif.Props.ConsoleSummary
import Verif.Props.Texts
import Verif.Spec.Gaps
import Verif.Props.Gaps
import Verif.Model.Results
import Verif.Spec.Results
import Verif.Props.Results
import Verif.Model.Linked
import Verif.Spec.Linked
import Verif.Proofs.LinkedLemmas
import Verif.Proofs.DepthLemmas
import Verif.Props.Linked
import Verif.Spec.Usual
import Verif.Proofs.DoubleEnds
import Verif.Proofs.DoubleWalk
import Verif.Proofs.DoubleFits
import Verif.Props.DoubleEnds
import Verif.Spec.Pace
import Verif.Proofs.PlanRule
import Verif.Proofs.DoublePace
import Verif.Proofs.DoubleTimes
import Verif.Props.DoubleTimes
import Verif.Model.Args
import Verif.Spec.Args
import Verif.Proofs.Args
import Verif.Proofs.ArgValues
import Verif.Props.Args
import Verif.Spec.OnPath
import Verif.Proofs.DoubleTrack
import Verif.Proofs.DoubleTracked
import Verif.Proofs.DoubleLaid
import Verif.Props.DoublePath
import Verif.Model.Examples
import Verif.Spec.Examples
import Verif.Props.IrregularOutputs
import Verif.Props.Examples
import Verif.Spec.Lulls
import Verif.Proofs.DoubleLulls
import Verif.Props.DoubleLulls
import Verif.Props.PlotSensible
import Verif.Props.SensibleMotion
import Verif.Spec.Tasks
import Verif.Props.Fastest
import Verif.Spec.TaskSpeeds
import Verif.Props.TaskSpeeds
import Verif.Props.UnusualPlots
import Verif.Props.UnusualMotion
import Verif.Props.Shortest
import Verif.Spec.UnusualQueues
import Verif.Props.UnusualCuts
import Verif.Props.UnusualQueues
import Verif.Props.UnusualSubmodels
import Verif.Props.Negative
import Verif.Spec.Tuning
import Verif.Props.Tuning
import Verif.Spec.Estimate
import Verif.Props.Estimate
import Verif.Props.Longer
import Verif.Spec.FileTime
import Verif.Props.FileTime
import Verif.Spec.Idle
import Verif.Props.Idle
import Verif.Spec.LongPieces
import Verif.Props.LongPieces
import Verif.Spec.FilePairs
import Verif.Props.FilePairs
import Verif.Spec.Waits
import Verif.Props.Waits
import Verif.Spec.Flow
import Verif.Props.Flow
import Verif.Spec.Retuned
import Verif.Props.Retuned
import Verif.Spec.Retraced
import Verif.Props.Retraced
import Verif.Spec.Metered
import Verif.Props.Metered
import Verif.Props.MeteredOutput
