import Verif.Segments.Props
import Verif.MatrixView.Props
import Verif.ECS.Props
import Verif.ECS.Examples
import Verif.ECS.RhsProps
import Verif.ECS.Deriv
import Verif.Implicit.Props
import Verif.HI.ActiveProps
import Verif.Solve.Props
import Verif.Solve.LineSearchProps
import Verif.Solve.SaturationProps
import Verif.Solve.DescentProps
import Verif.Solve.AliasProps
import Verif.BySub.LoopProps
import Verif.BySub.Props
import Verif.BySub.JacobianProps
import Verif.BySub.ExtractProps
import Verif.Svd.Props
import Verif.Fun.ExtractedProps
import Verif.Fun.SubsetProps
import Verif.Fun.FiniteDiffProps
import Verif.Fun.EqualityProps
import Verif.Fun.ManipProps
import Verif.Fun.Affine
import Verif.Sym.Props
import Verif.Explicit.ImplicitFnProps
import Verif.Log.Props
import Verif.Pose.RelProps
import Verif.Locked.Props
import Verif.Contact.Props
import Verif.Contact.FuncProps
import Verif.Contact.FuncZero
import Verif.Contact.FuncPoints
import Verif.Contact.ExplicitProps
import Verif.Contact.ExplicitMore
import Verif.Pose.RelOut
import Verif.Com.RelativeProps
import Verif.Com.BetweenProps
import Verif.Conf.Props
import Verif.Dist.Props
import Verif.Dist.Geometry
import Verif.Dist.GeometryProps
import Verif.Svd.Exists
import Verif.Stab.MoeProps
import Verif.Stab.StaticProps
import Verif.Stab.QpProps
import Verif.Solve.Newton
import Verif.Solve.SlopeProps
import Verif.Solve.NewtonProps
import Verif.Solve.BoundsProps
import Verif.Solve.ShortestProps
import Verif.Solve.LocalProps
import Verif.BySub.Newton
import Verif.BySub.NewtonProps
import Verif.BySub.NewtonEcs
import Verif.BySub.NewtonEx
import Verif.Log.Inject
import Verif.Log.Small
import Verif.Log.JointFrame
import Verif.Pose.Small
import Verif.RelPose.Model
import Verif.RelPose.Lemmas
import Verif.RelPose.Props
import Verif.RelPose.Constrain
import Verif.RelPose.Examples
import Verif.Implicit.Archive
import Verif.Implicit.ArchiveProps
import Verif.BySub.Archive
import Verif.BySub.ArchiveProps
import Verif.Implicit.Equality
import Verif.Implicit.EqualityProps
import Verif.Pose.SettersProps
import Verif.Svd.Project
import Verif.Contact.Active
import Verif.Contact.ActiveProps
import Verif.Fun.Archive
import Verif.Fun.ArchiveProps
import Verif.Pose.Columns
import Verif.Contact.Columns
import Verif.Solve.BoxProps
import Verif.Solve.SatArchive
import Verif.Solve.SatArchiveProps
import Verif.Solve.LocalSat
import Verif.Solve.BoxLinear
import Verif.HI.Jacobian
import Verif.HI.JacobianProps
import Verif.HI.JacobianEx
import Verif.BySub.ErrorDeriv
import Verif.BySub.ErrorDerivEx
import Verif.Fun.ActiveSet
import Verif.MatrixView.Select
import Verif.HI.NewtonLink
import Verif.HI.NewtonLinkProps
import Verif.HI.NewtonLinkEx
import Verif.BySub.NewtonLink
import Verif.BySub.NewtonLinkProps
import Verif.BySub.NewtonLinkEx
import Verif.Explicit.OtherGroups
import Verif.BySub.SatProps
import Verif.Solve.FreeProps
import Verif.ECS.ReplaceProps
import Verif.Stab.QpDiff
import Verif.BySub.LoopLink
import Verif.Log.ScrewSmall
import Verif.Log.SmallSE3
import Verif.Solve.Sigma
import Verif.Solve.SigmaProps
import Verif.Contact.LineProps
import Verif.Contact.Frames
import Verif.Contact.Leaf
import Verif.BySub.OneStep
import Verif.MatrixView.Compound
import Verif.Log.Lipschitz
import Verif.BySub.PoseThreshold
import Verif.Contact.Threshold
import Verif.BySub.ContactThreshold
import Verif.BySub.Again
import Verif.BySub.AgainEx
import Verif.Explicit.PlanarGroup
import Verif.Fun.ArchiveEval
import Verif.Solve.OrderProps
import Verif.HI.OrderProps
import Verif.BySub.OrderProps
import Verif.HI.ReachProps
import Verif.HI.StackProps
import Verif.Solve.BacktrackLinear
import Verif.Solve.Redundant
import Verif.HI.PriorityProps
import Verif.BySub.PriorityProps
import Verif.Solve.BudgetProps
import Verif.BySub.BudgetProps
import Verif.Solve.UnitProps
import Verif.HI.UnitProps
import Verif.BySub.UnitProps
import Verif.RelPose.DisplaceProps
import Verif.Solve.NumberProps
import Verif.HI.NumberProps
import Verif.Stab.QpChecks
import Verif.BySub.SymmetryProps
import Verif.HI.BudgetEx
import Verif.Solve.VarUnits
import Verif.HI.VarUnits
import Verif.BySub.Leaf
import Verif.BySub.LeafEx
import Verif.HI.InsideProps
import Verif.HI.InsideEx
import Verif.HI.InsideNewton
import Verif.BySub.InsideProps
import Verif.BySub.InsideEx
import Verif.BySub.InsideNewton
import Verif.HI.BlockProps
import Verif.BySub.BlockProps
import Verif.BySub.NoExplicit
import Verif.BySub.ReachProps
import Verif.Fun.FiniteDiffAccuracy
import Verif.Stab.StaticVsQp
import Verif.Solve.BoundsPriority
import Verif.Solve.OptionalProps
import Verif.Solve.LevelByLevel
import Verif.Solve.LevelLinear
import Verif.Solve.OptionalBacktrack
import Verif.HI.GapProps
import Verif.Solve.GapFirst
import Verif.BySub.GapProps
import Verif.Solve.Resume
import Verif.BySub.Resume
import Verif.Solve.ResumeCalls
import Verif.BySub.ResumeLink
import Verif.HI.LevelLinear
import Verif.Solve.Progress
