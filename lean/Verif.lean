import Verif.Model.Backend
import Verif.Model.ConstraintData
import Verif.Model.ConstraintFile
import Verif.Model.Core
import Verif.Model.Infeasible
import Verif.Model.Interconnectors
import Verif.Model.Loader
import Verif.Model.Market
import Verif.Model.MmsDays
import Verif.Model.MmsDb
import Verif.Model.MmsPopulate
import Verif.Model.Outputs
import Verif.Model.RhsCalc
import Verif.Model.RhsInit
import Verif.Model.Rpn
import Verif.Model.TimeSequential
import Verif.Model.UnitRamps
import Verif.Model.Units
import Verif.Model.Validator
import Verif.Model.XmlCache
import Verif.Model.XmlInputs
import Verif.Model.XmlPrices
import Verif.Proofs.Alike
import Verif.Proofs.Availability
import Verif.Proofs.Balance
import Verif.Proofs.BidScaling
import Verif.Proofs.Bids
import Verif.Proofs.Blocks
import Verif.Proofs.Commute
import Verif.Proofs.ConstraintFile
import Verif.Proofs.Currency
import Verif.Proofs.Dearer
import Verif.Proofs.DefAll
import Verif.Proofs.Demo
import Verif.Proofs.Duality
import Verif.Proofs.Elastic
import Verif.Proofs.ElasticOps
import Verif.Proofs.Enabling
import Verif.Proofs.Eval
import Verif.Proofs.Exact
import Verif.Proofs.ExactPenalty
import Verif.Proofs.Farkas
import Verif.Proofs.FastStart
import Verif.Proofs.FastStartModes
import Verif.Proofs.Frame
import Verif.Proofs.Frames
import Verif.Proofs.Ids
import Verif.Proofs.JointRamp
import Verif.Proofs.Losses
import Verif.Proofs.LpExists
import Verif.Proofs.Merit
import Verif.Proofs.MmsDb
import Verif.Proofs.Names
import Verif.Proofs.NamesBuild
import Verif.Proofs.NamesReport
import Verif.Proofs.NamesRun
import Verif.Proofs.NamesStep
import Verif.Proofs.Offers
import Verif.Proofs.OneRow
import Verif.Proofs.Only
import Verif.Proofs.Outputs
import Verif.Proofs.PowerIds
import Verif.Proofs.PowerLp
import Verif.Proofs.PowerOut
import Verif.Proofs.PowerStep
import Verif.Proofs.PricedAt
import Verif.Proofs.Prices
import Verif.Proofs.Ramp
import Verif.Proofs.Reads
import Verif.Proofs.Refs
import Verif.Proofs.Regional
import Verif.Proofs.Rename
import Verif.Proofs.Replace
import Verif.Proofs.ReplaceTable
import Verif.Proofs.RhsCalc
import Verif.Proofs.RhsInit
import Verif.Proofs.Rpn
import Verif.Proofs.RpnRun
import Verif.Proofs.Setters
import Verif.Proofs.ShadowCheck
import Verif.Proofs.Shuffle
import Verif.Proofs.ShuffleLoss
import Verif.Proofs.ShuffleLp
import Verif.Proofs.ShuffleOps
import Verif.Proofs.ShuffleReport
import Verif.Proofs.ShuffleRun
import Verif.Proofs.ShuffleSet
import Verif.Proofs.ShuffleStep
import Verif.Proofs.ShuffleTie
import Verif.Proofs.Sim
import Verif.Proofs.SimClose
import Verif.Proofs.SimLp
import Verif.Proofs.SimPrice
import Verif.Proofs.SimRun
import Verif.Proofs.SoftCalls
import Verif.Proofs.SoftFast
import Verif.Proofs.SoftFill
import Verif.Proofs.SoftJoint
import Verif.Proofs.SoftOps
import Verif.Proofs.SoftRamp
import Verif.Proofs.SoftSets
import Verif.Proofs.SoftTie
import Verif.Proofs.Soften
import Verif.Proofs.SoftenLp
import Verif.Proofs.Split
import Verif.Proofs.SplitLp
import Verif.Proofs.SplitRows
import Verif.Proofs.Spread
import Verif.Proofs.Steps
import Verif.Proofs.Summary
import Verif.Proofs.Tables
import Verif.Proofs.Trap
import Verif.Proofs.TrapBidi
import Verif.Proofs.Twin
import Verif.Proofs.UnitDispatch
import Verif.Proofs.UnitRows
import Verif.Proofs.Whole
import Verif.Proofs.WholeHard
import Verif.Proofs.WholeLoss
import Verif.Proofs.XmlCache
import Verif.Proofs.XmlLoad
import Verif.Props.Availability
import Verif.Props.Bands
import Verif.Props.BidScaling
import Verif.Props.Bids
import Verif.Props.CallOrder
import Verif.Props.Comparative
import Verif.Props.Concave
import Verif.Props.ConstraintData
import Verif.Props.ConstraintDispatch
import Verif.Props.CostAccept
import Verif.Props.Currency
import Verif.Props.Dearer
import Verif.Props.Elastic
import Verif.Props.Enabling
import Verif.Props.Equilibrium
import Verif.Props.Existence
import Verif.Props.FastStart
import Verif.Props.FastStartModes
import Verif.Props.FastStartRuns
import Verif.Props.Fines
import Verif.Props.Frames
import Verif.Props.Ids
import Verif.Props.Infeasible
import Verif.Props.InterDispatch
import Verif.Props.Interconnectors
import Verif.Props.Irrelevant
import Verif.Props.JointRamp
import Verif.Props.KeptPrices
import Verif.Props.Layouts
import Verif.Props.Level
import Verif.Props.Limits
import Verif.Props.Linear
import Verif.Props.Loader
import Verif.Props.Marginal
import Verif.Props.Merit
import Verif.Props.Mixture
import Verif.Props.MmsDays
import Verif.Props.MmsDb
import Verif.Props.MmsPopulate
import Verif.Props.MoreOffers
import Verif.Props.Names
import Verif.Props.Order
import Verif.Props.Outputs
import Verif.Props.Power
import Verif.Props.PriceCap
import Verif.Props.PriceChange
import Verif.Props.Prices
import Verif.Props.Ramp
import Verif.Props.ReRun
import Verif.Props.Regional
import Verif.Props.Replace
import Verif.Props.Residue
import Verif.Props.RhsCalc
import Verif.Props.RhsInit
import Verif.Props.RowOrder
import Verif.Props.Rpn
import Verif.Props.Settlement
import Verif.Props.Shortage
import Verif.Props.Slack
import Verif.Props.Soft
import Verif.Props.Soften
import Verif.Props.Spare
import Verif.Props.Split
import Verif.Props.Structure
import Verif.Props.Summary
import Verif.Props.System
import Verif.Props.Tie
import Verif.Props.TimeSequential
import Verif.Props.Trap
import Verif.Props.UnitDispatch
import Verif.Props.UnitInfo
import Verif.Props.Validator
import Verif.Props.Whole
import Verif.Props.Withdrawn
import Verif.Props.XmlCache
import Verif.Props.XmlInputs
import Verif.Props.XmlPrices
import Verif.Spec.Availability
import Verif.Spec.Bands
import Verif.Spec.BidScaling
import Verif.Spec.Comparative
import Verif.Spec.Concave
import Verif.Spec.ConstraintData
import Verif.Spec.ConstraintFile
import Verif.Spec.Cost
import Verif.Spec.Currency
import Verif.Spec.Dearer
import Verif.Spec.Elastic
import Verif.Spec.Equilibrium
import Verif.Spec.Existence
import Verif.Spec.FastStart
import Verif.Spec.FastStartModes
import Verif.Spec.FastStartRuns
import Verif.Spec.Frames
import Verif.Spec.History
import Verif.Spec.Interconnectors
import Verif.Spec.Interp
import Verif.Spec.Irrelevant
import Verif.Spec.KeptPrices
import Verif.Spec.Layouts
import Verif.Spec.Level
import Verif.Spec.Lp
import Verif.Spec.Merit
import Verif.Spec.Mixture
import Verif.Spec.MmsDays
import Verif.Spec.MmsDb
import Verif.Spec.MmsPopulate
import Verif.Spec.Names
import Verif.Spec.Order
import Verif.Spec.Power
import Verif.Spec.Price
import Verif.Spec.Priced
import Verif.Spec.Ramp
import Verif.Spec.Reads
import Verif.Spec.Regional
import Verif.Spec.Replace
import Verif.Spec.RhsCalc
import Verif.Spec.RhsInit
import Verif.Spec.RowOrder
import Verif.Spec.Rpn
import Verif.Spec.RpnGroups
import Verif.Spec.Soft
import Verif.Spec.Soften
import Verif.Spec.Split
import Verif.Spec.System
import Verif.Spec.Tie
import Verif.Spec.Trap
import Verif.Spec.UnitDispatch
import Verif.Spec.UnitInfo
import Verif.Spec.Validator
import Verif.Spec.Whole
import Verif.Spec.XmlCache
import Verif.Spec.XmlInputs
import Verif.Spec.XmlPrices
