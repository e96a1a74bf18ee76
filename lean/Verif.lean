import Verif.Props.Basics
import Verif.Props.SolutionText
import Verif.Props.Parser
import Verif.Props.Config
import Verif.Props.Evaluate
import Verif.Props.SortRoutes
import Verif.Props.Crossover
import Verif.Props.SplitStructure
import Verif.Props.SplitFleet
import Verif.Props.SplitOptimal
import Verif.Props.Moves
import Verif.Props.SwapStar
import Verif.Props.LocalSearch
import Verif.Props.Sector
import Verif.Props.Matrix
import Verif.Props.Correlation
import Verif.Props.SearchGaps
import Verif.Props.Ruin
import Verif.Props.Recreate
import Verif.Props.RuinRecreate
import Verif.Props.Schedule
import Verif.Props.PopOrder
import Verif.Props.Clones
import Verif.Props.Context
import Verif.Props.GeneticExamples
import Verif.Props.DecompExamples
import Verif.Props.LocalOpt
import Verif.Props.SwapStarComplete
import Verif.Props.Determinism
import Verif.Props.ProgramEnds
import Verif.Props.ElitePenalty
import Verif.Props.Education
import Verif.Props.BestKept
import Verif.Props.PenaltyTimes
import Verif.Props.ExplicitExamples
import Verif.Props.SearchHang
import Verif.Props.ProgramHang
import Verif.Props.RunExamples
import Verif.Props.DecompProgressExamples
import Verif.Props.SubMatrix
import Verif.Props.ProgramOrder
import Verif.Lemmas.DblSpecials
import Verif.Props.ZeroSettings
import Verif.Props.Enabled
import Verif.Props.DblEnds
import Verif.Props.DblEndsExamples
import Verif.Props.Dimacs
import Verif.Props.RuinShape
import Verif.Props.RecreateOrder
import Verif.Props.EliteTime
import Verif.Props.SubStart
import Verif.Props.FitnessRank
import Verif.Props.MoreCases
import Verif.Props.DimacsDouble
import Verif.Props.DimacsDoubleExamples
import Verif.Props.Launch
import Verif.Props.LaunchExamples
import Verif.Props.Elites
import Verif.Lemmas.AnySeen
import Verif.Props.BestKeptDouble
import Verif.Props.BestKeptDoubleExamples
import Verif.Props.Defaults
import Verif.Lemmas.FirstIndividual
import Verif.Props.InReach
import Verif.Props.InReachProgram
import Verif.Model.Log
import Verif.Props.LogLine
import Verif.Props.LogLineExamples
import Verif.Props.LogTimes
import Verif.Props.PopOrderDouble
import Verif.Props.PopOrderDoubleExamples
import Verif.Props.PenaltyDouble
import Verif.Props.PenaltyDoubleExamples
import Verif.Model.Duration
import Verif.Props.Duration
import Verif.Props.MatrixInit
import Verif.Props.Allocation
import Verif.Props.AllocationExamples
import Verif.Props.FleetDouble
import Verif.Props.FleetDoubleExamples
import Verif.Props.LaunchExplicit
import Verif.Props.ElitesRun
import Verif.Props.AllocationDecomp
import Verif.Props.LogDouble
import Verif.Model.LaunchOutput
import Verif.Props.LaunchStream
import Verif.Props.FleetSufficesDouble
import Verif.Props.EvaluateDouble
import Verif.Props.ComparisonDouble
import Verif.Props.MaxDouble
import Verif.Props.NearestDouble
import Verif.Props.ScheduleDouble
import Verif.Props.CoolingDouble
import Verif.Props.CacheDouble
import Verif.Props.InsertDouble
import Verif.Props.FallbackDouble
import Verif.Props.RecreateDouble
import Verif.Props.RuinDouble
import Verif.Props.TournamentDouble
import Verif.Props.RecreateCostDouble
