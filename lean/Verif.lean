import Verif.Lemmas.Accuracy
import Verif.Lemmas.Api
import Verif.Lemmas.ApiCase
import Verif.Lemmas.ApiProb
import Verif.Lemmas.Average
import Verif.Lemmas.Axes
import Verif.Lemmas.BinLimits
import Verif.Lemmas.Boot
import Verif.Lemmas.BootClt
import Verif.Lemmas.BootCount
import Verif.Lemmas.BootCover
import Verif.Lemmas.BootFixed
import Verif.Lemmas.BootLaw
import Verif.Lemmas.BrierChance
import Verif.Lemmas.Broadcast
import Verif.Lemmas.Cache
import Verif.Lemmas.Columns
import Verif.Lemmas.Concentration
import Verif.Lemmas.CountLimits
import Verif.Lemmas.Coverage
import Verif.Lemmas.Crps
import Verif.Lemmas.CurveSums
import Verif.Lemmas.Decode
import Verif.Lemmas.Decomp
import Verif.Lemmas.DecompChance
import Verif.Lemmas.Dist
import Verif.Lemmas.DmLimit
import Verif.Lemmas.DmNormal
import Verif.Lemmas.EndToEnd
import Verif.Lemmas.EnsCrps
import Verif.Lemmas.Ensemble
import Verif.Lemmas.Env
import Verif.Lemmas.Exchange
import Verif.Lemmas.Frequencies
import Verif.Lemmas.GammaDist
import Verif.Lemmas.Grid
import Verif.Lemmas.Groups
import Verif.Lemmas.History
import Verif.Lemmas.Honest
import Verif.Lemmas.HonestCase
import Verif.Lemmas.HonestFamilies
import Verif.Lemmas.HonestMean
import Verif.Lemmas.IO
import Verif.Lemmas.InPlace
import Verif.Lemmas.Integration
import Verif.Lemmas.Jobs
import Verif.Lemmas.Kde
import Verif.Lemmas.LagProducts
import Verif.Lemmas.LongRun
import Verif.Lemmas.LongRunBest
import Verif.Lemmas.Members
import Verif.Lemmas.Merge
import Verif.Lemmas.Murphy
import Verif.Lemmas.Name
import Verif.Lemmas.Natural
import Verif.Lemmas.Normal
import Verif.Lemmas.OpenMany
import Verif.Lemmas.Ordinal
import Verif.Lemmas.OverAxes
import Verif.Lemmas.Pairs
import Verif.Lemmas.PitUniform
import Verif.Lemmas.Pool
import Verif.Lemmas.Proper
import Verif.Lemmas.ProperScoring
import Verif.Lemmas.PsGaussian
import Verif.Lemmas.RandomEns
import Verif.Lemmas.RandomEnsMoments
import Verif.Lemmas.Rank
import Verif.Lemmas.RankFlat
import Verif.Lemmas.RankSample
import Verif.Lemmas.Reduce
import Verif.Lemmas.RelBoot
import Verif.Lemmas.RelChance
import Verif.Lemmas.RelMulti
import Verif.Lemmas.RelPooled
import Verif.Lemmas.RelSplit
import Verif.Lemmas.Reliability
import Verif.Lemmas.Repr
import Verif.Lemmas.Roc
import Verif.Lemmas.RocLimit
import Verif.Lemmas.RocPooled
import Verif.Lemmas.Rounding
import Verif.Lemmas.RoundingBins
import Verif.Lemmas.RoundingCrps
import Verif.Lemmas.RoundingDecomp
import Verif.Lemmas.RoundingError
import Verif.Lemmas.Same
import Verif.Lemmas.SaveName
import Verif.Lemmas.SavePath
import Verif.Lemmas.SavePathApi
import Verif.Lemmas.Scale
import Verif.Lemmas.Scratch
import Verif.Lemmas.SettingsRead
import Verif.Lemmas.Shuffle
import Verif.Lemmas.SpecialBoot
import Verif.Lemmas.SpreadSkill
import Verif.Lemmas.SpreadSkillAgg
import Verif.Lemmas.SsChance
import Verif.Lemmas.Stable
import Verif.Lemmas.Student
import Verif.Lemmas.StudentLimit
import Verif.Lemmas.TruncMoments
import Verif.Lemmas.Twin
import Verif.Lemmas.TwinOn
import Verif.Lemmas.Uniform
import Verif.Lemmas.Workers
import Verif.Model.Api
import Verif.Model.ApiInst
import Verif.Model.ApiProb
import Verif.Model.Average
import Verif.Model.Boot
import Verif.Model.Cache
import Verif.Model.Crps
import Verif.Model.Decode
import Verif.Model.Dist
import Verif.Model.Ensemble
import Verif.Model.Grid
import Verif.Model.IO
import Verif.Model.InPlace
import Verif.Model.Init
import Verif.Model.Integration
import Verif.Model.Iou
import Verif.Model.Jobs
import Verif.Model.Kde
import Verif.Model.MoveLoop
import Verif.Model.OpenMany
import Verif.Model.ProperScoring
import Verif.Model.PsGaussian
import Verif.Model.Rank
import Verif.Model.RaySession
import Verif.Model.Reliability
import Verif.Model.Repr
import Verif.Model.Roc
import Verif.Model.Rounding
import Verif.Model.RoundingBins
import Verif.Model.RoundingCrps
import Verif.Model.RoundingDecomp
import Verif.Model.SaveName
import Verif.Model.SavePath
import Verif.Model.Scratch
import Verif.Model.Settings
import Verif.Model.SettingsRead
import Verif.Model.Significance
import Verif.Model.SpecialBoot
import Verif.Model.SpreadSkill
import Verif.Model.Workers
import Verif.Np.Array
import Verif.Np.Bins
import Verif.Np.Except
import Verif.Np.Index
import Verif.Np.Reduce
import Verif.Np.Sort
import Verif.Np.Stat
import Verif.Props.Accept
import Verif.Props.Accuracy
import Verif.Props.Average
import Verif.Props.AverageLimits
import Verif.Props.AverageLimitsCase
import Verif.Props.BadAxes
import Verif.Props.BinLimits
import Verif.Props.BinLimitsCase
import Verif.Props.Boot
import Verif.Props.BootCoverage
import Verif.Props.BootCoverageCase
import Verif.Props.BootFixed
import Verif.Props.BrierChance
import Verif.Props.BrierChanceCase
import Verif.Props.Broadcast
import Verif.Props.Concentration
import Verif.Props.ConcentrationCase
import Verif.Props.CorrPooled
import Verif.Props.CorrPooledCase
import Verif.Props.CountLimits
import Verif.Props.CountLimitsCase
import Verif.Props.Coverage
import Verif.Props.Crps
import Verif.Props.CurveSums
import Verif.Props.Decode
import Verif.Props.DecodeCase
import Verif.Props.DecompChance
import Verif.Props.DecompChanceCase
import Verif.Props.Determ
import Verif.Props.Dist
import Verif.Props.DmLimit
import Verif.Props.DmLimitCase
import Verif.Props.DmSign
import Verif.Props.DmStudent
import Verif.Props.EndToEnd
import Verif.Props.EndToEndAxes
import Verif.Props.EndToEndClasses
import Verif.Props.EndToEndCurves
import Verif.Props.EndToEndHurdle
import Verif.Props.EndToEndProb
import Verif.Props.EndToEndProbCase
import Verif.Props.EndToEndSample
import Verif.Props.EnsCrps
import Verif.Props.Ensemble
import Verif.Props.Env
import Verif.Props.Exchange
import Verif.Props.Files
import Verif.Props.Frequencies
import Verif.Props.Grid
import Verif.Props.Honest
import Verif.Props.HonestCase
import Verif.Props.IO
import Verif.Props.InPlace
import Verif.Props.Init
import Verif.Props.Integration
import Verif.Props.Iou
import Verif.Props.Jobs
import Verif.Props.Kde
import Verif.Props.LongRun
import Verif.Props.LongRunCase
import Verif.Props.Members
import Verif.Props.Merge
import Verif.Props.MissingLimits
import Verif.Props.MissingLimitsCase
import Verif.Props.Murphy
import Verif.Props.OpenMany
import Verif.Props.OverAxes
import Verif.Props.OverAxesCase
import Verif.Props.PitUniform
import Verif.Props.PitUniformCase
import Verif.Props.Pool
import Verif.Props.Proper
import Verif.Props.ProperScoring
import Verif.Props.PsGaussian
import Verif.Props.RandomEns
import Verif.Props.RandomEnsCase
import Verif.Props.Rank
import Verif.Props.RankFlat
import Verif.Props.RankFlatCase
import Verif.Props.RankSample
import Verif.Props.RankSampleCase
import Verif.Props.RaySession
import Verif.Props.RelChance
import Verif.Props.RelChanceCase
import Verif.Props.RelPooled
import Verif.Props.RelPooledCase
import Verif.Props.Reliability
import Verif.Props.ReliabilityDraws
import Verif.Props.Repeat
import Verif.Props.RepeatCase
import Verif.Props.Repr
import Verif.Props.RightErrors
import Verif.Props.RmsePooled
import Verif.Props.RmsePooledCase
import Verif.Props.Roc
import Verif.Props.RocBest
import Verif.Props.RocBestCase
import Verif.Props.RocLimit
import Verif.Props.RocLimitCase
import Verif.Props.RocPooled
import Verif.Props.RocPooledBest
import Verif.Props.RocPooledBestCase
import Verif.Props.RocPooledCase
import Verif.Props.Rounding
import Verif.Props.RoundingBins
import Verif.Props.RoundingCrps
import Verif.Props.RoundingDecomp
import Verif.Props.RoundingError
import Verif.Props.Sample
import Verif.Props.SaveName
import Verif.Props.SavePath
import Verif.Props.Saving
import Verif.Props.Scratch
import Verif.Props.Settings
import Verif.Props.SettingsRead
import Verif.Props.Shuffle
import Verif.Props.Significance
import Verif.Props.SpecialBoot
import Verif.Props.SpreadSkill
import Verif.Props.SsChance
import Verif.Props.SsChanceCase
import Verif.Props.Stable
import Verif.Props.Unaveraged
import Verif.Props.UnaveragedCase
import Verif.Props.Unbiased
import Verif.Props.Units
import Verif.Props.Workers
import Verif.Spec.Average
import Verif.Spec.Axes
import Verif.Spec.BadAxes
import Verif.Spec.BinLimits
import Verif.Spec.Boot
import Verif.Spec.BootCoverage
import Verif.Spec.BrierChance
import Verif.Spec.Broadcast
import Verif.Spec.Concentration
import Verif.Spec.CorrPooled
import Verif.Spec.Coverage
import Verif.Spec.CurveSums
import Verif.Spec.DecompChance
import Verif.Spec.Determ
import Verif.Spec.DmLimit
import Verif.Spec.DmSign
import Verif.Spec.EndToEnd
import Verif.Spec.EndToEndProb
import Verif.Spec.EnsCrps
import Verif.Spec.Ensemble
import Verif.Spec.Env
import Verif.Spec.Exchange
import Verif.Spec.Frequencies
import Verif.Spec.GammaDist
import Verif.Spec.Grid
import Verif.Spec.History
import Verif.Spec.Honest
import Verif.Spec.InPlace
import Verif.Spec.Integration
import Verif.Spec.Iou
import Verif.Spec.Jobs
import Verif.Spec.Kernel
import Verif.Spec.LongRun
import Verif.Spec.Merge
import Verif.Spec.Names
import Verif.Spec.Normal
import Verif.Spec.OverAxes
import Verif.Spec.Pairs
import Verif.Spec.PitUniform
import Verif.Spec.Pool
import Verif.Spec.Proper
import Verif.Spec.ProperScoring
import Verif.Spec.PsGaussian
import Verif.Spec.RandomEns
import Verif.Spec.Rank
import Verif.Spec.RankFlat
import Verif.Spec.RankSample
import Verif.Spec.RaySession
import Verif.Spec.RelChance
import Verif.Spec.RelPooled
import Verif.Spec.Reliability
import Verif.Spec.Repeat
import Verif.Spec.Repr
import Verif.Spec.RightErrors
import Verif.Spec.Roc
import Verif.Spec.RocLimit
import Verif.Spec.RocPooled
import Verif.Spec.RoundingBins
import Verif.Spec.RoundingCrps
import Verif.Spec.RoundingError
import Verif.Spec.SaveName
import Verif.Spec.SavePath
import Verif.Spec.Settings
import Verif.Spec.SettingsRead
import Verif.Spec.Shuffle
import Verif.Spec.SpreadSkill
import Verif.Spec.SsChance
import Verif.Spec.Stable
import Verif.Spec.Stations
import Verif.Spec.Student
import Verif.Spec.Unaveraged
import Verif.Spec.Uniform
import Verif.Spec.Units
import Verif.Spec.Votes
import Verif.Spec.Workers
