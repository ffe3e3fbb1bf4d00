import Verif.Spec
import Verif.Model.AllIndexes
import Verif.Model.Alphabet
import Verif.Model.Base64
import Verif.Model.Bench
import Verif.Model.BigBWT
import Verif.Model.BigSteps
import Verif.Model.Bwt
import Verif.Model.ByteCount
import Verif.Model.CSARaw
import Verif.Model.CacheSteps
import Verif.Model.ConfigKeys
import Verif.Model.Construct
import Verif.Model.ConstructBench
import Verif.Model.Copies
import Verif.Model.CountWork
import Verif.Model.DefaultObject
import Verif.Model.Drivers
import Verif.Model.EncVector
import Verif.Model.EncVectorCtor
import Verif.Model.Factory
import Verif.Model.FailedWrites
import Verif.Model.IndexBase
import Verif.Model.IntAlphabet
import Verif.Model.IntClasses
import Verif.Model.IntCounters
import Verif.Model.Items
import Verif.Model.LF
import Verif.Model.Legacy
import Verif.Model.LegacyItems
import Verif.Model.LocateWork
import Verif.Model.MarksPlot
import Verif.Model.Objects
import Verif.Model.Phi
import Verif.Model.PhiRange
import Verif.Model.PlotQueries
import Verif.Model.Psi
import Verif.Model.PsiText
import Verif.Model.RCSA
import Verif.Model.RIndex
import Verif.Model.RLEElements
import Verif.Model.RLEString
import Verif.Model.Race
import Verif.Model.RleString
import Verif.Model.Sampling
import Verif.Model.Sdsl
import Verif.Model.SequenceOps
import Verif.Model.SharedDir
import Verif.Model.SizeTree
import Verif.Model.Sizes
import Verif.Model.Sparse
import Verif.Model.SrCSA
import Verif.Model.SrIndex
import Verif.Model.Storage
import Verif.Model.Streams
import Verif.Model.Text
import Verif.Model.Widths
import Verif.Model.WordBuild
import Verif.Model.WordCores
import Verif.Model.WordObjects
import Verif.Model.Words
import Verif.Model.Work
import Verif.Proofs.Alphabet
import Verif.Proofs.Around
import Verif.Proofs.BWTRuns
import Verif.Proofs.BackIndex
import Verif.Proofs.BackRange
import Verif.Proofs.BackRangeV
import Verif.Proofs.Base
import Verif.Proofs.Base64
import Verif.Proofs.Bench
import Verif.Proofs.BigSteps
import Verif.Proofs.Bwt
import Verif.Proofs.ByteCount
import Verif.Proofs.CacheGap
import Verif.Proofs.CacheIdeal
import Verif.Proofs.CacheLoad
import Verif.Proofs.CacheMend
import Verif.Proofs.CacheRun
import Verif.Proofs.CacheSteps
import Verif.Proofs.CacheStuck
import Verif.Proofs.CacheValues
import Verif.Proofs.ClosedRange
import Verif.Proofs.ConfigKeys
import Verif.Proofs.ConfigTypes
import Verif.Proofs.ConstructBench
import Verif.Proofs.CountWork
import Verif.Proofs.EmptyForw
import Verif.Proofs.EmptyForwV
import Verif.Proofs.EmptyOne
import Verif.Proofs.EncGet
import Verif.Proofs.EncVector
import Verif.Proofs.EncVectorCtor
import Verif.Proofs.Factory
import Verif.Proofs.FailedWrites
import Verif.Proofs.ForwRange
import Verif.Proofs.ForwRangeV
import Verif.Proofs.IndexBase
import Verif.Proofs.IntAlphabet
import Verif.Proofs.IntClasses
import Verif.Proofs.Keys
import Verif.Proofs.LF
import Verif.Proofs.Legacy
import Verif.Proofs.LegacyBuild
import Verif.Proofs.LegacyDisk
import Verif.Proofs.LegacyParts
import Verif.Proofs.LegacyRerun
import Verif.Proofs.LocateWork
import Verif.Proofs.LocateWorkCsa
import Verif.Proofs.LocateWorkPsi
import Verif.Proofs.LocateWorkRle
import Verif.Proofs.LostOrder
import Verif.Proofs.LostRun
import Verif.Proofs.LostUnread
import Verif.Proofs.Marks
import Verif.Proofs.ObjectLoad
import Verif.Proofs.Objects
import Verif.Proofs.Phi
import Verif.Proofs.PhiForward
import Verif.Proofs.Pieces
import Verif.Proofs.PlotQueries
import Verif.Proofs.PsiBuild
import Verif.Proofs.PsiCore
import Verif.Proofs.PsiCoreRuns
import Verif.Proofs.PsiNav
import Verif.Proofs.PsiOdd
import Verif.Proofs.PsiOrder
import Verif.Proofs.PsiQueries
import Verif.Proofs.PsiRuns
import Verif.Proofs.PsiSorted
import Verif.Proofs.PsiText
import Verif.Proofs.RCSA
import Verif.Proofs.RIndex
import Verif.Proofs.RLEElements
import Verif.Proofs.RLEString
import Verif.Proofs.Race
import Verif.Proofs.RateMono
import Verif.Proofs.RateOne
import Verif.Proofs.Rename
import Verif.Proofs.RenameBuild
import Verif.Proofs.Rle
import Verif.Proofs.RleBreak
import Verif.Proofs.RleBwt
import Verif.Proofs.RleString
import Verif.Proofs.RunOps
import Verif.Proofs.RunPos
import Verif.Proofs.RunSpace
import Verif.Proofs.RunSpec
import Verif.Proofs.SATheory
import Verif.Proofs.Sampling
import Verif.Proofs.SamplingCount
import Verif.Proofs.Sdsl
import Verif.Proofs.SharedDir
import Verif.Proofs.Sharing
import Verif.Proofs.SizeTree
import Verif.Proofs.Sizes
import Verif.Proofs.Sparse
import Verif.Proofs.SplitForw
import Verif.Proofs.SrCSA
import Verif.Proofs.SrCSABuild
import Verif.Proofs.SrCSAOps
import Verif.Proofs.SrCSAValid
import Verif.Proofs.SrIndex
import Verif.Proofs.SrValid
import Verif.Proofs.Storage
import Verif.Proofs.StreamStuck
import Verif.Proofs.Streams
import Verif.Proofs.SubForward
import Verif.Proofs.Text
import Verif.Proofs.Torn
import Verif.Proofs.Validity
import Verif.Proofs.ValidityExact
import Verif.Proofs.Widths
import Verif.Proofs.WordBuild
import Verif.Proofs.WordBuildAll
import Verif.Proofs.WordObjects
import Verif.Proofs.WordPsi
import Verif.Proofs.WordPsiCore
import Verif.Proofs.WordString
import Verif.Proofs.Words
import Verif.Proofs.WordsBack
import Verif.Proofs.WordsForw
import Verif.Proofs.WordsRange
import Verif.Proofs.Work
import Verif.Proofs.WorkBound
import Verif.Proofs.WorkIndex
import Verif.Props.AllIndexes
import Verif.Props.Around
import Verif.Props.Base64
import Verif.Props.Bench
import Verif.Props.BigBWT
import Verif.Props.BigSteps
import Verif.Props.BuildOrder
import Verif.Props.Bwt
import Verif.Props.ByteCount
import Verif.Props.CSARaw
import Verif.Props.ConfigKeys
import Verif.Props.ConstructBench
import Verif.Props.Copies
import Verif.Props.CountWork
import Verif.Props.Crash
import Verif.Props.CrashPoints
import Verif.Props.DefaultObject
import Verif.Props.Drivers
import Verif.Props.EmptyForwV
import Verif.Props.EmptyOne
import Verif.Props.EncVector
import Verif.Props.Factory
import Verif.Props.FailedWrites
import Verif.Props.HalfWritten
import Verif.Props.IntAlphabet
import Verif.Props.Keys
import Verif.Props.LF
import Verif.Props.LargeTexts
import Verif.Props.Legacy
import Verif.Props.LegacyItems
import Verif.Props.LocateWork
import Verif.Props.MarksPlot
import Verif.Props.PlotQueries
import Verif.Props.Psi
import Verif.Props.RCSA
import Verif.Props.RIndex
import Verif.Props.RLEElements
import Verif.Props.RLEString
import Verif.Props.Race
import Verif.Props.RateMono
import Verif.Props.RateOne
import Verif.Props.Rename
import Verif.Props.RepoTests
import Verif.Props.Reuse
import Verif.Props.RleString
import Verif.Props.RunSpace
import Verif.Props.Sampling
import Verif.Props.SequenceOps
import Verif.Props.Serialize
import Verif.Props.SharedDir
import Verif.Props.Sharing
import Verif.Props.SizeTree
import Verif.Props.Space
import Verif.Props.Sparse
import Verif.Props.SrCSA
import Verif.Props.SrIndex
import Verif.Props.Storage
import Verif.Props.Streams
import Verif.Props.Text
import Verif.Props.ValidityExact
import Verif.Props.WholeProgram
import Verif.Props.Widths
import Verif.Props.WordBuild
import Verif.Props.Words
import Verif.Props.Work
