-- Root module: imports every model, specification, proof and property file.
import Verif.Model.App
import Verif.Model.Arff
import Verif.Model.Build
import Verif.Model.Chisq
import Verif.Model.Cluster
import Verif.Model.Collections
import Verif.Model.Color
import Verif.Model.Conc
import Verif.Model.Data
import Verif.Model.Dennis
import Verif.Model.Derive
import Verif.Model.Download
import Verif.Model.Draw
import Verif.Model.EvalConc
import Verif.Model.Evaluate
import Verif.Model.Float
import Verif.Model.Folder
import Verif.Model.Gauss
import Verif.Model.Gens
import Verif.Model.HalfExact
import Verif.Model.Helpers
import Verif.Model.Images
import Verif.Model.ImgRun
import Verif.Model.Indep
import Verif.Model.Input
import Verif.Model.Learn
import Verif.Model.LearnCalls
import Verif.Model.LearnGD
import Verif.Model.Log
import Verif.Model.Main
import Verif.Model.Matrix
import Verif.Model.Mnist
import Verif.Model.Multinom
import Verif.Model.Npy
import Verif.Model.NpyReader
import Verif.Model.Optics
import Verif.Model.Poon
import Verif.Model.PoonStruct
import Verif.Model.Print
import Verif.Model.RandComb
import Verif.Model.ReadFile
import Verif.Model.Real
import Verif.Model.Sc
import Verif.Model.Score
import Verif.Model.ScoreText
import Verif.Model.Search
import Verif.Model.Seeds
import Verif.Model.Serial
import Verif.Model.Spn
import Verif.Model.SpnFile
import Verif.Model.Stats
import Verif.Model.Storer
import Verif.Model.Structure
import Verif.Model.SumHard
import Verif.Model.SysLog
import Verif.Model.TestInit
import Verif.Model.TestUse
import Verif.Model.Text
import Verif.Model.Topo
import Verif.Model.UnionFind
import Verif.Model.VariableGob
import Verif.Model.Work
import Verif.Proofs.Arff
import Verif.Proofs.ArgMax
import Verif.Proofs.Ascent
import Verif.Proofs.Cluster
import Verif.Proofs.Collections
import Verif.Proofs.Conc
import Verif.Proofs.Data
import Verif.Proofs.DataLabels
import Verif.Proofs.DataParts
import Verif.Proofs.Dbscan
import Verif.Proofs.Dennis
import Verif.Proofs.DennisGraph
import Verif.Proofs.DennisNet
import Verif.Proofs.Derive
import Verif.Proofs.DeriveLoop
import Verif.Proofs.DeriveWeights
import Verif.Proofs.Download
import Verif.Proofs.Draw
import Verif.Proofs.DrawMerge
import Verif.Proofs.EvalConc
import Verif.Proofs.Evaluate
import Verif.Proofs.Folder
import Verif.Proofs.GensFloat
import Verif.Proofs.GensLeaves
import Verif.Proofs.GradFloat
import Verif.Proofs.Hard
import Verif.Proofs.IncGamma
import Verif.Proofs.Indep
import Verif.Proofs.IndepGraph
import Verif.Proofs.Infer
import Verif.Proofs.Input
import Verif.Proofs.KMedoid
import Verif.Proofs.KMode
import Verif.Proofs.Learn
import Verif.Proofs.LearnBatch
import Verif.Proofs.LearnContrast
import Verif.Proofs.LearnDisc
import Verif.Proofs.LearnGD
import Verif.Proofs.LearnHard
import Verif.Proofs.LearnShape
import Verif.Proofs.LearnTotal
import Verif.Proofs.Leaves
import Verif.Proofs.Lentz
import Verif.Proofs.Lloyd
import Verif.Proofs.Log
import Verif.Proofs.MapArg
import Verif.Proofs.MapState
import Verif.Proofs.MapStore
import Verif.Proofs.Marginal
import Verif.Proofs.Matrix
import Verif.Proofs.Multinom
import Verif.Proofs.NormFloat
import Verif.Proofs.Order
import Verif.Proofs.Perturb
import Verif.Proofs.Poon
import Verif.Proofs.PoonFirst
import Verif.Proofs.PoonInit
import Verif.Proofs.PoonOne
import Verif.Proofs.PoonRects
import Verif.Proofs.PoonTotal
import Verif.Proofs.Print
import Verif.Proofs.RoundMapStore
import Verif.Proofs.RoundMax
import Verif.Proofs.Rounding
import Verif.Proofs.Score
import Verif.Proofs.Search
import Verif.Proofs.Serial
import Verif.Proofs.Settle
import Verif.Proofs.Shape
import Verif.Proofs.Spn
import Verif.Proofs.Storer
import Verif.Proofs.Structure
import Verif.Proofs.Text
import Verif.Proofs.Topo
import Verif.Proofs.TopoIter
import Verif.Proofs.TopoVariants
import Verif.Proofs.Trim
import Verif.Proofs.UnionFind
import Verif.Proofs.UpperGamma
import Verif.Props.App
import Verif.Props.Arff
import Verif.Props.ArffData
import Verif.Props.Ascent
import Verif.Props.Build
import Verif.Props.Chisq
import Verif.Props.ClassifyFloat
import Verif.Props.Collections
import Verif.Props.Color
import Verif.Props.Conc
import Verif.Props.Data
import Verif.Props.DataCopy
import Verif.Props.DataLabels
import Verif.Props.DataParts
import Verif.Props.Dbscan
import Verif.Props.DbscanRefuted
import Verif.Props.Dennis
import Verif.Props.Derive
import Verif.Props.Discr
import Verif.Props.Download
import Verif.Props.Draw
import Verif.Props.EvalConc
import Verif.Props.Evaluate
import Verif.Props.Evidence
import Verif.Props.Folder
import Verif.Props.FolderEvidence
import Verif.Props.FolderPbm
import Verif.Props.Gauss
import Verif.Props.Gens
import Verif.Props.GensFloat
import Verif.Props.GensLeaves
import Verif.Props.GradFloat
import Verif.Props.HalfExact
import Verif.Props.HalfImg
import Verif.Props.Hard
import Verif.Props.Helpers
import Verif.Props.Images
import Verif.Props.ImgCompl
import Verif.Props.ImgJobs
import Verif.Props.ImgRun
import Verif.Props.Indep
import Verif.Props.Infer
import Verif.Props.Input
import Verif.Props.KMeansLib
import Verif.Props.KMedoid
import Verif.Props.KMode
import Verif.Props.Learn
import Verif.Props.LearnAccuracy
import Verif.Props.LearnCalls
import Verif.Props.LearnContrast
import Verif.Props.LearnDisc
import Verif.Props.LearnGD
import Verif.Props.LearnHard
import Verif.Props.LearnHeight
import Verif.Props.LearnShape
import Verif.Props.LearnSize
import Verif.Props.LearnUnbounded
import Verif.Props.Leaves
import Verif.Props.LineEnds
import Verif.Props.Lloyd
import Verif.Props.Log
import Verif.Props.Main
import Verif.Props.Matrix
import Verif.Props.Metrics
import Verif.Props.Mnist
import Verif.Props.Multinom
import Verif.Props.NormFloat
import Verif.Props.Npy
import Verif.Props.NpyReader
import Verif.Props.NpyTypes
import Verif.Props.Optics
import Verif.Props.Order
import Verif.Props.Params
import Verif.Props.PartitionInput
import Verif.Props.Poon
import Verif.Props.PoonInfer
import Verif.Props.PoonMany
import Verif.Props.PoonStruct
import Verif.Props.Print
import Verif.Props.RandComb
import Verif.Props.ReadFile
import Verif.Props.RoundMapStore
import Verif.Props.RoundMax
import Verif.Props.Rounding
import Verif.Props.Sc
import Verif.Props.Score
import Verif.Props.ScoreAdd
import Verif.Props.ScoreText
import Verif.Props.Search
import Verif.Props.Seeds
import Verif.Props.Semantics
import Verif.Props.Serial
import Verif.Props.Shape
import Verif.Props.SpnFile
import Verif.Props.Stats
import Verif.Props.StepFloat
import Verif.Props.Storer
import Verif.Props.Structure
import Verif.Props.SumHard
import Verif.Props.SumHardFloat
import Verif.Props.SysLog
import Verif.Props.TestInit
import Verif.Props.TestUse
import Verif.Props.Topo
import Verif.Props.UnionFind
import Verif.Props.VariableGob
import Verif.Props.Work
import Verif.Spec.Arff
import Verif.Spec.Ascent
import Verif.Spec.Cluster
import Verif.Spec.Collections
import Verif.Spec.Conc
import Verif.Spec.Data
import Verif.Spec.Dbscan
import Verif.Spec.Dennis
import Verif.Spec.Derive
import Verif.Spec.DivFloat
import Verif.Spec.Draw
import Verif.Spec.Evaluate
import Verif.Spec.Folder
import Verif.Spec.GensLeaves
import Verif.Spec.GradFloat
import Verif.Spec.Graph
import Verif.Spec.HalfExact
import Verif.Spec.Hard
import Verif.Spec.Indep
import Verif.Spec.IntFloat
import Verif.Spec.Learn
import Verif.Spec.LearnCalls
import Verif.Spec.LearnDisc
import Verif.Spec.LearnGD
import Verif.Spec.Leaves
import Verif.Spec.LogSpace
import Verif.Spec.Matrix
import Verif.Spec.Multinom
import Verif.Spec.Order
import Verif.Spec.Perturb
import Verif.Spec.Poon
import Verif.Spec.PoonInfer
import Verif.Spec.Print
import Verif.Spec.Rounding
import Verif.Spec.Score
import Verif.Spec.Search
import Verif.Spec.Serial
import Verif.Spec.Shape
import Verif.Spec.Size
import Verif.Spec.Spn
import Verif.Spec.Stats
import Verif.Spec.StepFloat
import Verif.Spec.Storer
import Verif.Spec.Structure
import Verif.Spec.Text
import Verif.Spec.UnionFind
import Verif.Spec.Work
