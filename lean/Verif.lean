import Verif.Props.Graph
import Verif.Props.Phase
import Verif.Props.Mcf
import Verif.Props.FloodFill
import Verif.Props.Unwrap
import Verif.Props.Cost
import Verif.Props.Emcf
import Verif.Props.EmcfReturns
import Verif.Props.EmcfExamples
import Verif.Props.Tiling
import Verif.Props.TilingDensity
import Verif.Props.TilesFile
import Verif.Props.Settings
import Verif.Props.Io3D
import Verif.Props.SlcStack
import Verif.Props.ReadTile
import Verif.Props.CommonPoints
import Verif.Props.Deciles
import Verif.Props.OverlapMap
import Verif.Props.UnwrapTile
import Verif.Props.BulkOffset
import Verif.Props.BulkL2
import Verif.Props.Laplacian
import Verif.Props.Dirichlet
import Verif.Props.DirichletDense
import Verif.Props.DirichletError
import Verif.Props.TileState
import Verif.Props.MergeBand
import Verif.Lemmas.MergeFacts
import Verif.Props.MergeTiles
import Verif.Props.MergeSeamless
import Verif.Lemmas.TileShape
import Verif.Props.EndToEnd
import Verif.Props.EndToEndExample
import Verif.Props.Workflow
import Verif.Props.Resume
import Verif.Props.Crash
import Verif.Props.Links
import Verif.Props.EndResult
import Verif.Lemmas.Completes
import Verif.Lemmas.Labels
import Verif.Props.Completes
import Verif.Props.CubeItoh
import Verif.Props.TileItoh
import Verif.Props.Recovery
import Verif.Props.RecoveryExample
import Verif.Props.Robust
import Verif.Props.RobustExample
import Verif.Model.Cli
import Verif.Props.Cli
import Verif.Props.CliExample
import Verif.Props.LeastSquares
import Verif.Props.Cheapest
import Verif.Props.Float
import Verif.Props.FloatDouble
import Verif.Model.FloatCube
import Verif.Spec.FloatCube
import Verif.Spec.FloatLarge
import Verif.Lemmas.FloatGrid
import Verif.Lemmas.FloatCube
import Verif.Lemmas.FloatSum
import Verif.Lemmas.FloatResidues
import Verif.Lemmas.FloatLabels
import Verif.Props.FloatCube
import Verif.Props.FloatCubeReturns
import Verif.Props.FloatSingle
import Verif.Props.FloatSingleExample
import Verif.Props.FloatLarge
import Verif.Props.FloatLargeNumpy
import Verif.Props.FloatLargeExample
import Verif.Spec.Cost
import Verif.Props.CostValues
import Verif.Props.MergeCoords
import Verif.Model.FloatMerge
import Verif.Lemmas.FloatTile
import Verif.Lemmas.FloatAdjust
import Verif.Lemmas.FloatMergeTiles
import Verif.Props.Broadcast
import Verif.Spec.FloatMerge
import Verif.Lemmas.FloatDirichlet
import Verif.Lemmas.FloatRounds
import Verif.Lemmas.FloatRaster
import Verif.Lemmas.FloatOverlap
import Verif.Lemmas.FloatStages
import Verif.Lemmas.FloatMap
import Verif.Props.FloatMerge
import Verif.Props.FloatExact
import Verif.Props.FloatCongruent
import Verif.Props.FloatMergeNumpy
import Verif.Model.FloatWorkflow
import Verif.Lemmas.TileRead
import Verif.Props.FloatTileUnwrap
import Verif.Props.FloatSize
import Verif.Props.FloatRecovery
import Verif.Props.FloatLargeRecovery
import Verif.Props.FloatRecoveryExample
import Verif.Props.FloatWorkflowExact
import Verif.Props.GraphPoints
import Verif.Props.FloatWorkflowCongruent
import Verif.Props.FloatCost
import Verif.Props.FloatCostExample
import Verif.Props.FloatCostHop3
import Verif.Props.FloatTiling
import Verif.Props.BulkResiduals
import Verif.Props.FloatBulk
import Verif.Props.BulkExample
import Verif.Props.Georef
import Verif.Props.FloatLinks
import Verif.Props.FloatLinksExample
import Verif.Lemmas.Transport
import Verif.Props.Masked
import Verif.Props.Parallel
import Verif.Props.Reference
import Verif.Props.InvarianceExample
import Verif.Lemmas.Refine
import Verif.Props.Local
import Verif.Props.LocalExample
import Verif.Props.Cropped
import Verif.Props.CroppedExample
import Verif.Props.Stale
import Verif.Props.StaleExample
import Verif.Lemmas.MergeShift
import Verif.Lemmas.MedianShift
import Verif.Lemmas.BulkShift
import Verif.Props.Shift
import Verif.Props.ShiftExample
import Verif.Lemmas.BandAlone
import Verif.Props.BandAlone
import Verif.Props.BandAloneExample
import Verif.Lemmas.Interior
import Verif.Props.Interior
import Verif.Props.InteriorExample
import Verif.Props.Kinds
import Verif.Props.KindsExample
import Verif.Lemmas.FloatAlone
import Verif.Lemmas.FloatAloneBulk
import Verif.Props.FloatAlone
import Verif.Props.FloatAloneExample
import Verif.Lemmas.Sign
import Verif.Lemmas.SignMerge
import Verif.Lemmas.SignBulk
import Verif.Props.Sign
import Verif.Props.SignCost
import Verif.Props.SignExample
import Verif.Lemmas.FloatSign
import Verif.Lemmas.FloatSignMerge
import Verif.Lemmas.FloatSignBulk
import Verif.Props.FloatSign
import Verif.Props.FloatSignNumpy
import Verif.Model.Percentile16
import Verif.Props.Percentile16
import Verif.Props.PercentileDouble
import Verif.Props.CheapestIfg
import Verif.Model.Complex
import Verif.Spec.Complex
import Verif.Lemmas.Complex
import Verif.Props.Complex
import Verif.Props.ComplexExample
import Verif.Props.ComplexNumpy
import Verif.Props.ComplexNumpyExample
import Verif.Spec.Closure
import Verif.Props.Closure
import Verif.Props.ReferencePixel
import Verif.Props.ClosureExample
import Verif.Props.ReferencePixelNumpy
import Verif.Props.ReferencePixelNumpyExample
import Verif.Props.Stability
import Verif.Props.StabilityRuns
import Verif.Props.StabilityExample
import Verif.Props.AliasBound
import Verif.Props.AliasTile
import Verif.Props.AliasRun
import Verif.Props.AliasExample
import Verif.Props.AliasValues
import Verif.Props.SettingsFree
import Verif.Props.SettingsFreeExample
import Verif.Props.SettingsFreeNumpy
