import Verif.Lemmas.SeededEquivalent
import Verif.Props.LogicTree
import Verif.Props.ProfileGeometry
import Verif.Props.ProfileVelocity
import Verif.Props.ProfileDerive
import Verif.Props.ProfileCopy
import Verif.Props.ProfileVary
import Verif.Props.Layer
import Verif.Props.Waves
import Verif.Props.WavesMore
import Verif.Props.Eql
import Verif.Props.AttenScatter
import Verif.Props.EqlMore
import Verif.Props.EqlStrain
import Verif.Props.Qwl
import Verif.Props.QwlConverge
import Verif.Props.QwlLimits
import Verif.Props.QwlDivision
import Verif.Props.Motion
import Verif.Props.MotionMore
import Verif.Props.Output
import Verif.Props.OutputValues
import Verif.Props.OutputStats
import Verif.Props.OutputFrame
import Verif.Model.StatsFrame
import Verif.Props.StatsFrame
import Verif.Props.VariationLayers
import Verif.Props.VariationSoil
import Verif.Props.ToolsText
import Verif.Props.ToolsProfile
import Verif.Props.ToolsFiles
import Verif.Props.Generic
import Verif.Model.Ncm
import Verif.Props.Ncm
import Verif.Model.PublishedStore
import Verif.Props.PublishedStore
import Verif.Props.ShakeMotion
import Verif.Props.SoilModels
import Verif.Props.Wang
import Verif.Props.WangShape
import Verif.Props.Velocity
import Verif.Props.Kishida
import Verif.Props.Readers
import Verif.Props.CurveObj
import Verif.Props.Rayleigh
import Verif.Props.Realizations
import Verif.Props.DataFrame
import Verif.Props.Fdm
import Verif.Props.FdmMore
import Verif.Props.SoilVary
import Verif.Props.QwlFit
import Verif.Props.QwlFloat
import Verif.Props.ToroGeneric
import Verif.Props.AmpEvolution
import Verif.Props.LayerResults
import Verif.Props.SiteAmplification
import Verif.Props.Fundamental
import Verif.Props.DiscretizeResponse
import Verif.Props.RealizationValues
import Verif.Props.Dissipation
import Verif.Model.SoilTypes
import Verif.Props.SoilTypes
import Verif.Props.SoilReference
import Verif.Model.Collection
import Verif.Props.Collection
import Verif.Props.Similitude
import Verif.Props.SmallStrain
import Verif.Props.FdmWeak
import Verif.Props.FdmSimilitude
import Verif.Model.FdmProfiles
import Verif.Props.FdmProfiles
import Verif.Model.Exclude
import Verif.Props.Exclude
import Verif.Props.Filter
import Verif.Props.WithinMotion
import Verif.Props.ThinLayer
import Verif.Props.RigidRock
import Verif.Props.RockStiffness
import Verif.Props.Echoes
import Verif.Props.TravelTimes
import Verif.Props.FdmCompatible
import Verif.Props.StaticLimit
import Verif.Lemmas.Brouwer
import Verif.Props.Continuity
import Verif.Props.Compatible
import Verif.Props.Cycle
import Verif.Props.Refusals
import Verif.Lemmas.GaussTrunc
import Verif.Model.Distribution
import Verif.Props.Spread
import Verif.Props.Percentiles
import Verif.Lemmas.PoissonProcess
import Verif.Props.Layering
import Verif.Lemmas.Assoc
import Verif.Props.CurveSpread
import Verif.Props.OutputZeros
import Verif.Props.OutputPlot
import Verif.Props.SpectrumLimits
import Verif.Props.TimeDomain
import Verif.Props.ComplexTransfer
import Verif.Props.PeakVelocity
import Verif.Model.Names
import Verif.Model.ProfilePlot
import Verif.Props.Names
import Verif.Props.ProfilePlot
import Verif.Props.Exactly
import Verif.Props.MeanAmplification
import Verif.Props.Deconvolution
import Verif.Model.MotionObject
import Verif.Props.MotionObject
import Verif.Props.Lumps
import Verif.Props.DampingMonotone
import Verif.Props.SofterSites
import Verif.Props.SurfaceEnergy
import Verif.Props.AnyDamping
import Verif.Props.DampedStrain
import Verif.Props.PeakBounds
import Verif.Props.Hashing
import Verif.Props.ShakeErrors
import Verif.Model.Rounding
import Verif.Props.Rounding
import Verif.Model.RoundedLayering
import Verif.Props.RoundedLayering
import Verif.Model.RoundedDiscretize
import Verif.Props.RoundedDiscretize
